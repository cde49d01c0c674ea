import Verif.Model.StringsAstype
import Verif.Spec.StringsAstype
import Verif.Lemmas.Like
import Verif.Lemmas.ToNumpy
import Verif.Lemmas.Pad
/-
Lemmas about `strings_astype`.
-/

namespace Awk
open R

theorem maxLength_some {vs : List Val} (h : vs ≠ []) : ∃ m, maxLength vs = some m := by
  cases vs with
  | nil => exact absurd rfl h
  | cons v vs => exact ⟨_, rfl⟩

theorem maxLength_le {vs : List Val} {m : Nat} (h : maxLength vs = some m) :
    ∀ v ∈ vs, v.items.length ≤ m := by
  induction vs generalizing m with
  | nil => simp
  | cons v vs ih =>
    simp only [maxLength, Option.some.injEq] at h
    intro w hw
    rcases List.mem_cons.mp hw with rfl | hw
    · omega
    · obtain ⟨k, hk⟩ := maxLength_some (List.ne_nil_of_mem hw)
      have := ih hk w hw
      rw [hk] at h
      simp only [Option.getD_some] at h
      omega

/-- Zeros at the end are not seen. -/
theorem npStrip_zeros (codes : List Val) (n : Nat) :
    npStrip (codes ++ List.replicate n (.atom (.int 0))) = npStrip codes := by
  unfold npStrip
  congr 1
  rw [List.reverse_append, List.reverse_replicate]
  induction n with
  | zero => simp
  | succ n ih => rw [List.replicate_succ, List.cons_append, List.dropWhile_cons]; simpa using ih

theorem mapR_parses {parse : List Val → R Atom} {number : List Val → Atom} {xs : List (List Val)}
    (h : ∀ x ∈ xs, parse x = ok (number x)) : mapR parse xs = ok (xs.map number) := by
  induction xs with
  | nil => rfl
  | cons x xs ih => simp [mapR, h x (.head _), ih (fun y hy => h y (.tail _ hy))]

namespace Content

theorem gathered_bytes {p : Params} {dt : DType} {data : List Atom} {c : Content}
    (h : Gathered c (numpy p dt data)) : ∃ data', c = numpy p dt data' := by
  rcases h with rfl | ⟨lazy, idx, _, h⟩
  · exact ⟨_, rfl⟩
  · simp only [carry] at h
    split at h
    · split at h
      · cases h; exact ⟨_, rfl⟩
      · simp only [range, numpyRange] at h
        obtain ⟨d, _, h⟩ := bind_eq_ok.mp h
        cases h; exact ⟨_, rfl⟩
    · obtain ⟨d, _, h⟩ := bind_eq_ok.mp h
      cases h; exact ⟨_, rfl⟩

theorem simplify_bytes {p : Params} {dt : DType} {data : List Atom} {index : List Int} {c : Content}
    (h : indexedSimplify true {} index (numpy p dt data) = ok c) :
    c = indexedOption {} index (numpy p dt data) := by
  simp only [indexedSimplify, innerIndex, bind_ok, if_true, ok.injEq] at h
  exact h.symm

/-- `rpad_and_clip` of the strings. -/
theorem padNone_text {c : Content} (hg : c.Good) (hl : c.isListNode = true) (hp : c.params = {})
    (hd : ∀ d ∈ c.children, ∃ dt data, d = numpy {} dt data) (m : Nat) :
    ∃ r dt data index n, c.padNone m 1 true = ok r ∧ MapsG True c r (Val.mapAxis true (Val.pad m true) 1) ∧
      r = regular {} (indexedOption {} index (numpy {} dt data)) m n := by
  cases c <;> simp only [isListNode, Bool.false_eq_true] at hl
  case regular p d size zeros =>
    obtain ⟨dt, data, rfl⟩ := hd d (by simp [children])
    simp only [Content.params] at hp
    subst hp
    obtain ⟨r, h1, h2⟩ := regularRpadAndClip_maps (t := m) hg
    have h3 := h1
    simp only [regularRpadAndClip] at h3
    obtain ⟨index, _, h3⟩ := bind_eq_ok.mp h3
    obtain ⟨next, h4, h3⟩ := bind_eq_ok.mp h3
    cases h3
    exact ⟨_, dt, data, index, _, by simp [padNone, rank, rpadF, h1], h2, by rw [simplify_bytes h4]⟩
  case listArray p starts stops d =>
    obtain ⟨dt, data, rfl⟩ := hd d (by simp [children])
    simp only [Content.params] at hp
    subst hp
    obtain ⟨offs, c', g1, g2, _⟩ := listParts_ok hg rfl
    obtain ⟨e, he, hga⟩ := g2.src
    simp only [children, List.mem_singleton] at he
    subst he
    obtain ⟨data', rfl⟩ := gathered_bytes hga
    have hg' : (listOffset {} offs (numpy {} dt data')).Good := by
      rw [g2.offs_eq]; exact good_offsTo g2.good g2.bound
    obtain ⟨r, h1, h2⟩ := listOffsetRpadAndClip_maps (t := m) hg'
    have h3 := h1
    simp only [listOffsetRpadAndClip] at h3
    obtain ⟨index, _, h3⟩ := bind_eq_ok.mp h3
    obtain ⟨next, h4, h3⟩ := bind_eq_ok.mp h3
    cases h3
    refine ⟨_, dt, data', index, _, by simp [padNone, rank, rpadF, g1, h1], h2.of_eq ?_ ?_, by
      rw [simplify_bytes h4]⟩
    · rw [g2.offs_eq]; simp [len]
    · intro i hi
      rw [g2.vals i hi, g2.offs_eq, valD_offsTo g2.good g2.bound hi]; rfl
  case listOffset p offsets d =>
    obtain ⟨dt, data, rfl⟩ := hd d (by simp [children])
    simp only [Content.params] at hp
    subst hp
    obtain ⟨r, h1, h2⟩ := listOffsetRpadAndClip_maps (t := m) hg
    have h3 := h1
    simp only [listOffsetRpadAndClip] at h3
    obtain ⟨index, _, h3⟩ := bind_eq_ok.mp h3
    obtain ⟨next, h4, h3⟩ := bind_eq_ok.mp h3
    cases h3
    exact ⟨_, dt, data, index, _, by simp [padNone, rank, rpadF, h1], h2, by rw [simplify_bytes h4]⟩

/-- The bytes of a string are numbers. -/
theorem text_atoms {c : Content} (hg : c.Good) (hl : c.isListNode = true)
    (hd : ∀ d ∈ c.children, ∃ p dt data, d = numpy p dt data) {i : Nat} (hi : i < c.len) :
    ∃ xs : List Atom, c.valD i = wrapList c.params (xs.map Val.atom) := by
  obtain ⟨offs, c', g1, g2, _⟩ := listParts_ok hg hl
  obtain ⟨e, he, hga⟩ := g2.src
  obtain ⟨p, dt, data, rfl⟩ := hd e he
  obtain ⟨data', rfl⟩ := gathered_bytes hga
  have hb := g2.bound
  have hm := sumTo_mono (f := c.lens) (show i + 1 ≤ c.len by omega)
  rw [sumTo_succ] at hm
  simp only [len] at hb
  refine ⟨(data'.drop (sumTo c.lens i)).take (c.lens i), ?_⟩
  rw [g2.vals i hi]
  congr 1
  apply List.ext_getElem
  · simp; omega
  · intro k h1 h2
    rw [seg_length] at h1
    rw [seg_getElem, valD_numpy (by omega)]
    simp

theorem withoutParameters_list {c : Content} (hl : c.isListNode = true)
    (hd : ∀ d ∈ c.children, ∃ p dt data, d = numpy p dt data) :
    c.withoutParameters.isListNode = true ∧ c.withoutParameters.params = {} ∧
      ∀ d ∈ c.withoutParameters.children, ∃ dt data, d = numpy {} dt data := by
  cases c <;> simp only [isListNode, Bool.false_eq_true] at hl
  all_goals
    obtain ⟨p, dt, data, rfl⟩ := hd _ (by simp [children]; rfl)
    refine ⟨rfl, rfl, ?_⟩
    intro d hd'
    simp only [withoutParameters, children, List.mem_singleton] at hd'
    exact ⟨dt, data, hd'⟩

theorem unnamed_atoms (xs : List Atom) : Val.unnamedList (xs.map Val.atom) = xs.map Val.atom := by
  rw [Val.unnamedList_eq, List.map_map]
  rfl

theorem items_wrapList (p : Params) (vs : List Val) : (wrapList p vs).items = vs := by
  unfold wrapList
  cases p.arr <;> rfl

theorem npStrip_trimmed (codes : List Val) : npStrip codes = Val.trimmed codes := rfl

theorem strippedList_atoms (m : Nat) (ys : List Val) (hy : ∃ xs : List Atom, ys = xs.map Val.atom) :
    (Val.strippedList (Val.padList m true ys)).map npZero
      = ys.take m ++ List.replicate (m - ys.length) (.atom (.int 0)) := by
  obtain ⟨xs, rfl⟩ := hy
  have h : ∀ vs, Val.strippedList vs = vs.map Val.stripped := by
    intro vs
    induction vs with
    | nil => rfl
    | cons v vs ih => simp [Val.strippedList, ih]
  rw [h, List.map_map, Val.padList, if_pos rfl, List.map_append, List.map_replicate, ← List.map_take, List.map_map]
  rfl

/-- `getfunction` at an array of strings. -/
theorem stringsAstype_view {parse : List Val → R Atom} {dt : DType} {c : Content}
    (hg : c.Good) (ht : c.isText) (hd : ∀ d ∈ c.children, ∃ p dt data, d = numpy p dt data)
    {i0 m : Nat} (hi0 : i0 < c.len)
    (hm : maxLength ((List.range c.len).map c.withoutParameters.valD) = some m) (hm0 : m ≠ 0) (depth : Nat) :
    stringsAstypeGet parse dt depth () c
      = (mapR parse ((List.range c.len).map (fun i => Val.trimmed (c.valD i).items)) >>= fun npnumbers =>
        ok (.inl (numpy {} dt npnumbers))) := by
  obtain ⟨hl, hs⟩ := ht
  have hb := withoutParameters_maps hg
  obtain ⟨b1, b2, b3⟩ := withoutParameters_list hl hd
  have hlen : c.withoutParameters.len = c.len := withoutParameters_len c
  have hex : ∀ i, i < c.len → ∃ xs : List Atom, c.valD i = wrapList c.params (xs.map Val.atom) :=
    fun i hi => text_atoms hg hl hd hi
  have hbv : ∀ i, i < c.len → c.withoutParameters.valD i = .list (c.valD i).items := by
    intro i hi
    obtain ⟨xs, hx⟩ := hex i hi
    rw [hb.val i hi, hx, items_wrapList, unnamed_wrapList, List.map_map]
    rfl
  have hmem : ∀ i, i < c.len → c.valD i ∈ (List.range c.len).map c.valD := fun i hi =>
    List.mem_map_of_mem (by simpa using hi)
  have hbl : c.withoutParameters.toList = ok ((List.range c.len).map c.withoutParameters.valD) := by
    rw [hb.good.toList, hlen]
  have hle : ∀ i, i < c.len → (c.valD i).items.length ≤ m := by
    intro i hi
    have := maxLength_le hm (c.withoutParameters.valD i) (List.mem_map_of_mem (by simpa using hi))
    rw [hbv i hi] at this
    exact this
  obtain ⟨r, dt', data, index, n, r1, r2, hr⟩ := padNone_text hb.good b1 b2 b3 m
  obtain ⟨d, hdd⟩ : ∃ d, d = indexedOption {} index (numpy {} dt' data) := ⟨_, rfl⟩
  rw [← hdd] at hr
  subst hr
  have hopt : d.isOption = true := by rw [hdd]; rfl
  have hrl : (regular {} d m n).len = c.len := by rw [r2.exact trivial, hlen]
  have hdg : d.Good := good_regular.mp r2.good
  have hnl : NumpyLike false d := .option hopt ⟨by simp [hdd, Content.params], by simp [hdd, Content.params]⟩ (by
    intro e he
    simp only [hdd, children, List.mem_singleton] at he
    subst he
    exact .numpy ⟨by simp [Content.params], by simp [Content.params]⟩)
  have hnf : AllNodes NotFixed d := .mk (by simp [NotFixed, hdd]) (by
    intro e he
    simp only [hdd, children, List.mem_singleton] at he
    subst he
    exact .mk (by simp [NotFixed]) (by simp [children]))
  have hdims : ∀ i, i < d.len → Val.Dims [] (d.valD i) := by
    intro i hi
    have hpk := val_inner_pick hdg (isOption_imp hopt) hi
    refine .item (fun vs hv => ?_)
    cases hpi : d.pick i with
    | none =>
      rw [hpi] at hpk
      have := hpk.1
      rw [hv] at this
      simp at this
    | some k =>
      rw [hpi] at hpk
      have h1 := hpk.1
      have h2 := hpk.2 k rfl
      rw [hv, hdd] at h1
      rw [hdd] at h2
      simp only [inner, len] at h2
      simp only [inner, valD_numpy h2] at h1
      simp at h1
  obtain ⟨f, hf, hf'⟩ : ∃ f, (regular {} d m n).rank = f + 1 ∧ d.rank ≤ f :=
    ⟨(regular {} d m n).rank - 1, by simp [rank], by simp [rank]⟩
  obtain ⟨a, ha⟩ := NpArray.toNumpyF_accepts (am := true) f hf' hdg hnl hnf hdims (by simp)
  obtain ⟨head, tail, xs, hc⟩ := NpArray.toNumpyF_sound f hf' hdg hnl ha
  obtain rfl := hc.flat rfl
  obtain ⟨a', head', xs', e1, e2⟩ := NpArray.reshape_ok (c := regular {} d m n) (size := m) hc
    (fun hs => by simp only [len]; rw [if_pos hs])
    (fun i hi => by rw [valD_regular hdg hi]; rfl)
  have e3 : (regular {} d m n).toNumpy true = ok a' := by
    rw [toNumpy, hf]
    simp only [toNumpyF, Content.params, reduceCtorEq, or_self, if_false, ha, bind_ok, e1]
  have hrv : ∀ i, i < c.len → (regular {} d m n).valD i = .list (Val.padList m true (c.valD i).items) := by
    intro i hi
    rw [r2.val i (by omega), hbv i hi]
    rfl
  have hkey : head' = c.len ∧ NpArray.rows [m] xs' head' =
      (List.range c.len).map (fun i => ((regular {} d m n).valD i).stripped) := by
    rcases e2.vals with ⟨h1, h2⟩ | ⟨_, _, h3⟩
    · rw [hrl] at h1 h2; exact ⟨h1, h2⟩
    · exfalso
      have := h3 i0 (by omega)
      rw [hrv i0 hi0] at this
      obtain ⟨ys, hy⟩ := hex i0 hi0
      rw [hy, items_wrapList] at this
      have hl0 := padList_length m true (ys.map Val.atom)
      generalize hw : Val.padList m true (ys.map Val.atom) = ws at this hl0
      cases this with
      | here => simp at hl0; omega
      | list hv hin =>
        rw [← hw] at hv
        simp only [Val.padList, if_true, List.mem_append, List.mem_replicate] at hv
        rcases hv with hv | ⟨_, rfl⟩
        · obtain ⟨x, _, rfl⟩ := List.mem_map.mp (List.mem_of_mem_take hv)
          cases hin
        · cases hin
  obtain ⟨rfl, hrows⟩ := hkey
  have hxl : xs'.length = c.len * m := by
    rw [mapR_len e2.cells, List.length_zip, e2.mlen, Nat.min_self, e2.len]
    simp
  have hpart : ∀ i, i < c.len → npStrip (((xs'.map npZero).drop (i * m)).take m) = Val.trimmed (c.valD i).items := by
    intro i hi
    have h1 := congrArg (fun l : List Val => l[i]?) hrows
    simp only [NpArray.rows, List.getElem?_map, List.getElem?_range hi, Option.map_some, Option.some.injEq,
      List.prod_nil, Nat.mul_one, hrv i hi, Val.stripped, Val.list.injEq] at h1
    rw [← List.map_drop, ← List.map_take, h1]
    obtain ⟨ys, hy⟩ := hex i hi
    have h2 := hle i hi
    rw [hy, items_wrapList] at h2 ⊢
    rw [strippedList_atoms _ _ ⟨ys, rfl⟩, List.take_of_length_le h2, npStrip_zeros]
    rfl
  have hview : npView m (xs'.map npZero) = ok ((List.range c.len).map (fun i => Val.trimmed (c.valD i).items)) := by
    unfold npView
    rw [if_neg hm0, List.length_map, hxl, Nat.mul_div_cancel _ (by omega)]
    congr 1
    exact List.map_congr_left (fun i hi => hpart i (by simpa using hi))
  unfold stringsAstypeGet
  rw [if_pos ⟨hl, hs⟩, hbl, bind_ok]
  simp only [hm]
  rw [r1, bind_ok, e3, bind_ok]
  simp only [npZeroed, e2.cells, bind_ok, hview]

theorem text_listed {c : Content} (hg : c.Good) (hl : c.isListNode = true)
    (hd : ∀ d ∈ c.children, ∃ p dt data, d = numpy p dt data) {i : Nat} (hi : i < c.len) :
    c.withoutParameters.valD i = .list (c.valD i).items := by
  obtain ⟨xs, hx⟩ := text_atoms hg hl hd hi
  rw [(withoutParameters_maps hg).val i hi, hx, items_wrapList, unnamed_wrapList, List.map_map]
  rfl

/-- `getfunction` at an array of strings that can be read. -/
theorem stringsAstype_text {parse : List Val → R Atom} {number : List Val → Atom} {dt : DType} {c : Content}
    (hg : c.Good) (ht : c.isText) (hd : ∀ d ∈ c.children, ∃ p dt data, d = numpy p dt data)
    (hp : ∀ vs, c.toList = ok vs → ∀ v ∈ vs, parse (Val.trimmed v.items) = ok (number (Val.trimmed v.items)))
    (hne : ∀ vs, c.toList = ok vs → ∃ v ∈ vs, v.items ≠ []) (depth : Nat) :
    ∃ e, stringsAstypeGet parse dt depth () c = ok (.inl e) ∧ MapsG True c e (Val.parsed number) := by
  obtain ⟨v0, hv0, hv0'⟩ := hne _ hg.toList
  obtain ⟨i0, hi0, rfl⟩ := List.mem_map.mp hv0
  have hi0 : i0 < c.len := by simpa using hi0
  have hmem0 : c.withoutParameters.valD i0 ∈ (List.range c.len).map c.withoutParameters.valD :=
    List.mem_map_of_mem (by simpa using hi0)
  obtain ⟨m, hm⟩ := maxLength_some (List.ne_nil_of_mem hmem0)
  have hm0 : m ≠ 0 := by
    have h1 := maxLength_le hm _ hmem0
    rw [text_listed hg ht.1 hd hi0] at h1
    have h2 := List.length_pos_iff.mpr hv0'
    have h3 : (c.valD i0).items.length ≤ m := h1
    omega
  have hnum := mapR_parses (parse := parse) (number := number)
    (xs := (List.range c.len).map (fun i => Val.trimmed (c.valD i).items)) (by
      intro x hx
      obtain ⟨i, hi, rfl⟩ := List.mem_map.mp hx
      exact hp _ hg.toList _ (List.mem_map_of_mem hi))
  refine ⟨numpy {} dt (((List.range c.len).map (fun i => Val.trimmed (c.valD i).items)).map number), ?_,
    ⟨⟨good_numpy _ _ _, ?_, ?_⟩, ?_⟩⟩
  · rw [stringsAstype_view hg ht hd hi0 hm hm0, hnum, bind_ok]
  · simp [len]
  · intro i hi
    rw [valD_numpy (by simpa using hi)]
    obtain ⟨ys, hy⟩ := text_atoms hg ht.1 hd hi
    simp only [List.getElem_map, List.getElem_range, hy, items_wrapList]
    rcases ht.2 with hs | hs <;> simp only [wrapList, hs, Val.parsed]
  · intro _
    simp [len]

/-- A string that cannot be read. -/
theorem stringsAstype_unreadable {parse : List Val → R Atom} {dt : DType} {c : Content}
    (hg : c.Good) (ht : c.isText) (hd : ∀ d ∈ c.children, ∃ p dt data, d = numpy p dt data) {i0 : Nat}
    (hi0 : i0 < c.len) {e : String} (he : parse (Val.trimmed (c.valD i0).items) = err e) (depth : Nat)
    (r : Content ⊕ Unit) : stringsAstypeGet parse dt depth () c ≠ ok r := by
  have hmem0 : c.withoutParameters.valD i0 ∈ (List.range c.len).map c.withoutParameters.valD :=
    List.mem_map_of_mem (by simpa using hi0)
  obtain ⟨m, hm⟩ := maxLength_some (List.ne_nil_of_mem hmem0)
  intro h
  by_cases hm0 : m = 0
  · subst hm0
    unfold stringsAstypeGet at h
    rw [if_pos ⟨ht.1, ht.2⟩, (withoutParameters_maps hg).good.toList, withoutParameters_len, bind_ok] at h
    simp only [hm] at h
    obtain ⟨_, _, h⟩ := bind_eq_ok.mp h
    obtain ⟨_, _, h⟩ := bind_eq_ok.mp h
    obtain ⟨_, _, h⟩ := bind_eq_ok.mp h
    obtain ⟨_, h1, h⟩ := bind_eq_ok.mp h
    exact nomatch (show R.err _ = R.ok _ from h1)
  · rw [stringsAstype_view hg ht hd hi0 hm hm0] at h
    obtain ⟨xs, h1, _⟩ := bind_eq_ok.mp h
    have h2 := mapR_forall₂.mp h1
    obtain ⟨j, hj⟩ := List.mem_iff_getElem.mp (List.mem_map_of_mem (f := fun i => Val.trimmed (c.valD i).items)
      (show i0 ∈ List.range c.len by simpa using hi0))
    obtain ⟨hj, hj'⟩ := hj
    have h3 := List.forall₂_iff_get.mp h2
    have h4 := h3.2 j hj (by rw [← h3.1]; exact hj)
    simp only [List.get_eq_getElem, hj'] at h4
    rw [he] at h4
    exact nomatch (show R.err _ = R.ok _ from h4)

theorem parsedList_eq (number : List Val → Atom) (vs : List Val) :
    Val.parsedList number vs = vs.map (Val.parsed number) := by
  induction vs with
  | nil => rfl
  | cons v vs ih => simp [Val.parsedList, ih]

theorem parsedFields_zip (number : List Val → Atom) (ks : List String) (vs : List Val) :
    Val.parsedFields number (ks.zip vs) = ks.zip (vs.map (Val.parsed number)) := by
  induction ks generalizing vs with
  | nil => rfl
  | cons k ks ih => cases vs <;> simp [Val.parsedFields, ih]

theorem parsed_mkRecord (number : List Val → Atom) (keys : Option (List String)) (vs : List Val) :
    (mkRecord keys vs).parsed number = mkRecord keys (vs.map (Val.parsed number)) := by
  cases keys <;> simp [mkRecord, Val.parsed, parsedList_eq, parsedFields_zip]

theorem parsed_wrapList (number : List Val → Atom) {p : Params} (h : ¬ (p.arr = .string ∨ p.arr = .bytestring))
    (vs : List Val) : (wrapList p vs).parsed number = wrapList p (vs.map (Val.parsed number)) := by
  unfold wrapList
  revert h
  cases p.arr <;> simp [Val.parsed, parsedList_eq]

/-- `strings_astype` stops at strings. -/
theorem stringsAstype_applies {parse : List Val → R Atom} {number : List Val → Atom} {dt : DType} {c : Content}
    (hg : c.Good) (h : Parsable parse number c) (d : Nat) :
    Applies (stringsAstypeGet parse dt) (fun _ => Val.parsed number) d () c := by
  induction h generalizing d with
  | text h hd hp hne =>
    obtain ⟨e, h1, h2⟩ := stringsAstype_text (dt := dt) hg h hd hp hne d
    exact .stop h1 h2
  | @node c h _ ih =>
    have h : ¬ (c.isListNode = true ∧ (c.params.arr = .string ∨ c.params.arr = .bytestring)) := h
    refine .pass (u' := ()) (by rw [stringsAstypeGet, if_neg h]) ?_ (fun e he => ih e he (hg.child he) _)
    cases c <;> simp only [Passes]
    case record => exact ⟨parsed_mkRecord number, trivial⟩
    case regular | listArray | listOffset =>
      exact parsed_wrapList number (fun hp => h ⟨rfl, hp⟩)
    all_goals simp [Val.parsed]

end Content
end Awk
