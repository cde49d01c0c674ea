import Verif.Model.ToNumpy
import Verif.Spec.ToNumpy
import Verif.Lemmas.Closed
import Verif.Lemmas.Regular
import Verif.Lemmas.Apply
import Verif.Lemmas.ReduceLocal
import Verif.Lemmas.MergeShape
/-
Lemmas about `to_numpy`.
-/

namespace Awk
open R

namespace Content

/-- What is known about the content of a list array that has been made regular. -/
structure Inner (c d : Content) (size : Nat) : Prop where
  good : d.Good
  rank : d.rank + 1 ≤ c.rank
  exact : d.len = c.len * size
  vals : ∀ i, i < c.len → c.valD i = wrapList c.params (d.seg (i * size) size)
  closed : ∀ {ι : Type} (P : ι → Content → Prop), ClosedG False P → ∀ a, (∀ e ∈ c.children, P a e) → P a d

theorem listOffsetToRegular_inner {p : Params} {offsets : List Int} {c r : Content}
    (h : (listOffset p offsets c).Good) (hr : OffsetsInRange (listOffset p offsets c))
    (hok : listOffsetToRegular p offsets c = ok r) :
    ∃ d size zeros, r = regular p d size zeros ∧ Inner (listOffset p offsets c) d size ∧ d.rank ≤ c.rank := by
  obtain ⟨k1, k2⟩ := listOffsetToRegular_ok h hr
  have hall : ∀ i, i < (listOffset p offsets c).len →
      (listOffset p offsets c).lens i = (listOffset p offsets c).lens 0 := by
    intro i hi
    by_contra hne
    obtain ⟨e, he⟩ := k2 ⟨i, hi, hne⟩
    rw [he] at hok
    nomatch hok
  obtain ⟨c', e1, e2, e3, e4, d, size, zeros, rfl⟩ := k1 hall
  rw [hok, ok.injEq] at e1
  subst e1
  refine ⟨d, size, zeros, rfl, ?_⟩
  have hdg := good_regular.mp e2
  have hvals : ∀ i, i < (listOffset p offsets c).len →
      (listOffset p offsets c).valD i = wrapList p (d.seg (i * size) size) := by
    intro i hi
    rw [← e4 i (by omega), valD_regular hdg (by omega)]
  obtain ⟨hw, hp⟩ := good_listOffset.mp h
  obtain ⟨hc, hp⟩ := hp
  obtain ⟨n, hn⟩ : ∃ n, offsets.length = n + 1 := ⟨offsets.length - 1, by omega⟩
  have hclen : (listOffset p offsets c).len = n := by simp only [len]; omega
  have hoff : ∀ i (hi : i < offsets.length), offsets[i] = offsets[0] + ((i * size : Nat) : Int) := by
    intro i
    induction i with
    | zero => intro hi; simp
    | succ i ih =>
      intro hi
      have h1 := ih (by omega)
      have h2 : (offsets[i + 1] - offsets[i]).toNat = size := by
        have := hvals i (by omega)
        rw [valD_listOffset h (by omega)] at this
        have := congrArg (fun v => v.items.length) this
        simpa using this
      have := (hp i hi).le
      rw [Nat.succ_mul]
      push_cast
      omega
  have hlast := hoff n (by omega)
  have h0r := hr offsets[0] (List.getElem_mem _)
  have hnr := hr (offsets[n]'(by omega)) (List.getElem_mem _)
  obtain ⟨d', g1, g2, g3, g4, g5⟩ := range_good hc (a := offsets[0].toNat)
    (b := (offsets[n]'(by omega)).toNat) (by omega) (by omega)
  have hcl := fun {ι : Type} (P : ι → Content → Prop) (hP : ClosedG False P) =>
    range_closedG hP hc (a := offsets[0].toNat) (b := (offsets[n]'(by omega)).toNat) (by simp) (by omega)
      (by omega) g1
  rw [show ((offsets[0].toNat : Nat) : Int) = offsets[0] by omega,
    show (((offsets[n]'(by omega)).toNat : Nat) : Int) = offsets[n]'(by omega) by omega] at g1
  have hd : d' = d := by
    unfold listOffsetToRegular at hok
    rw [rd_ok (by omega) (by omega), bind_ok, rd_nat_ok (by omega), bind_ok] at hok
    simp only [show offsets.length - 1 = n by omega, Int.toNat_zero] at hok
    rw [g1, bind_ok] at hok
    obtain ⟨s, _, hok⟩ := bind_eq_ok.mp hok
    simp only [ok.injEq, regular.injEq] at hok
    exact hok.2.1
  subst hd
  refine ⟨⟨g2, by simp only [rank]; omega, ?_, hvals, ?_⟩, g3⟩
  · rw [g4.1, hclen]; omega
  · intro ι P hP a ha
    exact hcl P hP a (ha c (by simp [children]))

theorem toRegular_inner {c r : Content} (h : c.Good) (hl : c.isListNode = true)
    (hnr : ∀ p d s z, c ≠ regular p d s z)
    (hr : OffsetsInRange c) (hok : c.toRegular = ok r) :
    ∃ d size zeros, r = regular c.params d size zeros ∧ Inner c d size := by
  cases c <;> simp only [isListNode, Bool.false_eq_true] at hl
  case regular => exact absurd rfl (hnr _ _ _ _)
  case listOffset p offsets c =>
    obtain ⟨d, size, zeros, h1, h2, _⟩ := listOffsetToRegular_inner h hr hok
    exact ⟨d, size, zeros, h1, h2⟩
  case listArray p starts stops c =>
    obtain ⟨offs, d, h1, h2, h3⟩ := listParts_ok h rfl
    have hg : (listOffset p offs d).Good := by
      rw [h2.offs_eq]; exact good_offsTo h2.good h2.bound
    have hlen : (listOffset p offs d).len = (listArray p starts stops c).len := by
      rw [h2.offs_eq]; simp [len]
    have hv : ∀ i, i < (listArray p starts stops c).len →
        (listOffset p offs d).valD i = (listArray p starts stops c).valD i := by
      intro i hi
      rw [h2.vals i hi, h2.offs_eq, valD_offsTo h2.good h2.bound hi]; rfl
    have hir : OffsetsInRange (listOffset p offs d) := by
      intro o ho
      rw [h2.offs_eq] at ho
      obtain ⟨i, hi, rfl⟩ := List.mem_iff_getElem.mp ho
      rw [offsTo_getElem]
      have := h2.bound
      have := sumTo_mono (f := (listArray p starts stops c).lens)
        (show i ≤ (listArray p starts stops c).len by simp at hi; omega)
      omega
    simp only [toRegular] at hok
    rw [h1, bind_ok] at hok
    obtain ⟨e, size, zeros, rfl, hi, hrk⟩ := listOffsetToRegular_inner hg hir hok
    refine ⟨e, size, zeros, rfl, hi.good, ?_, by rw [hi.exact, hlen], ?_, ?_⟩
    · omega
    · intro i hi'
      rw [← hv i hi', hi.vals i (by omega)]; rfl
    · intro ι P hP a ha
      obtain ⟨e0, he0, hga⟩ := h2.src
      refine hi.closed P hP a ?_
      have he0' : e0 = c := by simpa [children] using he0
      subst he0'
      simpa [children] using hga.closed hP (h.child (by simp [children])) a (ha _ (by simp [children]))

theorem NumpyLike.closed : ClosedG False NumpyLike where
  lazy := by
    intro a idx c hc h
    exfalso
    cases c <;> simp [cls] at hc
    cases h with
    | text h => simp [isTextNode, isListNode] at h
    | list h => simp [isListNode] at h
    | option h => simp [isOption] at h
  node := by
    intro c' c hc hlo hd a h
    have htext : notText c → notText c' := by
      intro h
      simpa [notText, hlo.params] using h
    have hlist : c.isListNode = true → c'.isListNode = true := by
      intro hl
      cases c <;> simp only [isListNode, Bool.false_eq_true] at hl <;> cases c' <;>
        first | rfl | (simp [cls] at hc)
    cases h with
    | numpy h => cases c' <;> simp [cls] at hc; exact .numpy (htext h)
    | empty h => cases c' <;> simp [cls] at hc; exact .empty (htext h)
    | text h =>
      refine .text ?_
      simp only [isTextNode, Bool.and_eq_true, hlo.params] at h ⊢
      exact ⟨hlist h.1, h.2⟩
    | list hl hp ho hch =>
      refine .list (hlist hl) (htext hp) ?_ (fun d' hd' => ?_)
      · rintro p offs d rfl o hm
        obtain ⟨p', offs', rfl, _, hsub⟩ := hlo.first _ _ _ rfl
        exact ho _ _ _ rfl o (hsub o hm)
      · obtain ⟨d, hd1, hd2⟩ := hd d' hd'
        exact hd2 _ (hch d hd1)
    | indexed hp h =>
      cases c' <;> simp [cls] at hc
      simp only [children, List.mem_singleton, forall_eq, exists_eq_left] at hd
      exact .indexed (htext hp) (hd _ h)
    | option ho hp hch =>
      refine .option ?_ (htext hp) (fun d' hd' => ?_)
      · cases c <;> simp only [isOption, Bool.false_eq_true] at ho <;> cases c' <;>
          first | rfl | (simp [cls] at hc)
      · obtain ⟨d, hd1, hd2⟩ := hd d' hd'
        exact hd2 _ (hch d hd1)

end Content

/-! ### NumPy arrays -/

namespace NpArray

theorem rows_length {ds : List Nat} {xs : List Val} {n : Nat} (h : xs.length = n * ds.prod) :
    (rows ds xs n).length = n := by
  cases ds with
  | nil => simpa [rows] using h
  | cons s ds => simp [rows]

/-- Some rows of an array. -/
theorem rows_seg {ds : List Nat} {xs : List Val} {n k m : Nat} (h : xs.length = n * ds.prod)
    (hk : k + m ≤ n) :
    rows ds ((xs.drop (k * ds.prod)).take (m * ds.prod)) m = ((rows ds xs n).drop k).take m := by
  cases ds with
  | nil => simp [rows]
  | cons s ds =>
    simp only [rows, List.prod_cons]
    apply List.ext_getElem
    · simp; omega
    · intro i h1 h2
      simp only [List.length_map, List.length_range] at h1
      simp only [List.getElem_map, List.getElem_range, List.getElem_take, List.getElem_drop]
      congr 2
      rw [List.drop_take, List.take_take, List.drop_drop]
      congr 1
      · rw [Nat.min_eq_left]
        have : (i + 1) * (s * ds.prod) ≤ m * (s * ds.prod) := Nat.mul_le_mul_right _ h1
        rw [Nat.succ_mul] at this
        omega
      · rw [Nat.add_mul]

theorem _root_.Awk.mapR_take {α β : Type} {f : α → R β} {l : List α} {xs : List β} (h : mapR f l = ok xs) (k : Nat) :
    mapR f (l.take k) = ok (xs.take k) := by
  induction l generalizing xs k with
  | nil => simp only [mapR, ok.injEq] at h; subst h; simp [mapR]
  | cons a l ih =>
    simp only [mapR, bind_eq_ok, ok.injEq] at h
    obtain ⟨b, h1, bs, h2, rfl⟩ := h
    cases k with
    | zero => simp [mapR]
    | succ k => simp [mapR, h1, ih h2]

theorem _root_.Awk.mapR_len {α β : Type} {f : α → R β} {l : List α} {xs : List β} (h : mapR f l = ok xs) :
    xs.length = l.length := by
  induction l generalizing xs with
  | nil => simp only [mapR, ok.injEq] at h; subst h; rfl
  | cons a l ih =>
    simp only [mapR, bind_eq_ok, ok.injEq] at h
    obtain ⟨b, h1, bs, h2, rfl⟩ := h
    simp [ih h2]

theorem strippedList_eq (vs : List Val) : Val.strippedList vs = vs.map Val.stripped := by
  induction vs with
  | nil => rfl
  | cons v vs ih => simp [Val.strippedList, ih]

/-- What is known about the array that `to_numpy` makes from `c`. -/
structure Converted (am b : Bool) (c : Content) (a : NpArray) (head : Nat) (tail : List Nat) (xs : List Val) :
    Prop where
  shape : a.shape = head :: tail
  len : a.data.length = head * tail.prod
  mlen : a.maskArray.length = a.data.length
  cells : mapR cell (a.data.zip a.maskArray) = ok xs
  plain : am = false → a.mask = none ∧ ∀ i, i < c.len → ¬ Val.Inside .null (c.valD i)
  flat : b = false → tail = []
  vals : (head = c.len ∧ rows tail xs head = (List.range c.len).map (fun i => (c.valD i).stripped)) ∨
    (tail ≠ [] ∧ head = 0 ∧ ∀ i, i < c.len → Val.Inside (.list []) (c.valD i))

theorem Converted.congr {am b : Bool} {c d : Content} {a : NpArray} {head : Nat} {tail : List Nat}
    {xs : List Val} (h : Converted am b d a head tail xs) (hl : d.len = c.len)
    (hv : ∀ i, i < c.len → d.valD i = c.valD i) : Converted am b c a head tail xs := by
  refine { h with plain := fun ha => ⟨(h.plain ha).1, fun i hi => ?_⟩, vals := ?_ }
  · rw [← hv i hi]; exact (h.plain ha).2 i (by omega)
  · rcases h.vals with ⟨h1, h2⟩ | ⟨h1, h2, h3⟩
    · refine .inl ⟨by omega, ?_⟩
      rw [h2, hl]
      exact List.map_congr_left (fun i hi => by rw [hv i (by simpa using hi)])
    · exact .inr ⟨h1, h2, fun i hi => by rw [← hv i hi]; exact h3 i (by omega)⟩

theorem not_inside_list {vs : List Val} (h : ∀ v ∈ vs, ¬ Val.Inside .null v) :
    ¬ Val.Inside .null (.list vs) := by
  intro hi
  cases hi with
  | list hv hi => exact h _ hv hi

/-- Reshaping the array of the content to fixed-size lists. -/
theorem reshape_ok {am b : Bool} {c d : Content} {a : NpArray} {head : Nat} {tail : List Nat}
    {xs : List Val} (h : Converted am b d a head tail xs) {size : Nat} (hl : size ≠ 0 → c.len = d.len / size)
    (hv : ∀ i, i < c.len → c.valD i = .list (d.seg (i * size) size)) :
    ∃ a' head' xs', npReshape size a = ok a' ∧ Converted am true c a' head' (size :: tail) xs' := by
  set n := if size = 0 then 0 else head / size with hn
  set k := n * size * tail.prod with hk
  have hle : n * size ≤ head := by
    rw [hn]
    split
    · omega
    · exact Nat.div_mul_le_self _ _
  have hkl : k ≤ a.data.length := by rw [h.len]; exact Nat.mul_le_mul_right _ hle
  have hm : (NpArray.mk (n :: size :: tail) (a.data.take k) (a.mask.map (fun m => m.take k))).maskArray
      = a.maskArray.take k := by
    simp only [maskArray]
    cases a.mask with
    | none => simp
    | some m => simp
  refine ⟨_, n, xs.take k, by unfold npReshape; rw [h.shape], ⟨rfl, ?_, ?_, ?_, ?_, by simp, ?_⟩⟩
  · simp only [List.length_take, List.prod_cons]
    rw [Nat.min_eq_left hkl]
    exact Nat.mul_assoc _ _ _
  · rw [hm]
    simp only [List.length_take, h.mlen]
    rw [← hk]
  · rw [hm]
    have := mapR_take h.cells k
    rwa [List.zip_eq_zipWith, List.take_zipWith] at this
  · intro ha
    obtain ⟨h1, h2⟩ := h.plain ha
    refine ⟨by simp [h1], fun i hi => ?_⟩
    rw [hv i hi]
    apply not_inside_list
    intro v hv'
    obtain ⟨j, hj, rfl⟩ := List.getElem_of_mem hv'
    rw [Content.seg_length] at hj
    rw [Content.seg_getElem]
    apply h2
    have hc := hl (by omega)
    have h3 : (i + 1) * size ≤ d.len / size * size := Nat.mul_le_mul_right _ (by omega)
    have := Nat.div_mul_le_self d.len size
    rw [Nat.succ_mul] at h3
    omega
  · have hxl : xs.length = head * tail.prod := by
      rw [mapR_len h.cells, List.length_zip, h.mlen, Nat.min_self, h.len]
    by_cases hs : size = 0
    · right
      refine ⟨by simp, by simp [hn, hs], fun i hi => ?_⟩
      rw [hv i hi, hs]
      exact .here
    · rcases h.vals with ⟨h1, h2⟩ | ⟨h1, h2, h3⟩
      · left
        have hnl : n = c.len := by rw [hn, if_neg hs, hl hs, h1]
        refine ⟨hnl, ?_⟩
        simp only [rows]
        rw [hnl]
        apply List.map_congr_left
        intro i hi
        have hi' : i < c.len := by simpa using hi
        rw [hv i hi', Val.stripped, strippedList_eq]
        congr 1
        have h4 : (i + 1) * size ≤ n * size := Nat.mul_le_mul_right _ (by omega)
        rw [Nat.succ_mul] at h4
        have h5 := rows_seg (ds := tail) (xs := xs) (n := head) (k := i * size) (m := size) hxl (by omega)
        have h6 : ((xs.take k).drop (i * (size * tail.prod))).take (size * tail.prod)
            = (xs.drop (i * size * tail.prod)).take (size * tail.prod) := by
          rw [List.drop_take, List.take_take, Nat.mul_assoc]
          congr 1
          rw [Nat.min_eq_left]
          have : (i * size + size) * tail.prod ≤ k := Nat.mul_le_mul_right _ h4
          rw [Nat.add_mul] at this
          rw [← Nat.mul_assoc]
          omega
        rw [h6, h5, h2]
        apply List.ext_getElem
        · simp; omega
        · intro j h7 h8
          simp [Content.seg]
      · right
        refine ⟨by simp, by simp [hn, h2], fun i hi => ?_⟩
        rw [hv i hi]
        have hd : i * size < d.len := by
          have hc := hl hs
          have h3 : (i + 1) * size ≤ d.len / size * size := Nat.mul_le_mul_right _ (by omega)
          have := Nat.div_mul_le_self d.len size
          rw [Nat.succ_mul] at h3
          omega
        refine .list (v := d.valD (i * size)) ?_ (h3 _ hd)
        refine List.mem_iff_getElem.mpr ⟨0, by simp; omega, by simp [Content.seg]⟩

/-! ### Options -/

theorem npScatter_length {α : Type} {x0 : α} {m : List Bool} {xs : List α}
    (h : (m.filter (fun b => !b)).length ≤ xs.length) : (npScatter 1 x0 m xs).length = m.length := by
  induction m generalizing xs with
  | nil => rfl
  | cons b m ih =>
    cases b with
    | true => simp only [npScatter, List.length_append, List.length_replicate, List.length_cons]
              rw [ih (by simpa using h)]; omega
    | false =>
      cases xs with
      | nil => simp at h
      | cons x xs =>
        simp only [npScatter, List.take_succ_cons, List.take_zero, List.drop_succ_cons, List.drop_zero,
          List.cons_append, List.nil_append, List.length_cons]
        rw [ih (by simpa using h)]

theorem npScatter_zip {α β : Type} {x : α} {y : β} {m : List Bool} {xs : List α} {ys : List β}
    (h : xs.length = ys.length) :
    (npScatter 1 x m xs).zip (npScatter 1 y m ys) = npScatter 1 (x, y) m (xs.zip ys) := by
  induction m generalizing xs ys with
  | nil => rfl
  | cons b m ih =>
    cases b with
    | true => simp [npScatter, ih h]
    | false =>
      cases xs with
      | nil =>
        cases ys with
        | nil => simp [npScatter, ih (xs := []) (ys := []) rfl]
        | cons => simp at h
      | cons a xs =>
        cases ys with
        | nil => simp at h
        | cons b ys => simp [npScatter, ih (show xs.length = ys.length by simpa using h)]

theorem npScatter_mapR {α β : Type} {f : α → R β} {x0 : α} {y0 : β} (h0 : f x0 = ok y0) {m : List Bool}
    {l : List α} {xs : List β} (h : mapR f l = ok xs) :
    mapR f (npScatter 1 x0 m l) = ok (npScatter 1 y0 m xs) := by
  induction m generalizing l xs with
  | nil => rfl
  | cons b m ih =>
    cases b with
    | true => simp [npScatter, mapR, h0, ih h]
    | false =>
      cases l with
      | nil =>
        simp only [mapR, ok.injEq] at h; subst h
        have := ih (l := []) (xs := []) rfl
        simp [npScatter, this]
      | cons a l =>
        simp only [mapR, bind_eq_ok, ok.injEq] at h
        obtain ⟨b, h1, bs, h2, rfl⟩ := h
        simp [npScatter, mapR, h1, ih h2]

theorem npScatter_vals (l : List (Option Val)) :
    npScatter 1 Val.null (l.map Option.isNone) ((l.filterMap (fun x => x)).map Val.stripped)
      = l.map (fun o => (o.getD .null).stripped) := by
  induction l with
  | nil => rfl
  | cons o l ih =>
    cases o with
    | none => simp [npScatter, ih, Val.stripped]
    | some v => simp [npScatter, ih]

theorem npScatter_count (l : List (Option Val)) :
    ((l.map Option.isNone).filter (fun b => !b)).length = (l.filterMap (fun x => x)).length := by
  induction l with
  | nil => rfl
  | cons o l ih =>
    cases o with
    | none => simpa using ih
    | some v => simpa using ih

theorem masked_maskArray (a : NpArray) : a.masked.maskArray = a.maskArray := rfl

theorem Converted.masked {b : Bool} {c : Content} {a : NpArray} {head : Nat} {tail : List Nat}
    {xs : List Val} (h : Converted true b c a head tail xs) : Converted true b c a.masked head tail xs :=
  ⟨h.shape, h.len, h.mlen, h.cells, by simp, h.flat, h.vals⟩

/-- The elements of an option-type array, `none` for missing ones. -/
def slots (c : Content) : List (Option Val) :=
  (List.range c.len).map (fun i => if (c.pick i).isSome then some (c.valD i) else none)

theorem option_facts {c d : Content} (hg : c.Good) (ho : c.isOption = true) {bm : List Int}
    (hb : c.bytemask = ok bm) (hp : c.project = ok d) (hd : d.Good) :
    bm.length = c.len ∧ (slots c).filterMap (fun x => x) = (List.range d.len).map d.valD ∧
      bm.map (fun b => decide (b ≠ 0)) = (slots c).map Option.isNone := by
  obtain ⟨bm', hb', hbl, hbm⟩ := Content.bytemask_ok hg.wf ho
  rw [hb, ok.injEq] at hb'
  subst hb'
  obtain ⟨d', hp', _, hpl⟩ := Content.project_good hg ho
  rw [hp, ok.injEq] at hp'
  subst hp'
  have hslots : (slots c).length = c.len := by simp [slots]
  have hfm : (slots c).filterMap (fun x => x) = (List.range d.len).map d.valD := by
    rw [hd.toList, ok.injEq] at hpl
    rw [hpl, slots, List.filterMap_map]
    rfl
  have hmask : bm.map (fun b => decide (b ≠ 0)) = (slots c).map Option.isNone := by
    apply List.ext_getElem
    · simp [hslots, hbl]
    · intro i h1 h2
      have := hbm i (by simpa using h1)
      simp only [List.getElem_map, slots, List.getElem_range]
      cases hpi : c.pick i with
      | none => simpa [hpi] using this
      | some k => simpa [hpi] using this
  exact ⟨hbl, hfm, hmask⟩

theorem option_ok {am b : Bool} {c d : Content} (hg : c.Good) (ho : c.isOption = true) {bm : List Int}
    (hb : c.bytemask = ok bm) (hp : c.project = ok d) (hd : d.Good) {a a' : NpArray} {head : Nat}
    {tail : List Nat} {xs : List Val} (h : Converted am false d a head tail xs)
    (hok : npOption am bm a = ok a') :
    ∃ xs', Converted am b c a' c.len [] xs' := by
  obtain rfl := h.flat rfl
  obtain ⟨hbl, hfm, hmask⟩ := option_facts hg ho hb hp hd
  have hslots : (slots c).length = c.len := by simp [slots]
  have hdl : d.len = ((slots c).filterMap (fun x => x)).length := by rw [hfm]; simp
  have hsv : (slots c).map (fun o => (o.getD .null).stripped)
      = (List.range c.len).map (fun i => (c.valD i).stripped) := by
    rw [slots, List.map_map]
    apply List.map_congr_left
    intro i hi
    have hv := (Content.val_inner_pick hg (Content.isOption_imp ho) (by simpa using hi)).1
    simp only [Function.comp]
    cases hpi : c.pick i with
    | none => rw [hpi] at hv; simp [hv]
    | some k => simp
  have hvals : head = d.len ∧ xs = (List.range d.len).map (fun i => (d.valD i).stripped) := by
    rcases h.vals with ⟨h1, h2⟩ | ⟨h1, _⟩
    · exact ⟨h1, by simpa [rows] using h2⟩
    · exact absurd rfl h1
  have hxs : xs = ((slots c).filterMap (fun x => x)).map Val.stripped := by
    rw [hvals.2, hfm, List.map_map]; rfl
  have hdata : a.data.length = d.len := by rw [h.len, hvals.1]; simp
  simp only [npOption, h.shape] at hok
  rw [hmask] at hok
  split at hok
  · cases am with
    | false => simp at hok
    | true =>
      rw [if_pos rfl] at hok
      have hcount := npScatter_count (slots c)
      rw [if_neg (by rw [hcount, ← hdl, hvals.1]; simp), ok.injEq] at hok
      subst hok
      refine ⟨npScatter 1 .null ((slots c).map Option.isNone) xs, ⟨by rw [hbl], ?_, ?_, ?_, by simp, fun _ => rfl, ?_⟩⟩
      · simp only [List.prod_nil, Nat.mul_one]
        rw [npScatter_length (by rw [hcount, ← hdl, hdata])]
        simp [hslots]
      · simp only [List.prod_nil, maskArray, Option.getD_some]
        have := h.mlen
        unfold maskArray at this
        rw [npScatter_length (by rw [hcount, ← hdl, this, hdata]), npScatter_length (by rw [hcount, ← hdl, hdata])]
      · simp only [List.prod_nil, maskArray, Option.getD_some]
        have := h.mlen
        unfold maskArray at this
        rw [npScatter_zip this.symm]
        exact npScatter_mapR (f := cell) (x0 := (none, true)) (y0 := Val.null) rfl h.cells
      · left
        refine ⟨rfl, ?_⟩
        simp only [rows]
        rw [hxs, npScatter_vals, hsv]
  · rename_i hany
    have hnone : ∀ i, i < c.len → (c.pick i).isSome := by
      intro i hi
      simp only [List.any_map, List.any_eq_true, not_exists, not_and] at hany
      have := hany ((slots c)[i]'(by omega)) (List.getElem_mem _)
      simp only [slots, List.getElem_map, List.getElem_range, Function.comp, id] at this
      cases hpi : c.pick i with
      | none => simp [hpi] at this
      | some k => rfl
    have hfull : slots c = (List.range c.len).map (fun i => some (c.valD i)) := by
      unfold slots
      exact List.map_congr_left (fun i hi => by rw [if_pos (hnone i (by simpa using hi))])
    have hfm2 : (List.range d.len).map d.valD = (List.range c.len).map c.valD := by
      rw [← hfm, hfull, List.filterMap_map]
      have : ((fun x : Option Val => x) ∘ fun i => some (c.valD i)) = fun i => some (c.valD i) := rfl
      rw [this, List.filterMap_eq_map']
    have hlen : d.len = c.len := by simpa using congrArg List.length hfm2
    have hc : Converted am false c a head [] xs := h.congr hlen (fun i hi => by
      have := congrArg (fun l => l[i]?) hfm2
      simpa [hlen, hi] using this)
    have hc' : Converted am b c a head [] xs := { hc with flat := fun _ => rfl }
    obtain ⟨hh, _⟩ := hvals
    rw [hh, hlen] at hc'
    cases am with
    | false => simp only [Bool.false_eq_true, if_false, ok.injEq] at hok; subst hok; exact ⟨xs, hc'⟩
    | true => simp only [if_true, ok.injEq] at hok; subst hok; exact ⟨xs, hc'.masked⟩

/-! ### The conversion -/

theorem text_item (p : Params) (h : p.arr = .string ∨ p.arr = .bytestring) (vs : List Val) :
    npText (wrapList p vs) = (wrapList p vs).stripped ∧ ¬ Val.Inside .null (wrapList p vs) ∧
      ∀ ws, wrapList p vs ≠ .list ws := by
  unfold wrapList
  rcases h with h | h <;> rw [h] <;> refine ⟨rfl, ?_, by simp⟩ <;> intro h <;> cases h

theorem text_valD {c : Content} (hg : c.Good) (hl : c.isListNode = true) {i : Nat} (hi : i < c.len) :
    ∃ vs, c.valD i = wrapList c.params vs := by
  obtain ⟨offs, d, _, h2, _⟩ := Content.listParts_ok hg hl
  exact ⟨_, h2.vals i hi⟩

theorem mapR_cells (vs : List Val) :
    mapR cell ((vs.map some).zip (List.replicate vs.length false)) = ok vs := by
  induction vs with
  | nil => rfl
  | cons v vs ih => simp [List.replicate_succ, mapR, cell, ih]

theorem toNumpyF_sound (fuel : Nat) : ∀ {am b : Bool} {c : Content} {a : NpArray}, c.rank ≤ fuel → c.Good →
    Content.NumpyLike b c → c.toNumpyF fuel am = ok a →
    ∃ head tail xs, Converted am b c a head tail xs := by
  induction fuel with
  | zero => intro am b c a hr hg hn h; simp [Content.toNumpyF] at h
  | succ fuel ih =>
    intro am b c a hr hg hn h
    have leaf : ∀ vs : List Val, c.toList = ok vs → (∀ v ∈ vs, ¬ Val.Inside .null v) →
        ∃ head tail xs, Converted am b c ⟨[vs.length], (vs.map Val.stripped).map some, none⟩ head tail xs := by
      intro vs hvs hnull
      rw [hg.toList, ok.injEq] at hvs
      subst hvs
      refine ⟨c.len, [], (List.range c.len).map (fun i => (c.valD i).stripped), ⟨by simp, by simp, by simp [maskArray], ?_, fun _ => ⟨rfl, fun i hi => ?_⟩, fun _ => rfl,
        .inl ⟨rfl, ?_⟩⟩⟩
      · have := mapR_cells (((List.range c.len).map c.valD).map Val.stripped)
        simp only [maskArray, Option.getD_none]
        simpa [Function.comp_def] using this
      · exact hnull _ (List.mem_map_of_mem (by simpa using hi))
      · rfl
    have hnt : Content.notText c → ¬ (c.params.arr = .bytestring ∨ c.params.arr = .string) := by
      rintro ⟨h1, h2⟩ (h3 | h3)
      · exact h2 h3
      · exact h1 h3
    cases hn with
    | text ht =>
      simp only [Content.isTextNode, Bool.and_eq_true, Bool.or_eq_true, decide_eq_true_eq] at ht
      simp only [Content.toNumpyF] at h
      rw [if_pos ht.2.symm, if_pos ht.1, hg.toList, bind_ok, ok.injEq] at h
      subst h
      have hval : ∀ v ∈ (List.range c.len).map c.valD, ∃ vs, v = wrapList c.params vs := by
        intro v hv
        obtain ⟨i, hi, rfl⟩ := List.mem_map.mp hv
        exact text_valD hg ht.1 (by simpa using hi)
      have := leaf _ hg.toList (by
        intro v hv
        obtain ⟨vs, rfl⟩ := hval v hv
        exact (text_item _ ht.2 vs).2.1)
      rw [List.map_map] at this
      rw [List.map_congr_left (g := some ∘ Val.stripped) (fun v hv => by
        obtain ⟨vs, rfl⟩ := hval v hv
        simp [(text_item _ ht.2 vs).1])]
      exact this
    | @numpy _ p dt data hp =>
      simp only [Content.toNumpyF] at h
      rw [if_neg (hnt hp), ok.injEq] at h
      subst h
      have hv : (Content.numpy p dt data).toList = ok (data.map Val.atom) := by
        rw [hg.toList]
        congr 1
        apply List.ext_getElem
        · simp [Content.len]
        · intro i h1 h2
          simp [Content.valD_numpy (show i < data.length by simpa using h2)]
      have := leaf _ hv (by
        intro v hv hi
        obtain ⟨x, _, rfl⟩ := List.mem_map.mp hv
        cases hi)
      simpa [Function.comp_def, Val.stripped] using this
    | @empty _ p hp =>
      simp only [Content.toNumpyF] at h
      rw [if_neg (hnt hp), ok.injEq] at h
      subst h
      exact leaf [] rfl (by simp)
    | list hl hp ho hd =>
      have hpl := hnt hp
      have hwrap : ∀ vs, wrapList c.params vs = .list vs :=
        Content.wrapList_plain (fun h => hpl h.symm)
      by_cases hreg : ∃ p d s z, c = .regular p d s z
      · obtain ⟨p, d, size, zeros, rfl⟩ := hreg
        simp only [Content.toNumpyF] at h
        rw [if_neg hpl] at h
        obtain ⟨e, he, h⟩ := bind_eq_ok.mp h
        have hdg := Content.good_regular.mp hg
        obtain ⟨head, tail, xs, hc⟩ := ih (by simp only [Content.rank] at hr; omega) hdg
          (hd d (by simp [Content.children])) he
        obtain ⟨a', head', xs', h1, h2⟩ := reshape_ok (c := .regular p d size zeros) (size := size) hc
          (fun hs => by simp only [Content.len]; rw [if_pos hs])
          (fun i hi => by rw [Content.valD_regular hdg hi]; exact hwrap _)
        rw [h, ok.injEq] at h1
        subst h1
        exact ⟨_, _, _, h2⟩
      · have hreg' : ∀ p d s z, c ≠ .regular p d s z := fun p d s z h => hreg ⟨p, d, s, z, h⟩
        have hir : Content.OffsetsInRange c := by
          cases c <;> try exact trivial
          exact ho _ _ _ rfl
        have hh : (c.toRegular >>= fun r => match r with
            | .regular _ d size _ => Content.toNumpyF fuel am d >>= fun a => npReshape size a
            | _ => err "not a RegularArray") = ok a := by
          cases c <;> simp only [Content.isListNode, Bool.false_eq_true] at hl
          · exact absurd rfl (hreg' _ _ _ _)
          all_goals
            simp only [Content.toNumpyF] at h
            rw [if_neg hpl] at h
            exact h
        obtain ⟨r, h1, h2⟩ := bind_eq_ok.mp hh
        obtain ⟨d, size, zeros, rfl, hi⟩ := Content.toRegular_inner hg hl hreg' hir h1
        simp only at h2
        obtain ⟨e, he, h2⟩ := bind_eq_ok.mp h2
        obtain ⟨head, tail, xs, hc⟩ := ih (by have := hi.rank; omega) hi.good
          (hi.closed _ Content.NumpyLike.closed _ hd) he
        obtain ⟨a', head', xs', h3, h4⟩ := reshape_ok (c := c) (size := size) hc
          (fun hs => by rw [hi.exact, Nat.mul_div_cancel _ (by omega)])
          (fun i hi' => by rw [hi.vals i hi']; exact hwrap _)
        rw [h2, ok.injEq] at h3
        subst h3
        exact ⟨_, _, _, h4⟩
    | @indexed _ p index d hp hd =>
      simp only [Content.toNumpyF] at h
      rw [if_neg (hnt hp)] at h
      obtain ⟨e, he, h⟩ := bind_eq_ok.mp h
      obtain ⟨e', g1, g2, g3, g4, g5, g6⟩ := Content.project_indexed hg
      rw [he, ok.injEq] at g1
      subst g1
      obtain ⟨head, tail, xs, hc⟩ := ih (by simp only [Content.rank] at hr; omega) g2
        (g6.closed Content.NumpyLike.closed (hg.child (by simp [Content.children])) _ hd) h
      exact ⟨head, tail, xs, hc.congr (by rw [g4]; rfl) (fun i hi => g5 i (by simpa [Content.len] using hi))⟩
    | option ho hp hd =>
      by_cases hun : ∃ p d, c = .unmasked p d
      · obtain ⟨p, d, rfl⟩ := hun
        simp only [Content.toNumpyF] at h
        rw [if_neg (hnt hp)] at h
        obtain ⟨e, he, h⟩ := bind_eq_ok.mp h
        obtain ⟨head, tail, xs, hc⟩ := ih (by simp only [Content.rank] at hr; omega)
          (Content.good_unmasked.mp hg) (hd d (by simp [Content.children])) he
        have hc1 := hc.congr (c := .unmasked p d) rfl (fun i _ => (Content.valD_unmasked i).symm)
        have hc2 : Converted am b (.unmasked p d) e head tail xs := { hc1 with flat := fun _ => hc1.flat rfl }
        rw [ok.injEq] at h
        subst h
        cases am with
        | false => exact ⟨_, _, _, hc2⟩
        | true => exact ⟨_, _, _, hc2.masked⟩
      · have hh : (c.project >>= fun d => Content.toNumpyF fuel am d >>= fun content =>
            c.bytemask >>= fun bytemask => npOption am bytemask content) = ok a := by
          cases c <;> simp only [Content.isOption, Bool.false_eq_true] at ho
          all_goals first
            | exact absurd ⟨_, _, rfl⟩ hun
            | (simp only [Content.toNumpyF] at h
               rw [if_neg (hnt hp)] at h
               exact h)
        obtain ⟨d, h1, hh⟩ := bind_eq_ok.mp hh
        obtain ⟨e, h2, hh⟩ := bind_eq_ok.mp hh
        obtain ⟨bm, h3, hh⟩ := bind_eq_ok.mp hh
        have hri : ∀ i, i < c.len → IsOk (c.val i) := fun i hi => ⟨_, hg.val hi⟩
        rcases Content.project_eq hg.wf ho hri with hu | heq
        · exact absurd hu hun
        · have hin := Content.shown_inRange hg.wf ho hri
          have hmem := Content.inner_mem ho
          obtain ⟨d', g1, g2, g3, _⟩ := Content.carry_good (hg.child hmem) false hin
          have hcl := Content.carry_closed Content.NumpyLike.closed (hg.child hmem) hin g1 false (hd _ hmem)
          rw [← heq, h1, ok.injEq] at g1
          subst g1
          have hrk : c.inner.rank + 1 ≤ c.rank := by
            cases c <;> simp only [Content.isOption, Bool.false_eq_true] at ho <;>
              simp only [Content.inner, Content.rank] <;> omega
          obtain ⟨head, tail, xs, hc⟩ := ih (by simp at g3; omega) g2 hcl h2
          obtain ⟨xs', hc'⟩ := option_ok (b := b) hg ho h3 h1 g2 hc hh
          exact ⟨_, _, _, hc'⟩

/-! ### Acceptance -/

theorem notFixed_closed : Content.ClosedG False (fun _ : Nat => Content.AllNodes Content.NotFixed) where
  lazy _ h := .mk (by simp [Content.NotFixed]) (by simpa [Content.children] using h)
  node := by
    intro c' c hc hl hd a h
    cases h with
    | mk h0 hch =>
      refine .mk ?_ (fun d' hd' => ?_)
      · intro p d s z he
        obtain ⟨_, _, _, he'⟩ := hl.reg _ _ _ _ he
        exact h0 _ _ _ _ he'
      · obtain ⟨d, hd1, hd2⟩ := hd d' hd'
        exact hd2 0 (hch d hd1)

theorem option_accepts {am : Bool} {c d : Content} (hg : c.Good) (ho : c.isOption = true) {bm : List Int}
    (hb : c.bytemask = ok bm) (hp : c.project = ok d) (hd : d.Good) {a : NpArray} {head : Nat}
    {tail : List Nat} {xs : List Val} (h : Converted am false d a head tail xs)
    (hnull : am = false → ∀ i, i < c.len → ¬ Val.Inside .null (c.valD i)) :
    IsOk (npOption am bm a) := by
  obtain rfl := h.flat rfl
  obtain ⟨hbl, hfm, hmask⟩ := option_facts hg ho hb hp hd
  have hhead : head = d.len := by
    rcases h.vals with ⟨h1, h2⟩ | ⟨h1, _⟩
    · exact h1
    · exact absurd rfl h1
  simp only [npOption, h.shape]
  rw [hmask]
  split
  · rename_i hany
    cases am with
    | true =>
      rw [if_pos rfl, if_neg (by rw [npScatter_count, hfm, hhead]; simp)]
      exact ⟨_, rfl⟩
    | false =>
      exfalso
      simp only [slots, List.map_map, List.any_map, List.any_eq_true] at hany
      obtain ⟨i, hi, hpi⟩ := hany
      have hv := (Content.val_inner_pick hg (Content.isOption_imp ho) (by simpa using hi)).1
      refine hnull rfl i (by simpa using hi) ?_
      cases hpk : c.pick i with
      | none => rw [hpk] at hv; rw [hv]; exact .here
      | some k => simp [hpk] at hpi
  · cases am <;> exact ⟨_, rfl⟩

theorem toNumpyF_accepts (fuel : Nat) : ∀ {am b : Bool} {c : Content} {dims : List Nat}, c.rank ≤ fuel →
    c.Good → Content.NumpyLike b c → Content.AllNodes Content.NotFixed c →
    (∀ i, i < c.len → Val.Dims dims (c.valD i)) →
    (am = false → ∀ i, i < c.len → ¬ Val.Inside .null (c.valD i)) → IsOk (c.toNumpyF fuel am) := by
  induction fuel with
  | zero => intro am b c dims hr
            have : 0 < c.rank := by cases c <;> simp [Content.rank]
            omega
  | succ fuel ih =>
    intro am b c dims hr hg hn hv hdims hnull
    have hnt : Content.notText c → ¬ (c.params.arr = .bytestring ∨ c.params.arr = .string) := by
      rintro ⟨h1, h2⟩ (h3 | h3)
      · exact h2 h3
      · exact h1 h3
    cases hn with
    | text ht =>
      simp only [Content.isTextNode, Bool.and_eq_true, Bool.or_eq_true, decide_eq_true_eq] at ht
      simp only [Content.toNumpyF]
      rw [if_pos ht.2.symm, if_pos ht.1, hg.toList, bind_ok]
      exact ⟨_, rfl⟩
    | numpy hp =>
      simp only [Content.toNumpyF]
      rw [if_neg (hnt hp)]
      exact ⟨_, rfl⟩
    | empty hp =>
      simp only [Content.toNumpyF]
      rw [if_neg (hnt hp)]
      exact ⟨_, rfl⟩
    | list hl hp ho hd =>
      have hpl := hnt hp
      have hwrap : ∀ vs, wrapList c.params vs = .list vs :=
        Content.wrapList_plain (fun h => hpl h.symm)
      have hreg' : ∀ p d s z, c ≠ .regular p d s z := hv.here
      have hir : Content.OffsetsInRange c := by
        cases c <;> try exact trivial
        exact ho _ _ _ rfl
      have hsame : ∀ i, i < c.len → c.lens i = c.lens 0 := by
        have hone : ∀ i, i < c.len → c.lens i = dims.headD 0 := by
          intro i hi
          have h1 := hdims i hi
          simp only [Content.lens]
          obtain ⟨vs, hvs⟩ := text_valD hg hl hi
          rw [hwrap] at hvs
          rw [hvs] at h1 ⊢
          cases h1 with
          | item hv => exact absurd rfl (hv _)
          | list hd _ => simpa [Val.items] using hd
        intro i hi
        rw [hone i hi, hone 0 (by omega)]
      obtain ⟨r, h1, _⟩ := (Content.toRegular_ok hg hl hir).1 hsame
      obtain ⟨d, size, zeros, rfl, hi⟩ := Content.toRegular_inner hg hl hreg' hir h1
      have hcl := hi.closed _ Content.NumpyLike.closed true hd
      have hin : ∀ k, k < d.len → ∃ i, i < c.len ∧ ∃ vs, c.valD i = .list vs ∧ d.valD k ∈ vs := by
        intro k hk
        rw [hi.exact] at hk
        have hs : 0 < size := by
          rcases Nat.eq_zero_or_pos size with h0 | h0
          · rw [h0] at hk; omega
          · exact h0
        have hlt : k / size < c.len := by rw [Nat.div_lt_iff_lt_mul hs]; exact hk
        refine ⟨k / size, hlt, _, by rw [hi.vals _ hlt]; exact hwrap _, ?_⟩
        refine List.mem_iff_getElem.mpr ⟨k % size, by simpa using Nat.mod_lt k hs, ?_⟩
        rw [Content.seg_getElem, Nat.div_add_mod']
      obtain ⟨e, he⟩ := ih (am := am) (c := d) (dims := dims.tail) (by have := hi.rank; omega) hi.good hcl
        (hi.closed _ notFixed_closed 0 (fun e he => hv.child he))
        (fun k hk => by
          obtain ⟨i, hi', vs, h2, h3⟩ := hin k hk
          have h4 := hdims i hi'
          rw [h2] at h4
          cases h4 with
          | item h5 => exact absurd rfl (h5 _)
          | list h5 h6 => exact h6 _ h3)
        (fun ha k hk hin' => by
          obtain ⟨i, hi', vs, h2, h3⟩ := hin k hk
          refine hnull ha i hi' ?_
          rw [h2]
          exact .list h3 hin')
      obtain ⟨head, tail, xs, hc⟩ := toNumpyF_sound fuel (by have := hi.rank; omega) hi.good hcl he
      have : c.toNumpyF (fuel + 1) am = npReshape size e := by
        cases c <;> simp only [Content.isListNode, Bool.false_eq_true] at hl
        · exact absurd rfl (hreg' _ _ _ _)
        all_goals
          simp only [Content.toNumpyF]
          rw [if_neg hpl, h1, bind_ok]
          simp only
          rw [he, bind_ok]
      rw [this]
      unfold npReshape
      rw [hc.shape]
      exact ⟨_, rfl⟩
    | @indexed _ p index d hp hd =>
      obtain ⟨e', g1, g2, g3, g4, g5, g6⟩ := Content.project_indexed hg
      simp only [Content.toNumpyF]
      rw [if_neg (hnt hp), g1, bind_ok]
      have hlen : (Content.indexed p index d).len = index.length := rfl
      exact ih (dims := dims) (by simp only [Content.rank] at hr; omega) g2
        (g6.closed Content.NumpyLike.closed (hg.child (by simp [Content.children])) _ hd)
        (g6.closed notFixed_closed (hg.child (by simp [Content.children])) 0
          (hv.child (by simp [Content.children])))
        (fun i hi => by rw [g5 i (by omega)]; exact hdims i (by omega))
        (fun ha i hi => by rw [g5 i (by omega)]; exact hnull ha i (by omega))
    | option ho hp hd =>
      by_cases hun : ∃ p d, c = .unmasked p d
      · obtain ⟨p, d, rfl⟩ := hun
        simp only [Content.toNumpyF]
        rw [if_neg (hnt hp)]
        obtain ⟨e, he⟩ := ih (am := am) (c := d) (dims := dims) (by simp only [Content.rank] at hr; omega)
          (Content.good_unmasked.mp hg) (hd d (by simp [Content.children]))
          (hv.child (by simp [Content.children]))
          (fun i hi => by rw [← Content.valD_unmasked (p := p) i]; exact hdims i hi)
          (fun ha i hi => by rw [← Content.valD_unmasked (p := p) i]; exact hnull ha i hi)
        rw [he, bind_ok]
        exact ⟨_, rfl⟩
      · have hri : ∀ i, i < c.len → IsOk (c.val i) := fun i hi => ⟨_, hg.val hi⟩
        rcases Content.project_eq hg.wf ho hri with hu | heq
        · exact absurd hu hun
        have hin := Content.shown_inRange hg.wf ho hri
        have hmem := Content.inner_mem ho
        obtain ⟨d, g1, g2, g3, _⟩ := Content.carry_good (hg.child hmem) false hin
        have hcl := Content.carry_closed Content.NumpyLike.closed (hg.child hmem) hin g1 false (hd _ hmem)
        have hcl2 := Content.carry_closed notFixed_closed (hg.child hmem) hin g1 0 (hv.child hmem)
        rw [← heq] at g1
        obtain ⟨bm, hb, _⟩ := Content.bytemask_ok hg.wf ho
        obtain ⟨_, hfm, _⟩ := option_facts hg ho hb g1 g2
        have hrk : c.inner.rank + 1 ≤ c.rank := by
          cases c <;> simp only [Content.isOption, Bool.false_eq_true] at ho <;>
            simp only [Content.inner, Content.rank] <;> omega
        have hsub : ∀ k, k < d.len → ∃ i, i < c.len ∧ d.valD k = c.valD i := by
          intro k hk
          have hm : d.valD k ∈ (slots c).filterMap (fun x => x) := by
            rw [hfm]; exact List.mem_map_of_mem (by simpa using hk)
          obtain ⟨o, ho1, ho2⟩ := List.mem_filterMap.mp hm
          obtain ⟨i, hi1, rfl⟩ := List.mem_map.mp ho1
          refine ⟨i, by simpa using hi1, ?_⟩
          split at ho2
          · simpa using ho2.symm
          · simp at ho2
        obtain ⟨e, he⟩ := ih (am := am) (c := d) (dims := dims) (by simp at g3; omega) g2 hcl hcl2
          (fun k hk => by obtain ⟨i, hi, h⟩ := hsub k hk; rw [h]; exact hdims i hi)
          (fun ha k hk => by obtain ⟨i, hi, h⟩ := hsub k hk; rw [h]; exact hnull ha i hi)
        obtain ⟨head, tail, xs, hc⟩ := toNumpyF_sound fuel (by simp at g3; omega) g2 hcl he
        have := option_accepts hg ho hb g1 g2 hc hnull
        have hh : c.toNumpyF (fuel + 1) am = npOption am bm e := by
          cases c <;> simp only [Content.isOption, Bool.false_eq_true] at ho
          all_goals first
            | exact absurd ⟨_, _, rfl⟩ hun
            | (simp only [Content.toNumpyF]
               rw [if_neg (hnt hp), g1, bind_ok, he, bind_ok, hb, bind_ok])
        rw [hh]
        exact this

/-! ### Records -/

/-- One field of a record as a column of a structured array. -/
def Column (n : Nat) (d : Content) (x : NpArray) : Prop :=
  x.shape = [n] ∧ x.data = (List.range n).map (fun i => some (d.valD i).stripped)

theorem cells_data {data : List (Option Val)} {xs : List Val}
    (h : mapR cell (data.zip (List.replicate data.length false)) = ok xs) : data = xs.map some := by
  induction data generalizing xs with
  | nil => simp only [List.zip_nil_left, mapR, ok.injEq] at h; subst h; rfl
  | cons o data ih =>
    simp only [List.length_cons, List.replicate_succ, List.zip_cons_cons, mapR, bind_eq_ok, ok.injEq] at h
    obtain ⟨b, h1, bs, h2, rfl⟩ := h
    cases o with
    | none => simp [cell] at h1
    | some v =>
      simp only [cell, ok.injEq] at h1
      subst h1
      rw [List.map_cons, ← ih h2]

theorem Converted.column {b : Bool} {d : Content} {x : NpArray} {head : Nat} {tail : List Nat} {xs : List Val}
    (h : Converted false b d x head tail xs) (h1 : x.shape.length = 1) : Column d.len d x := by
  have ht : tail = [] := by
    rw [h.shape] at h1
    simpa using h1
  subst ht
  have hm := (h.plain rfl).1
  rcases h.vals with ⟨h2, h3⟩ | ⟨h2, _⟩
  · refine ⟨by rw [h.shape, h2], ?_⟩
    have hc := h.cells
    rw [maskArray, hm, Option.getD_none] at hc
    rw [cells_data hc]
    simp only [rows] at h3
    rw [h3, List.map_map]
    rfl
  · exact absurd rfl h2

theorem npRow_ok {n i : Nat} (hi : i < n) (cs : List Content) :
    npRow (cs.map (fun d => (List.range n).map (fun i => some (d.valD i).stripped))) i
      = some (.tuple (cs.map (fun d => (d.valD i).stripped))) := by
  unfold npRow
  suffices h : ((cs.map (fun d => (List.range n).map (fun i => some (d.valD i).stripped))).mapM
      (fun col => (col[i]?).getD none)) = some (cs.map (fun d => (d.valD i).stripped)) by rw [h]; rfl
  induction cs with
  | nil => rfl
  | cons c cs ih =>
    rw [List.map_cons, List.mapM_cons, ih]
    simp [hi]

theorem columns_shape {n : Nat} {cs : List Content} {as : List NpArray} (h : List.Forall₂ (Column n) cs as) :
    ∀ x ∈ as, x.shape = [n] := by
  induction h with
  | nil => simp
  | cons h _ ih =>
    intro x hx
    cases hx with
    | head => exact h.1
    | tail _ hx => exact ih x hx

theorem npStruct_ok {n : Nat} {cs : List Content} {as : List NpArray} (hne : cs ≠ [])
    (h : List.Forall₂ (Column n) cs as) :
    npStruct as = ok ⟨[n], (List.range n).map (fun i => some (.tuple (cs.map (fun d => (d.valD i).stripped)))), none⟩ := by
  unfold npStruct
  rw [if_neg (by
    simp only [List.any_eq_true, not_exists, not_and]
    intro x hx
    simp [columns_shape h x hx])]
  cases h with
  | nil => exact absurd rfl hne
  | @cons d x cs as h1 h2 =>
    have hn : x.data.length = n := by rw [h1.2]; simp
    simp only
    rw [hn]
    have hcols : ∀ {cs : List Content} {as : List NpArray}, List.Forall₂ (Column n) cs as →
        mapR (npColumn n) as = ok (cs.map (fun d => (List.range n).map (fun i => some (d.valD i).stripped))) := by
      intro cs as h
      induction h with
      | nil => rfl
      | cons h _ ih =>
        simp only [mapR, List.map_cons]
        rw [ih]
        simp only [npColumn]
        rw [if_pos (by rw [h.2]; simp), bind_ok, bind_ok, h.2]
    rw [hcols (.cons h1 h2), bind_ok]
    congr 2
    apply List.map_congr_left
    intro i hi
    exact npRow_ok (by simpa using hi) (d :: cs)

end NpArray
end Awk
