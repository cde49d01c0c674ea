import Verif.Model.StringEqual
import Verif.Lemmas.BcastLists
import Verif.Lemmas.GetitemValid
import Verif.Lemmas.GetitemMask
import Verif.Lemmas.ReduceTop
import Verif.Lemmas.JsonRead
/-
`==` between arrays of strings.
-/

namespace Awk
open R Spec

theorem mapR_number (as : List Atom) : mapR Val.number (as.map Val.atom) = ok as := by
  induction as with
  | nil => rfl
  | cons a as ih => simp [mapR, Val.number, ih]

/-- What a flat result of a slice or reducer holds. -/
theorem flatNumbers_ok {c : Content} {i : Nat} {it : Item} {as : List Atom} (h : c.getitemAtNowrap i = ok it)
    (hv : it.toVal = ok (.list (as.map .atom))) : flatNumbers it = ok as := by
  cases it with
  | none => cases hv
  | scalar a => cases hv
  | record d k =>
    exfalso
    obtain ⟨p, keys, cs, n, rfl⟩ := Content.item_record h
    simp only [Item.toVal, Content.val, bind_eq_ok] at hv
    obtain ⟨vs, _, hv⟩ := hv
    cases keys <;> simp [mkRecord] at hv
  | array d =>
    simp only [Item.toVal, bind_eq_ok] at hv
    obtain ⟨vs, h1, h2⟩ := hv
    have : vs = as.map .atom := by
      split at h2 <;> simp at h2
      exact h2
    subst this
    simp only [flatNumbers, h1, bind_ok, mapR_number]

namespace Content

theorem seg_atoms {q : Params} {dt : DType} {data : List Atom} {a k : Nat} (h : a + k ≤ data.length) :
    (numpy q dt data).seg a k = ((data.drop a).take k).map Val.atom := by
  apply List.ext_getElem
  · simp [seg]; omega
  · intro i h1 h2
    simp only [seg, List.length_map, List.length_range] at h1
    simp only [seg, List.getElem_map, List.getElem_range, List.getElem_take, List.getElem_drop]
    rw [valD_numpy (by omega)]

theorem seg_pair_atoms {q : Params} {dt : DType} {data : List Atom} {s t : Int} (h : GoodPair s t data.length) :
    (numpy q dt data).seg s.toNat (t - s).toNat = ((data.drop s.toNat).take (t - s).toNat).map Val.atom := by
  rcases GoodPair.seg_le h with h0 | h0
  · rw [h0]; simp [seg]
  · exact seg_atoms h0

/-- Lists without their names. -/
theorem stripLists_ok {p q : Params} {dt : DType} {data : List Atom} {c : Content} (hg : c.Good)
    (h : ListsOver p (numpy q dt data) c) :
    ∃ (c' : Content) (A : Nat → List Atom), stripLists c = ok c' ∧ c'.Good ∧ c'.len = c.len ∧
      ListsOver {} (numpy {} dt data) c' ∧
      (∀ o d, c' = listOffset {} o d → c = listOffset p o (numpy q dt data)) ∧
      ∀ i, i < c.len → c.valD i = wrapList p ((A i).map .atom) ∧ c'.valD i = .list ((A i).map .atom) := by
  rcases h with ⟨o, rfl⟩ | ⟨starts, stops, rfl⟩
  · obtain ⟨hl, hc, hpair⟩ := good_listOffset.mp hg
    have hg' : (listOffset {} o (numpy {} dt data)).Good := good_listOffset.mpr ⟨hl, good_numpy _ _ _, hpair⟩
    refine ⟨_, fun i => (data.drop (o[i]?.getD 0).toNat).take ((o[i+1]?.getD 0) - (o[i]?.getD 0)).toNat,
      rfl, hg', rfl, .inl ⟨_, rfl⟩, fun o d h => ?_, fun i hi => ?_⟩
    · simp only [listOffset.injEq, true_and] at h
      rw [h.1]
    · simp only [len] at hi
      have hp := hpair i (by omega)
      rw [valD_listOffset hg (by omega), valD_listOffset hg' (by omega), seg_pair_atoms hp, seg_pair_atoms hp]
      simp [wrapList, show i < o.length by omega, show i + 1 < o.length by omega]
  · obtain ⟨hl, hc, hpair⟩ := good_listArray.mp hg
    have hg' : (listArray {} starts stops (numpy {} dt data)).Good :=
      good_listArray.mpr ⟨hl, good_numpy _ _ _, hpair⟩
    refine ⟨_, fun i => (data.drop (starts[i]?.getD 0).toNat).take ((stops[i]?.getD 0) - (starts[i]?.getD 0)).toNat,
      rfl, hg', rfl, .inr ⟨_, _, rfl⟩, fun o d h => by simp at h, fun i hi => ?_⟩
    simp only [len] at hi
    have hp := hpair i (by omega)
    rw [valD_listArray hg (by omega) (by omega), valD_listArray hg' (by omega) (by omega), seg_pair_atoms hp,
      seg_pair_atoms hp]
    simp [wrapList, show i < starts.length by omega, show i < stops.length by omega]

/-- The positions of a ListOffsetArray, also those of empty lists, are in its content. -/
def Within (c : Content) : Prop := ∀ p o d, c = listOffset p o d → ∀ x ∈ o, 0 ≤ x ∧ x ≤ (d.len : Int)

/-- A reducer of lists of numbers. -/
theorem reduce_lists {red : Reducer} {dt : DType} {data : List Atom} {c : Content} {p q : Params}
    (hr : red.returnsPositions = false) (hid : red.identityOk dt) (hp : ¬ (p.arr = .string ∨ p.arr = .bytestring))
    (hdt : dt.reducible = true) (hd : ∀ x ∈ data, Spec.OfType dt x) (hg : c.Good)
    (h : ListsOver p (numpy q dt data) c) (hw : Within c) {n : Nat} (hn : c.len = n) {F : Nat → List Val}
    (hv : ∀ i, i < n → c.valD i = .list (F i)) {a : Nat → Atom}
    (ha : ∀ i, i < n → reduceList red false dt (F i) = .atom (a i)) :
    (c.reduce red (-1) false >>= flatNumbers) = ok ((List.range n).map a) := by
  have hnest : Nested red dt False True True 1 2 false c := by
    rcases h with ⟨o, rfl⟩ | ⟨starts, stops, rfl⟩
    · exact .listOffset hp (fun h => h.elim) (hw _ _ _ rfl) (.numpy hdt hd)
    · exact .listArray hp (.numpy hdt hd)
  obtain ⟨it, h1, h2⟩ := reduce_ok (mask := false) (base_one hid (by rw [hr]; simp)) (Nat.le_refl 1) hg hnest
    (by omega) (axis := -1) (.inl rfl) trivial
  rw [h1, bind_ok]
  unfold reduce at h1
  simp only [bind_eq_ok] at h1
  obtain ⟨_, _, _, _, next, _, h3⟩ := h1
  refine flatNumbers_ok h3 ?_
  rw [h2]
  simp only [atDepth, ok.injEq, Val.list.injEq, seg, List.map_map, hn]
  refine List.map_congr_left (fun i hi => ?_)
  have hi := List.mem_range.mp hi
  simp only [Function.comp_apply, Nat.zero_add, hv i hi, Val.items, ha i hi]

/-- The positions where the mask is true. -/
def chosen (mask : List Bool) : List Nat := (List.range mask.length).filter (fun i => mask[i]?.getD false)

theorem trueAt_chosen (mask : List Bool) :
    trueAt (mask.map (fun b => if b then (1 : Int) else 0)) mask.length = (chosen mask).map Int.ofNat := by
  unfold trueAt chosen
  congr 1
  refine List.filter_congr (fun i hi => ?_)
  have hi := List.mem_range.mp hi
  simp only [List.getElem?_map, List.getElem?_eq_getElem hi, Option.map_some, Option.getD_some]
  cases mask[i] <;> rfl

theorem mapM_chosen {vs : List Val} : ∀ {l : List Nat}, (∀ i ∈ l, i < vs.length) →
    (l.map Int.ofNat).mapM (pyGet? vs) = some (l.map (fun i => vs[i]?.getD .null)) := by
  intro pos
  induction pos with
  | nil => intro _; rfl
  | cons i pos ih =>
    intro hall
    rw [List.map_cons, List.mapM_cons, ih (fun j hj => hall j (List.mem_cons_of_mem _ hj))]
    have hi := hall i List.mem_cons_self
    simp [pyGet?, List.getElem?_eq_getElem hi]

theorem range_even {c c' : Content} {n : Nat} (h : c.range 0 n = ok c') {p : Params} {starts stops : List Int}
    {d : Content} (hc : c = listArray p starts stops d) {p' : Params} {starts' stops' : List Int} {d' : Content}
    (hc' : c' = listArray p' starts' stops' d') : starts'.length = stops'.length := by
  have key : ∀ {l l' : List Int}, idxRange l 0 (n : Int) = ok l' → l'.length = n := by
    intro l l' h
    unfold idxRange at h
    split at h
    · cases h
    · split at h
      · simp only [ok.injEq] at h; subst h; simp; omega
      · split at h
        · cases h
        · simp only [ok.injEq] at h; subst h; simp; omega
  subst hc
  simp only [Content.range, bind_eq_ok, ok.injEq] at h
  obtain ⟨a, h1, b, h2, rfl⟩ := h
  simp only [listArray.injEq] at hc'
  obtain ⟨_, rfl, rfl, _⟩ := hc'
  rw [key h1, key h2]

/-- `c[mask]` of lists. -/
theorem getWhere_ok {mask : List Bool} {c d : Content} (hg : c.Good) (h : ListsOver {} d c)
    (hm : mask.length = c.len) (hne : chosen mask ≠ []) :
    ∃ c', getWhere mask c = ok c' ∧ c'.Good ∧ ListsOver {} d c' ∧ c'.len = (chosen mask).length ∧
      (∀ p starts stops e, c' = listArray p starts stops e → starts.length = stops.length) ∧
      ∀ k (hk : k < (chosen mask).length), c'.valD k = c.valD (chosen mask)[k] := by
  have hf : ∀ b, FitsTop b ((chosen mask).map Int.ofNat).length
      [.array [((chosen mask).map Int.ofNat).length] ((chosen mask).map Int.ofNat)] c :=
    fun b => ⟨⟨rfl, by simp, List.length_pos_of_ne_nil (by simpa using hne)⟩, .nil⟩
  have T := getitem_tot hg (hf false)
  have hsel : select [.array [((chosen mask).map Int.ofNat).length] ((chosen mask).map Int.ofNat)] none
      (.list (c.seg 0 c.len)) = some (.list ((chosen mask).map (fun i => (c.seg 0 c.len)[i]?.getD .null))) := by
    rw [select_array, mapM_chosen, Option.map_some, nest_one (by simp)]
    intro i hi
    have := List.mem_range.mp (List.mem_filter.mp hi).1
    simp [seg]; omega
  obtain ⟨it, hit⟩ := T.2 ⟨hf true, by rw [hsel]; rfl⟩
  have T1 := T.1
  rw [hit] at T1
  obtain ⟨v, w, t1, t2, t3⟩ := T1
  rw [hsel, Option.some.injEq] at t2
  obtain ⟨ca, e, c', i1, i2, i3, i4, i5, rfl⟩ := getitem_array_inv hg hit
  have hl' := (h.carry i2).range i4
  have hpar : c'.params = {} := by
    rcases hl' with ⟨_, rfl⟩ | ⟨_, _, rfl⟩ <;> rfl
  simp only [Item.toVal, i5.toList, bind_ok, hpar, ok.injEq] at t1
  subst t1
  have hvals : (List.range c'.len).map c'.valD = (chosen mask).map (fun i => (c.seg 0 c.len)[i]?.getD .null) := by
    rw [← t2] at t3
    rcases t3 with h | ⟨_, _, h⟩
    · simpa using h
    · simpa [Val.items] using h
  have hlen : c'.len = (chosen mask).length := by simpa using congrArg List.length hvals
  refine ⟨c', ?_, i5, hl', hlen, ?_, fun k hk => ?_⟩
  rotate_left
  · intro p starts stops e' he
    rcases h.carry i2 with ⟨o, rfl⟩ | ⟨s, t, rfl⟩
    · simp only [Content.range, bind_eq_ok, ok.injEq] at i4
      obtain ⟨_, _, h5⟩ := i4
      rw [he] at h5; cases h5
    · exact range_even i4 rfl he
  rotate_right
  · unfold getWhere
    rw [show mask.length = mask.length from rfl, maskSlice_ok (by simp), bind_ok, trueAt_chosen, hit, bind_ok]
  · have := congrArg (fun l => l[k]?) hvals
    simp only [List.getElem?_map, List.getElem?_range (show k < c'.len by omega), Option.map_some,
      List.getElem?_eq_getElem hk] at this
    simp only [Option.some.injEq] at this
    rw [this]
    have hb : (chosen mask)[k] < c.len := by
      have := List.mem_range.mp (List.mem_filter.mp (List.getElem_mem hk)).1
      omega
    simp [seg, hb]

/-- A row of an element-wise function of two lists of numbers. -/
theorem elementwise_row {f : List Atom → Atom} {as bs : List Atom} {out : Val} (hl : as.length = bs.length)
    (h : Elementwise f [.list (as.map .atom), .list (bs.map .atom)] out) :
    out = .list ((List.zipWith (fun a b => f [a, b]) as bs).map .atom) := by
  unfold Elementwise at h
  generalize hvs : [Val.list (as.map .atom), .list (bs.map .atom)] = vs at h
  generalize hos : [out] = outs at h
  cases h with
  | done h =>
    obtain ⟨xs, h1, _⟩ := h
    subst hvs
    cases xs <;> simp at h1
  | null hg h => subst hvs; simp at h
  | record hg names h hl' =>
    subst hvs
    exact absurd (show Val.list (as.map .atom) ∈ _ by simp) (hl' _)
  | list hg n h hl' hn ho hm hj =>
    subst hvs; subst hos
    obtain ⟨ys, rfl, hys⟩ := hm out (by simp)
    have hna : as.length = n := by simpa using hn (as.map .atom) (by simp)
    congr 1
    apply List.ext_getElem
    · simp; omega
    · intro j h1 h2
      have hjj := hj j (by omega)
      simp only [List.map_cons, List.map_nil, Val.elem] at hjj
      have ea : (as.map Val.atom)[j]?.getD .null = .atom (as[j]'(by omega)) := by
        rw [List.getElem?_eq_getElem (by simp; omega)]; simp
      have eb : (bs.map Val.atom)[j]?.getD .null = .atom (bs[j]'(by omega)) := by
        rw [List.getElem?_eq_getElem (by simp; omega)]; simp
      have ey : ys[j]?.getD .null = ys[j] := by
        rw [List.getElem?_eq_getElem (by omega)]; simp
      rw [ea, eb, ey] at hjj
      simp only [List.getElem_map, List.getElem_zipWith]
      generalize hvs : [Val.atom (as[j]'(by omega)), .atom (bs[j]'(by omega))] = vs at hjj
      generalize hos : [ys[j]] = outs at hjj
      cases hjj with
      | done h =>
        obtain ⟨xs, h1, h2⟩ := h
        subst hvs; subst hos
        match xs, h1 with
        | [a, b], h1 =>
          simp only [List.map_cons, List.map_nil, List.cons.injEq, Val.atom.injEq, and_true] at h1
          simp only [List.cons.injEq, and_true] at h2
          rw [h2, h1.1, h1.2]
      | null hg h => subst hvs; simp at h
      | record hg names h hl' hr =>
        subst hvs
        obtain ⟨v, hv, hr⟩ := hr
        simp only [List.mem_cons, List.not_mem_nil, or_false] at hv
        rcases hv with rfl | rfl <;> simp [Val.IsRecord] at hr
      | list hg n h hl' =>
        subst hvs
        obtain ⟨xs, hx⟩ := hl'
        simp at hx

theorem within_of_nonempty {dt : DType} {data : List Atom} {c : Content} (hg : c.Good)
    (h : ListsOver {} (numpy {} dt data) c) (hpos : 0 < c.len) (hne : ∀ i, i < c.len → c.valD i ≠ .list []) :
    Within c ∧ ∀ p starts stops d, c = listArray p starts stops d → starts.length = stops.length →
      ∀ x ∈ stops, 0 ≤ x ∧ x ≤ (d.len : Int) := by
  rcases h with ⟨o, rfl⟩ | ⟨starts, stops, rfl⟩
  · obtain ⟨hl, hc, hpair⟩ := good_listOffset.mp hg
    simp only [len] at hpos hne
    have hstrict : ∀ i (hi : i + 1 < o.length), 0 ≤ o[i] ∧ o[i] ≤ o[i + 1] ∧ o[i + 1] ≤ (data.length : Int) := by
      intro i hi
      have := hne i (by omega)
      rw [valD_listOffset hg hi] at this
      rcases hpair i hi with h | h
      · rw [← h] at this
        simp [seg, wrapList] at this
      · exact h
    refine ⟨fun p o' d h x hx => ?_, fun p starts stops d h => by simp at h⟩
    simp only [listOffset.injEq] at h
    obtain ⟨_, rfl, rfl⟩ := h
    obtain ⟨j, hj, rfl⟩ := List.mem_iff_getElem.mp hx
    simp only [len]
    by_cases hj1 : j + 1 < o.length
    · have := hstrict j hj1; omega
    · obtain ⟨j', rfl⟩ : ∃ j', j = j' + 1 := ⟨j - 1, by omega⟩
      have := hstrict j' hj; omega
  · obtain ⟨hl, hc, hpair⟩ := good_listArray.mp hg
    simp only [len] at hpos hne
    refine ⟨fun p o' d h => by simp at h, fun p starts' stops' d h hle x hx => ?_⟩
    simp only [listArray.injEq] at h
    obtain ⟨_, rfl, rfl, rfl⟩ := h
    obtain ⟨j, hj, rfl⟩ := List.mem_iff_getElem.mp hx
    have := hne j (by omega)
    rw [valD_listArray hg (by omega) hj] at this
    rcases hpair j (by omega) with h | h
    · rw [← h] at this
      simp [seg, wrapList] at this
    · simp only [len] at h ⊢; omega

theorem zipWith_all {as bs : List Atom} (h : as.length = bs.length) :
    (List.zipWith (fun a b => eqAtoms [a, b]) as bs).all truth = decide (as = bs) := by
  induction as generalizing bs with
  | nil =>
    cases bs with
    | nil => rfl
    | cons => simp at h
  | cons a as ih =>
    cases bs with
    | nil => simp at h
    | cons b bs =>
      simp only [List.length_cons, Nat.add_right_cancel_iff] at h
      rw [List.zipWith_cons_cons, List.all_cons, ih h]
      simp only [eqAtoms, truth]
      by_cases hab : a = b <;> simp [hab]

theorem present_mapAtoms (as : List Atom) : present (as.map Val.atom) = as := by
  induction as with
  | nil => rfl
  | cons a as ih =>
    unfold present at ih ⊢
    simp [ih]

/-- Comparing the characters of nonempty strings. -/
theorem sameCharacters_ok {k m : Nat} {one two : Content} {dt1 dt2 : DType} {data1 data2 : List Atom}
    (hm : 0 < m) (hg1 : one.Good) (hg2 : two.Good) (h1 : ListsOver {} (numpy {} dt1 data1) one)
    (h2 : ListsOver {} (numpy {} dt2 data2) two) (hd1 : data1.length < 2 ^ 63 - 1) (hd2 : data2.length < 2 ^ 63 - 1)
    (hl1 : one.len = m) (hl2 : two.len = m)
    (he1 : ∀ p starts stops e, one = listArray p starts stops e → starts.length = stops.length)
    (he2 : ∀ p starts stops e, two = listArray p starts stops e → starts.length = stops.length)
    {A B : Nat → List Atom} (hA : ∀ i, i < m → one.valD i = .list ((A i).map .atom))
    (hB : ∀ i, i < m → two.valD i = .list ((B i).map .atom))
    (hAB : ∀ i, i < m → (A i).length = (B i).length ∧ A i ≠ []) :
    sameCharacters (k + 3) one two = ok ((List.range m).map (fun i => .bool (decide (A i = B i)))) := by
  have flat : ∀ {c : Content} {dt : DType} {data : List Atom} {C : Nat → List Atom}, c.Good →
      ListsOver {} (numpy {} dt data) c → data.length < 2 ^ 63 - 1 → c.len = m →
      (∀ p starts stops e, c = listArray p starts stops e → starts.length = stops.length) →
      (∀ i, i < m → c.valD i = .list ((C i).map .atom)) → (∀ i, i < m → C i ≠ []) →
      FlatOrLists c ∧ UnnamedIn c ∧ c.hasBehavior = false ∧ c.isJagged = true := by
    intro c dt data C hg h hd hl he hC hne
    obtain ⟨w1, w2⟩ := within_of_nonempty hg h (by omega) (fun i hi => by
      rw [hC i (by omega)]
      have := hne i (by omega)
      simpa using this)
    rcases h with ⟨o, rfl⟩ | ⟨starts, stops, rfl⟩
    · refine ⟨⟨rfl, hd, w1 _ _ _ rfl⟩, ⟨hg, ?_⟩, rfl, rfl⟩
      rw [all_listOffset, all_numpy]
      exact ⟨⟨rfl, trivial⟩, trivial, rfl, rfl⟩
    · refine ⟨⟨rfl, hd, w2 _ _ _ _ rfl (he _ _ _ _ rfl)⟩, ⟨hg, ?_⟩, rfl, rfl⟩
      rw [all_listArray, all_numpy]
      exact ⟨⟨rfl, trivial⟩, trivial, rfl, rfl⟩
  have hneB : ∀ i, i < m → B i ≠ [] := by
    intro i hi hb
    obtain ⟨h3, h4⟩ := hAB i hi
    rw [hb] at h3
    exact h4 (List.length_eq_zero_iff.mp (by simpa using h3))
  obtain ⟨f1, u1, b1, j1⟩ := flat hg1 h1 hd1 hl1 he1 hA (fun i hi => (hAB i hi).2)
  obtain ⟨f2, u2, b2, j2⟩ := flat hg2 h2 hd2 hl2 he2 hB hneB
  obtain ⟨out, e1, e2, e3, data, e4, e5⟩ := elementwise_lists (f := eqAtoms) (dt := .bool) (k := k) (n := m)
    (cs := [one, two]) hm (by simpa using ⟨u1, u2⟩) (by simpa using ⟨f1, f2⟩) (by simpa using ⟨b1, b2⟩)
    (by simpa using ⟨hl1, hl2⟩) (fun i hi => ⟨(A i).length, by
      simp only [List.mem_cons, List.not_mem_nil, or_false, forall_eq_or_imp, forall_eq]
      refine ⟨fun xs hx => ?_, fun xs hx => ?_⟩
      · rw [hA i hi] at hx
        simp only [Val.list.injEq] at hx; subst hx; simp
      · rw [hB i hi] at hx
        simp only [Val.list.injEq] at hx; subst hx; simp [(hAB i hi).1]⟩) (c0 := one) (by simp) j1
  obtain ⟨out', ys, n, s1, s2, s3, _, _, s6⟩ := elementwise_sound (cs := [one, two]) (by simp)
    (by simpa using ⟨u1.bin, u2.bin⟩) e1
  simp only [Item.array.injEq] at s1
  subst s1
  rw [e2.toList, e3] at s2
  simp only [ok.injEq] at s2
  have hn : n = m := by rw [← s3, ← s2]; simp
  subst hn
  have hrow : ∀ i, i < n → out.valD i
      = .list ((List.zipWith (fun a b => eqAtoms [a, b]) (A i) (B i)).map .atom) := by
    intro i hi
    have := s6 i hi
    simp only [List.map_cons, List.map_nil, hl1, hl2] at this
    rw [show (if n = 1 then 0 else i) = i by split <;> omega, hA i hi, hB i hi] at this
    rw [← elementwise_row (hAB i hi).1 this, ← s2]
    simp [hi]
  unfold sameCharacters
  rw [e1, bind_ok]
  refine reduce_lists (red := .all) (p := {}) (q := {}) (dt := .bool) rfl trivial (by simp) rfl (fun x hx => ?_) e2 e4
    (within_of_nonempty e2 e4 (by omega) (fun i hi => ?_)).1 e3 hrow (fun i hi => ?_)
  · obtain ⟨as, rfl⟩ := e5 x hx
    unfold eqAtoms
    split <;> rfl
  · rw [hrow i (by omega)]
    obtain ⟨h3, h4⟩ := hAB i (by omega)
    have : (A i).length ≠ 0 := by simpa using h4
    intro h
    simp only [Val.list.injEq] at h
    have := congrArg List.length h
    simp only [List.length_map, List.length_zipWith, List.length_nil] at this
    omega
  · simp only [reduceList, Bool.false_and, Bool.false_eq_true, if_false, total, present_mapAtoms,
      zipWith_all (hAB i hi).1]

theorem assignWhere_ok (ps out : List Bool) (h : ps.length = out.length) :
    ∀ (g : Nat → Bool) , assignWhere ps out ((chosen ps).map g)
      = ok ((List.range ps.length).map (fun i => if ps[i]?.getD false then g i else out[i]?.getD false)) := by
  have hsucc : ∀ (p : Bool) (ps : List Bool), chosen (p :: ps)
      = (if p then [0] else []) ++ (chosen ps).map (· + 1) := by
    intro p ps
    unfold chosen
    rw [List.length_cons, List.range_succ_eq_map, List.filter_cons, List.filter_map]
    simp only [List.getElem?_cons_zero, Option.getD_some]
    cases p <;> simp <;> rfl
  induction ps generalizing out with
  | nil =>
    intro g
    cases out with
    | nil => rfl
    | cons => simp at h
  | cons p ps ih =>
    intro g
    cases out with
    | nil => simp at h
    | cons o out =>
      simp only [List.length_cons, Nat.add_right_cancel_iff] at h
      have := ih out h (fun i => g (i + 1))
      rw [hsucc]
      cases p with
      | true =>
        simp only [if_true, List.singleton_append, List.map_cons, List.map_map, assignWhere]
        rw [show (g ∘ fun x => x + 1) = (fun i => g (i + 1)) from rfl, this, bind_ok, List.length_cons,
          List.range_succ_eq_map]
        simp
      | false =>
        simp only [Bool.false_eq_true, if_false, List.nil_append, List.map_map, assignWhere]
        rw [show (g ∘ fun x => x + 1) = (fun i => g (i + 1)) from rfl, this, bind_ok, List.length_cons,
          List.range_succ_eq_map]
        simp

/-- An array of strings of bytes. -/
structure IsStrings (p : Params) (data : List Atom) (c : Content) : Prop where
  good : c.Good
  lists : ∃ q, ListsOver p (numpy q .uint8 data) c
  within : Within c
  bytes : ∀ x ∈ data, Spec.OfType .uint8 x
  size : data.length < 2 ^ 63 - 1

/-- `_string_equal`. -/
theorem stringEqual_ok {k n : Nat} {p1 p2 : Params} {data1 data2 : List Atom} {one two : Content}
    (h1 : IsStrings p1 data1 one) (h2 : IsStrings p2 data2 two) (hl1 : one.len = n) (hl2 : two.len = n) :
    ∃ A B : Nat → List Atom, (∀ i, i < n → one.valD i = wrapList p1 ((A i).map .atom)) ∧
      (∀ i, i < n → two.valD i = wrapList p2 ((B i).map .atom)) ∧
      stringEqual (k + 3) one two = ok ((List.range n).map (fun i => decide (A i = B i))) := by
  obtain ⟨q1, hq1⟩ := h1.lists
  obtain ⟨q2, hq2⟩ := h2.lists
  obtain ⟨c1, A, a1, a2, a3, a4, a5, a6⟩ := stripLists_ok h1.good hq1
  obtain ⟨c2, B, b1, b2, b3, b4, b5, b6⟩ := stripLists_ok h2.good hq2
  refine ⟨A, B, fun i hi => (a6 i (by omega)).1, fun i hi => (b6 i (by omega)).1, ?_⟩
  have w1 : Within c1 := by
    intro p o d h x hx
    obtain ⟨_, hp⟩ : p = {} ∧ d = numpy {} .uint8 data1 := by
      rcases a4 with ⟨o', h'⟩ | ⟨_, _, h'⟩
      · rw [h] at h'
        simp only [listOffset.injEq] at h'
        exact ⟨h'.1, h'.2.2⟩
      · rw [h] at h'; cases h'
    subst hp
    rename_i hp
    subst hp
    have := h1.within _ _ _ (a5 _ _ h) x hx
    simpa [len] using this
  have w2 : Within c2 := by
    intro p o d h x hx
    obtain ⟨_, hp⟩ : p = {} ∧ d = numpy {} .uint8 data2 := by
      rcases b4 with ⟨o', h'⟩ | ⟨_, _, h'⟩
      · rw [h] at h'
        simp only [listOffset.injEq] at h'
        exact ⟨h'.1, h'.2.2⟩
      · rw [h] at h'; cases h'
    subst hp
    rename_i hp
    subst hp
    have := h2.within _ _ _ (b5 _ _ h) x hx
    simpa [len] using this
  have r1 := reduce_lists (red := .count) (p := {}) (q := {}) rfl trivial (by simp) rfl h1.bytes a2 a4 w1
    (n := n) (by omega) (F := fun i => (A i).map .atom) (fun i hi => (a6 i (by omega)).2)
    (a := fun i => .int (A i).length)
    (fun i hi => by simp only [reduceList, Bool.false_and, Bool.false_eq_true, if_false, total, present_mapAtoms])
  have r2 := reduce_lists (red := .count) (p := {}) (q := {}) rfl trivial (by simp) rfl h2.bytes b2 b4 w2
    (n := n) (by omega) (F := fun i => (B i).map .atom) (fun i hi => (b6 i (by omega)).2)
    (a := fun i => .int (B i).length)
    (fun i hi => by simp only [reduceList, Bool.false_and, Bool.false_eq_true, if_false, total, present_mapAtoms])
  unfold stringEqual
  rw [a1, bind_ok, b1, bind_ok, r1, bind_ok, r2, bind_ok, if_neg (by simp)]
  have hout : List.zipWith (fun a b => decide (a = b)) ((List.range n).map (fun i => Atom.int (A i).length))
      ((List.range n).map (fun i => Atom.int (B i).length))
      = (List.range n).map (fun i => decide ((A i).length = (B i).length)) := by
    rw [List.zipWith_map, List.zipWith_self]
    refine List.map_congr_left (fun i _ => ?_)
    simp
  simp only [hout]
  have hposs : List.zipWith (fun b n => b && decide (n ≠ Atom.int 0))
      ((List.range n).map (fun i => decide ((A i).length = (B i).length)))
      ((List.range n).map (fun i => Atom.int (A i).length))
      = (List.range n).map (fun i => decide ((A i).length = (B i).length) && decide (A i ≠ [])) := by
    rw [List.zipWith_map, List.zipWith_self]
    refine List.map_congr_left (fun i _ => ?_)
    simp
  rw [hposs]
  generalize hP : (List.range n).map (fun i => decide ((A i).length = (B i).length) && decide (A i ≠ [])) = P
  have hPl : P.length = n := by rw [← hP]; simp
  have hPi : ∀ i, i < n → P[i]?.getD false = (decide ((A i).length = (B i).length) && decide (A i ≠ [])) := by
    intro i hi
    rw [← hP]; simp [hi]
  have hmem : ∀ i ∈ chosen P, i < n ∧ (A i).length = (B i).length ∧ A i ≠ [] := by
    intro i hi
    obtain ⟨h3, h4⟩ := List.mem_filter.mp hi
    have h3 := List.mem_range.mp h3
    rw [hPi i (by omega)] at h4
    simp only [Bool.and_eq_true, decide_eq_true_eq] at h4
    exact ⟨by omega, h4⟩
  have hrest : ∀ i, i < n → P[i]?.getD false = false → decide ((A i).length = (B i).length) = decide (A i = B i) := by
    intro i hi h
    rw [hPi i hi] at h
    by_cases hl : (A i).length = (B i).length
    · have hz : A i = [] := by
        apply Classical.byContradiction
        intro hz
        simp [hl, hz] at h
      rw [hz] at hl ⊢
      have : B i = [] := List.length_eq_zero_iff.mp (by simpa using hl.symm)
      simp [this]
    · have : A i ≠ B i := fun he => hl (by rw [he])
      simp [hl, this]
  by_cases hany : P.any id = true
  · rw [if_pos hany]
    have hne : chosen P ≠ [] := by
      rw [List.any_eq_true] at hany
      obtain ⟨b, hb, hb1⟩ := hany
      obtain ⟨i, hi, rfl⟩ := List.mem_iff_getElem.mp hb
      intro he
      have : i ∈ chosen P := List.mem_filter.mpr ⟨List.mem_range.mpr hi, by
        rw [List.getElem?_eq_getElem hi]; simpa using hb1⟩
      rw [he] at this; cases this
    obtain ⟨d1, g1, g2, g3, g4, g5, g6⟩ := getWhere_ok (mask := P) a2 a4 (by omega) hne
    obtain ⟨d2, k1, k2, k3, k4, k5, k6⟩ := getWhere_ok (mask := P) b2 b4 (by omega) hne
    have hin : ∀ j (hj : j < (chosen P).length), (chosen P)[j] < n ∧
        (A (chosen P)[j]).length = (B (chosen P)[j]).length ∧ A (chosen P)[j] ≠ [] :=
      fun j hj => hmem _ (List.getElem_mem hj)
    have hs := sameCharacters_ok (k := k) (List.length_pos_of_ne_nil hne) g2 k2 g3 k3 h1.size h2.size g4 k4 g5 k5
      (A := fun j => A ((chosen P)[j]?.getD 0)) (B := fun j => B ((chosen P)[j]?.getD 0))
      (fun j hj => by
        rw [g6 j hj, List.getElem?_eq_getElem hj, Option.getD_some]
        exact (a6 _ (by have := (hin j hj).1; omega)).2)
      (fun j hj => by
        rw [k6 j hj, List.getElem?_eq_getElem hj, Option.getD_some]
        exact (b6 _ (by have := (hin j hj).1; omega)).2)
      (fun j hj => by
        rw [List.getElem?_eq_getElem hj, Option.getD_some]
        exact (hin j hj).2)
    rw [g1, bind_ok, k1, bind_ok, hs, bind_ok, List.map_map]
    have he : (List.range (chosen P).length).map ((fun a => decide (a = Atom.bool true)) ∘ fun i =>
        Atom.bool (decide (A ((chosen P)[i]?.getD 0) = B ((chosen P)[i]?.getD 0))))
        = (chosen P).map (fun i => decide (A i = B i)) := by
      apply List.ext_getElem
      · simp
      · intro j h3 h4
        simp only [List.length_map, List.length_range] at h3
        simp [h3]
    rw [he, assignWhere_ok P _ (by simp [hPl])]
    rw [hPl]
    congr 1
    refine List.map_congr_left (fun i hi => ?_)
    have hi := List.mem_range.mp hi
    split
    · rfl
    · rename_i hb
      simp only [List.getElem?_map, List.getElem?_range hi, Option.map_some, Option.getD_some]
      exact hrest i hi (by simpa using hb)
  · rw [if_neg hany]
    congr 1
    refine List.map_congr_left (fun i hi => ?_)
    have hi := List.mem_range.mp hi
    refine hrest i hi ?_
    cases hb : P[i]?.getD false with
    | false => rfl
    | true =>
      exfalso
      apply hany
      rw [List.any_eq_true]
      refine ⟨P[i]'(by omega), List.getElem_mem _, ?_⟩
      rw [List.getElem?_eq_getElem (by omega)] at hb
      simpa using hb

theorem Within.range {c c' : Content} (h : Within c) {a b : Int} (hl : ∃ p d, ListsOver p d c) (hr : c.range a b = ok c') :
    Within c' := by
  obtain ⟨p, d, hl⟩ := hl
  rcases hl with ⟨o, rfl⟩ | ⟨starts, stops, rfl⟩
  · simp only [Content.range, bind_eq_ok, ok.injEq] at hr
    obtain ⟨o', h1, rfl⟩ := hr
    intro p' o'' d' he x hx
    simp only [listOffset.injEq] at he
    obtain ⟨rfl, rfl, rfl⟩ := he
    refine h _ _ _ rfl x ?_
    unfold idxRange at h1
    split at h1
    · cases h1
    · split at h1
      · simp only [ok.injEq] at h1; subst h1; cases hx
      · split at h1
        · cases h1
        · simp only [ok.injEq] at h1; subst h1
          exact List.mem_of_mem_drop (List.mem_of_mem_take hx)
  · simp only [Content.range, bind_eq_ok, ok.injEq] at hr
    obtain ⟨o', _, _, _, rfl⟩ := hr
    intro p' o'' d' he
    cases he

theorem Within.carry {c c' : Content} (h : Within c) {lz : Bool} {idx : List Int} (hl : ∃ p d, ListsOver p d c)
    (hr : c.carry lz idx = ok c') : Within c' := by
  obtain ⟨p, d, hl⟩ := hl
  have hl' := hl
  rcases hl with ⟨offs, rfl⟩ | ⟨starts, stops, rfl⟩
  · simp only [Content.carry] at hr
    split at hr
    · split at hr
      · simp only [ok.injEq] at hr; subst hr; exact h
      · exact h.range ⟨_, _, hl'⟩ hr
    · simp only [bind_eq_ok] at hr
      obtain ⟨x, _, hr⟩ := hr
      simp only [ok.injEq] at hr; subst hr
      intro p' o'' d' he
      cases he
  · have := hl'.carry hr
    simp only [Content.carry] at hr
    split at hr
    · split at hr
      · simp only [ok.injEq] at hr; subst hr; exact h
      · exact h.range ⟨_, _, hl'⟩ hr
    · split at hr
      · cases hr
      · simp only [bind_eq_ok] at hr
        obtain ⟨x, _, hr⟩ := hr
        simp only [ok.injEq] at hr; subst hr
        intro p' o'' d' he
        cases he

theorem IsStrings.jagged {p : Params} {data : List Atom} {c : Content} (h : IsStrings p data c) :
    c.params = p ∧ c.isJagged = true ∧ c.purelistIsregular = false ∧ (pack c).purelistIsregular = false ∧
      deregulate (pack c) = ok Option.none := by
  obtain ⟨q, ⟨o, rfl⟩ | ⟨s, t, rfl⟩⟩ := h.lists <;>
    exact ⟨rfl, rfl, by simp [purelistIsregular], by simp [pack, purelistIsregular], rfl⟩

/-- The strings of one side, repeated if there is only one. -/
theorem IsStrings.regular {p : Params} {data : List Atom} {c : Content} (h : IsStrings p data c) {N : Nat}
    (hl : c.len = N ∨ (c.len = 1 ∧ 1 < N)) :
    ∃ c', bcastRegular N (pack c) = ok c' ∧ IsStrings p data c' ∧ c'.len = N ∧
      ∀ i, i < N → c'.valD i = c.valD (if c.len = 1 then 0 else i) := by
  have hlen := pack_len c
  simp only [pack] at hlen
  obtain ⟨b, hb1, hb2, hb3⟩ := getitemRange_zero c c.len
  have hb : b = c.len := Nat.le_antisymm hb1 (hb3 c.len (by omega) (by omega))
  subst hb
  obtain ⟨d, d1, d2, _, d4, _⟩ := range_good h.good (a := 0) (b := c.len) (by omega) (by omega)
  obtain ⟨q, hq⟩ := h.lists
  have hs : IsStrings p data d :=
    ⟨d2, ⟨q, hq.range d1⟩, h.within.range ⟨_, _, hq⟩ d1, h.bytes, h.size⟩
  have hdl : d.len = c.len := by simpa using d4.1
  have hdv : ∀ i, i < c.len → d.valD i = c.valD i := fun i hi => by
    have := d4.valD (i := i) (by omega)
    simpa using this
  simp only [pack, bcastRegular, hlen, Nat.one_mul, hb2]
  by_cases hN : N > 1 ∧ c.len = 1
  · rw [if_pos hN, show c.range 0 (c.len : Int) = ok d from d1, bind_ok]
    simp only [List.range_one, List.map_cons, List.map_nil, List.flatten_cons, List.flatten_nil,
      List.append_nil]
    have hg : (indexed {} (List.replicate N ((0 : Nat) : Int)) d).Good := by
      refine good_indexed.mpr ⟨d2, ?_⟩
      intro j hj
      simp only [List.getElem_replicate]
      omega
    obtain ⟨e, e1, e2, e3, e4, e5, e6⟩ := project_indexed hg
    have he := e1
    simp only [project, bind_eq_ok] at he
    obtain ⟨nc, _, he⟩ := he
    obtain ⟨q, hq⟩ := hs.lists
    refine ⟨e, e1, ⟨e2, ⟨q, hq.carry he⟩, hs.within.carry ⟨_, _, hq⟩ he, h.bytes, h.size⟩, by simpa using e4,
      fun i hi => ?_⟩
    rw [e5 i (by simpa using hi), if_pos hN.2, valD_indexed hg (by simpa using hi)]
    simp [hdv 0 (by omega)]
  · rw [if_neg hN, if_pos (by omega)]
    refine ⟨d, d1, hs, by omega, fun i hi => ?_⟩
    rw [hdv i (by omega)]
    split
    · have : i = 0 := by omega
      rw [this]
    · rfl

/-- `==` between arrays of strings, with one of them repeated if it is the only one. -/
theorem equalArrays_ok {k N : Nat} {p1 p2 : Params} {data1 data2 : List Atom} {one two : Content}
    (h1 : IsStrings p1 data1 one) (h2 : IsStrings p2 data2 two)
    (hp : p1.arr = .string ∧ p2.arr = .string ∨ p1.arr = .bytestring ∧ p2.arr = .bytestring)
    (hr1 : p1.recName = Option.none) (hr2 : p2.recName = Option.none) (hN : max one.len two.len = N)
    (hl1 : one.len = N ∨ (one.len = 1 ∧ 1 < N)) (hl2 : two.len = N ∨ (two.len = 1 ∧ 1 < N)) :
    ∃ (out : Content) (A B : Nat → List Atom),
      (∀ i, i < N → one.valD (if one.len = 1 then 0 else i) = wrapList p1 ((A i).map .atom)) ∧
      (∀ i, i < N → two.valD (if two.len = 1 then 0 else i) = wrapList p2 ((B i).map .atom)) ∧
      equalArrays (k + 3) one two = ok (.array out) ∧
      out.toList = ok ((List.range N).map (fun i => .atom (.bool (decide (A i = B i))))) := by
  obtain ⟨c1, a1, a2, a3, a4⟩ := h1.regular hl1
  obtain ⟨c2, b1, b2, b3, b4⟩ := h2.regular hl2
  obtain ⟨A, B, s1, s2, s3⟩ := stringEqual_ok (k := k) a2 b2 a3 b3
  have hg := good_numpy {} .bool ((List.range N).map (fun i => Atom.bool (decide (A i = B i))))
  have hv : ∀ i, i < N → (numpy {} .bool ((List.range N).map (fun i => Atom.bool (decide (A i = B i))))).valD i
      = .atom (.bool (decide (A i = B i))) := by
    intro i hi
    rw [valD_numpy (by simpa using hi)]
    simp [hi]
  generalize hO : numpy {} .bool ((List.range N).map (fun i => Atom.bool (decide (A i = B i)))) = O at hg hv
  have hOl : O.len = N := by rw [← hO]; simp [len]
  obtain ⟨out, o1, o2, _, o4, _⟩ := range_good hg (a := 0) (b := N) (by omega) (by omega)
  have hol : out.len = N := by simpa using o4.1
  refine ⟨out, A, B, fun i hi => by rw [← a4 i hi]; exact s1 i hi, fun i hi => by rw [← b4 i hi]; exact s2 i hi,
    ?_, ?_⟩
  · obtain ⟨j1, j2, j3, j4, j5⟩ := h1.jagged
    obtain ⟨k1, k2, k3, k4, k5⟩ := h2.jagged
    obtain ⟨l1, l2, _⟩ := a2.jagged
    obtain ⟨m1, m2, _⟩ := b2.jagged
    unfold equalArrays bcastAndApply
    rw [show (fun c : Content => Content.regular {} c c.len 1) = pack from rfl]
    simp only [List.map_cons, List.map_nil]
    rw [bcastWith]
    have hright : rightBroadcast [pack one, pack two] = [pack one, pack two] := by
      unfold rightBroadcast
      split
      · simp only
        split
        · rename_i h
          obtain ⟨_, h⟩ := h
          simp [j4] at h
        · rfl
      · rfl
    have hget : equalGet (k + 3) 0 [pack one, pack two] = ok Option.none := by
      unfold equalGet
      have : bothStrings [pack one, pack two] = Option.none := by simp [bothStrings, pack, params]
      rw [this]
      simp only [ufuncGet, mapR, j5, k5, bind_ok, allSome]
      simp [pack, hasBehavior, params]
    simp only [regularToJagged_id, bind_ok, if_true, hright, hget]
    rw [if_neg (by simp [pack_len])]
    unfold bcastSwitch
    rw [if_neg (by simp [pack]), if_neg (by simp [pack]), if_neg (by simp [pack, isUnion]),
      if_neg (by simp [pack, isOption]), if_pos (by simp [pack, isListNode]), if_pos (by simp [pack, isJagged])]
    unfold regularStep
    have hM : ([pack one, pack two].map regularSize).foldl max 0 = N := by
      simp [pack, regularSize, hN]
    simp only [hM, mapR, a1, b1, bind_ok]
    rw [bcastWith]
    have hright2 : rightBroadcast [c1, c2] = [c1, c2] := by
      unfold rightBroadcast
      split
      · simp only
        split
        · rename_i h
          obtain ⟨_, h⟩ := h
          simp [a2.jagged.2.2.1] at h
        · rfl
      · rfl
    have hget2 : equalGet (k + 3) (0 + 1) [c1, c2] = ok (some [O]) := by
      unfold equalGet
      have : bothStrings [c1, c2] = some (c1, c2) := by
        simp only [bothStrings, l1, m1]
        rw [if_pos]
        exact ⟨hp, hr1, hr2⟩
      rw [this]
      simp only [s3, bind_ok, List.map_map, ← hO]
      rfl
    simp only [regularToJagged_id, bind_ok, if_true, hright2, hget2]
    rw [if_neg (by simp [a3, b3])]
    simp only [bind_ok, List.map_cons, List.map_nil, List.foldl_cons, List.foldl_nil, a3, b3, Nat.zero_max, Nat.max_self,
      mapR]
    have hit : bcastItem (Content.regular {} O N N) = ok (.array out) := by
      unfold bcastItem
      by_cases hz : N = 0
      · subst hz
        rw [if_pos (by simp [Content.len])]
        simp only
        rw [show O.range 0 0 = ok out from o1, bind_ok]
      · have hl : (Content.regular {} O N N).len = 1 := by
          simp only [Content.len]
          rw [if_pos (by omega), hOl, Nat.div_self (by omega)]
        rw [if_neg (by omega)]
        unfold getitemAt
        simp only [Int.lt_irrefl, if_false]
        rw [if_neg (by omega)]
        simp only [getitemAtNowrap, show (0 : Int).toNat = 0 from rfl, Nat.cast_zero, Int.zero_mul,
          Int.zero_add, Int.one_mul]
        rw [show (O.range 0 N) = ok out from o1]
        rfl
    rw [hit]
    rfl
  · rw [o2.toList, hol]
    congr 1
    refine List.map_congr_left (fun i hi => ?_)
    have hi := List.mem_range.mp hi
    have := o4.valD (i := i) (by omega)
    rw [this, Nat.zero_add, hv i hi]

end Content
end Awk
