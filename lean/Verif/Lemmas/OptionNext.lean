import Verif.Lemmas.List
/-
Operations that work on the non-missing elements and put the missing ones back.
-/

namespace Awk
open R

/-- How many of the first `i` positions `q` selects. -/
def cnt (q : Nat → Option Int) (i : Nat) : Nat := ((List.range i).filterMap q).length

theorem filterMap_range_succ (q : Nat → Option Int) (n : Nat) :
    (List.range (n + 1)).filterMap q = (List.range n).filterMap q ++ (q n).toList := by
  rw [List.range_succ, List.filterMap_append]
  cases h : q n <;> simp [h]

theorem cnt_succ (q : Nat → Option Int) (n : Nat) :
    cnt q (n + 1) = cnt q n + (if (q n).isSome then 1 else 0) := by
  unfold cnt
  rw [filterMap_range_succ]
  cases q n <;> simp

theorem cnt_mono {q : Nat → Option Int} {i n : Nat} (h : i ≤ n) : cnt q i ≤ cnt q n := by
  induction n with
  | zero => have : i = 0 := by omega
            subst this; exact Nat.le_refl _
  | succ n ih =>
    by_cases he : i = n + 1
    · subst he; exact Nat.le_refl _
    · have := ih (by omega); rw [cnt_succ]; omega

/-- Where a selected position lands. -/
theorem filterMap_range_get' {q : Nat → Option Int} {n i : Nat} {j : Int} (hi : i < n)
    (hq : q i = some j) : ((List.range n).filterMap q)[cnt q i]? = some j := by
  induction n with
  | zero => omega
  | succ n ih =>
    rw [filterMap_range_succ]
    by_cases he : i = n
    · subst he
      unfold cnt
      rw [List.getElem?_append_right (Nat.le_refl _), hq]; simp
    · have h1 := ih (by omega)
      rw [List.getElem?_append_left (List.getElem?_eq_some_iff.mp h1).1]
      exact h1

/-- The index that puts the missing elements back. -/
def outIndex (q : Nat → Option Int) (n : Nat) : List Int :=
  (List.range n).map (fun i => if (q i).isSome then (cnt q i : Int) else -1)

@[simp] theorem outIndex_length (q : Nat → Option Int) (n : Nat) : (outIndex q n).length = n := by
  simp [outIndex]

theorem outIndex_getElem {q : Nat → Option Int} {n i : Nat} (h : i < (outIndex q n).length) :
    (outIndex q n)[i] = if (q i).isSome then (cnt q i : Int) else -1 := by
  simp [outIndex]

theorem outIndex_succ (q : Nat → Option Int) (n : Nat) :
    outIndex q (n + 1) = outIndex q n ++ [if (q n).isSome then (cnt q n : Int) else -1] := by
  simp [outIndex, List.range_succ]

theorem set_at_length {l : List α} {rest : List α} {x : α} (h : 1 ≤ rest.length) :
    (l ++ rest).set l.length x = l ++ [x] ++ rest.drop 1 := by
  cases rest with
  | nil => simp at h
  | cons y r => simp [List.set_append_right]

/-- The loop of the `nextcarry_outindex` kernels. -/
theorem nextcarry_loop {n : Nat}
    {body : Nat → (Nat × List Int) × List Int → R ((Nat × List Int) × List Int)}
    (q : Nat → Option Int) {carry idx : List Int}
    (hb : ∀ i, i < n → ∀ st, body i st = (match q i with
      | none => wr st.2 (i : Int) (-1) >>= fun toindex => ok (st.1, toindex)
      | some j => pushOpt st.1 (some j) >>= fun kc =>
          wr st.2 (i : Int) (st.1.1 : Int) >>= fun toindex => ok (kc, toindex)))
    (hc : carry.length = cnt q n) (hi : idx.length = n) :
    forN n body ((0, carry), idx)
      = ok ((cnt q n, (List.range n).filterMap q), outIndex q n) := by
  suffices hs : ∀ m, m ≤ n → forN m body ((0, carry), idx)
      = ok ((cnt q m, (List.range m).filterMap q ++ carry.drop (cnt q m)),
          outIndex q m ++ idx.drop m) by
    rw [hs n (Nat.le_refl _), List.drop_eq_nil_of_le (by omega), List.drop_eq_nil_of_le (by omega)]
    simp
  intro m
  induction m with
  | zero => intro _; simp [forN, cnt, outIndex]
  | succ m ih =>
    intro hm
    rw [forN_succ, ih (by omega), bind_ok, hb m (by omega)]
    have hmono := cnt_mono (q := q) hm
    have hset : ∀ x : Int, wr (outIndex q m ++ idx.drop m) (m : Int) x
        = ok (outIndex q m ++ [x] ++ idx.drop (m + 1)) := by
      intro x
      rw [wr_nat_ok (by simp; omega)]
      have := set_at_length (l := outIndex q m) (rest := idx.drop m) (x := x)
        (by rw [List.length_drop]; omega)
      rw [outIndex_length] at this
      rw [this, List.drop_drop]
    cases hq : q m with
    | none =>
      simp only
      rw [hset, bind_ok, outIndex_succ, filterMap_range_succ, hq]
      have : cnt q (m + 1) = cnt q m := by rw [cnt_succ, hq]; simp
      rw [this]; simp
    | some j =>
      have hcs : cnt q (m + 1) = cnt q m + 1 := by rw [cnt_succ, hq]; simp
      simp only
      have := pushOpt_append (done := (List.range m).filterMap q) (rest := carry.drop (cnt q m))
        (x := j) (by rw [List.length_drop]; omega)
      rw [show ((List.range m).filterMap q).length = cnt q m from rfl] at this
      rw [this, bind_ok, hset, bind_ok, outIndex_succ, filterMap_range_succ, hq, hcs]
      simp [cnt, List.drop_drop]

namespace Content

/-- `pick` as an integer. -/
def pickI (c : Content) (i : Nat) : Option Int := (c.pick i).map (fun (k : Nat) => (k : Int))

theorem shown_eq (c : Content) : c.shown = (List.range c.len).filterMap c.pickI := rfl

theorem cnt_sub {q : Nat → Option Int} {n m : Nat} (h : m = (List.range n).countP (fun i => (q i).isNone)) :
    n - m = cnt q n := by
  have h1 := countP_sub (List.range n) (fun i => (q i).isNone)
  rw [List.length_range, ← h] at h1
  rw [h1, cnt, filterMap_length_countP]
  congr 1
  funext i
  cases q i <;> rfl

theorem nextcarryOutindex_ok {c : Content} (h : c.Good)
    (hk : (∃ p index d, c = indexedOption p index d) ∨ (∃ p mask vw d, c = byteMasked p mask vw d)) :
    ∃ numnull, c.nextcarryOutindex = ok (numnull, c.shown, outIndex c.pickI c.len) ∧
      c.len = c.shown.length + numnull := by
  have hsum : ∀ {q : Nat → Option Int} {n : Nat},
      n = cnt q n + (List.range n).countP (fun i => (q i).isNone) := by
    intro q n
    have := cnt_sub (q := q) (n := n) rfl
    have h2 := List.countP_le_length (p := fun i => (q i).isNone) (l := List.range n)
    rw [List.length_range] at h2
    omega
  rcases hk with ⟨p, index, d, rfl⟩ | ⟨p, mask, vw, d, rfl⟩
  · obtain ⟨hd, hlt⟩ := good_indexedOption.mp h
    refine ⟨(List.range index.length).countP
      (fun i => ((indexedOption p index d).pickI i).isNone), ?_, hsum⟩
    simp only [nextcarryOutindex]
    have h1 : IndexedArray_numnull index index.length = ok ((List.range index.length).countP
        (fun i => ((indexedOption p index d).pickI i).isNone)) := by
      unfold IndexedArray_numnull
      refine forN_count _ (fun i hi k => ?_)
      rw [rd_nat_ok hi, bind_ok]
      simp only [pickI, pick, List.getElem?_eq_getElem hi, Option.getD_some]
      by_cases hneg : index[i] < 0 <;> simp [hneg]
    rw [h1, bind_ok]
    unfold IndexedArray_getitem_nextcarry_outindex
    rw [nextcarry_loop (indexedOption p index d).pickI ?_ ?_ (alloc_length _), bind_ok, bind_ok]
    · rfl
    · intro i hi st
      rw [rd_nat_ok hi, bind_ok, if_neg (by have := hlt i hi; omega)]
      simp only [pickI, pick, List.getElem?_eq_getElem hi, Option.getD_some]
      by_cases hneg : index[i] < 0
      · simp [hneg]
      · simp only [hneg, if_false, Option.map_some]
        rw [show ((index[i].toNat : Nat) : Int) = index[i] by omega]
    · have hc := cnt_sub (q := (indexedOption p index d).pickI) (n := index.length) rfl
      have h2 := List.countP_le_length
        (p := fun i => ((indexedOption p index d).pickI i).isNone) (l := List.range index.length)
      rw [List.length_range] at h2
      rw [show ((index.length : Int) - (((List.range index.length).countP
        (fun i => ((indexedOption p index d).pickI i).isNone) : Nat) : Int))
        = ((cnt (indexedOption p index d).pickI index.length : Nat) : Int) by omega, alloc_length]
  · obtain ⟨hl, hd⟩ := good_byteMasked.mp h
    refine ⟨(List.range mask.length).countP
      (fun i => ((byteMasked p mask vw d).pickI i).isNone), ?_, hsum⟩
    simp only [nextcarryOutindex]
    have h1 : ByteMaskedArray_numnull mask mask.length vw = ok ((List.range mask.length).countP
        (fun i => ((byteMasked p mask vw d).pickI i).isNone)) := by
      unfold ByteMaskedArray_numnull
      refine forN_count _ (fun i hi k => ?_)
      rw [rd_nat_ok hi, bind_ok]
      simp only [pickI, pick, maskOk, List.getElem?_eq_getElem hi, Option.getD_some]
      by_cases hm : decide (mask[i] ≠ 0) = vw <;> simp [hm]
    rw [h1, bind_ok]
    unfold ByteMaskedArray_getitem_nextcarry_outindex
    rw [nextcarry_loop (byteMasked p mask vw d).pickI ?_ ?_ (alloc_length _), bind_ok, bind_ok]
    · rfl
    · intro i hi st
      rw [rd_nat_ok hi, bind_ok]
      simp only [pickI, pick, maskOk, List.getElem?_eq_getElem hi, Option.getD_some]
      by_cases hm : decide (mask[i] ≠ 0) = vw
      · simp only [hm, if_true, decide_true]
        rfl
      · simp only [hm, if_false, decide_false, Bool.false_eq_true]
        rfl
    · have hc := cnt_sub (q := (byteMasked p mask vw d).pickI) (n := mask.length) rfl
      have h2 := List.countP_le_length
        (p := fun i => ((byteMasked p mask vw d).pickI i).isNone) (l := List.range mask.length)
      rw [List.length_range] at h2
      rw [show ((mask.length : Int) - (((List.range mask.length).countP
        (fun i => ((byteMasked p mask vw d).pickI i).isNone) : Nat) : Int))
        = ((cnt (byteMasked p mask vw d).pickI mask.length : Nat) : Int) by omega, alloc_length]

/-- `c'` shows `F` of the elements of `c`, and possibly more elements after them. -/
structure Maps (c c' : Content) (F : Val → Val) : Prop where
  good : c'.Good
  len_le : c.len ≤ c'.len
  val : ∀ i, i < c.len → c'.valD i = F (c.valD i)

theorem inner_good {c : Content} (h : c.Good) : c.inner.Good := by
  cases c <;> simp only [inner] <;> first | exact h | exact h.child (by simp [children])

theorem inner_rank {c : Content} (ho : c.isOptionOrIndexed = true) : c.inner.rank + 1 ≤ c.rank := by
  cases c <;> simp only [isOptionOrIndexed, Bool.false_eq_true] at ho <;> simp [inner, rank]

/-- `simplify_optiontype` on a new IndexedOptionArray. -/
theorem indexedSimplify_good {p : Params} {index : List Int} {c : Content} (h : c.Good)
    (hlt : ∀ i (h : i < index.length), index[i] < c.len) :
    ∃ c', indexedSimplify true p index c = ok c' ∧ c'.Good ∧ c'.len = index.length ∧
      ∀ i (h : i < index.length),
        c'.valD i = if index[i] < 0 then .null else c.valD index[i].toNat := by
  have hg : (indexedOption p index c).Good := good_indexedOption.mpr ⟨h, hlt⟩
  obtain ⟨c', h1, h2, h3, h4, h5⟩ := indexedSimplify_ok (b := true) h.wf hg.toList
  simp only [if_true] at h2 h4
  obtain ⟨h6, h7⟩ := toList_inv h2
  have hlen : c'.len = index.length := by
    have := congrArg List.length h6
    simpa [len] using this.symm
  refine ⟨c', h1, ⟨h3, h7, ?_⟩, hlen, ?_⟩
  · by_cases ho : c.isOptionOrIndexed = true
    · obtain ⟨idx, he, _⟩ := h5 ho
      rw [he]; simpa [children] using inner_good h
    · rw [h4 (by simpa using ho)]; simpa [children] using h
  · intro i hi
    have h8 := congrArg (fun l => l[i]?) h6
    simp only [len, List.getElem?_map, List.getElem?_range hi,
      List.getElem?_range (show i < c'.len by omega), Option.map_some, Option.some.injEq] at h8
    rw [← h8, valD_indexedOption hg hi]

/-- Mapping the shown elements and putting the missing ones back. -/
theorem outIndex_simplify {c next out : Content} {F : Val → Val} (h : c.Good)
    (ho : c.isOptionOrIndexed = true) (hF : F .null = .null) (hp : Picks next c.inner c.shown)
    (hm : Maps next out F) :
    ∃ c', indexedSimplify true {} (outIndex c.pickI c.len) out = ok c' ∧ c'.len = c.len ∧
      Maps c c' F := by
  have hlen : next.len = cnt c.pickI c.len := by rw [hp.1]; rfl
  have hb : ∀ i, i < c.len → (c.pickI i).isSome → cnt c.pickI i < cnt c.pickI c.len := by
    intro i hi hs
    have h1 := cnt_mono (q := c.pickI) (show i + 1 ≤ c.len by omega)
    rw [cnt_succ, if_pos hs] at h1; omega
  obtain ⟨c', h1, h2, h3, h4⟩ := indexedSimplify_good (p := {}) (index := outIndex c.pickI c.len)
    hm.good (by
      intro i hi
      rw [outIndex_getElem]
      have hle := hm.len_le
      split
      · rename_i hs
        have := hb i (by simpa using hi) hs; omega
      · omega)
  rw [outIndex_length] at h3
  refine ⟨c', h1, h3, ⟨h2, by omega, ?_⟩⟩
  intro i hi
  obtain ⟨g1, g2⟩ := val_inner_pick h ho hi
  rw [h4 i (by simpa using hi), outIndex_getElem, g1]
  cases hpk : c.pick i with
  | none => simp [pickI, hpk, hF]
  | some k =>
    have hs : (c.pickI i).isSome := by simp [pickI, hpk]
    have hlt := hb i hi hs
    simp only [hs, if_true]
    rw [if_neg (by omega), show ((cnt c.pickI i : Nat) : Int).toNat = cnt c.pickI i by omega,
      hm.val _ (by omega)]
    congr 1
    have hget : c.shown[cnt c.pickI i]? = some (k : Int) := by
      rw [shown_eq]; exact filterMap_range_get' hi (by simp [pickI, hpk])
    obtain ⟨hb', he⟩ := List.getElem?_eq_some_iff.mp hget
    rw [hp.valD hb', he]; rfl

theorem shown_good {c : Content} (h : c.Good) (ho : c.isOption = true) :
    InRange c.shown c.inner.len := shown_inRange h.wf ho h.rd

/-- The option branch shared by `num` and `localindex`. -/
theorem throughOption_tot {c : Content} {f : Content → R Content} {F : Val → Val} {hh : Prop}
    (h : c.Good)
    (hk : (∃ p index d, c = indexedOption p index d) ∨ (∃ p mask vw d, c = byteMasked p mask vw d))
    (hF : F .null = .null)
    (hf : ∀ next, next.Good → next.rank ≤ c.inner.rank → Picks next c.inner c.shown →
      Gathered next c.inner → (f next).Tot hh (fun out => Maps next out F)) :
    (throughOption f c c.inner).Tot hh (fun c' => c'.len = c.len ∧ Maps c c' F) := by
  have ho : c.isOption = true := by
    rcases hk with ⟨p, index, d, rfl⟩ | ⟨p, mask, vw, d, rfl⟩ <;> rfl
  obtain ⟨numnull, h1, _⟩ := nextcarryOutindex_ok h hk
  obtain ⟨next, h2, h3, h4, h5⟩ := carry_good (inner_good h) false (shown_good h ho)
  unfold throughOption
  rw [h1, bind_ok]
  simp only
  rw [h2, bind_ok]
  refine (hf next h3 (by simpa using h4) h5 (.inr ⟨_, _, shown_good h ho, h2⟩)).bind
    (fun out hm => ?_)
  obtain ⟨c', e1, e2, e3⟩ := outIndex_simplify h (isOption_imp ho) hF h5 hm
  rw [e1]
  exact .ok ⟨e2, e3⟩

/-- `project()` of an IndexedArray. -/
theorem project_indexed {p : Params} {index : List Int} {c : Content}
    (h : (indexed p index c).Good) :
    ∃ c', (indexed p index c).project = ok c' ∧ c'.Good ∧ c'.rank ≤ c.rank ∧
      c'.len = index.length ∧ (∀ i, i < index.length → c'.valD i = (indexed p index c).valD i) ∧
      Gathered c' c := by
  obtain ⟨hc, hp⟩ := good_indexed.mp h
  have hin : InRange index c.len := by
    intro j hj
    obtain ⟨i, hi, rfl⟩ := List.mem_iff_getElem.mp hj
    exact hp i hi
  obtain ⟨c', h1, h2, h3, h4⟩ := carry_good hc false hin
  refine ⟨c', ?_, h2, by simpa using h3, h4.1, ?_, .inr ⟨_, _, hin, h1⟩⟩
  · simp only [project]
    have hk : IndexedArray_getitem_nextcarry (alloc index.length) index index.length c.len
        = ok index := by
      unfold IndexedArray_getitem_nextcarry
      have hfm : (List.range index.length).filterMap (fun i => index[i]?) = index := by
        have := filterMap_range_get index 0 index.length
        simpa using this
      rw [forN_push_eq' (fun i => index[i]?) (by rw [hfm, alloc_length]), hfm, bind_ok]
      intro i hi
      rw [rd_nat_ok hi, bind_ok, if_neg (by have := hp i hi; omega), List.getElem?_eq_getElem hi]
    rw [hk, bind_ok]
    exact h1
  · intro i hi
    rw [h4.valD hi, valD_indexed h hi]

/-- `toByteMaskedArray` of a BitMaskedArray. -/
theorem toByteMasked_bit {p : Params} {mask : List Nat} {vw : Bool} {length : Nat} {lsb : Bool}
    {c : Content} (h : (bitMasked p mask vw length lsb c).Good) :
    ∃ bm, (bitMasked p mask vw length lsb c).toByteMasked = ok (byteMasked p bm vw c) ∧
      bm.length = length ∧ (byteMasked p bm vw c).Good ∧
      ∀ i, i < length →
        (byteMasked p bm vw c).valD i = (bitMasked p mask vw length lsb c).valD i := by
  obtain ⟨hm, hl, hc⟩ := good_bitMasked.mp h
  obtain ⟨bm, h1, h2, h3⟩ := bitMaskedByteMask_ok lsb hm
  have hg : (byteMasked p bm vw c).Good := good_byteMasked.mpr ⟨by omega, hc⟩
  refine ⟨bm, by simp only [toByteMasked]; rw [h1, bind_ok], h2, hg, ?_⟩
  intro i hi
  rw [valD_byteMasked hg (by omega), valD_bitMasked h hi]
  have : maskOk bm vw i = decide (bitOf mask lsb i = vw) := by
    simp only [maskOk, h3 i hi, Option.getD_some]
    cases bitOf mask lsb i <;> cases vw <;> simp
  simp [this]

theorem Maps.of_eq {c d c' : Content} {F : Val → Val} (h : Maps d c' F) (hl : d.len = c.len)
    (hv : ∀ i, i < c.len → d.valD i = c.valD i) : Maps c c' F :=
  ⟨h.good, by have := h.len_le; omega, fun i hi => by rw [h.val i (by omega), hv i hi]⟩

end Content
end Awk
