import Verif.Lemmas.VirtualFields
import Verif.Lemmas.GetitemTop
import Verif.Lemmas.SliceRange
/-
Slices with one item of an array that is there, and that two arrays with the same values and the
same form keep having them.
-/

namespace Awk
open R Spec

namespace Content

/-- The slice raises, for every array of `n` items. -/
def Raises (n : Nat) (it : SliceItem) : Prop :=
  ∀ c : Content, c.Good → c.len = n → (c.getitem [it]).IsErr

/-- The slice takes the items `idx`, for every array of `n` items. -/
def Takes (n : Nat) (it : SliceItem) (idx : List Int) : Prop :=
  InRange idx n ∧ ∀ c : Content, c.Good → c.len = n →
    ∃ x y, c.carry true idx = ok x ∧ x.range 0 idx.length = ok y ∧ c.getitem [it] = ok (.array y)

theorem next_wrapped {it : SliceItem} (h : it ≠ .newaxis) (c : Content) :
    next [it] none c.wrapped = regularNext it (fun _ c => ok c) none {} c c.len 1 := by
  simp only [next]
  have : 2 * c.wrapped.rank = (2 * c.wrapped.rank - 1) + 1 := by
    simp only [wrapped, rank]; omega
  have hl := c.wrapped_len
  rw [this]
  simp only [wrapped, stepF]
  rw [if_neg h, ← wrapped, hl]

theorem steps_raises {n : Nat} {start stop : Option Int} : Raises n (.range start stop 0) := by
  intro c _ _
  have e : (SliceItem.range start stop 0).constructed = .range start stop 0 := by
    simp [SliceItem.constructed, kSliceNone]
  unfold getitem
  rw [List.map_cons, e, List.map_nil, next_wrapped (by simp)]
  exact ⟨_, rfl⟩

theorem steps_takes {n : Nat} {start stop : Option Int} {step : Int} (h1 : GoodArg start)
    (h2 : GoodArg stop) (h0 : step ≠ 0) (hk : step ≠ kSliceNone) :
    Takes n (.range start stop step) (pySlicePositions n start stop step) := by
  have hi : InRange (pySlicePositions n start stop step) n := fun j hj =>
    mem_pySlicePositions (by omega) h0 hj
  refine ⟨hi, fun c hg hl => ?_⟩
  subst hl
  obtain ⟨x, g1, g2, _, g4⟩ := carry_good hg true hi
  obtain ⟨y, k1, _⟩ := range_good g2 (a := 0) (b := (pySlicePositions c.len start stop step).length)
    (Nat.zero_le _) (by rw [g4.1])
  refine ⟨x, y, g1, k1, ?_⟩
  have e : (SliceItem.range start stop step).constructed = .range start stop step := by
    simp [SliceItem.constructed, hk]
  unfold getitem
  rw [List.map_cons, e, List.map_nil, next_wrapped (by simp)]
  simp only [regularNext, regularRange, Nat.cast_one]
  rw [regular_range_carry_one (by omega) h1 h2 h0, bind_ok, g1, bind_ok,
    if_pos (show Adv.isFirst none = true from rfl), bind_ok, bind_ok, bind_ok]
  have hl : (regular {} x (((pySlicePositions c.len start stop step).length : Int)).toNat 1).len
      = 1 := by
    simp only [len, Int.toNat_natCast, g4.1]
    split
    · exact Nat.div_self (by omega)
    · rfl
  rw [if_neg (by rw [hl]; omega)]
  simp only [getitemAtNowrap, Int.toNat_natCast, Nat.cast_zero, zero_mul, zero_add, one_mul]
  rw [Nat.cast_zero] at k1
  rw [k1, bind_ok]

theorem positions_takes {n : Nat} {idx : List Int} :
    Raises n (.array [idx.length] idx) ∨
      ∃ xs, xs.length = idx.length ∧ Takes n (.array [idx.length] idx) xs := by
  have hreg := RegularArray_getitem_next_array_regularize_tot (toarray := alloc (idx.length : Nat))
    (flat := idx) (size := n) (h := False) (alloc_length _) (fun h => h.elim)
  cases hr : RegularArray_getitem_next_array_regularize (alloc (idx.length : Nat)) idx idx.length n
    with
  | ub => rw [hr] at hreg; exact hreg.1.elim
  | err s =>
    left
    intro c _ hl
    subst hl
    unfold getitem
    rw [List.map_cons, List.map_nil, SliceItem.constructed, next_wrapped (by simp)]
    · simp only [regularNext, regularArray]
      rw [hr]
      exact ⟨_, rfl⟩
    · exact fun _ _ _ h => by cases h
  | ok xs =>
    right
    rw [hr] at hreg
    obtain ⟨q1, q2⟩ := hreg.1
    have hi : InRange xs n := by
      intro j hj
      obtain ⟨i, hi, rfl⟩ := List.getElem_of_mem hj
      obtain ⟨r, r1, r2⟩ := q2 i hi
      rw [r2]
      rw [List.getElem?_eq_getElem (show i < idx.length by omega), Option.bind_some] at r1
      have := regAt_lt r1
      omega
    refine ⟨xs, q1, hi, fun c hg hl => ?_⟩
    subst hl
    obtain ⟨x, g1, g2, _, g4⟩ := carry_good hg true hi
    obtain ⟨y, k1, _⟩ := range_good g2 (a := 0) (b := xs.length) (Nat.zero_le _) (by rw [g4.1])
    refine ⟨x, y, g1, k1, ?_⟩
    have hla : (alloc (((1 : Nat) : Int) * (idx.length : Int))).length = 1 * xs.length := by
      have := alloc_length (1 * idx.length)
      push_cast at this
      rw [q1]
      push_cast
      rw [this]
    obtain ⟨⟨ca1, ca2⟩, hca⟩ := (RegularArray_getitem_next_array_ok (reg := xs) (n := 1)
      (size := c.len) hla hla).2 trivial
    have hcb := (RegularArray_getitem_next_array_ok (reg := xs) (n := 1)
      (size := c.len) hla hla).1
    rw [hca] at hcb
    obtain ⟨w1, _, w3, _⟩ := hcb
    have hx : ca1 = xs := by
      simp only at w1 w3
      refine List.ext_getElem (by omega) fun i h1 h2 => ?_
      obtain ⟨x, x1, r, r1, r2⟩ := w3 0 (by omega) i h2
      simp only [zero_mul, zero_add] at x1
      rw [List.getElem?_eq_getElem h1] at x1
      rw [List.getElem?_eq_getElem h2] at r1
      simp at x1 r1 r2
      omega
    subst hx
    unfold getitem
    rw [List.map_cons, List.map_nil, SliceItem.constructed, next_wrapped (by simp)]
    · simp only [regularNext, regularArray]
      rw [hr, bind_ok, if_pos (show Adv.isFirst none = true from rfl), hca, bind_ok]
      simp only
      rw [g1, bind_ok, bind_ok, bind_ok]
      simp only [arrayWrap, Option.isNone_none, if_true]
      rw [Nat.cast_zero] at k1
      rw [← q1]
      by_cases h0 : ca1.length = 0
      · rw [if_pos (by simp [len, h0])]
        rw [h0, Nat.cast_zero] at k1
        simp only [getitemNothing]
        rw [k1, bind_ok]
      · rw [if_neg (by simp only [len]; rw [if_pos h0, g4.1, Nat.div_self (by omega)]; omega)]
        simp only [getitemAtNowrap, Nat.cast_zero, zero_mul, zero_add, one_mul]
        rw [k1, bind_ok]
    · exact fun _ _ _ h => by cases h

/-- A new dimension on the outside. -/
theorem newaxis_item {c : Content} (h : c.Good) : ∃ y, c.range 0 c.len = ok y ∧
    c.getitem [.newaxis] = ok (.array (regular {} y c.len 1)) := by
  obtain ⟨y, k1, k2, _, k4, _⟩ := range_good h (a := 0) (b := c.len) (Nat.zero_le _) (Nat.le_refl _)
  rw [Nat.cast_zero] at k1
  refine ⟨y, k1, ?_⟩
  have e : next [SliceItem.newaxis] none c.wrapped = ok (newaxisWrap c.wrapped) := by
    simp only [next]
    have : 2 * c.wrapped.rank = (2 * c.wrapped.rank - 1) + 1 := by
      simp only [wrapped, rank]; omega
    rw [this]
    simp only [wrapped, stepF]
    rfl
  unfold getitem
  rw [List.map_cons, List.map_nil, SliceItem.constructed, e, bind_ok]
  · rw [if_neg (by simp [newaxisWrap, len, wrapped_len])]
    simp only [newaxisWrap, getitemAtNowrap, wrapped, range, Nat.cast_zero, zero_mul, zero_add,
      one_mul, Nat.cast_one]
    rw [k1]
    rfl
  · exact fun _ _ _ h => by cases h

/-- A projection through the RegularArray around the array. -/
theorem getitemSel_eq {same : Content → Content → Bool} {s : FieldSel} {c d : Content}
    (h : getitemFields same s ok c = ok d) (hl : d.len = c.len) :
    c.getitemSel same s = d.range 0 c.len >>= fun y => ok (.array y) := by
  unfold getitemSel wrapped
  simp only [getitemFields]
  rw [h, bind_ok, bind_ok]
  rw [if_neg ?_]
  · simp only [getitemAtNowrap, Nat.cast_zero, zero_mul, zero_add, one_mul]
  · have := c.wrapped_len
    simp only [wrapped, len] at this ⊢
    rw [hl]
    rw [this]
    intro h0
    split at h0
    · rw [Nat.div_self (by omega)] at h0
      omega
    · omega

/-! ### Arrays with the same values and the same form -/

/-- Two arrays with the same values and the same form. -/
structure Twin (c d : Content) : Prop where
  good : c.Good
  good' : d.Good
  len : c.len = d.len
  vals : ∀ i, i < c.len → c.valD i = d.valD i
  form : c.form = d.form
  settled : c.form.Settled
  small : (c.len : Int) < kSliceNone

theorem Twin.refl {c : Content} (h : c.Good) (hs : c.form.Settled)
    (hl : (c.len : Int) < kSliceNone) : Twin c c :=
  ⟨h, h, rfl, fun _ _ => rfl, rfl, hs, hl⟩

theorem Twin.symm {c d : Content} (h : Twin c d) : Twin d c :=
  ⟨h.good', h.good, h.len.symm, fun i hi => (h.vals i (by rw [h.len]; exact hi)).symm, h.form.symm,
    by rw [← h.form]; exact h.settled, by rw [← h.len]; exact h.small⟩

theorem Twin.trans {c d e : Content} (h : Twin c d) (h' : Twin d e) : Twin c e :=
  ⟨h.good, h'.good', h.len.trans h'.len,
    fun i hi => (h.vals i hi).trans (h'.vals i (by rw [← h.len]; exact hi)), h.form.trans h'.form,
    h.settled, h.small⟩

theorem Twin.seg {c d : Content} (h : Twin c d) {a n : Nat} (ha : a + n ≤ c.len) :
    c.seg a n = d.seg a n := by
  simp only [Content.seg]
  exact List.map_congr_left fun k hk => h.vals _ (by simp at hk; omega)

theorem Twin.toList {c d : Content} (h : Twin c d) : c.toList = d.toList := by
  rw [seg_all h.good, seg_all h.good', ← h.len, h.seg (by omega)]

theorem Twin.range {c d : Content} (h : Twin c d) {a b : Nat} (hab : a ≤ b) (hb : b ≤ c.len) :
    ∃ c' d', c.range a b = ok c' ∧ d.range a b = ok d' ∧ Twin c' d' ∧ c'.len = b - a := by
  obtain ⟨c', g1, g2, _, g4, _⟩ := range_good h.good hab hb
  obtain ⟨d', k1, k2, _, k4, _⟩ := range_good h.good' hab (by rw [← h.len]; exact hb)
  refine ⟨c', d', g1, k1, ⟨g2, k2, by rw [g4.1, k4.1], fun i hi => ?_, ?_, ?_, ?_⟩, g4.1⟩
  · rw [g4.1] at hi
    rw [g4.valD hi, k4.valD hi, h.vals _ (by omega)]
  · rw [range_form h.settled g1, range_form (by rw [← h.form]; exact h.settled) k1, h.form]
  · exact range_settled h.settled g1
  · rw [g4.1]; have := h.small; omega

/-- The whole array as a range. -/
theorem Twin.whole {c : Content} (h : Twin c c) : ∃ c', c.range 0 c.len = ok c' ∧ Twin c c' := by
  obtain ⟨c', g1, g2, _, g4, _⟩ := range_good h.good (a := 0) (b := c.len) (Nat.zero_le _)
    (Nat.le_refl _)
  refine ⟨c', g1, h.good, g2, by rw [g4.1]; omega, fun i hi => ?_, ?_, h.settled, h.small⟩
  · rw [g4.valD (by omega)]; simp
  · rw [range_form h.settled g1]

theorem Twin.carry {c d : Content} (h : Twin c d) {idx : List Int} (hi : InRange idx c.len)
    (hl : (idx.length : Int) < kSliceNone) {c' d' : Content} (hc : c.carry true idx = ok c')
    (hd : d.carry true idx = ok d') : Twin c' d' ∧ c'.len = idx.length := by
  obtain ⟨c'', g1, g2, _, g4⟩ := carry_good h.good true hi
  obtain ⟨d'', k1, k2, _, k4⟩ := carry_good h.good' true (by rw [← h.len]; exact hi)
  rw [hc] at g1
  rw [hd] at k1
  simp only [ok.injEq] at g1 k1
  subst g1 k1
  refine ⟨⟨g2, k2, by rw [g4.1, k4.1], fun i hj => ?_, carry_form h.settled h.form hc hd,
    carry_settled h.settled hc, by rw [g4.1]; exact hl⟩, g4.1⟩
  rw [g4.1] at hj
  rw [g4.valD hj, k4.valD hj, h.vals _ (by have := hi _ (List.getElem_mem hj); omega)]

theorem Twin.takes {c d : Content} (h : Twin c d) {it : SliceItem} {idx : List Int}
    (ht : Takes c.len it idx) (hl : (idx.length : Int) < kSliceNone) :
    ∃ c' d', c.getitem [it] = ok (.array c') ∧ d.getitem [it] = ok (.array d') ∧ Twin c' d' ∧
      c'.len = idx.length := by
  obtain ⟨x, x', a1, a2, a3⟩ := ht.2 c h.good rfl
  obtain ⟨y, y', b1, b2, b3⟩ := ht.2 d h.good' h.len.symm
  obtain ⟨t, tl⟩ := h.carry ht.1 hl a1 b1
  obtain ⟨c', d', r1, r2, r3, r4⟩ := t.range (Nat.zero_le idx.length) (by rw [tl])
  rw [Nat.cast_zero] at r1 r2
  rw [a2] at r1
  rw [b2] at r2
  simp only [ok.injEq] at r1 r2
  subst r1 r2
  exact ⟨_, _, a3, b3, r3, by omega⟩

theorem Twin.newaxis {c d : Content} (h : Twin c d) :
    ∃ c' d', c.getitem [.newaxis] = ok (.array c') ∧ d.getitem [.newaxis] = ok (.array d') ∧
      Twin c' d' ∧ c'.len = 1 := by
  obtain ⟨x, x1, x2⟩ := newaxis_item h.good
  obtain ⟨y, y1, y2⟩ := newaxis_item h.good'
  obtain ⟨x', y', r1, r2, r3, r4⟩ := h.range (Nat.zero_le c.len) (Nat.le_refl _)
  rw [Nat.cast_zero] at r1 r2
  rw [x1] at r1
  rw [h.len, y1] at r2
  simp only [ok.injEq] at r1 r2
  subst r1 r2
  have hl : (regular {} x c.len 1).len = 1 := by
    have := c.wrapped_len
    simp only [wrapped, Content.len] at this ⊢
    rw [r4, Nat.sub_zero]
    exact this
  have hl' : (regular {} y d.len 1).len = 1 := by
    have := d.wrapped_len
    simp only [wrapped, Content.len] at this ⊢
    rw [← r3.len, r4, Nat.sub_zero, h.len]
    exact this
  refine ⟨_, _, x2, y2, ⟨good_regular.mpr r3.good, good_regular.mpr r3.good', by rw [hl, hl'],
    fun i hi => ?_, ?_, r3.settled, by rw [hl]; decide⟩, hl⟩
  · rw [valD_regular r3.good hi, valD_regular r3.good' (by rw [hl']; omega)]
    have : i = 0 := by omega
    subst this
    rw [r3.seg (by omega), h.len]
  · simp only [Content.form, r3.form, h.len]

theorem Twin.fields {c d : Content} (h : Twin c d) {s : FieldSel}
    (same : Content → Content → Bool) (hf : HasFields [s] c)
    (hn : ∀ names, s = .many names → names.Nodup) :
    ∃ c' d', c.getitemFields same s ok = ok c' ∧ d.getitemFields same s ok = ok d' ∧ Twin c' d' ∧
      c'.len = c.len := by
  have hf' := hasFields_form hf h.form
  obtain ⟨c', g1, g2⟩ := projectFields_ok same [s] h.good hf
  obtain ⟨d', k1, k2⟩ := projectFields_ok same [s] h.good' hf'
  have g1' : c.getitemFields same s ok = ok c' := g1
  have k1' : d.getitemFields same s ok = ok d' := k1
  have hgl := g2.exact trivial
  have hkl := k2.exact trivial
  obtain ⟨f1, f2⟩ := getitemFields_form hn hf h.settled g1'
  obtain ⟨f3, _⟩ := getitemFields_form hn hf' (by rw [← h.form]; exact h.settled) k1'
  refine ⟨c', d', g1', k1', ⟨g2.good, k2.good, by rw [hgl, hkl, h.len], fun i hi => ?_, ?_, f2,
    by rw [hgl]; exact h.small⟩, hgl⟩
  · rw [g2.val i (by omega), k2.val i (by rw [← h.len]; omega), h.vals i (by omega)]
  · rw [h.form, f3] at f1
    simpa using f1.symm

end Content

end Awk
