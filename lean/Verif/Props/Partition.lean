import Verif.Lemmas.Repartition
/-
Property theorems C10 (one-dimensional part), C32, C33, C34.
Statements use only the model functions and `Verif/Spec/{Slice,Partition}.lean`.
-/

namespace Awk.Props
open Awk R Spec

/-- **C10.** Slicing an array with `[start:stop:step]`, `step ≠ 0`, gives Python's slice of
its elements; in particular it neither raises nor reads outside the array. -/
theorem C10_range_slice (xs : List α) (start stop : Option Int) (step : Int)
    (hstart : GoodArg start) (hstop : GoodArg stop) (hstep : step ≠ 0) (hrep : step ≠ kSliceNone) :
    getitem_slicerange xs (sliceArg start) (sliceArg stop) step = ok (pySlice xs start stop step) :=
  getitem_slicerange_eq xs hstart hstop hstep hrep

example : getitem_slicerange [10, 11, 12, 13, 14] (sliceArg (some (-2))) (sliceArg none) (-2)
    = ok (pySlice [10, 11, 12, 13, 14] (some (-2)) none (-2)) :=
  C10_range_slice _ _ _ _ (by decide) (by decide) (by decide) (by decide)
example : pySlice [10, 11, 12, 13, 14] (some (-2)) none (-2) = [13, 11] := by decide

/-- **C10.** A zero step raises. -/
theorem C10_zero_step_raises (xs : List α) (start stop : Int) :
    (getitem_slicerange xs start stop 0).IsErr := by
  have : (0 : Int) ≠ kSliceNone := by decide
  simp [getitem_slicerange, this, R.IsErr]

/-- **C10.** Every position selected by Python's rules is inside the list, so the gather above
is in bounds. -/
theorem C10_positions_inside (len : Nat) (start stop : Option Int) (step : Int) (hstep : step ≠ 0)
    (x : Int) (hx : x ∈ pySlicePositions len start stop step) : 0 ≤ x ∧ x < len :=
  mem_pySlicePositions (by omega) hstep hx

/-- **C32.** Element access on a partitioned array is element access on the unpartitioned
array, with negative indices counted from the end, and raises exactly when out of range. -/
theorem C32_partition_getitem_at (p : PArr α) (hp : PartitionsOk p) (i : Int) :
    p.getitem_at i = match pyGet? (unpartitioned p) i with
      | some x => ok x
      | none => err "index out of range" := by
  unfold PArr.getitem_at
  rw [PArr.length_eq hp, bind_ok]
  set N : Int := ((unpartitioned p).length : Int) with hN
  have key : ∀ j : Int, 0 ≤ j → j < N → p.getitem_at_nowrap j
      = match (unpartitioned p)[j.toNat]? with | some x => ok x | none => err "index out of range" := by
    intro j h0 h1
    rcases partitionid_spec hp h0 with ⟨k, hk, h, h3, h4⟩ | ⟨h, h3⟩
    · unfold PArr.getitem_at_nowrap
      rw [h]
      simp only
      have hb := p.base_succ hk
      have hb0 := p.base_nonneg k
      have hi : (j - p.base k).toNat < (p.parts[k]).length := by omega
      rw [rd_nat_ok hk, bind_ok, rd_ok (by omega) (by omega)]
      have := flatten_get hk hi
      have e : (p.base k).toNat + (j - p.base k).toNat = j.toNat := by omega
      rw [e] at this
      rw [unpartitioned, this]
    · rw [hN, unpartitioned] at h1; omega
  unfold pyGet?
  by_cases hi : i < 0
  · simp only [hi, if_true]
    have hi' : ¬ 0 ≤ i := by omega
    simp only [hi', if_false]
    by_cases h2 : 0 ≤ i + N
    · rw [if_neg (by omega), if_pos h2]
      exact key _ h2 (by omega)
    · rw [if_pos (by omega), if_neg h2]
  · have hi' : 0 ≤ i := by omega
    simp only [hi, if_false, hi', if_true]
    by_cases h2 : i < N
    · rw [if_neg (fun hc => hc ⟨trivial, h2⟩)]
      exact key _ hi' h2
    · rw [if_pos (fun hc => h2 hc.2), List.getElem?_eq_none (by omega)]

/-- A partitioned array with an empty partition in the middle meets the hypothesis. -/
def examplePArr : PArr Int := ⟨[[1, 2, 3], [], [4, 5]], [3, 3, 5]⟩
example : PartitionsOk examplePArr := ⟨by decide, by decide⟩
example : examplePArr.getitem_at (-1) = ok 5 := by decide

/-- **C33.** Slicing a partitioned array gives a well-formed partitioned array holding
exactly the Python slice of the unpartitioned array, for every `start`, `stop` and
non-zero `step` (an absent step means 1), whatever the partition sizes.
The size hypotheses say that the array length and the step are representable `int64_t`. -/
theorem C33_partition_getitem_range (p : PArr α) (hp : PartitionsOk p)
    (start stop step : Option Int) (hstart : GoodArg start) (hstop : GoodArg stop)
    (hstep : step ≠ some 0) (hstep' : ∀ s, step = some s → -kSliceNone < s ∧ s < kSliceNone)
    (hlen : ((unpartitioned p).length : Int) < kSliceNone) :
    ∃ q, p.getitem_range (sliceArg start) (sliceArg stop) (sliceArg step) = ok q ∧
      PartitionsOk q ∧ unpartitioned q = pySlice (unpartitioned p) start stop (step.getD 1) := by
  have hkk : kSliceNone = 9223372036854775807 := rfl
  unfold PArr.getitem_range
  rw [PArr.length_eq hp, bind_ok]
  set N : Int := ((unpartitioned p).length : Int) with hN
  have hN0 : 0 ≤ N := by omega
  have hst : (if sliceArg step = kSliceNone then 1 else sliceArg step) = step.getD 1 := by
    cases step with
    | none => simp [sliceArg]
    | some s => have := hstep' s rfl; simp [sliceArg]; omega
  simp only [hst]
  have hpos : decide (sliceArg step > 0) = decide (step.getD 1 > 0) := by
    cases step with
    | none => simp [sliceArg, hkk]
    | some s => simp [sliceArg]
  rw [hpos]
  have hne : step.getD 1 ≠ 0 := by
    cases step with
    | none => simp
    | some s => simp; intro h; exact hstep (by rw [h])
  have hb : -kSliceNone < step.getD 1 ∧ step.getD 1 < kSliceNone := by
    cases step with
    | none => simp [hkk]
    | some s => exact hstep' s rfl
  by_cases h : 0 < step.getD 1
  · simp only [gt_iff_lt, h, decide_true]
    rw [regularize_pos hstart hstop hN0 h]
    have hbd := pyIndices_pos_bounds hN0 start stop h
    obtain ⟨q, h1, h2, h3⟩ := posLoop (p := p) hp (lo := (pyIndices N start stop (step.getD 1)).1)
      (hi := max (pyIndices N start stop (step.getD 1)).1 (pyIndices N start stop (step.getD 1)).2)
      (s := step.getD 1) (by omega) (by omega) (by omega) (by omega) h (by omega)
    refine ⟨q, h1, h2, ?_⟩
    rw [h3, pySlice_pos_eq _ _ _ h]
    apply selSlice_congr
    intro i _
    simp only [sel, ← hN]
    rw [decide_eq_decide]
    constructor <;> (rintro ⟨h4, h5, h6⟩; exact ⟨h4, by omega, h6⟩)
  · have h' : step.getD 1 < 0 := by omega
    simp only [gt_iff_lt, h, decide_false]
    rw [regularize_neg hstart hstop hN0 h']
    have hbd := pyIndices_neg_bounds hN0 start stop h'
    obtain ⟨q, h1, h2, h3⟩ := negLoop (p := p) hp (lo := (pyIndices N start stop (step.getD 1)).1)
      (hi := min (pyIndices N start stop (step.getD 1)).1 (pyIndices N start stop (step.getD 1)).2)
      (s := step.getD 1) (by omega) (by omega) (by omega) (by omega) h' (by omega)
    refine ⟨q, h1, h2, ?_⟩
    rw [h3, pySlice_neg_eq _ _ _ h']
    apply selSlice_congr
    intro i _
    simp only [sel, ← hN]
    rw [decide_eq_decide]
    constructor <;> (rintro ⟨h4, h5, h6⟩; exact ⟨h4, by omega, h6⟩)

example : ∃ q, examplePArr.getitem_range (sliceArg (some (-1))) (sliceArg none) (sliceArg (some (-2))) = ok q ∧
    PartitionsOk q ∧ unpartitioned q = [5, 3, 1] :=
  C33_partition_getitem_range examplePArr ⟨by decide, by decide⟩ (some (-1)) none (some (-2))
    (by decide) (by decide) (by decide) (by intro s h; cases h; decide) (by decide)

/-- **C33.** A zero step raises. -/
theorem C33_zero_step_raises (p : PArr α) (hp : PartitionsOk p) (start stop : Int) :
    (p.getitem_range start stop 0).IsErr := by
  have : (0 : Int) ≠ kSliceNone := by decide
  unfold PArr.getitem_range
  rw [PArr.length_eq hp, bind_ok]
  simp [this, PArr.getitem_range_nowrap, R.IsErr]

/-- **C34, proved part.** Repartitioning to nondecreasing stops with the same total keeps the
elements in order and yields exactly the requested boundaries, *provided no empty partition is
requested at the end* (after all elements are used up). What is missing from C34 is that case,
which the code gets wrong: see `C34_trailing_empty_partition_violated`. -/
theorem C34_repartition_partial (p : PArr α) (hp : PartitionsOk p) (stops : List Int)
    (hmono : (0 :: stops).Pairwise (· ≤ ·))
    (htotal : stops.getLast? = some ((unpartitioned p).length : Int))
    (hlast : ∀ s ∈ stops.dropLast, s < ((unpartitioned p).length : Int)) :
    ∃ q, p.repartition stops = ok q ∧ PartitionsOk q ∧ q.stops = stops ∧
      unpartitioned q = unpartitioned p := by
  unfold PArr.repartition
  by_cases hsame : stops = p.stops
  · rw [if_pos hsame]; exact ⟨p, rfl, hp, hsame.symm, rfl⟩
  · rw [if_neg hsame, htotal, hp.2, runningTotals_last 0 hp.1]
    simp only [unpartitioned, zero_add, ne_eq, not_true_eq_false, if_false]
    have hle : ∀ s ∈ stops, s ≤ (p.parts.flatten.length : Int) := by
      intro s hs
      have hne : stops ≠ [] := by intro h; simp [h] at hs
      have e := List.dropLast_concat_getLast hne
      rw [List.getLast?_eq_some_getLast hne] at htotal
      rw [← e] at hs
      rcases List.mem_append.mp hs with h | h
      · have := hlast s h; simp only [unpartitioned] at this; omega
      · simp only [List.mem_singleton] at h
        rw [h, Option.some.inj htotal]; simp [unpartitioned]
    have hpos : 0 < p.parts.length := List.length_pos_iff.mpr hp.1
    obtain ⟨parts, h1, h2, h3⟩ := PArr.repartitionLoop_ok (p := p) stops 0 0 0 hpos
      ⟨by omega, by simp, fun _ => by omega, fun _ => rfl⟩ hmono hle hlast
    have h1' : PArr.repartitionLoop p stops 0 0 0 = ok parts := h1
    rw [h1', bind_ok]
    have hflat : parts.flatten = p.parts.flatten := by
      have hne : stops ≠ [] := by intro h; simp [h] at htotal
      have := h3 p.parts.flatten.length (by
        rw [List.getLast?_cons_of_ne_nil hne] <;> exact htotal)
      simpa [-List.length_flatten] using this
    have hpne : parts ≠ [] := by
      intro h; rw [h] at h2; simp only [runningTotals] at h2; simp [← h2] at htotal
    have hpl : parts.length = stops.length := by rw [← h2, runningTotals_length]
    refine ⟨⟨parts, stops⟩, by simp [PArr.mk?, hpne, hpl], ⟨hpne, h2.symm⟩, rfl, hflat⟩

example : ∃ q, examplePArr.repartition [1, 1, 5] = ok q ∧ PartitionsOk q ∧ q.stops = [1, 1, 5] ∧
    unpartitioned q = [1, 2, 3, 4, 5] :=
  C34_repartition_partial examplePArr ⟨by decide, by decide⟩ _ (by decide) (by decide) (by decide)

/-- **C34.** Repartitioning to a different total length raises. -/
theorem C34_repartition_length_mismatch_raises (p : PArr α) (hp : PartitionsOk p) (stops : List Int)
    (hne : stops ≠ []) (htotal : stops.getLast? ≠ some ((unpartitioned p).length : Int)) :
    (p.repartition stops).IsErr := by
  unfold PArr.repartition
  have hl : p.stops.getLast? = some ((unpartitioned p).length : Int) := by
    rw [hp.2, runningTotals_last 0 hp.1]; simp [unpartitioned]
  have : stops ≠ p.stops := by intro h; rw [h] at htotal; exact htotal hl
  rw [if_neg this, hl, List.getLast?_eq_some_getLast hne]
  rw [List.getLast?_eq_some_getLast hne] at htotal
  have : stops.getLast hne ≠ ((unpartitioned p).length : Int) := fun h => htotal (by rw [h])
  simp [this, R.IsErr]

/-- **C34 is violated by the code.** Asking for an additional empty partition at the end, a
legitimate request with the same total length, reads past the end of the vector of
partitions (IrregularlyPartitionedArray.cpp:86-88: `dst` is null, so
`partitions_[partitionid]` is read although `partitionid == numpartitions`). -/
theorem C34_trailing_empty_partition_violated :
    ∃ (p : PArr Int) (stops : List Int), PartitionsOk p ∧ (0 :: stops).Pairwise (· ≤ ·) ∧
      stops.getLast? = some ((unpartitioned p).length : Int) ∧ p.repartition stops = ub :=
  ⟨⟨[[1, 2]], [2]⟩, [2, 2], ⟨by decide, by decide⟩, by decide, by decide, by decide⟩

end Awk.Props
