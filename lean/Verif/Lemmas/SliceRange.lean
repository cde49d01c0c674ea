import Verif.Lemmas.Slice

namespace Awk
open R Spec

theorem sliceArg_none {x : Option Int} (h : GoodArg x) : (sliceArg x != kSliceNone) = x.isSome := by
  cases x with
  | none => simp [sliceArg]
  | some y => simp [sliceArg]; intro hy; exact h (by rw [hy])

theorem regularize_pos {start stop : Option Int} (h1 : GoodArg start) (h2 : GoodArg stop)
    {len : Int} (hlen : 0 ≤ len) {step : Int} (hs : 0 < step) :
    regularize_rangeslice (sliceArg start) (sliceArg stop) true (sliceArg start != kSliceNone)
      (sliceArg stop != kSliceNone) len
      = ((pyIndices len start stop step).1,
          max (pyIndices len start stop step).1 (pyIndices len start stop step).2) := by
  rw [sliceArg_none h1, sliceArg_none h2]
  unfold regularize_rangeslice pyIndices
  simp only [hs, if_true]
  cases start <;> cases stop <;> simp [sliceArg, pyBound] <;> constructor <;>
    (repeat' split) <;> omega

theorem regularize_neg {start stop : Option Int} (h1 : GoodArg start) (h2 : GoodArg stop)
    {len : Int} (hlen : 0 ≤ len) {step : Int} (hs : step < 0) :
    regularize_rangeslice (sliceArg start) (sliceArg stop) false (sliceArg start != kSliceNone)
      (sliceArg stop != kSliceNone) len
      = ((pyIndices len start stop step).1,
          min (pyIndices len start stop step).1 (pyIndices len start stop step).2) := by
  rw [sliceArg_none h1, sliceArg_none h2]
  unfold regularize_rangeslice pyIndices
  have : ¬ 0 < step := by omega
  simp only [this, if_false]
  cases start <;> cases stop <;> simp [sliceArg, pyBound] <;> (try constructor) <;>
    (repeat' split) <;> omega

theorem ceil_div {d s : Int} (hd : 0 < d) (hs : 0 < s) :
    d.tdiv s + (if d.tmod s ≠ 0 then 1 else 0) = (d + s - 1) / s := by
  rw [Int.tdiv_eq_ediv_of_nonneg (by omega), Int.tmod_eq_emod_of_nonneg (by omega)]
  obtain ⟨q, r, hqr, hr0, hrs⟩ : ∃ q r, d = s * q + r ∧ 0 ≤ r ∧ r < s :=
    ⟨d / s, d % s, (Int.mul_ediv_add_emod _ _).symm, Int.emod_nonneg _ (by omega),
      Int.emod_lt_of_pos _ hs⟩
  have e1 : d / s = q := by
    rw [hqr, add_comm, Int.add_mul_ediv_left _ _ (by omega), Int.ediv_eq_zero_of_lt hr0 hrs]; ring
  have e2 : d % s = r := by
    rw [hqr, Int.mul_add_emod_self_left]; exact Int.emod_eq_of_lt hr0 hrs
  rw [e1, e2]
  by_cases hr : r = 0
  · have : d + s - 1 = (s - 1) + s * q := by linarith
    rw [this, Int.add_mul_ediv_left _ _ (by omega), Int.ediv_eq_zero_of_lt (by omega) (by omega)]
    simp [hr]
  · have : d + s - 1 = (r - 1) + s * (q + 1) := by linarith
    rw [this, Int.add_mul_ediv_left _ _ (by omega), Int.ediv_eq_zero_of_lt (by omega) (by omega)]
    simp [hr]

theorem nextsize_pos {lo hi s : Int} (hs : 0 < s) :
    regular_nextsize lo (max lo hi) s = (pyRangeLen lo hi s : Int) := by
  unfold regular_nextsize
  have hab : ((s.natAbs : Nat) : Int) = s := by omega
  by_cases h : lo < hi
  · have e : max lo hi = hi := by omega
    rw [e, if_pos ⟨hs, by omega⟩]
    simp only [hab]
    rw [ceil_div (by omega) hs, pyRangeLen_pos hs, Int.toNat_of_nonneg]
    exact Int.ediv_nonneg (by omega) (by omega)
  · have e : max lo hi = lo := by omega
    rw [e, if_neg (by omega), if_neg (by omega), pyRangeLen_le hs (by omega)]; rfl

theorem pyRangeLen_mirror {a b s : Int} (hs : s < 0) :
    pyRangeLen a b s = pyRangeLen (-a) (-b) (-s) := by
  unfold pyRangeLen
  rw [if_neg (by omega), if_pos (by omega)]
  congr 2; ring

theorem nextsize_neg {lo hi s : Int} (hs : s < 0) :
    regular_nextsize lo (min lo hi) s = (pyRangeLen lo hi s : Int) := by
  rw [pyRangeLen_mirror hs, ← nextsize_pos (by omega : (0:Int) < -s)]
  unfold regular_nextsize
  have e : max (-lo) (-hi) = - min lo hi := by omega
  have hs' : ¬ s > 0 := by omega
  have hs'' : -s > 0 := by omega
  rw [e]
  have : ((-s).natAbs : Int) = s.natAbs := by simp
  rw [this]
  by_cases h : min lo hi - lo < 0
  · rw [if_neg (by omega), if_pos ⟨hs, h⟩, if_pos (by omega)]
    have : -min lo hi - -lo = lo - min lo hi := by ring
    rw [this]
  · rw [if_neg (by omega), if_neg (by omega), if_neg (by omega), if_neg (by omega)]

/-- The kernel writes, for list `i`, the positions `i*size + start + j*step`. -/
theorem RegularArray_getitem_next_range_eq (tocarry : List Int) (regular_start step size : Int)
    (length nextsize : Nat) (h : tocarry.length = length * nextsize) :
    RegularArray_getitem_next_range tocarry regular_start step length size nextsize
      = ok ((List.range length).map (fun (i : Nat) => (List.range nextsize).map
          (fun (j : Nat) => (i : Int) * size + regular_start + (j : Int) * step))).flatten := by
  have := forN_fill_nested (n := length) (m := nextsize)
    (fun i j => ok ((i : Int) * size + regular_start + (j : Int) * step)) 0 tocarry (by omega)
  unfold RegularArray_getitem_next_range forI
  simp only [bind_ok, Nat.zero_add, Int.toNat_natCast] at this ⊢
  rw [forN_congr (body' := fun i b => forN nextsize (fun j b =>
    wr b ((i * nextsize + j : Nat) : Int) ((i : Int) * size + regular_start + (j : Int) * step)) b)]
  · rw [this]
    have e : (fun i : Nat => mapN nextsize fun j : Nat =>
        ok ((i : Int) * size + regular_start + (j : Int) * step))
      = fun i : Nat => ok ((List.range nextsize).map
          fun j : Nat => (i : Int) * size + regular_start + (j : Int) * step) := by
      funext i; exact mapN_ok _
    rw [e, mapN_ok]
    simp [← h]
  · intro i _ b; simp only [Int.natCast_add, Int.natCast_mul]

theorem gather_eq {xs : List α} {carry : List Int} (h : ∀ j ∈ carry, 0 ≤ j ∧ j < xs.length) :
    gather xs carry = ok (carry.filterMap fun i => xs[i.toNat]?) := by
  unfold gather
  rw [mapN_eq_ok]
  have hl : (carry.filterMap fun i => xs[i.toNat]?).length = carry.length := by
    clear * - h
    induction carry with
    | nil => rfl
    | cons c cs ih =>
      have hc := h c List.mem_cons_self
      have : c.toNat < xs.length := by omega
      rw [List.filterMap_cons, List.getElem?_eq_getElem this]
      simp only [List.length_cons, ih (fun j hj => h j (List.mem_cons_of_mem _ hj))]
  refine ⟨hl, ?_⟩
  intro i hi
  clear hl
  induction carry generalizing i with
  | nil => simp at hi
  | cons c cs ih =>
    have hc := h c List.mem_cons_self
    have hc' : c.toNat < xs.length := by omega
    have e : (c :: cs).filterMap (fun i => xs[i.toNat]?)
        = xs[c.toNat] :: cs.filterMap (fun i => xs[i.toNat]?) := by
      simp [List.filterMap_cons, hc']
    cases i with
    | zero => simp [e, rd, hc.1, hc']
    | succ i =>
      have := ih (fun j hj => h j (List.mem_cons_of_mem _ hj)) i (by simpa [e] using hi)
      simp only [e, List.getElem_cons_succ]
      rw [← this]
      have h1 : rd (c :: cs) ((i + 1 : Nat) : Int) = rd cs (i : Int) := by
        rw [rd_nat, rd_nat]; simp
      rw [h1]

theorem pyIndices_pos_bounds {len : Int} (hlen : 0 ≤ len) (start stop : Option Int) {step : Int}
    (hs : 0 < step) :
    0 ≤ (pyIndices len start stop step).1 ∧ (pyIndices len start stop step).1 ≤ len ∧
    0 ≤ (pyIndices len start stop step).2 ∧ (pyIndices len start stop step).2 ≤ len := by
  unfold pyIndices
  rw [if_pos hs]
  cases start <;> cases stop <;> simp [pyBound] <;> omega

theorem pyIndices_neg_bounds {len : Int} (hlen : 0 ≤ len) (start stop : Option Int) {step : Int}
    (hs : step < 0) :
    -1 ≤ (pyIndices len start stop step).1 ∧ (pyIndices len start stop step).1 ≤ len - 1 ∧
    -1 ≤ (pyIndices len start stop step).2 ∧ (pyIndices len start stop step).2 ≤ len - 1 := by
  unfold pyIndices
  rw [if_neg (by omega)]
  cases start <;> cases stop <;> simp [pyBound] <;> omega

/-- Every selected position lies inside the list. -/
theorem mem_pySlicePositions {len : Int} (hlen : 0 ≤ len) {start stop : Option Int} {step : Int}
    (hs : step ≠ 0) {x : Int} (hx : x ∈ pySlicePositions len start stop step) :
    0 ≤ x ∧ x < len := by
  unfold pySlicePositions at hx
  by_cases h : 0 < step
  · have := mem_pyRange_pos h hx
    have := pyIndices_pos_bounds hlen start stop h
    omega
  · have h : step < 0 := by omega
    have := mem_pyRange_neg h hx
    have := pyIndices_neg_bounds hlen start stop h
    omega

/-- The carry computed for one list is the list of Python's positions. -/
theorem regular_range_carry_one {len : Int} (hlen : 0 ≤ len) {start stop : Option Int} {step : Int}
    (h1 : GoodArg start) (h2 : GoodArg stop) (hs : step ≠ 0) :
    regular_range_carry 1 len (sliceArg start) (sliceArg stop) step
      = ok (((pySlicePositions len start stop step).length : Int),
          pySlicePositions len start stop step) := by
  unfold regular_range_carry
  rw [if_neg hs]
  by_cases h : 0 < step
  · simp only [gt_iff_lt, h, decide_true]
    rw [regularize_pos h1 h2 hlen h]
    simp only
    rw [nextsize_pos h]
    have := RegularArray_getitem_next_range_eq
      (alloc (1 * (pyRangeLen (pyIndices len start stop step).1 (pyIndices len start stop step).2 step : Int)))
      (pyIndices len start stop step).1 step len 1
      (pyRangeLen (pyIndices len start stop step).1 (pyIndices len start stop step).2 step)
      (by simp [alloc])
    rw [Int.natCast_one] at this
    rw [this]
    simp [pySlicePositions, pyRange]
  · have h' : step < 0 := by omega
    simp only [gt_iff_lt, h, decide_false]
    rw [regularize_neg h1 h2 hlen h']
    simp only
    rw [nextsize_neg h']
    have := RegularArray_getitem_next_range_eq
      (alloc (1 * (pyRangeLen (pyIndices len start stop step).1 (pyIndices len start stop step).2 step : Int)))
      (pyIndices len start stop step).1 step len 1
      (pyRangeLen (pyIndices len start stop step).1 (pyIndices len start stop step).2 step)
      (by simp [alloc])
    rw [Int.natCast_one] at this
    rw [this]
    simp [pySlicePositions, pyRange]

/-- One-dimensional range slicing is Python slicing. -/
theorem getitem_slicerange_eq (xs : List α) {start stop : Option Int} {step : Int}
    (h1 : GoodArg start) (h2 : GoodArg stop) (hs : step ≠ 0) (hk : step ≠ kSliceNone) :
    getitem_slicerange xs (sliceArg start) (sliceArg stop) step = ok (pySlice xs start stop step) := by
  unfold getitem_slicerange
  simp only [hk, if_false, hs]
  rw [regular_range_carry_one (by omega) h1 h2 hs]
  simp only [bind_ok]
  rw [gather_eq (fun j hj => mem_pySlicePositions (by omega) hs hj)]
  rfl

theorem pySlice_pos_eq (xs : List α) (start stop : Option Int) {step : Int} (hs : 0 < step) :
    pySlice xs start stop step
      = selSlice (sel (pyIndices xs.length start stop step).1 (pyIndices xs.length start stop step).2
          step) xs 0 := by
  have := pyIndices_pos_bounds (by omega : (0:Int) ≤ xs.length) start stop hs
  exact filterMap_pyRange hs xs _ _ this.1 this.2.2.2

theorem pySlice_neg_eq (xs : List α) (start stop : Option Int) {step : Int} (hs : step < 0) :
    pySlice xs start stop step
      = selSlice (sel (xs.length - 1 - (pyIndices xs.length start stop step).1)
          (xs.length - 1 - (pyIndices xs.length start stop step).2) (-step)) xs.reverse 0 := by
  have hb := pyIndices_neg_bounds (by omega : (0:Int) ≤ xs.length) start stop hs
  unfold pySlice
  rw [filterMap_mirror xs _ (fun x hx => mem_pySlicePositions (by omega) (by omega) hx)]
  unfold pySlicePositions
  rw [pyRange_neg hs, filterMap_pyRange (by omega) _ _ _ (by omega) (by simp; omega)]

theorem filterMap_range_get (xs : List α) (a m : Nat) :
    (List.range m).filterMap (fun n => xs[a + n]?) = (xs.drop a).take m := by
  induction m with
  | zero => simp
  | succ m ih =>
    rw [List.range_succ, List.filterMap_append, ih, List.take_add_one, List.getElem?_drop]
    cases h : xs[a + m]? <;> simp [h]

/-- With step 1 a Python slice is a contiguous piece. -/
theorem pySlice_one (xs : List α) (start stop : Option Int) :
    ∃ a b : Nat, a ≤ b ∧ b ≤ xs.length ∧
      ((a : Int), (b : Int)) = ((pyIndices xs.length start stop 1).1,
          max (pyIndices xs.length start stop 1).1 (pyIndices xs.length start stop 1).2) ∧
      pySlice xs start stop 1 = (xs.drop a).take (b - a) := by
  have hb := pyIndices_pos_bounds (by omega : (0:Int) ≤ xs.length) start stop (by omega : (0:Int) < 1)
  obtain ⟨h1, h2, h3, h4⟩ := hb
  refine ⟨(pyIndices xs.length start stop 1).1.toNat,
    (max (pyIndices xs.length start stop 1).1 (pyIndices xs.length start stop 1).2).toNat,
    by omega, by omega, by congr 1 <;> omega, ?_⟩
  unfold pySlice pySlicePositions pyRange
  rw [pyRangeLen_pos (by omega), List.filterMap_map, ← filterMap_range_get]
  have e : (((pyIndices (↑xs.length) start stop 1).2 - (pyIndices (↑xs.length) start stop 1).1 + 1 - 1) / 1).toNat
      = (max (pyIndices xs.length start stop 1).1 (pyIndices xs.length start stop 1).2).toNat
        - (pyIndices xs.length start stop 1).1.toNat := by
    rw [Int.ediv_one]; omega
  rw [e]
  apply filterMap_congr'
  intro n _
  simp only [Function.comp]
  congr 1; omega

end Awk
