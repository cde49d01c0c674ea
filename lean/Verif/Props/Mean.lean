import Verif.Lemmas.Mean
import Verif.Props.Complete
/-
C89: `ak.mean` and `ak.ptp` with `axis=None`.
-/

namespace Awk.Props
open R Spec Content

/-- **C89 (partial).** `mean(array, axis=None)` of integers is the sum of all numbers of the array, whatever lists,
records, unions and missing values surround them, divided by how many they are; without numbers it is NaN. Missing:
sums that do not fit in 64 bits (`C89_overflow_violated`), rounding. -/
theorem C89_mean_partial (c : Content) (vs : List Val) (hv : c.validity = ok ()) (hl : c.toList = ok vs)
    (ht : AllNodes TrimNode c) (hf : AllNodes FullNode c) (hs : In64 (totalOf (vs.flatMap Val.leaves))) :
    c.meanAll = ok (if vs.flatMap Val.leaves = [] then none
      else some ((totalOf (vs.flatMap Val.leaves) : Rat) / ((vs.flatMap Val.leaves).length : Rat))) := by
  have h1 := C73_count_partial c vs hv hl ht hf
  have h2 : reduceAll npSum64 (· + ·) c = ok (npSum64 (vs.flatMap Val.leaves)) :=
    C73_reduce_partial (· + ·) 0 numAs64 BitVec.add_assoc BitVec.add_comm (fun a => BitVec.zero_add a) c vs hv hl ht hf
  unfold meanAll
  rw [h1, bind_ok, h2, bind_ok, npSum64_eq, toInt_in64 hs]
  unfold trueDivide
  simp only [List.length_eq_zero_iff]

/-- **C89 (partial).** `ptp(array, axis=None)` of integers is the difference of the largest and the least number of
the array, whatever lists, records, unions and missing values surround them. Missing: arrays without numbers
(`C89_ptp_empty_violated`), `mask_identity=False` (`C89_ptp_identity_violated`), and differences that do not fit in 64
bits (`C89_ptp_overflow_violated`). -/
theorem C89_ptp_partial (c : Content) (vs : List Val) (hv : c.validity = ok ()) (hl : c.toList = ok vs)
    (ht : AllNodes TrimNode c) (hi : ∀ a ∈ vs.flatMap Val.leaves, ∃ i, a = .int i)
    (hne : vs.flatMap Val.leaves ≠ [])
    (hd : ∀ i j, .int i ∈ vs.flatMap Val.leaves → .int j ∈ vs.flatMap Val.leaves → In64 (i - j)) :
    ∃ hi lo, ptpAll intLess true c = ok (hi - lo) ∧ .int hi ∈ vs.flatMap Val.leaves ∧
      .int lo ∈ vs.flatMap Val.leaves ∧ ∀ i, .int i ∈ vs.flatMap Val.leaves → lo ≤ i ∧ i ≤ hi := by
  have hw := intLess_weak hi
  have hw' : StrictWeak (fun a b => intLess b a) (· ∈ vs.flatMap Val.leaves) :=
    ⟨fun a b ha hb h => hw.asymm b a hb ha h, fun a b d ha hb hd h1 h2 => hw.neg d b a hd hb ha h2 h1⟩
  obtain ⟨lo, h1, h2, h3⟩ := C73_min_partial intLess c vs hv hl ht hw
  obtain ⟨hi', g1, g2, g3⟩ := C73_min_partial (fun a b => intLess b a) c vs hv hl ht hw'
  cases lo with
  | none => exact absurd (h2.mp rfl) hne
  | some lo =>
  cases hi' with
  | none => exact absurd (g2.mp rfl) hne
  | some hi' =>
  obtain ⟨m1, m2⟩ := h3 lo rfl
  obtain ⟨n1, n2⟩ := g3 hi' rfl
  obtain ⟨l, rfl⟩ := hi lo m1
  obtain ⟨h, rfl⟩ := hi hi' n1
  refine ⟨h, l, ?_, n1, m1, fun i hm => ?_⟩
  · unfold ptpAll
    simp only [h1, g1, bind_ok, if_true]
    rw [numAs64_eq, numAs64_eq]
    congr 1
    show (BitVec.ofInt 64 h - BitVec.ofInt 64 l).toInt = h - l
    rw [BitVec.sub_eq_add_neg, ← BitVec.ofInt_neg, ← BitVec.ofInt_add, ← Int.sub_eq_add_neg]
    exact toInt_in64 (hd h l n1 m1)
  · have a1 := m2 _ hm
    have a2 := n2 _ hm
    simp only [intLess, decide_eq_false_iff_not] at a1 a2
    omega

/-- The records with lists meet the hypotheses: six numbers, of sum 66 and range 29. -/
example : someRecords.meanAll = ok (some 11) ∧ someRecords.ptpAll intLess true = ok 29 := by
  have hl : someRecords.toList = ok
      [.list [.record [("x", .atom (.int 1)), ("y", .list [.atom (.int 10)])],
      .record [("x", .atom (.int 2)), ("y", .list [])]], .null,
      .list [.record [("x", .atom (.int 3)), ("y", .list [.atom (.int 20), .atom (.int 30)])]]] :=
    R.lists (by decide +kernel)
  have ht : AllNodes TrimNode someRecords := by
    simp [someRecords, all_numpy, all_listOffset, all_listArray, all_indexedOption, all_record, TrimNode, intArray, len]
  have hf : AllNodes FullNode someRecords := by
    simp [someRecords, all_numpy, all_listOffset, all_listArray, all_indexedOption, all_record, FullNode, intArray]
  constructor
  · rw [C89_mean_partial someRecords _ rfl hl ht hf
      (by simp [Val.leaves, Val.leavesAll, Val.leavesFields, totalOf, wholeOf, In64])]
    simp [Val.leaves, Val.leavesAll, Val.leavesFields, totalOf, wholeOf]
    norm_num
  · rfl

/-- **C89 is violated:** the sum of integers wraps around before it is divided, so that the mean of two equal numbers
can be another number, even a negative one. (`numpy.mean`, which the documentation refers to, adds in floating point.) -/
theorem C89_overflow_violated :
    (intArray [2 ^ 62, 2 ^ 62]).validity = ok () ∧ (intArray [2 ^ 62, 2 ^ 62]).meanAll = ok (some (-2 ^ 62)) :=
  ⟨rfl, by decide +kernel⟩

/-- **C89 is violated:** `ptp` of an array without numbers, documented to be `None`, raises an error. -/
theorem C89_ptp_empty_violated : (intArray []).validity = ok () ∧ ((intArray []).ptpAll intLess true).IsErr :=
  ⟨rfl, _, rfl⟩

/-- **C89 is violated:** `ptp` with `axis=None` and `mask_identity=False` always raises an error, with numbers or
without. -/
theorem C89_ptp_identity_violated (lt : Atom → Atom → Bool) (c : Content) (i : Int) : c.ptpAll lt false ≠ ok i := by
  intro h
  unfold ptpAll at h
  obtain ⟨hi, _, h⟩ := bind_eq_ok.mp h
  obtain ⟨lo, _, h⟩ := bind_eq_ok.mp h
  cases hi <;> cases lo <;> simp at h

/-- **C89 is violated:** the range of 64-bit integers can be negative. -/
theorem C89_ptp_overflow_violated : (intArray [2 ^ 62, -2 ^ 62]).validity = ok () ∧
    (intArray [2 ^ 62, -2 ^ 62]).ptpAll intLess true = ok (-2 ^ 63) := ⟨rfl, by decide +kernel⟩

end Awk.Props
