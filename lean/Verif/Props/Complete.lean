import Verif.Lemmas.Complete
import Verif.Lemmas.ValEq
import Verif.Lemmas.MergeShape
/-
C72: `flatten` with `axis=None` and `in`. C73: reducers with `axis=None`.
-/

namespace Awk.Props
open Awk R Content

/-! ### C72: all numbers of an array -/

/-- **C72.** `flatten` with `axis=None` of a valid array gives each number of the array as often as it
occurs; without records and unions it gives them from left to right.

Partial: the fields of a record must be as long as the record, and records must have fields (and unions
must have alternatives). -/
theorem C72_flatten_partial (c : Content) (vs : List Val) (hv : c.validity = ok ()) (hl : c.toList = ok vs)
    (ht : AllNodes TrimNode c) (hf : AllNodes FullNode c) :
    ∃ out, flattenAll c = ok out ∧ out.Perm (vs.flatMap Val.leaves) ∧
      (AllNodes SingleNode c → out = vs.flatMap Val.leaves) := by
  have hg := good_of_validity hv
  obtain ⟨parts, h1, h2, h3, h4⟩ := allParts_ok c.rank c hg (Nat.le_refl _) ht
  rw [leavesOf_toList hg hl] at h2 h3
  have hne := h4 hf
  refine ⟨parts.flatten, ?_, h2, fun h => ?_⟩
  · unfold flattenAll
    rw [h1, bind_ok]
    cases parts with
    | nil => exact absurd rfl hne
    | cons x xs => rfl
  · obtain ⟨part, h5, h6⟩ := h3 h
    rw [h5, h6]; simp

/-- Lists with missing values and records of a number and a list. -/
def someRecords : Content :=
  indexedOption {} [0, -1, 1] (listOffset {} [0, 2, 3] (record {} (some ["x", "y"])
    [intArray [1, 2, 3], listArray {} [0, 4, 1] [1, 4, 3] (intArray [10, 20, 30, 40])] 3))

example : ∃ out, flattenAll someRecords = ok out ∧
    out.Perm [.int 1, .int 10, .int 2, .int 3, .int 20, .int 30] := by
  obtain ⟨out, h1, h2, _⟩ := C72_flatten_partial someRecords
    [.list [.record [("x", .atom (.int 1)), ("y", .list [.atom (.int 10)])],
      .record [("x", .atom (.int 2)), ("y", .list [])]], .null,
      .list [.record [("x", .atom (.int 3)), ("y", .list [.atom (.int 20), .atom (.int 30)])]]]
    rfl (R.lists (by decide +kernel))
    (by simp [someRecords, all_numpy, all_listOffset, all_listArray, all_indexedOption, all_record, TrimNode, intArray, len])
    (by simp [someRecords, all_numpy, all_listOffset, all_listArray, all_indexedOption, all_record, FullNode, intArray])
  exact ⟨out, h1, h2⟩

/-- **C72.** `x in array` of a valid array is true if and only if some number of the array equals `x`.

Partial: the fields of a record must be as long as the record. -/
theorem C72_contains_partial (eq : Atom → Atom → Bool) (x : Atom) (c : Content) (vs : List Val)
    (hv : c.validity = ok ()) (hl : c.toList = ok vs) (ht : AllNodes TrimNode c) :
    ∃ b, containsAll eq x c = ok b ∧ (b = true ↔ ∃ y ∈ vs.flatMap Val.leaves, eq x y = true) := by
  have hg := good_of_validity hv
  obtain ⟨parts, h1, h2, _⟩ := allParts_ok c.rank c hg (Nat.le_refl _) ht
  rw [leavesOf_toList hg hl] at h2
  refine ⟨_, by unfold containsAll; rw [h1]; rfl, ?_⟩
  simp only [List.any_eq_true]
  constructor
  · rintro ⟨part, p1, y, p2, p3⟩
    exact ⟨y, h2.mem_iff.mp (List.mem_flatten.mpr ⟨_, p1, p2⟩), p3⟩
  · rintro ⟨y, h3, h4⟩
    obtain ⟨part, p1, p2⟩ := List.mem_flatten.mp (h2.mem_iff.mpr h3)
    exact ⟨part, p1, y, p2, h4⟩

/-- A record of length 2 whose field has 3 numbers. -/
def untrimmed : Content := record {} (some ["x"]) [intArray [1, 2, 3]] 2

/-- **C72 is violated:** if a field is longer than its record, `flatten` and `in` see numbers that are not
in the array. -/
theorem C72_untrimmed_violated : untrimmed.validity = ok () ∧
    untrimmed.toList = ok [.record [("x", .atom (.int 1))], .record [("x", .atom (.int 2))]] ∧
    flattenAll untrimmed = ok [.int 1, .int 2, .int 3] ∧
    containsAll (fun a b => decide (a = b)) (.int 3) untrimmed = ok true :=
  ⟨rfl, rfl, rfl, rfl⟩

/-- **C72 is violated:** `flatten` of records without fields raises an error although there is nothing to
show. -/
theorem C72_no_fields_violated : ∃ c : Content, c.validity = ok () ∧
    c.toList = ok [.record [], .record []] ∧ (flattenAll c).IsErr :=
  ⟨record {} (some []) [] 2, rfl, rfl, _, rfl⟩

/-! ### C73: reducers with `axis=None` -/

/-- **C73.** A reducer with `axis=None` that NumPy computes with an associative and commutative operation
with a neutral element (count, count_nonzero, sum and prod of integers, any, all) gives the reduction of all
numbers of the array.

Partial: sums of floating-point numbers, which are not associative; the limits of `C72_flatten_partial`. -/
theorem C73_reduce_partial {β : Type} (op : β → β → β) (e : β) (g : Atom → β)
    (ha : ∀ a b c, op (op a b) c = op a (op b c)) (hc : ∀ a b, op a b = op b a) (he : ∀ a, op e a = a)
    (c : Content) (vs : List Val) (hv : c.validity = ok ()) (hl : c.toList = ok vs)
    (ht : AllNodes TrimNode c) (hf : AllNodes FullNode c) :
    reduceAll (fun l => l.foldr (fun x r => op (g x) r) e) op c
      = ok ((vs.flatMap Val.leaves).foldr (fun x r => op (g x) r) e) := by
  have hg := good_of_validity hv
  obtain ⟨parts, h1, h2, h3, h4⟩ := allParts_ok c.rank c hg (Nat.le_refl _) ht
  rw [leavesOf_toList hg hl] at h2
  unfold reduceAll
  rw [h1, bind_ok, reduceParts_fold g ha he (fun a => (hc a e).trans (he a)) parts (h4 hf)]
  congr 1
  refine h2.foldr_eq' (fun x _ y _ z => ?_) _
  rw [← ha, ← ha, hc (g y)]

/-- **C73.** `count` with `axis=None` is the number of numbers in the array. -/
theorem C73_count_partial (c : Content) (vs : List Val) (hv : c.validity = ok ()) (hl : c.toList = ok vs)
    (ht : AllNodes TrimNode c) (hf : AllNodes FullNode c) :
    reduceAll List.length (· + ·) c = ok (vs.flatMap Val.leaves).length := by
  have h := C73_reduce_partial (· + ·) 0 (fun _ => 1) (fun a b c => Nat.add_assoc a b c) Nat.add_comm
    Nat.zero_add c vs hv hl ht hf
  have he : ∀ l : List Atom, l.foldr (fun _ r => 1 + r) 0 = l.length := by
    intro l
    induction l with
    | nil => rfl
    | cons a l ih => simp only [List.foldr_cons, ih, List.length_cons]; omega
  rw [he, show (fun l : List Atom => l.foldr (fun _ r => 1 + r) 0) = List.length from funext he] at h
  exact h

/-- **C73.** `any` with `axis=None` is true if and only if some number of the array is not zero. -/
theorem C73_any_partial (c : Content) (vs : List Val) (hv : c.validity = ok ()) (hl : c.toList = ok vs)
    (ht : AllNodes TrimNode c) (hf : AllNodes FullNode c) :
    reduceAll (fun l => l.any Atom.nonzero) (fun a b => a || b) c
      = ok ((vs.flatMap Val.leaves).any Atom.nonzero) := by
  have h := C73_reduce_partial (fun a b => a || b) false Atom.nonzero Bool.or_assoc Bool.or_comm
    Bool.false_or c vs hv hl ht hf
  have he : ∀ l : List Atom, l.foldr (fun x r => x.nonzero || r) false = l.any Atom.nonzero := by
    intro l
    induction l with
    | nil => rfl
    | cons a l ih => simp only [List.foldr_cons, ih, List.any_cons]
  rw [he, show (fun l : List Atom => l.foldr (fun x r => x.nonzero || r) false)
    = (fun l => l.any Atom.nonzero) from funext he] at h
  exact h

/-- **C73.** `all` with `axis=None` is true if and only if no number of the array is zero. -/
theorem C73_all_partial (c : Content) (vs : List Val) (hv : c.validity = ok ()) (hl : c.toList = ok vs)
    (ht : AllNodes TrimNode c) (hf : AllNodes FullNode c) :
    reduceAll (fun l => l.all Atom.nonzero) (fun a b => a && b) c
      = ok ((vs.flatMap Val.leaves).all Atom.nonzero) := by
  have h := C73_reduce_partial (fun a b => a && b) true Atom.nonzero Bool.and_assoc Bool.and_comm
    Bool.true_and c vs hv hl ht hf
  have he : ∀ l : List Atom, l.foldr (fun x r => x.nonzero && r) true = l.all Atom.nonzero := by
    intro l
    induction l with
    | nil => rfl
    | cons a l ih => simp only [List.foldr_cons, ih, List.all_cons]
  rw [he, show (fun l : List Atom => l.foldr (fun x r => x.nonzero && r) true)
    = (fun l => l.all Atom.nonzero) from funext he] at h
  exact h

/-- An integer as a 64-bit number. -/
def as64 : Atom → BitVec 64
  | .int i => BitVec.ofInt 64 i
  | .bool b => if b then 1 else 0
  | _ => 0

/-- **C73.** `sum` with `axis=None` of 64-bit integers is their sum modulo 2⁶⁴. -/
theorem C73_sum_partial (c : Content) (vs : List Val) (hv : c.validity = ok ()) (hl : c.toList = ok vs)
    (ht : AllNodes TrimNode c) (hf : AllNodes FullNode c) :
    reduceAll (fun l => l.foldr (fun x r => as64 x + r) 0) (· + ·) c
      = ok ((vs.flatMap Val.leaves).foldr (fun x r => as64 x + r) 0) :=
  C73_reduce_partial (· + ·) 0 as64 BitVec.add_assoc BitVec.add_comm
    (fun a => BitVec.zero_add a) c vs hv hl ht hf

/-- The records with lists meet the hypotheses: six numbers, of sum 66. -/
example : reduceAll List.length (· + ·) someRecords = ok 6 ∧
    reduceAll (fun l => l.foldr (fun x r => as64 x + r) 0) (· + ·) someRecords = ok 66 ∧
    reduceAll (fun l => l.all Atom.nonzero) (fun a b => a && b) someRecords = ok true := by
  have hl : someRecords.toList = ok
      [.list [.record [("x", .atom (.int 1)), ("y", .list [.atom (.int 10)])],
      .record [("x", .atom (.int 2)), ("y", .list [])]], .null,
      .list [.record [("x", .atom (.int 3)), ("y", .list [.atom (.int 20), .atom (.int 30)])]]] :=
    R.lists (by decide +kernel)
  have ht : AllNodes TrimNode someRecords := by
    simp [someRecords, all_numpy, all_listOffset, all_listArray, all_indexedOption, all_record, TrimNode, intArray, len]
  have hf : AllNodes FullNode someRecords := by
    simp [someRecords, all_numpy, all_listOffset, all_listArray, all_indexedOption, all_record, FullNode, intArray]
  exact ⟨C73_count_partial _ _ rfl hl ht hf, C73_sum_partial _ _ rfl hl ht hf, C73_all_partial _ _ rfl hl ht hf⟩

/-- **C73 is violated:** `count` of an array of records without fields raises an error. -/
theorem C73_no_fields_violated : ∃ c : Content, c.validity = ok () ∧
    c.toList = ok [.record [], .record []] ∧ (reduceAll List.length (· + ·) c).IsErr :=
  ⟨record {} (some []) [] 2, rfl, rfl, _, rfl⟩

/-- **C73 is violated:** `count` of records counts what lies beyond the end of the array. -/
theorem C73_untrimmed_violated : untrimmed.validity = ok () ∧
    untrimmed.toList = ok [.record [("x", .atom (.int 1))], .record [("x", .atom (.int 2))]] ∧
    reduceAll List.length (· + ·) untrimmed = ok 3 := ⟨rfl, rfl, rfl⟩

/-- **C73.** `min` with `axis=None` (and `max`, with the opposite order) is None if the array has no
numbers, and otherwise is a number of the array such that no number of the array is less.

Partial: `initial`; NaN; the fields of a record must be as long as the record. -/
theorem C73_min_partial (lt : Atom → Atom → Bool) (c : Content) (vs : List Val)
    (hv : c.validity = ok ()) (hl : c.toList = ok vs) (ht : AllNodes TrimNode c)
    (hlt : StrictWeak lt (· ∈ vs.flatMap Val.leaves)) :
    ∃ r, minAll lt none c = ok r ∧ (r = none ↔ vs.flatMap Val.leaves = []) ∧
      ∀ m, r = some m → m ∈ vs.flatMap Val.leaves ∧ ∀ y ∈ vs.flatMap Val.leaves, lt y m = false := by
  have hg := good_of_validity hv
  obtain ⟨parts, h1, h2, _⟩ := allParts_ok c.rank c hg (Nat.le_refl _) ht
  rw [leavesOf_toList hg hl] at h2
  obtain ⟨h3, h4⟩ := minParts_spec hlt parts (fun x hx => h2.mem_iff.mp hx)
  refine ⟨_, minAll_eq h1, h3.trans ⟨fun h => ?_, fun h => ?_⟩, fun m hm => ?_⟩
  · rw [h] at h2; exact h2.nil_eq.symm
  · rw [h] at h2; exact h2.eq_nil
  · obtain ⟨g1, g2⟩ := h4 m hm
    exact ⟨h2.mem_iff.mp g1, fun y hy => g2 y (h2.mem_iff.mpr hy)⟩

/-- The order of integers. -/
def intLess : Atom → Atom → Bool
  | .int i, .int j => decide (i < j)
  | _, _ => false

theorem intLess_weak {S : Atom → Prop} (h : ∀ a, S a → ∃ i, a = .int i) : StrictWeak intLess S where
  asymm := by
    intro a b ha hb
    obtain ⟨i, rfl⟩ := h a ha
    obtain ⟨j, rfl⟩ := h b hb
    simp only [intLess, decide_eq_true_eq, decide_eq_false_iff_not]; omega
  neg := by
    intro a b c ha hb hc
    obtain ⟨i, rfl⟩ := h a ha
    obtain ⟨j, rfl⟩ := h b hb
    obtain ⟨k, rfl⟩ := h c hc
    simp only [intLess, decide_eq_false_iff_not]; omega

/-- The records with lists meet the hypotheses. -/
example : ∃ r, minAll intLess none someRecords = ok r ∧ (r = none ↔ False) ∧ ∀ m, r = some m →
    m ∈ [Atom.int 1, .int 10, .int 2, .int 3, .int 20, .int 30] := by
  obtain ⟨r, h1, h2, h3⟩ := C73_min_partial intLess someRecords
    [.list [.record [("x", .atom (.int 1)), ("y", .list [.atom (.int 10)])],
      .record [("x", .atom (.int 2)), ("y", .list [])]], .null,
      .list [.record [("x", .atom (.int 3)), ("y", .list [.atom (.int 20), .atom (.int 30)])]]]
    rfl (R.lists (by decide +kernel))
    (by simp [someRecords, all_numpy, all_listOffset, all_listArray, all_indexedOption, all_record, TrimNode, intArray, len])
    (intLess_weak (by intro a ha; simp [Val.leaves, Val.leavesAll, Val.leavesFields] at ha; rcases ha with h | h | h | h | h | h <;> exact ⟨_, h⟩))
  exact ⟨r, h1, by simpa [Val.leaves, Val.leavesAll, Val.leavesFields] using h2, fun m hm => (h3 m hm).1⟩

/-- **C73 is violated:** `min` with `axis=None` ignores `initial`, documented as the largest value of the
result: the minimum of 5 and 7 with the initial value 3 is 5. -/
theorem C73_initial_violated : minAll intLess (some (.int 3)) (intArray [5, 7]) = ok (some (.int 5)) := rfl

/-- **C73.** `argmin` with `axis=None` (and `argmax`, with the opposite order) of an array with numbers is
the first position, in the array completely flattened, of a number such that no number of the array is less.

Partial: arrays without records and unions, and arrays that are not partitioned. -/
theorem C73_argmin_partial (lt : Atom → Atom → Bool) (c : Content) (vs : List Val)
    (hv : c.validity = ok ()) (hl : c.toList = ok vs) (hs : AllNodes SingleNode c)
    (hne : vs.flatMap Val.leaves ≠ []) (hlt : StrictWeak lt (· ∈ vs.flatMap Val.leaves)) :
    ∃ k m, argminAll lt c = ok (some k) ∧ (vs.flatMap Val.leaves)[k]? = some m ∧
      (∀ y ∈ vs.flatMap Val.leaves, lt y m = false) ∧
      ∀ j y, j < k → (vs.flatMap Val.leaves)[j]? = some y → lt m y = true := by
  have hg := good_of_validity hv
  have ht : AllNodes TrimNode c := hs.mono (fun d hd => by cases d <;> first | trivial | exact hd.elim)
  obtain ⟨parts, h1, _, h3, _⟩ := allParts_ok c.rank c hg (Nat.le_refl _) ht
  obtain ⟨part, rfl, hp⟩ := h3 hs
  rw [leavesOf_toList hg hl] at hp
  rw [← hp] at hne hlt ⊢
  cases part with
  | nil => exact absurd rfl hne
  | cons x xs =>
    have hxx : lt x x = false := by
      cases hx : lt x x with
      | false => rfl
      | true => have := hlt.asymm x x (by simp) (by simp) hx; rw [hx] at this; cases this
    obtain ⟨k, m, g1, g2, g3, g4⟩ := npArgmin_spec hlt xs [x] x 0 (fun y hy => by simpa using hy) rfl
      (by simpa using hxx) (by omega)
    refine ⟨k, m, ?_, g2, g3, g4⟩
    unfold argminAll
    simp only [List.length_singleton] at g1
    rw [h1, bind_ok]
    simp only [argminParts, g1, bind_ok, Option.map_some, Nat.zero_add]

/-- Lists of integers meet the hypotheses. -/
example : ∃ k m, argminAll intLess (listArray {} [2, 0] [4, 1] (intArray [5, 9, 7, 5])) = ok (some k) ∧
    [Atom.int 7, .int 5, .int 5][k]? = some m ∧ ∀ y ∈ [Atom.int 7, .int 5, .int 5], intLess y m = false := by
  obtain ⟨k, m, h1, h2, h3, _⟩ := C73_argmin_partial intLess
    (listArray {} [2, 0] [4, 1] (intArray [5, 9, 7, 5]))
    [.list [.atom (.int 7), .atom (.int 5)], .list [.atom (.int 5)]] rfl (R.lists (by decide +kernel))
    (by simp [all_numpy, all_listArray, SingleNode, intArray])
    (by simp [Val.leaves, Val.leavesAll])
    (intLess_weak (by intro a ha; simp [Val.leaves, Val.leavesAll] at ha; rcases ha with h | h <;> exact ⟨_, h⟩))
  exact ⟨k, m, h1, h2, h3⟩

/-- **C73 is violated:** `argmin` of an empty array raises an error, although `min` gives None. -/
theorem C73_argmin_empty_violated : (argminAll intLess (intArray [])).IsErr ∧
    minAll intLess none (intArray []) = ok none := ⟨⟨_, rfl⟩, rfl⟩

/-- **C73 is violated:** if any field has no numbers in it, `argmin` raises an error although there are numbers. -/
theorem C73_argmin_part_violated :
    (argminAll intLess (record {} none [intArray [3], listOffset {} [0, 0] (intArray [])] 1)).IsErr ∧
    minAll intLess none (record {} none [intArray [3], listOffset {} [0, 0] (intArray [])] 1)
      = ok (some (.int 3)) := ⟨⟨_, rfl⟩, rfl⟩

/-- **C73 is violated:** the position found in records is one in a field. The least number, 0, is in position
3 of the flattened array, and `argmin` answers 1, where the flattened array has 8. -/
theorem C73_argmin_record_violated :
    flattenAll (record {} none [intArray [9, 8], intArray [7, 0]] 2) = ok [.int 9, .int 8, .int 7, .int 0] ∧
    argminAll intLess (record {} none [intArray [9, 8], intArray [7, 0]] 2) = ok (some 1) := ⟨rfl, rfl⟩

/-- **C73 is violated:** the positions in partitioned lists count the rows of the partitions before, not
their numbers. The same array without partitions has its least number in position 3. -/
theorem C73_argmin_partitions_violated :
    argminPartitions intLess 0 none [listOffset {} [0, 3] (intArray [9, 8, 7]), listOffset {} [0, 2] (intArray [0, 5])]
      = ok (some 1) ∧
    argminAll intLess (listOffset {} [0, 3, 5] (intArray [9, 8, 7, 0, 5])) = ok (some 3) := ⟨rfl, rfl⟩

end Awk.Props
