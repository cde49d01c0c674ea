import Verif.Spec.Buffers
/-
Numbers survive being written as bytes.
-/

namespace Awk
open R

theorem leBytes_length (n : Nat) (x : Int) : (leBytes n x).length = n := by
  induction n generalizing x with
  | zero => rfl
  | succ n ih => simp [leBytes, ih]

theorem unsignedOf_leBytes (n : Nat) (x : Int) : unsignedOf (leBytes n x) = x % 256 ^ n := by
  induction n generalizing x with
  | zero => simp [leBytes, unsignedOf, Int.emod_one]
  | succ n ih =>
    simp only [leBytes, unsignedOf, ih]
    have h0 : 0 ≤ x % 256 := Int.emod_nonneg _ (by decide)
    rw [Int.toNat_of_nonneg h0, Int.pow_succ, Int.mul_comm (256 ^ n) 256]
    have hm : (0 : Int) < 256 ^ n := Int.pow_pos (by decide)
    generalize (256 : Int) ^ n = m at *
    have e1 := Int.mul_ediv_add_emod x 256
    have e2 := Int.mul_ediv_add_emod (x / 256) m
    have b1 := Int.emod_lt_of_pos x (show (0 : Int) < 256 by decide)
    have b2 := Int.emod_lt_of_pos (x / 256) hm
    have b3 := Int.emod_nonneg (x / 256) (show m ≠ 0 by omega)
    have e3 : x = (x % 256 + 256 * (x / 256 % m)) + 256 * m * (x / 256 / m) := by
      rw [Int.mul_assoc]; omega
    refine Eq.symm ((congrArg (fun y => y % (256 * m)) e3).trans ?_)
    rw [Int.add_mul_emod_self_left, Int.emod_eq_of_lt (by omega) (by omega)]

theorem intOf_signed {n : Nat} (hn : 0 < n) {x : Int} (h0 : -2 ^ (8 * n - 1) ≤ x)
    (h1 : x < 2 ^ (8 * n - 1)) : intOf true (leBytes n x) = x := by
  have hp : (256 : Int) ^ n = 2 * 2 ^ (8 * n - 1) := by
    rw [← Int.pow_succ', show 8 * n - 1 + 1 = 8 * n by omega, show (256 : Int) = 2 ^ 8 by rfl,
      Int.pow_mul]
  have hq : (2 : Int) ^ (8 * n) = 2 * 2 ^ (8 * n - 1) := by
    rw [← Int.pow_succ', show 8 * n - 1 + 1 = 8 * n by omega]
  simp only [intOf, leBytes_length, unsignedOf_leBytes]
  rw [hp, hq]
  generalize (2 : Int) ^ (8 * n - 1) = H at *
  by_cases hx : 0 ≤ x
  · rw [Int.emod_eq_of_lt hx (by omega), if_neg (by omega)]
  · have : x % (2 * H) = x + 2 * H := by
      rw [← Int.add_emod_right, Int.emod_eq_of_lt (by omega) (by omega)]
    rw [this, if_pos ⟨trivial, by omega⟩]
    omega

theorem intOf_unsigned {n : Nat} {x : Int} (h0 : 0 ≤ x)
    (h1 : x < 2 ^ (8 * n)) : intOf false (leBytes n x) = x := by
  have hp : (256 : Int) ^ n = 2 ^ (8 * n) := by
    rw [show (256 : Int) = 2 ^ 8 by rfl, Int.pow_mul]
  simp only [intOf, unsignedOf_leBytes]
  rw [hp, Int.emod_eq_of_lt h0 h1, if_neg (by simp)]

theorem kind_bytes {k : IndexKind} {x : Int} (h : k.Has x) :
    intOf k.layout.1 (leBytes k.layout.2 x) = x := by
  cases k <;> simp only [IndexKind.Has] at h <;> simp only [IndexKind.layout]
  · exact intOf_signed (by decide) h.1 h.2
  · exact intOf_unsigned h.1 h.2
  · exact intOf_signed (by decide) h.1 h.2
  · exact intOf_unsigned h.1 h.2
  · exact intOf_signed (by decide) h.1 h.2

theorem flatMap_length {α : Type} {enc : α → List Nat} {size : Nat} {xs : List α}
    (h : ∀ x ∈ xs, (enc x).length = size) : (xs.flatMap enc).length = xs.length * size := by
  induction xs with
  | nil => simp
  | cons x xs ih =>
    rw [List.flatMap_cons, List.length_append, h x List.mem_cons_self,
      ih (fun y hy => h y (List.mem_cons_of_mem _ hy)), List.length_cons, Nat.add_mul]
    omega

theorem flatMap_chunk {α : Type} {enc : α → List Nat} {size : Nat} {xs : List α}
    (h : ∀ x ∈ xs, (enc x).length = size) {i : Nat} (hi : i < xs.length) :
    ((xs.flatMap enc).drop (i * size)).take size = enc xs[i] := by
  induction xs generalizing i with
  | nil => simp at hi
  | cons x xs ih =>
    have hx := h x List.mem_cons_self
    cases i with
    | zero => simp [List.flatMap_cons, ← hx]
    | succ i =>
      rw [List.flatMap_cons, Nat.add_mul, Nat.one_mul, Nat.add_comm, ← List.drop_drop,
        List.drop_append_of_le_length (by omega), List.drop_eq_nil_of_le (as := enc x) (by omega),
        List.nil_append]
      exact ih (fun y hy => h y (List.mem_cons_of_mem _ hy)) (by simpa using hi)

/-- Items that are written one after the other can be read again. -/
theorem viewAs_flatMap {α : Type} {enc : α → List Nat} {size : Nat} (hs : 0 < size)
    {item : List Nat → α} {xs : List α}
    (h : ∀ x ∈ xs, (enc x).length = size ∧ item (enc x) = x) :
    viewAs size item (xs.flatMap enc) = ok xs := by
  have hl := flatMap_length (fun x hx => (h x hx).1)
  unfold viewAs
  rw [hl, Nat.mul_mod_left, if_neg (by simp), Nat.mul_div_cancel _ hs]
  congr 1
  apply List.ext_getElem (by simp)
  intro i h1 h2
  simp only [List.getElem_map, List.getElem_range]
  rw [flatMap_chunk (fun x hx => (h x hx).1) h2]
  exact (h _ (List.getElem_mem h2)).2

theorem index_bytes {k : IndexKind} {xs : List Int} (h : ∀ x ∈ xs, k.Has x) :
    viewAs k.layout.2 (intOf k.layout.1) (xs.flatMap (leBytes k.layout.2)) = ok xs :=
  viewAs_flatMap (by cases k <;> decide) (fun x hx => ⟨leBytes_length _ _, kind_bytes (h x hx)⟩)

theorem itemsize_pos (dt : DType) : 0 < dt.itemsize := by cases dt <;> decide

theorem complex_bytes {fl : Floats} {n : Nat} {re im : Rat} (h1 : fl.Has n re) (h2 : fl.Has n im) :
    (fl.enc n re ++ fl.enc n im).length = n + n ∧
      Atom.complex (fl.dec n ((fl.enc n re ++ fl.enc n im).take n))
        (fl.dec n ((fl.enc n re ++ fl.enc n im).drop n)) = .complex re im := by
  refine ⟨by simp [h1.1, h2.1], ?_⟩
  rw [List.take_append_of_le_length (by rw [h1.1]; omega),
    List.take_of_length_le (by rw [h1.1]; omega),
    List.drop_append_of_le_length (by rw [h1.1]; omega),
    List.drop_eq_nil_of_le (as := fl.enc _ re) (by rw [h1.1]; omega), List.nil_append, h1.2, h2.2]

theorem atom_bytes {fl : Floats} {dt : DType} {a : Atom} (h : dt.Has fl a) :
    (atomBytes fl dt a).length = dt.itemsize ∧ atomOf fl dt (atomBytes fl dt a) = a := by
  cases a with
  | bool b =>
    cases dt <;> simp only [DType.Has] at h
    cases b <;> exact ⟨rfl, rfl⟩
  | int i =>
    refine ⟨leBytes_length _ _, ?_⟩
    cases dt <;> simp only [DType.Has, DType.intType, Option.some.injEq, Prod.mk.injEq,
      reduceCtorEq, false_and, exists_false] at h <;>
    obtain ⟨lo, bits, ⟨rfl, rfl⟩, h0, h1⟩ := h <;>
    simp only [atomOf, atomBytes, Atom.int.injEq] <;>
    first
    | exact intOf_signed (by decide) (by simpa [DType.itemsize] using h0)
        (by simp only [DType.itemsize]; omega)
    | exact intOf_unsigned h0 (by simp only [DType.itemsize]; omega)
  | real q =>
    cases dt <;> simp only [DType.Has] at h
    all_goals exact ⟨h.1, congrArg Atom.real h.2⟩
  | complex re im =>
    cases dt <;> simp only [DType.Has] at h
    · exact complex_bytes (n := 4) h.1 h.2
    · exact complex_bytes (n := 8) h.1 h.2
  | datetime i =>
    cases dt <;> simp only [DType.Has] at h
    exact ⟨leBytes_length _ _, congrArg Atom.datetime (intOf_signed (by decide) h.1 h.2)⟩
  | timedelta i =>
    cases dt <;> simp only [DType.Has] at h
    exact ⟨leBytes_length _ _, congrArg Atom.timedelta (intOf_signed (by decide) h.1 h.2)⟩

theorem data_bytes {fl : Floats} {dt : DType} {xs : List Atom} (h : ∀ x ∈ xs, dt.Has fl x) :
    viewAs dt.itemsize (atomOf fl dt) (xs.flatMap (atomBytes fl dt)) = ok xs :=
  viewAs_flatMap (itemsize_pos dt) (fun x hx => atom_bytes (h x hx))

end Awk
