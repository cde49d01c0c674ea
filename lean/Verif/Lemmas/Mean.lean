import Verif.Model.Mean
import Verif.Spec.Mean
import Mathlib.Algebra.BigOperators.Group.List.Basic
/-
Lemmas for `ak.mean` and `ak.ptp`.
-/

namespace Awk
open R Spec

theorem numAs64_eq (a : Atom) : numAs64 a = BitVec.ofInt 64 (wholeOf a) := by
  cases a with
  | bool b => cases b <;> rfl
  | _ => rfl

theorem npSum64_eq (l : List Atom) : npSum64 l = BitVec.ofInt 64 (totalOf l) := by
  induction l with
  | nil => rfl
  | cons a l ih =>
    have h : npSum64 (a :: l) = numAs64 a + npSum64 l := rfl
    rw [h, ih, numAs64_eq, ← BitVec.ofInt_add]
    simp only [totalOf, List.map_cons, List.sum_cons]

theorem toInt_in64 {i : Int} (h : In64 i) : (BitVec.ofInt 64 i).toInt = i := by
  unfold In64 at h
  rw [BitVec.toInt_ofInt]
  exact Int.bmod_eq_of_le (by omega) (by omega)

end Awk
