import Verif.Spec.Complete
/-
Specification of `ak.mean` and `ak.ptp` with `axis=None`.
-/

namespace Awk.Spec

/-- The integer that an item of an array of integers is; booleans are 0 and 1. -/
def wholeOf : Atom → Int
  | .int i => i
  | .bool b => if b then 1 else 0
  | _ => 0

/-- The sum of the integers. -/
def totalOf (l : List Atom) : Int := (l.map wholeOf).sum

/-- Integers of 64 bits. -/
def In64 (i : Int) : Prop := -2 ^ 63 ≤ i ∧ i < 2 ^ 63

end Awk.Spec
