import Mathlib.Algebra.Order.Group.Unbundled.Abs
import Mathlib.Algebra.Order.Ring.Rat
import Verif.Model.BcastWith
import Verif.Model.Moment
/-
`ak.isclose` (src/awkward/operations/structure.py:4397-4449). Simplification: without rounding, infinities and NaN.
-/

namespace Awk
open R

/-- `numpy.isclose` of two numbers. -/
def closeAtoms (rtol atol : Rat) (a b : Atom) : Bool := decide (|a.asRat - b.asRat| ≤ atol + rtol * |b.asRat|)

namespace Content

/-- structure.py:4421-4437 `getfunction` of `ak.isclose`. The arrays have the same length here (_util.py:530-540 and 630). -/
def closeGet (rtol atol : Rat) (_depth : Nat) (cs : List Content) : R (Option (List Content)) :=
  match cs with
  | [numpy _ _ xs, numpy _ _ ys] =>
    ok (some [numpy {} .bool (List.zipWith (fun a b => .bool (closeAtoms rtol atol a b)) xs ys)])
  | _ => ok none

/-- structure.py:4417-4449 `ak.isclose`. -/
def isClose (fuel : Nat) (rtol atol : Rat) (a b : Content) : R Item :=
  bcastAndApply ⟨true, false, true⟩ (closeGet rtol atol) fuel [a, b] >>= onlyOutput

end Content
end Awk
