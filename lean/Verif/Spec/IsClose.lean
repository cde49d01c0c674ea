import Mathlib.Algebra.Order.Group.Unbundled.Abs
import Mathlib.Algebra.Order.Ring.Rat
import Verif.Spec.BcastWith
/-
Specification of `isclose`, on the values that `to_list` shows.
-/

namespace Awk
namespace Spec

/-- The number that a value is, if it is one. -/
inductive NumberOf : Atom → Rat → Prop
  | real (q : Rat) : NumberOf (.real q) q
  | int (i : Int) : NumberOf (.int i) i
  | bool (b : Bool) : NumberOf (.bool b) (if b then 1 else 0)

/-- A row of `isclose`: for two numbers, whether the distance of `a` from `b` is at most `atol` and `rtol` times the size of
`b`; lists and records are compared item by item and field by field, and where a value is missing the result is missing. -/
def Close (rtol atol : Rat) (a b out : Val) : Prop :=
  Applies (fun _ vs outs => ∃ x y c, vs = [.atom x, .atom y] ∧ outs = [.atom (.bool c)] ∧
      ∀ p q, NumberOf x p → NumberOf y q → (c = true ↔ |p - q| ≤ atol + rtol * |q|))
    (fun _ vs => Val.null ∈ vs ∨ (∃ xs, Val.list xs ∈ vs) ∨ ∃ v ∈ vs, v.IsRecord) 1 1 [a, b] [out]

end Spec
end Awk
