import Verif.Spec.BcastWith
import Verif.Spec.Reduce
/-
Specification of `where`, `with_field` and `cartesian`, on the values that `to_list` shows.
-/

namespace Awk

namespace Val

/-- The record `v` with the value `x` as its field `w`, which comes last. Without a name, the new field of
a tuple is its next item and that of a record is called by the number of fields that it had. -/
def withField (where_ : Option String) (v x : Val) : Val := match where_, v with
  | some w, v => .record ((v.named.filter (fun f => f.1 ≠ w)) ++ [(w, x)])
  | none, .tuple vs => .tuple (vs ++ [x])
  | none, v => .record (v.named ++ [(toString v.named.length, x)])

end Val

namespace Spec

/-- A boolean or a number that is not complex. -/
def Plainly : Atom → Prop
  | .bool _ | .int _ | .real _ => True
  | _ => False

/-- All choices of one element of each list, in the order of nested loops. -/
def product {α : Type} : List (List α) → List (List α)
  | [] => [[]]
  | xs :: rest => xs.flatMap (fun x => (product rest).map (x :: ·))

/-- The choices of one element of each list that begin with `pre`, in lists of lists. -/
def nestedProduct (mk : List Val → Val) : List Val → List (List Val) → Val
  | pre, [] => mk pre
  | pre, vs :: rest => .list (vs.map (fun v => nestedProduct mk (pre ++ [v]) rest))

end Spec
end Awk
