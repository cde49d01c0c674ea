import Verif.Model.Types
import Verif.Spec.List
/-
Specification of `ak.with_name`.
-/

namespace Awk

namespace AkType

mutual
/-- The type with the name `name` for its outermost records; records inside of records keep their names. -/
def named (typestrs : List (String × String)) (name : String) : AkType → AkType
  | record m keys ts => record ({ m.params with recName := some name }.ty typestrs) keys ts
  | list m t => list m (t.named typestrs name)
  | regular m t n => regular m (t.named typestrs name) n
  | option m t => option m (t.named typestrs name)
  | union m ts => union m (namedAll typestrs name ts)
  | array m t n => array m (t.named typestrs name) n
  | unknown m => unknown m
  | prim m dt => prim m dt
/-- `named` for each of the types. -/
def namedAll (typestrs : List (String × String)) (name : String) : List AkType → List AkType
  | [] => []
  | t :: ts => t.named typestrs name :: namedAll typestrs name ts
end

end AkType

namespace Content

/-- Not a union, and if it is an IndexedArray, then without parameters. -/
def Nameable (c : Content) : Prop :=
  (∀ p tags index cs, c ≠ union p tags index cs) ∧ ∀ p index d, c = indexed p index d → p.isEmpty = true

end Content
end Awk
