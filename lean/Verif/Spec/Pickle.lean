import Verif.Spec.Buffers
import Verif.Model.Types
/-
What pickling needs of a packed array, for C92.
-/

namespace Awk

namespace AkType

mutual
/-- The type with the fields of every record in it in the order of their names: `RecordType::equal`
(src/libawkward/type/RecordType.cpp:159-196) does not compare the order. -/
def sortFields : AkType → AkType
  | unknown m => unknown m
  | prim m dt => prim m dt
  | list m t => list m t.sortFields
  | regular m t n => regular m t.sortFields n
  | option m t => option m t.sortFields
  | record m none ts => record m none (sortFieldsAll ts)
  | record m (some ks) ts =>
    let fields := sortByName (ks.zip (sortFieldsAll ts))
    record m (some (fields.map (fun kv => kv.1))) (fields.map (fun kv => kv.2))
  | union m ts => union m (sortFieldsAll ts)
  | array m t n => array m t.sortFields n
/-- `sortFields` of every member. -/
def sortFieldsAll : List AkType → List AkType
  | [] => []
  | t :: ts => t.sortFields :: sortFieldsAll ts
end

end AkType

namespace Content

/-- Packing does not look at the content of an array of no lists of fixed size: the content must be one that can be
restored as it is. -/
def FilledNode : Content → Prop
  | regular p c size zeros => (regular p c size zeros).len = 0 → c.Ordinary
  | _ => True

end Content
end Awk
