import Verif.Model.Apply
import Verif.Model.Merge
/-
`ak.with_name` (src/awkward/operations/structure.py:819-872) of an array.
-/

namespace Awk
open R

namespace Content

/-- structure.py:843-856 `getfunction`: `__record__` of a RecordArray is set, and its contents stay as they are. -/
def withNameGet (name : String) (_depth : Nat) (_user : Unit) : Content → R (Content ⊕ Unit)
  | record p keys cs length => ok (.inl (record { p with recName := some name } keys cs length))
  | _ => ok (.inr ())

/-- structure.py:862-866 `getfunction2`: unions are simplified with `merge=True, mergebool=False`. -/
def withNameSimplify (same : Content → Content → Bool) (_depth : Nat) (_user : Unit) :
    Content → R (Content ⊕ Unit)
  | union p tags index cs => simplifyUnion same true false p tags index cs >>= fun c => ok (.inl c)
  | _ => ok (.inr ())

/-- structure.py:858-868 `with_name`: both passes. -/
def withName (same : Content → Content → Bool) (name : String) (c : Content) : R Content :=
  apply (withNameGet name) 1 () c >>= fun out => apply (withNameSimplify same) 1 () out

end Content
end Awk
