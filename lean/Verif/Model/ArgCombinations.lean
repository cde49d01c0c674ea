import Verif.Model.Combinations
/-
`ak.argcombinations` (src/awkward/operations/structure.py:3688-3755).
-/

namespace Awk
open R

namespace Content

/-- structure.py:3732-3755 `argcombinations` with an axis that is not negative (structure.py:3739-3743 raises for the
others): `layout.localindex(axis)` and then `combinations` with the same axis. Both are the functions behind
`ak.local_index` and `ak.combinations`. -/
def argCombinations (n : Nat) (replacement : Bool) (keys : Option (List String)) (p : Params) (axis : Nat)
    (c : Content) : R Content :=
  c.localIndex axis >>= fun layout => layout.combinations n replacement keys p axis

end Content
end Awk
