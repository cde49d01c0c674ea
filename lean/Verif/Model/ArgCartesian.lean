import Verif.Model.With
/-
`ak.argcartesian` (src/awkward/operations/structure.py:3409-3515) with axis 0.
-/

namespace Awk
open R

namespace Content

/-- structure.py:3473-3510 `argcartesian` with axis 0: `localindex(0)` of each array, and then `cartesian` with the same
arguments, as in `cartesian0`. -/
def argCartesian0 (p : Params) (keys : Option (List String)) (nested : List Nat) (cs : List Content) : R Content :=
  mapR (fun c => c.localIndex 0) cs >>= fun layouts => cartesian0 p keys nested layouts

end Content
end Awk
