import Verif.Model.Apply
/-
`ak.nan_to_num` (src/awkward/operations/structure.py:4350-4394). Simplification: `numpy.nan_to_num` of one item is a parameter.
-/

namespace Awk
open R
namespace Content

/-- structure.py:4375-4386 `getfunction` of `ak.nan_to_num`. The NumpyArray is made without parameters. -/
def nanToNumGet (replace : Atom → Atom) (_depth : Nat) (_user : Unit) (layout : Content) : R (Content ⊕ Unit) :=
  match layout with
  | numpy _ dt data => ok (.inl (numpy {} dt (data.map replace)))
  | _ => ok (.inr ())

/-- structure.py:4372-4394 `ak.nan_to_num`. -/
def nanToNum (replace : Atom → Atom) (c : Content) : R Content := apply (nanToNumGet replace) 1 () c

end Content
end Awk
