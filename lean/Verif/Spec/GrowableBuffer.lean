import Verif.Model.GrowableBuffer
/-
What the buffers of a builder hold: sequences of items.
-/

namespace Awk
namespace Spec
variable {α : Type}

/-- The operation on sequences of items. -/
def apply (xss : List (List α)) : BufOp α → List (List α)
  | .create => xss ++ [[]]
  | .full x n => xss ++ [List.replicate n x]
  | .append i x => xss.modify i (fun xs => xs ++ [x])
  | .clear i => xss.modify i (fun _ => [])
  | .convert i f => xss.modify i (fun xs => xs.map f)

end Spec
end Awk
