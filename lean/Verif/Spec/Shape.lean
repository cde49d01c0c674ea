import Verif.Spec.List
/-
Specification vocabulary for the nesting of nodes.
-/

namespace Awk
namespace Content

/-- The node is an array of records or tuples. -/
def isRecord : Content → Bool
  | record .. => true
  | _ => false

/-- Not a mask whose content is directly an array of records. -/
def MaskNode : Content → Prop
  | byteMasked _ _ _ d | bitMasked _ _ _ _ _ d | unmasked _ d => d.isRecord = false
  | _ => True

end Content
end Awk
