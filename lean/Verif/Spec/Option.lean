import Verif.Model.Content
/-
Specification vocabulary for missing data.
-/

namespace Awk

/-- The element is shown as `None`. -/
def Val.isNull : Val → Bool
  | .null => true
  | _ => false

namespace Content

/-- The node is one of the four encodings of missing data: IndexedOptionArray,
ByteMaskedArray, BitMaskedArray, UnmaskedArray. -/
def isOption : Content → Bool
  | indexedOption .. | byteMasked .. | bitMasked .. | unmasked .. => true
  | _ => false

/-- The content of an option-type or indexed node. -/
def inner : Content → Content
  | indexed _ _ c => c
  | indexedOption _ _ c => c
  | byteMasked _ _ _ c => c
  | bitMasked _ _ _ _ _ c => c
  | unmasked _ c => c
  | c => c

/-- The number of option-type or indexed nodes in a row. -/
def nesting : Content → Nat
  | indexed _ _ c => c.nesting + 1
  | indexedOption _ _ c => c.nesting + 1
  | byteMasked _ _ _ c => c.nesting + 1
  | bitMasked _ _ _ _ _ c => c.nesting + 1
  | unmasked _ c => c.nesting + 1
  | _ => 0

end Content
end Awk
