import Verif.Spec.Sort
/-
What `is_unique` should say.
-/

namespace Awk.Spec
open Awk

/-- Numbers or booleans of one type, with any index or missing values above. -/
inductive PlainNumbers (dt : DType) : Content → Prop
  | numpy {p data} : dt.reducible = true → (∀ x ∈ data, OfType dt x) → PlainNumbers dt (.numpy p dt data)
  | empty {p} : PlainNumbers dt (.empty p)
  | indexed {p index c} : PlainNumbers dt c → PlainNumbers dt (.indexed p index c)
  | indexedOption {p index c} : PlainNumbers dt c → PlainNumbers dt (.indexedOption p index c)

end Awk.Spec
