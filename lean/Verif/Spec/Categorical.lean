import Verif.Model.Categorical
import Verif.Spec.List
/-
Arrays that `to_categorical` can handle.
-/

namespace Awk

/-- The kind of a number. -/
def Atom.kind : Atom → Nat
  | .bool _ => 0
  | .int _ => 1
  | .real _ => 2
  | .complex _ _ => 3
  | .datetime _ => 4
  | .timedelta _ => 5

/-- A number or a string. -/
def Val.Category : Val → Prop
  | .atom _ | .str _ | .bytes _ => True
  | _ => False

/-- The value of a row of a categorical array. -/
def Val.categoryAt (categories : List Val) (i : Int) : Val :=
  if i < 0 then .null else categories[i.toNat]?.getD .null

namespace Content

/-- No records, unions or categories; numbers of one kind; masks are as long as what they mask, and the
index of a missing value is not less than minus the length of the content. -/
def CatNode : Content → Prop
  | record .. | union .. => False
  | numpy _ _ data => ∀ a ∈ data, ∀ b ∈ data, a.kind = b.kind
  | indexed p _ _ => p.arr ≠ .categorical
  | indexedOption p index c => p.arr ≠ .categorical ∧ ∀ i ∈ index, -(c.len : Int) ≤ i
  | byteMasked _ mask _ c => c.len = mask.length
  | bitMasked _ _ _ length _ c => c.len = length
  | _ => True

/-- Labelled nodes have no labelled nodes below them. -/
def OneLabel : Content → Prop
  | .indexed p _ c | .indexedOption p _ c => p.arr = .categorical → c.categories = none
  | _ => True

end Content
end Awk
