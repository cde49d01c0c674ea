import Verif.Model.Content
/-
Arrays of strings, for the comparison of strings.
-/

namespace Awk.Spec

/-- An array of strings (or of bytestrings) of variable length. All positions are within the characters, also
those of empty strings; the characters are bytes, and there are fewer than 2^63 - 1. -/
def StringArray (kind : ArrKind) : Content → Prop
  | .listOffset p offsets (.numpy _ dt data) =>
    p.arr = kind ∧ p.recName = none ∧ dt = .uint8 ∧ (∀ x ∈ data, ∃ b, x = .int b) ∧
      data.length < 2 ^ 63 - 1 ∧ ∀ x ∈ offsets, 0 ≤ x ∧ x ≤ (data.length : Int)
  | .listArray p _ _ (.numpy _ dt data) =>
    p.arr = kind ∧ p.recName = none ∧ dt = .uint8 ∧ (∀ x ∈ data, ∃ b, x = .int b) ∧
      data.length < 2 ^ 63 - 1
  | _ => False

/-- The value in row `i`; a single value is in all rows. -/
def rowOf (vs : List Val) (i : Nat) : Val := vs[if vs.length = 1 then 0 else i]?.getD .null

end Awk.Spec
