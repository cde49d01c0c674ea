import Verif.Model.FromNumpy
/-
Specification of `ak.from_numpy`.
-/

namespace Awk

/-- The mask of a masked array; `none` for other arrays. -/
def NpMask.flags (size : Nat) : NpMask → Option (List Bool)
  | .absent => none
  | .nomask => some (List.replicate size false)
  | .array m => some m

/-- A mask array has one item for each item of the array. -/
def NpMask.Covers (size : Nat) : NpMask → Prop
  | .array m => m.length = size
  | _ => True

/-- The items of a NumPy array: numbers, or strings of at most `width` bytes. -/
def NpKind.Has (width : Nat) : NpKind → Val → Prop
  | .number _, v => ∃ x, v = .atom x
  | .bytes, v => ∃ xs : List Atom, v = .bytes (xs.map Val.atom) ∧ xs.length ≤ width
  | .text, v => ∃ xs : List Atom, v = .str (xs.map Val.atom) ∧ xs.length ≤ width

end Awk
