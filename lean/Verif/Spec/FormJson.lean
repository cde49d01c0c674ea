import Verif.Model.FormJson
import Verif.Spec.Json
import Verif.Model.Virtual
/-
The forms that arrays have, for C91.
-/

namespace Awk

/-- The widths that lists, indexes and unions can have (include/awkward/array/ListArray.h and others). -/
def IndexKind.Wide (k : IndexKind) : Prop := k = .i32 ∨ k = .u32 ∨ k = .i64

namespace Form

mutual
/-- A form of an array: indexes have the widths that their classes allow, as many names as fields. Names and form keys do
not contain NUL, and sizes fit in 32 bits. -/
def Proper : Form → Prop
  | .empty _ key | .numpy _ _ key => Spec.Json.NoNul key
  | .regular _ c size key => Spec.Json.NoNul key ∧ size < 2 ^ 31 ∧ c.Proper
  | .listArray _ starts stops c key => Spec.Json.NoNul key ∧ starts.Wide ∧ stops = starts ∧ c.Proper
  | .listOffset _ k c key | .indexed _ k c key => Spec.Json.NoNul key ∧ k.Wide ∧ c.Proper
  | .indexedOption _ k c key => Spec.Json.NoNul key ∧ (k = .i32 ∨ k = .i64) ∧ c.Proper
  | .byteMasked _ _ _ c key | .bitMasked _ _ _ _ c key | .unmasked _ c key => Spec.Json.NoNul key ∧ c.Proper
  | .record _ keys cs key =>
    Spec.Json.NoNul key ∧ (∀ ks, keys = some ks → ks.length = cs.length ∧ ∀ k ∈ ks, Spec.Json.NoNul k) ∧ ProperAll cs
  | .union _ tags index cs key => Spec.Json.NoNul key ∧ tags = .i8 ∧ index.Wide ∧ ProperAll cs
def ProperAll : List Form → Prop
  | [] => True
  | c :: cs => c.Proper ∧ ProperAll cs
end

mutual
/-- How deep the form is nested. -/
def depth : Form → Nat
  | .empty .. | .numpy .. => 0
  | .regular _ c _ _ | .listArray _ _ _ c _ | .listOffset _ _ c _ | .indexed _ _ c _ | .indexedOption _ _ c _
  | .byteMasked _ _ _ c _ | .bitMasked _ _ _ _ c _ | .unmasked _ c _ => c.depth + 1
  | .record _ _ cs _ | .union _ _ _ cs _ => depthAll cs + 1
def depthAll : List Form → Nat
  | [] => 0
  | c :: cs => max c.depth (depthAll cs)
end

end Form

/-- Sizes fit in 32 bits, there is one name for each field, and names do not contain NUL. -/
def Content.JsonNode : Content → Prop
  | .regular _ _ size _ => size < 2 ^ 31
  | .record _ keys cs _ => ∀ ks, keys = some ks → ks.length = cs.length ∧ ∀ k ∈ ks, Spec.Json.NoNul k
  | _ => True

end Awk
