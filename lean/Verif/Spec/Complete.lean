import Verif.Model.Content
/-
The numbers in a value, for operations on all numbers of an array.
-/

namespace Awk

mutual
/-- All numbers (and booleans, dates) in a value, from left to right. Strings have the numbers of their
characters; a missing value has none. -/
def Val.leaves : Val → List Atom
  | .null => []
  | .atom a => [a]
  | .str vs | .bytes vs | .list vs | .tuple vs => Val.leavesAll vs
  | .record fs => Val.leavesFields fs
/-- All numbers in the items of a list. -/
def Val.leavesAll : List Val → List Atom
  | [] => []
  | v :: vs => v.leaves ++ Val.leavesAll vs
/-- All numbers in the fields of a record. -/
def Val.leavesFields : List (String × Val) → List Atom
  | [] => []
  | (_, v) :: fs => v.leaves ++ Val.leavesFields fs
end

/-- `lt` is the strict part of a total preorder (or any strict order of equivalence classes) of the numbers in `S`. -/
structure StrictWeak (lt : Atom → Atom → Bool) (S : Atom → Prop) : Prop where
  asymm : ∀ a b, S a → S b → lt a b = true → lt b a = false
  neg : ∀ a b c, S a → S b → S c → lt a b = false → lt b c = false → lt a c = false

namespace Content

/-- The fields of a record are exactly as long as the record and have names. -/
def TrimNode : Content → Prop
  | record _ keys cs length => (∀ c ∈ cs, c.len = length) ∧ ∀ ks, keys = some ks → ks.length = cs.length
  | _ => True

/-- Neither a record nor a union. -/
def SingleNode : Content → Prop
  | record .. | union .. => False
  | _ => True

/-- Records have fields and unions have alternatives. -/
def FullNode : Content → Prop
  | record _ _ cs _ | union _ _ _ cs => cs ≠ []
  | _ => True

end Content
end Awk
