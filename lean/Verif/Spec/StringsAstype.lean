import Verif.Spec.Like
import Verif.Spec.ToNumpy
/-
Specification of `ak.strings_astype`.
-/

namespace Awk
open R

namespace Val

mutual
/-- Every string is replaced by a number that depends on its bytes, without the zeros at their end. Everything
else stays the same. -/
def parsed (number : List Val → Atom) : Val → Val
  | .null => .null
  | .atom x => .atom x
  | .str vs => .atom (number (trimmed vs))
  | .bytes vs => .atom (number (trimmed vs))
  | .list vs => .list (parsedList number vs)
  | .tuple vs => .tuple (parsedList number vs)
  | .record fs => .record (parsedFields number fs)
/-- `parsed` of every member of a list. -/
def parsedList (number : List Val → Atom) : List Val → List Val
  | [] => []
  | v :: vs => v.parsed number :: parsedList number vs
/-- `parsed` of every field. -/
def parsedFields (number : List Val → Atom) : List (String × Val) → List (String × Val)
  | [] => []
  | (k, v) :: fs => (k, v.parsed number) :: parsedFields number fs
end

end Val

namespace Content

/-- All strings in the array (also those that are hidden by a mask or an index) can be made into numbers, and
every array of strings has a string that is not empty. -/
inductive Parsable (parse : List Val → R Atom) (number : List Val → Atom) : Content → Prop
  | text {c : Content} (h : c.isText)
      (hd : ∀ d ∈ c.children, ∃ p dt data, d = numpy p dt data)
      (hp : ∀ vs, c.toList = ok vs → ∀ v ∈ vs, parse (Val.trimmed v.items) = ok (number (Val.trimmed v.items)))
      (hne : ∀ vs, c.toList = ok vs → ∃ v ∈ vs, v.items ≠ []) : Parsable parse number c
  | node {c : Content} (h : ¬ c.isText) (hd : ∀ d ∈ c.children, Parsable parse number d) :
      Parsable parse number c

end Content
end Awk
