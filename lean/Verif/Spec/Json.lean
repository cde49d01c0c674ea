import Verif.Model.Json
import Verif.Spec.Builder
import Verif.Spec.List
/-
JSON values, the tokens of their text, and how the elements of arrays are written as JSON.
-/

namespace Awk
namespace Spec
open R

/-- A JSON value. A string is a sequence of bytes. -/
inductive Json where
  | null
  | bool (x : Bool)
  | int (x : Int)
  | real (x : Rat)
  | str (codes : List Nat)
  | arr (items : List Json)
  | obj (fields : List (String × Json))

namespace Json

mutual
/-- The tokens of the text of a value. -/
def events : Json → List Event
  | null => [.null]
  | bool x => [.bool x]
  | int x => [.int x]
  | real x => [.real x]
  | str codes => [.str codes]
  | arr items => [.startArray] ++ eventsAll items ++ [.endArray]
  | obj fields => [.startObject] ++ eventsFields fields ++ [.endObject]
/-- The tokens of the items of an array. -/
def eventsAll : List Json → List Event
  | [] => []
  | x :: xs => x.events ++ eventsAll xs
/-- The tokens of the fields of an object. -/
def eventsFields : List (String × Json) → List Event
  | [] => []
  | (k, x) :: xs => [.key k] ++ x.events ++ eventsFields xs
end

mutual
/-- The value as `to_list` shows it. -/
def val : Json → Val
  | null => .null
  | bool x => .atom (.bool x)
  | int x => .atom (.int x)
  | real x => .atom (.real x)
  | str codes => .str (codes.map (fun (n : Nat) => .atom (.int n)))
  | arr items => .list (valAll items)
  | obj fields => .record (valFields fields)
/-- The items of an array. -/
def valAll : List Json → List Val
  | [] => []
  | x :: xs => x.val :: valAll xs
/-- The fields of an object. -/
def valFields : List (String × Json) → List (String × Val)
  | [] => []
  | (k, x) :: xs => (k, x.val) :: valFields xs
end

/-- The integers that `int64_t` has. -/
def InInt64 (x : Int) : Prop := -2 ^ 63 ≤ x ∧ x < 2 ^ 63

/-- A key without the character NUL. -/
def NoNul (k : String) : Prop := '\x00' ∉ k.toList

mutual
/-- The JSON values that can be read without loss: integers in the range of `int64_t`, and different
keys without NUL in every object. Strings consist of bytes. -/
def Ordinary : Json → Prop
  | int x => InInt64 x
  | str codes => ∀ n ∈ codes, n < 256
  | arr items => OrdinaryAll items
  | obj fields => (fields.map Prod.fst).Nodup ∧ OrdinaryFields fields
  | _ => True
/-- Every item of an array. -/
def OrdinaryAll : List Json → Prop
  | [] => True
  | x :: xs => x.Ordinary ∧ OrdinaryAll xs
/-- Every field of an object. -/
def OrdinaryFields : List (String × Json) → Prop
  | [] => True
  | (k, x) :: xs => NoNul k ∧ x.Ordinary ∧ OrdinaryFields xs
end

end Json

/-- The JSON for an element of an array, as documented in `ak.to_json`: text and bytes are strings, lists
are arrays, records are objects, tuples are objects with the keys "0", "1", …, and a complex number
is an object with the two fields `names` (if they are given). Integers outside of the range of
`int64_t`, keys with NUL, and dates have no JSON. -/
inductive JsonOf (names : Option (String × String)) : Val → Json → Prop
  | null : JsonOf names .null .null
  | bool (x : Bool) : JsonOf names (.atom (.bool x)) (.bool x)
  | int (x : Int) : Json.InInt64 x → JsonOf names (.atom (.int x)) (.int x)
  | real (x : Rat) : JsonOf names (.atom (.real x)) (.real x)
  | complex (k l : String) (re im : Rat) : names = some (k, l) → Json.NoNul k → Json.NoNul l →
      JsonOf names (.atom (.complex re im)) (.obj [(k, .real re), (l, .real im)])
  | str (codes : List Nat) : (∀ n ∈ codes, n < 256) →
      JsonOf names (.str (codes.map (fun (n : Nat) => .atom (.int n)))) (.str codes)
  | bytes (codes : List Nat) : (∀ n ∈ codes, n < 256) →
      JsonOf names (.bytes (codes.map (fun (n : Nat) => .atom (.int n)))) (.str codes)
  | list {vs : List Val} {js : List Json} : vs.length = js.length →
      (∀ i (h : i < vs.length) (h' : i < js.length), JsonOf names vs[i] js[i]) →
      JsonOf names (.list vs) (.arr js)
  | tuple {vs : List Val} {js : List Json} : vs.length = js.length →
      (∀ i (h : i < vs.length) (h' : i < js.length), JsonOf names vs[i] js[i]) →
      JsonOf names (.tuple vs) (.obj (((List.range js.length).map (fun i => toString i)).zip js))
  | record {ks : List String} {vs : List Val} {js : List Json} : ks.length = vs.length →
      vs.length = js.length → (∀ k ∈ ks, Json.NoNul k) →
      (∀ i (h : i < vs.length) (h' : i < js.length), JsonOf names vs[i] js[i]) →
      JsonOf names (.record (ks.zip vs)) (.obj (ks.zip js))

/-- Arrays that `ak.to_json` can write: no leaf is of dates or time differences, and every record array
has as many keys as contents (as its constructor demands). -/
inductive Writable : Content → Prop
  | mk {c : Content} :
      (∀ p dt data, c = .numpy p dt data → dt ≠ .datetime64 ∧ dt ≠ .timedelta64) →
      (∀ p ks cs n, c = .record p (some ks) cs n → ks.length = cs.length) →
      (∀ d ∈ c.children, Writable d) → Writable c

end Spec
end Awk
