import Verif.Model.Content
/-
Specification vocabulary for operations on nested lists, on the values that `to_list` shows.
-/

namespace Awk
namespace Val

/-- The items of a list (or string or bytestring); a missing list has none. -/
def items : Val → List Val
  | .list vs | .str vs | .bytes vs => vs
  | _ => []

/-- The element is a list, a string or a bytestring. -/
def isList : Val → Bool
  | .list _ | .str _ | .bytes _ => true
  | _ => false

/-- The same kind of list (list, string or bytestring) with other items. -/
def withItems : Val → List Val → Val
  | .str _, vs => .str vs
  | .bytes _, vs => .bytes vs
  | _, vs => .list vs

mutual
/-- Apply `g` to every list at depth `a` below the element (`a = 1`: to the element itself).
Missing elements stay missing and records are mapped field by field. With `keep`, the lists that
are passed through keep their kind (list, string or bytestring); otherwise they become lists. -/
def mapAxis (keep : Bool) (g : Val → Val) : Nat → Val → Val
  | _, .null => .null
  | _, .atom x => .atom x
  | a, .tuple vs => .tuple (mapAxisList keep g a vs)
  | a, .record fs => .record (mapAxisFields keep g a fs)
  | a, .list vs => if a ≤ 1 then g (.list vs) else .list (mapAxisList keep g (a - 1) vs)
  | a, .str vs =>
    if a ≤ 1 then g (.str vs)
    else if keep then .str (mapAxisList keep g (a - 1) vs)
    else .list (mapAxisList keep g (a - 1) vs)
  | a, .bytes vs =>
    if a ≤ 1 then g (.bytes vs)
    else if keep then .bytes (mapAxisList keep g (a - 1) vs)
    else .list (mapAxisList keep g (a - 1) vs)
/-- `mapAxis` on every member of a list. -/
def mapAxisList (keep : Bool) (g : Val → Val) : Nat → List Val → List Val
  | _, [] => []
  | a, v :: vs => mapAxis keep g a v :: mapAxisList keep g a vs
/-- `mapAxis` on every field of a record. -/
def mapAxisFields (keep : Bool) (g : Val → Val) : Nat → List (String × Val) → List (String × Val)
  | _, [] => []
  | a, (k, v) :: fs => (k, mapAxis keep g a v) :: mapAxisFields keep g a fs
end

/-- The number of items. -/
def count (v : Val) : Val := .atom (.int v.items.length)

/-- The positions of the items: `[0, 1, …, n - 1]`. -/
def positions (v : Val) : Val := .list ((List.range v.items.length).map (fun (i : Nat) => .atom (.int i)))

/-- A list padded with `None` up to `target` items and, with `clip`, cut to `target` items. -/
def padList (target : Nat) (clip : Bool) (vs : List Val) : List Val :=
  (if clip then vs.take target else vs) ++ List.replicate (target - vs.length) .null

/-- The list padded (and clipped), of the same kind. -/
def pad (target : Nat) (clip : Bool) (v : Val) : Val := v.withItems (padList target clip v.items)

end Val

namespace Content

/-- The direct contents of a node. -/
def children : Content → List Content
  | empty _ => []
  | numpy _ _ _ => []
  | regular _ c _ _ => [c]
  | listArray _ _ _ c => [c]
  | listOffset _ _ c => [c]
  | indexed _ _ c => [c]
  | indexedOption _ _ c => [c]
  | byteMasked _ _ _ c => [c]
  | bitMasked _ _ _ _ _ c => [c]
  | unmasked _ c => [c]
  | record _ _ cs _ => cs
  | union _ _ _ cs => cs

/-- The node is one of the three list classes. -/
def isListNode : Content → Bool
  | regular .. | listArray .. | listOffset .. => true
  | _ => false

/-- Option, indexed and record nodes (and, with `u`, union nodes) do not count as a level. -/
def isThru (u : Bool) : Content → Bool
  | indexed .. | indexedOption .. | byteMasked .. | bitMasked .. | unmasked .. => true
  | record .. => true
  | union .. => u
  | _ => false

/-- Every branch of the array has a list at depth `a` (`axis = a`). With `e`, an array of unknown
type counts; with `u`, unions are allowed on the way. -/
inductive HasAxis (u e : Bool) : Nat → Content → Prop
  | here {c : Content} : c.isListNode = true → HasAxis u e 1 c
  | inside {c : Content} {a : Nat} : c.isListNode = true → 1 ≤ a →
      (∀ d ∈ c.children, HasAxis u e a d) → HasAxis u e (a + 1) c
  | thru {c : Content} {a : Nat} : c.isThru u = true →
      (∀ d ∈ c.children, HasAxis u e a d) → HasAxis u e a c
  | empty {p : Params} {a : Nat} : e = true → HasAxis u e a (empty p)

/-- An array of lists: list nodes under any options and indexes, unions of such arrays, and arrays
of unknown type. -/
inductive ListLike : Content → Prop
  | list {c : Content} : c.isListNode = true → ListLike c
  | thru {c : Content} : c.isOptionOrIndexed = true → (∀ d ∈ c.children, ListLike d) → ListLike c
  | union {p : Params} {tags index : List Int} {cs : List Content} : cs ≠ [] →
      (∀ d ∈ cs, ListLike d) → ListLike (union p tags index cs)
  | empty {p : Params} : ListLike (empty p)

/-- `φ` holds of every node of the array. -/
inductive AllNodes (φ : Content → Prop) : Content → Prop
  | mk {c : Content} : φ c → (∀ d ∈ c.children, AllNodes φ d) → AllNodes φ c

/-- The fields of a record node have exactly its length. -/
def TrimmedNode : Content → Prop
  | record _ _ cs length => ∀ d ∈ cs, d.len = length
  | _ => True

/-- The offsets of a ListOffsetArray begin with zero. -/
def ZeroBasedNode : Content → Prop
  | listOffset _ offsets _ => offsets[0]? = some 0
  | _ => True

end Content

/-- Running totals: `[0, x₀, x₀ + x₁, …]`. -/
def totals (xs : List Nat) : List Nat := (List.range (xs.length + 1)).map (fun n => (xs.take n).sum)

end Awk
