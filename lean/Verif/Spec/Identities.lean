import Verif.Spec.List
import Verif.Model.Identities
/-
Specification of row identities: which items of a content belong to which item of the array, and at
which position or under which field name.
-/

namespace Awk
open Content

/-- `HoldsItem c m i part j`: item `i` of the array `c` holds item `j` of content number `m`; `part` is
the position in the list, the name of the field, or nothing. An item of the content of a masked
array is held by the item at the same place, masked or not. -/
inductive HoldsItem : Content → Nat → Nat → List IdPart → Nat → Prop
  | regular {p c size zeros i k} : i < (regular p c size zeros).len → k < size →
      HoldsItem (regular p c size zeros) 0 i [.row k] (i * size + k)
  | listArray {p c} {starts stops : List Int} {s e : Int} {i j : Nat} :
      starts[i]? = some s → stops[i]? = some e → s ≤ j → j < e →
      HoldsItem (listArray p starts stops c) 0 i [.row (j - s)] j
  | listOffset {p c} {offsets : List Int} {s e : Int} {i j : Nat} :
      offsets[i]? = some s → offsets[i + 1]? = some e → s ≤ j → j < e →
      HoldsItem (listOffset p offsets c) 0 i [.row (j - s)] j
  | indexed {p c} {index : List Int} {i j : Nat} : index[i]? = some (j : Int) →
      HoldsItem (indexed p index c) 0 i [] j
  | indexedOption {p c} {index : List Int} {i j : Nat} : index[i]? = some (j : Int) →
      HoldsItem (indexedOption p index c) 0 i [] j
  | byteMasked {p c mask vw i} : i < mask.length → HoldsItem (byteMasked p mask vw c) 0 i [] i
  | bitMasked {p c mask vw length lsb i} : i < length → HoldsItem (bitMasked p mask vw length lsb c) 0 i [] i
  | unmasked {p c i} : i < c.len → HoldsItem (unmasked p c) 0 i [] i
  | tuple {p cs length i m} : m < cs.length → i < length →
      HoldsItem (record p none cs length) m i [.field (toString m)] i
  | record {p cs length i m} {keys : List String} {key : String} : m < cs.length → i < length →
      keys[m]? = some key → HoldsItem (record p (some keys) cs length) m i [.field key] i
  | union {p cs} {tags index : List Int} {m i j : Nat} :
      tags[i]? = some (m : Int) → index[i]? = some (j : Int) → HoldsItem (union p tags index cs) m i [] j

/-- `Reach c addr i path j`: in the content at `addr` (the numbers of the contents on the way down),
item `j` belongs to item `i` of `c`, at `path`. -/
inductive Reach : Content → List Nat → Nat → List IdPart → Nat → Prop
  | here {c i} : i < c.len → Reach c [] i [] i
  | step {c d m addr i part k path j} : c.children[m]? = some d → HoldsItem c m i part k →
      Reach d addr k path j → Reach c (m :: addr) i (part ++ path) j

/-- `Inside v path w`: on the listed values, `w` is found in `v` at `path`: at these positions of the
lists and under these names of the records. Nothing is said about what is below a missing value. -/
inductive Inside : Val → List IdPart → Val → Prop
  | here {v} : Inside v [] v
  | item {vs : List Val} {k : Nat} {v path w} : vs[k]? = some v → Inside v path w →
      Inside (.list vs) (.row k :: path) w
  | char {vs : List Val} {k : Nat} {v path w} : vs[k]? = some v → Inside v path w →
      Inside (.str vs) (.row k :: path) w
  | byte {vs : List Val} {k : Nat} {v path w} : vs[k]? = some v → Inside v path w →
      Inside (.bytes vs) (.row k :: path) w
  | field {fs : List (String × Val)} {key v path w} : (key, v) ∈ fs → Inside v path w →
      Inside (.record fs) (.field key :: path) w
  | slot {vs : List Val} {k : Nat} {v path w} : vs[k]? = some v → Inside v path w →
      Inside (.tuple vs) (.field (toString k) :: path) w
  | missing {path w} : Inside .null path w

/-- The content at an address. -/
def Content.nodeAt : Content → List Nat → Option Content
  | c, [] => some c
  | c, m :: addr => (c.children[m]?).bind (fun d => d.nodeAt addr)

/-- The identities at an address, if there are any. -/
def IdTree.idsAt : IdTree → List Nat → Option Ids
  | .node ids _, [] => ids
  | .node _ ts, m :: addr => (ts[m]?).bind (fun t => t.idsAt addr)

/-- No item of any content is held by two items. -/
def Content.Unshared (c : Content) : Prop :=
  ∀ addr d, c.nodeAt addr = some d → ∀ m i i' part part' j,
    HoldsItem d m i part j → HoldsItem d m i' part' j → i = i'

mutual
/-- The arrays that the theorem is about; `w` is the number of positions in an identity. Regular
arrays use all of their content, offsets stay within the content, masked arrays are not in lists,
and the fields of a record array are as long as the record array. -/
def Content.Identifiable (w : Nat) : Content → Prop
  | .empty _ => True
  | .numpy _ _ _ => True
  | .regular _ c size _ => (size ≠ 0 → c.len % size = 0) ∧ c.Identifiable (w + 1)
  | .listArray _ _ _ c => c.Identifiable (w + 1)
  | .listOffset _ offsets c => (∀ x ∈ offsets, 0 ≤ x ∧ x ≤ c.len) ∧ c.Identifiable (w + 1)
  | .indexed _ _ c => c.Identifiable w
  | .indexedOption _ _ c => c.Identifiable w
  | .byteMasked _ _ _ c => w = 1 ∧ c.Identifiable w
  | .bitMasked _ _ _ _ _ c => w = 1 ∧ c.Identifiable w
  | .unmasked _ c => w = 1 ∧ c.Identifiable w
  | .record _ keys cs length => (∀ ks, keys = some ks → ks.length = cs.length) ∧
      (∀ c ∈ cs, c.len = length) ∧ IdentifiableAll w cs
  | .union _ _ _ cs => IdentifiableAll w cs
/-- `Identifiable` for every content. -/
def IdentifiableAll (w : Nat) : List Content → Prop
  | [] => True
  | c :: cs => c.Identifiable w ∧ IdentifiableAll w cs
end

end Awk
