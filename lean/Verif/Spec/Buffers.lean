import Verif.Model.Buffers
import Verif.Spec.Astype
/-
Specification of the round trip through named buffers.
-/

namespace Awk
open R

/-! ### Equality of elements and of forms up to the order of fields -/

/-- A named item in its place among items sorted by name. -/
def insertByName {α : Type} (kv : String × α) : List (String × α) → List (String × α)
  | [] => [kv]
  | kv' :: rest => if kv'.1 < kv.1 then kv' :: insertByName kv rest else kv :: kv' :: rest

/-- The items in the order of their names. -/
def sortByName {α : Type} : List (String × α) → List (String × α)
  | [] => []
  | kv :: rest => insertByName kv (sortByName rest)

namespace Val

mutual
/-- The element with the fields of every record in it in the order of their names. Two elements
are equal as Python objects (`dict`s do not compare the order of their items) if these are. -/
def sortFields : Val → Val
  | .null => .null
  | .atom a => .atom a
  | .str vs => .str (sortFieldsList vs)
  | .bytes vs => .bytes (sortFieldsList vs)
  | .list vs => .list (sortFieldsList vs)
  | .tuple vs => .tuple (sortFieldsList vs)
  | .record fs => .record (sortByName (sortFieldsNamed fs))
/-- `sortFields` of every member. -/
def sortFieldsList : List Val → List Val
  | [] => []
  | v :: vs => sortFields v :: sortFieldsList vs
/-- `sortFields` of every field. -/
def sortFieldsNamed : List (String × Val) → List (String × Val)
  | [] => []
  | (k, v) :: fs => (k, sortFields v) :: sortFieldsNamed fs
end

end Val

namespace Content

mutual
/-- What the form of an array says: the classes of its nodes with their parameters, but no data.
The fields of a record are in the order of their names, because `Form.__eq__` does not compare
their order. -/
def skeleton : Content → Content
  | empty p => empty p
  | numpy p dt _ => numpy p dt []
  | regular p c size _ => regular p c.skeleton size 0
  | listArray p _ _ c => listArray p [] [] c.skeleton
  | listOffset p _ c => listOffset p [] c.skeleton
  | indexed p _ c => indexed p [] c.skeleton
  | indexedOption p _ c => indexedOption p [] c.skeleton
  | byteMasked p _ vw c => byteMasked p [] vw c.skeleton
  | bitMasked p _ vw _ lsb c => bitMasked p [] vw 0 lsb c.skeleton
  | unmasked p c => unmasked p c.skeleton
  | record p none cs _ => record p none (skeletonAll cs) 0
  | record p (some ks) cs _ =>
    let fields := sortByName (ks.zip (skeletonAll cs))
    record p (some (fields.map (fun kv => kv.1))) (fields.map (fun kv => kv.2)) 0
  | union p _ _ cs => union p [] [] (skeletonAll cs)
/-- `skeleton` of every member. -/
def skeletonAll : List Content → List Content
  | [] => []
  | c :: cs => c.skeleton :: skeletonAll cs
end

mutual
/-- There is no `BitMaskedArray` in the array. -/
def NoBits : Content → Prop
  | empty _ => True
  | numpy _ _ _ => True
  | regular _ c _ _ => c.NoBits
  | listArray _ _ _ c => c.NoBits
  | listOffset _ _ c => c.NoBits
  | indexed _ _ c => c.NoBits
  | indexedOption _ _ c => c.NoBits
  | byteMasked _ _ _ c => c.NoBits
  | bitMasked _ _ _ _ _ _ => False
  | unmasked _ c => c.NoBits
  | record _ _ cs _ => NoBitsAll cs
  | union _ _ _ cs => NoBitsAll cs
/-- `NoBits` of every member. -/
def NoBitsAll : List Content → Prop
  | [] => True
  | c :: cs => c.NoBits ∧ NoBitsAll cs
end

mutual
/-- There is no `BitMaskedArray` in the fields of records with field names. -/
def NoBitFields : Content → Prop
  | empty _ => True
  | numpy _ _ _ => True
  | regular _ c _ _ => c.NoBitFields
  | listArray _ _ _ c => c.NoBitFields
  | listOffset _ _ c => c.NoBitFields
  | indexed _ _ c => c.NoBitFields
  | indexedOption _ _ c => c.NoBitFields
  | byteMasked _ _ _ c => c.NoBitFields
  | bitMasked _ _ _ _ _ c => c.NoBitFields
  | unmasked _ c => c.NoBitFields
  | record _ none cs _ => NoBitFieldsAll cs
  | record _ (some _) cs _ => NoBitsAll cs
  | union _ _ _ cs => NoBitFieldsAll cs
/-- `NoBitFields` of every member. -/
def NoBitFieldsAll : List Content → Prop
  | [] => True
  | c :: cs => c.NoBitFields ∧ NoBitFieldsAll cs
end

end Content

/-! ### What can be written -/

/-- The integers of an index type. -/
def IndexKind.Has : IndexKind → Int → Prop
  | .i8, x => -2 ^ 7 ≤ x ∧ x < 2 ^ 7
  | .u8, x => 0 ≤ x ∧ x < 2 ^ 8
  | .i32, x => -2 ^ 31 ≤ x ∧ x < 2 ^ 31
  | .u32, x => 0 ≤ x ∧ x < 2 ^ 32
  | .i64, x => -2 ^ 63 ≤ x ∧ x < 2 ^ 63

/-- `q` has an exact representation in `n` bytes. -/
def Floats.Has (fl : Floats) (n : Nat) (q : Rat) : Prop :=
  (fl.enc n q).length = n ∧ fl.dec n (fl.enc n q) = q

/-- The items of a NumPy array of this dtype. -/
def DType.Has (fl : Floats) : DType → Atom → Prop
  | .bool, .bool _ => True
  | .float32, .real q => fl.Has 4 q
  | .float64, .real q => fl.Has 8 q
  | .complex64, .complex re im => fl.Has 4 re ∧ fl.Has 4 im
  | .complex128, .complex re im => fl.Has 8 re ∧ fl.Has 8 im
  | .datetime64, .datetime i => -2 ^ 63 ≤ i ∧ i < 2 ^ 63
  | .timedelta64, .timedelta i => -2 ^ 63 ≤ i ∧ i < 2 ^ 63
  | dt, .int i => ∃ lo bits, dt.intType = some (lo, bits) ∧ lo ≤ i ∧ i < lo + 2 ^ bits
  | _, _ => False

/-- No two buffers have the same name. -/
def Naming.Distinct (nm : Naming) : Prop :=
  ∀ i a p j b q, nm.key i a p = nm.key j b q → i = j ∧ a = b ∧ p = q

namespace Content

mutual
/-- The number of nodes of the array. -/
def nodes : Content → Nat
  | empty _ => 1
  | numpy _ _ _ => 1
  | regular _ c _ _ => c.nodes + 1
  | listArray _ _ _ c => c.nodes + 1
  | listOffset _ _ c => c.nodes + 1
  | indexed _ _ c => c.nodes + 1
  | indexedOption _ _ c => c.nodes + 1
  | byteMasked _ _ _ c => c.nodes + 1
  | bitMasked _ _ _ _ _ c => c.nodes + 1
  | unmasked _ c => c.nodes + 1
  | record _ _ cs _ => nodesAll cs + 1
  | union _ _ _ cs => nodesAll cs + 1
/-- The number of nodes of all members. -/
def nodesAll : List Content → Nat
  | [] => 0
  | c :: cs => c.nodes + nodesAll cs
end

end Content

/-- The array is what its Python and C++ types say: with nodes numbered from `id` in the order in
which a parent comes before its contents, the integers in the index of node number `i` belong to
the type `kind i`, and the items of the NumPy arrays belong to their dtypes. Field names are
distinct. The field of a record is the part of its content that belongs to the record. -/
inductive Storable (fl : Floats) (kind : Nat → IndexKind) : Nat → Content → Prop
  | empty {id p} : Storable fl kind id (.empty p)
  | numpy {id p dt data} : (∀ a ∈ data, dt.Has fl a) → Storable fl kind id (.numpy p dt data)
  | regular {id p c size zeros} : Storable fl kind (id + 1) c →
      Storable fl kind id (.regular p c size zeros)
  | listArray {id p starts stops c} : kind id ∈ [.i32, .u32, .i64] →
      (∀ x ∈ starts, (kind id).Has x) → (∀ x ∈ stops, (kind id).Has x) →
      Storable fl kind (id + 1) c → Storable fl kind id (.listArray p starts stops c)
  | listOffset {id p offsets c} : kind id ∈ [.i32, .u32, .i64] →
      (∀ x ∈ offsets, (kind id).Has x) →
      Storable fl kind (id + 1) c → Storable fl kind id (.listOffset p offsets c)
  | indexed {id p index c} : kind id ∈ [.i32, .u32, .i64] →
      (∀ x ∈ index, (kind id).Has x) →
      Storable fl kind (id + 1) c → Storable fl kind id (.indexed p index c)
  | indexedOption {id p index c} : kind id ∈ [.i32, .i64] →
      (∀ x ∈ index, (kind id).Has x) →
      Storable fl kind (id + 1) c → Storable fl kind id (.indexedOption p index c)
  | byteMasked {id p mask vw c} : (∀ x ∈ mask, IndexKind.i8.Has x) →
      Storable fl kind (id + 1) c → Storable fl kind id (.byteMasked p mask vw c)
  | bitMasked {id p mask vw length lsb c} : (∀ x ∈ mask, x < 256) →
      Storable fl kind (id + 1) c → Storable fl kind id (.bitMasked p mask vw length lsb c)
  | unmasked {id p c} : Storable fl kind (id + 1) c → Storable fl kind id (.unmasked p c)
  | tuple {id p cs} {length : Nat} :
      (∀ j c, cs[j]? = some c → Storable fl kind (id + 1 + Content.nodesAll (cs.take j)) c) →
      Storable fl kind id (.record p none cs length)
  | record {id p ks cs fields} {length : Nat} : ks.Nodup → ks.length = cs.length →
      Content.rangeFields cs 0 length = ok fields →
      (∀ j c, fields[j]? = some c →
        Storable fl kind (id + 1 + Content.nodesAll (fields.take j)) c) →
      Storable fl kind id (.record p (some ks) cs length)
  | union {id p tags index cs} : kind id ∈ [.i32, .u32, .i64] →
      (∀ x ∈ tags, IndexKind.i8.Has x) → (∀ x ∈ index, (kind id).Has x) → cs ≠ [] →
      (∀ j c, cs[j]? = some c → Storable fl kind (id + 1 + Content.nodesAll (cs.take j)) c) →
      Storable fl kind id (.union p tags index cs)

/-! ### What can be read back -/

/-- How many items of its content an index uses. -/
def usedByIndex (index : List Int) : Int := index.foldr (fun x m => max (x + 1) m) 0

/-- How many items of their content the first `n` lists use. -/
def usedByLists (starts stops : List Int) (n : Nat) : Int :=
  ((starts.zip stops).take n).foldr (fun ab m => if ab.1 = ab.2 then m else max ab.2 m) 0

/-- How many items of content number `t` the first `n` items of a union use. -/
def usedByTag (tags index : List Int) (t n : Nat) : Int :=
  ((tags.zip index).take n).foldr (fun ti m => if ti.1 = (t : Int) then max (ti.2 + 1) m else m) 0

/-- The length of the array is the length of a buffer, or follows from one. -/
def Content.StoresLength : Content → Prop
  | .regular _ c size _ => size ≠ 0 ∧ c.StoresLength
  | .unmasked _ c => c.StoresLength
  | .bitMasked .. => False
  | .record .. => False
  | _ => True

/-- The array can be read back when `n` of its items are asked for. Two restrictions are not met by
every valid array:
* the last offset of a `ListOffsetArray` is inside its content;
* all items of a `ByteMaskedArray` are asked for, or its content stores its length.

The content of a node is asked for the items that the node uses. -/
inductive Restorable : Content → Int → Prop
  | empty {p} : Restorable (.empty p) 0
  | numpy {p dt data n} : Restorable (.numpy p dt data) n
  | regular {p c} {n : Int} {size zeros : Nat} : Restorable c (n * size) →
      Restorable (.regular p c size zeros) n
  | listArray {p starts stops c} {n : Int} : Restorable c (usedByLists starts stops n.toNat) →
      Restorable (.listArray p starts stops c) n
  | listOffset {p offsets c n last} : offsets.getLast? = some last →
      0 ≤ last → last ≤ (c.len : Int) → Restorable c last → Restorable (.listOffset p offsets c) n
  | indexed {p index c n} : Restorable c (usedByIndex index) → Restorable (.indexed p index c) n
  | indexedOption {p index c n} : Restorable c (usedByIndex index) →
      Restorable (.indexedOption p index c) n
  | byteMasked {p vw c} {n : Int} {mask : List Int} : (n = mask.length ∨ c.StoresLength) →
      Restorable c n → Restorable (.byteMasked p mask vw c) n
  | bitMasked {p mask vw length lsb c n} : Restorable c n →
      Restorable (.bitMasked p mask vw length lsb c) n
  | unmasked {p c n} : Restorable c n → Restorable (.unmasked p c) n
  | tuple {p cs length n} : (∀ c ∈ cs, Restorable c n) → Restorable (.record p none cs length) n
  | record {p ks cs fields n} {length : Nat} : Content.rangeFields cs 0 length = ok fields →
      (∀ c ∈ fields, Restorable c n) → Restorable (.record p (some ks) cs length) n
  | union {p tags index cs} {n : Int} :
      (∀ (t : Nat) c, cs[t]? = some c → Restorable c (usedByTag tags index t n.toNat)) →
      Restorable (.union p tags index cs) n

namespace Content

mutual
/-- A condition on the nodes of an array, one by one, that makes it `Restorable`: offsets point
into their content, and the content of a mask stores its length. -/
def Ordinary : Content → Prop
  | empty _ => True
  | numpy _ _ _ => True
  | regular _ c _ _ => c.Ordinary
  | listArray _ _ _ c => c.Ordinary
  | listOffset _ offsets c => (∀ x ∈ offsets, 0 ≤ x ∧ x ≤ (c.len : Int)) ∧ c.Ordinary
  | indexed _ _ c => c.Ordinary
  | indexedOption _ _ c => c.Ordinary
  | byteMasked _ _ _ c => c.StoresLength ∧ c.Ordinary
  | bitMasked _ _ _ _ _ c => c.StoresLength ∧ c.Ordinary
  | unmasked _ c => c.Ordinary
  | record _ _ cs _ => OrdinaryAll cs
  | union _ _ _ cs => OrdinaryAll cs
/-- `Ordinary` of every member. -/
def OrdinaryAll : List Content → Prop
  | [] => True
  | c :: cs => c.Ordinary ∧ OrdinaryAll cs
end

end Content

end Awk
