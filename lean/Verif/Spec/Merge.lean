import Verif.Spec.List
import Verif.Spec.Option
import Mathlib.Data.String.Basic
/-
Specification vocabulary for putting arrays together: when two elements are the same value although
their number types or the order of their fields differ, and when arrays have a common type.
-/

namespace Awk

/-- The number as a complex number: `True`, `1`, `1.0` and `1+0j` are the same value. -/
def Atom.canon : Atom → Atom
  | .bool b => .complex (if b then 1 else 0) 0
  | .int i => .complex i 0
  | .real q => .complex q 0
  | .complex re im => .complex re im
  | .datetime i => .datetime i
  | .timedelta i => .timedelta i

/-- The fields of a record in the order of their names. -/
def sortFields (fs : List (String × Val)) : List (String × Val) :=
  fs.mergeSort (fun a b => decide (a.1 ≤ b.1))

mutual
/-- The element with its numbers as complex numbers and its record fields in the order of their
names. Two elements are the same value if this makes them equal. -/
def Val.canon : Val → Val
  | .null => .null
  | .atom a => .atom a.canon
  | .str vs => .str (Val.canonList vs)
  | .bytes vs => .bytes (Val.canonList vs)
  | .list vs => .list (Val.canonList vs)
  | .tuple vs => .tuple (Val.canonList vs)
  | .record fs => .record (sortFields (Val.canonFields fs))
/-- `canon` of every member. -/
def Val.canonList : List Val → List Val
  | [] => []
  | v :: vs => v.canon :: Val.canonList vs
/-- `canon` of every field. -/
def Val.canonFields : List (String × Val) → List (String × Val)
  | [] => []
  | (k, v) :: fs => (k, v.canon) :: Val.canonFields fs
end

mutual
/-- The element with `v` in the place of every missing value inside it. -/
def Val.fill : Val → Val → Val
  | .null, v => v
  | .atom a, _ => .atom a
  | .str vs, v => .str (Val.fillList vs v)
  | .bytes vs, v => .bytes (Val.fillList vs v)
  | .list vs, v => .list (Val.fillList vs v)
  | .tuple vs, v => .tuple (Val.fillList vs v)
  | .record fs, v => .record (Val.fillFields fs v)
/-- `fill` of every member. -/
def Val.fillList : List Val → Val → List Val
  | [], _ => []
  | x :: xs, v => x.fill v :: Val.fillList xs v
/-- `fill` of every field. -/
def Val.fillFields : List (String × Val) → Val → List (String × Val)
  | [], _ => []
  | (k, x) :: fs, v => (k, x.fill v) :: Val.fillFields fs v
end

/-- The kinds of items that merge with each other. -/
inductive NumKind where
  | number | datetime | timedelta
deriving Repr, DecidableEq

/-- The kind of a dtype. -/
def DType.kind : DType → NumKind
  | .datetime64 => .datetime
  | .timedelta64 => .timedelta
  | _ => .number

/-- The parameters that decide how elements are shown: `__array__` and `__record__`. -/
def Params.key (p : Params) : ArrKind × Option String := (p.arr, p.recName)

/-- Types of arrays, up to the types of numbers. Every level has the `__array__` and `__record__`
parameters of the nodes. -/
inductive Ty where
  | unknown (k : ArrKind × Option String)
  | leaf (k : ArrKind × Option String) (kind : NumKind)
  | list (k : ArrKind × Option String) (t : Ty)
  | opt (k : ArrKind × Option String) (option : Bool) (t : Ty)
  | tuple (k : ArrKind × Option String) (ts : List Ty)
  | record (k : ArrKind × Option String) (fields : List (String × Ty))

/-- The parameters of the outermost level. -/
def Ty.key : Ty → ArrKind × Option String
  | unknown k => k
  | leaf k _ => k
  | list k _ => k
  | opt k _ _ => k
  | tuple k _ => k
  | record k _ => k

namespace Content

/-- The node is an option type or an IndexedArray. -/
def isIndirectNode : Content → Bool
  | indexed .. => true
  | c => c.isOption

/-- The content of the field `key`. -/
def column (keys : List String) (cs : List Content) (key : String) : Option Content :=
  (keys.zip cs).lookup key

/-- The array has the type, where an array without missing values also has the option type, and
arrays of unknown type and unions have every type (with the same parameters). In `opt k option t`,
all arrays that are not plain have option types (`option = true`) or all are IndexedArrays. -/
inductive OfType : Ty → Content → Prop
  | empty {t : Ty} {p : Params} : p.key = t.key → OfType t (empty p)
  | union {t : Ty} {p : Params} {tags index : List Int} {cs : List Content} :
      p.key = t.key → OfType t (union p tags index cs)
  | leaf {p : Params} {d : DType} {data : List Atom} :
      OfType (.leaf p.key d.kind) (numpy p d data)
  | list {t : Ty} {c : Content} : c.isListNode = true → (∀ d ∈ c.children, OfType t d) →
      OfType (.list c.params.key t) c
  | opt {t : Ty} {c : Content} : c.isIndirectNode = true → (∀ d ∈ c.children, OfType t d) →
      OfType (.opt c.params.key c.isOption t) c
  | plain {t : Ty} {o : Bool} {c : Content} : c.isIndirectNode = false → OfType t c →
      OfType (.opt c.params.key o t) c
  | tuple {p : Params} {ts : List Ty} {cs : List Content} {n : Nat} : cs.length = ts.length →
      (∀ i (h : i < cs.length) (h' : i < ts.length), OfType ts[i] cs[i]) →
      OfType (.tuple p.key ts) (record p none cs n)
  | record {p : Params} {fields : List (String × Ty)} {keys : List String} {cs : List Content}
      {n : Nat} : keys.Perm (fields.map Prod.fst) → keys.length = cs.length →
      (∀ kt ∈ fields, ∀ d, column keys cs kt.1 = some d → OfType kt.2 d) →
      OfType (.record p.key fields) (record p (some keys) cs n)

/-- There are no option nodes inside an option node with an index or a mask. -/
def SingleOption : Content → Prop
  | indexedOption _ _ c | byteMasked _ _ _ c | bitMasked _ _ _ _ _ c =>
    AllNodes (fun d => d.isOption = false) c
  | _ => True

/-- The node classes that an array does not have, and whether its numbers are complex. -/
structure Without where
  union : Prop
  indexed : Prop
  option : Prop
  complex : Prop

/-- What merging needs of every node:
* a record has fields, all of its length, with different names;
* characters and bytes are uint8;
* the numbers (and booleans) are all complex numbers, or none of them is;
* a RegularArray of size one does not directly contain records;
* the node is not of a class in `no`. -/
def MergeNode (no : Without) : Content → Prop
  | numpy p d _ => (p.arr = .char ∨ p.arr = .byte → d = .uint8) ∧
      (¬ (p.arr = .char ∨ p.arr = .byte) → d.kind = .number →
        (d = .complex64 ∨ d = .complex128 ↔ no.complex))
  | regular _ (record ..) size _ => size ≠ 1
  | record _ keys cs length => cs ≠ [] ∧ (∀ d ∈ cs, d.len = length) ∧
      ∀ ks, keys = some ks → ks.Nodup ∧ ks.length = cs.length
  | union .. => ¬ no.union
  | indexed .. => ¬ no.indexed
  | indexedOption .. | byteMasked .. | bitMasked .. | unmasked .. => ¬ no.option
  | _ => True

/-- The alternatives that an alternative stands for. -/
def alts : Content → List Content
  | union _ _ _ ds => ds
  | c => [c]

/-- The tags and the index of a union refer to elements of its alternatives. -/
def UnionRefers (tags index : List Int) (cs : List Content) : Prop :=
  ∃ _ : tags.length ≤ index.length, ∀ i (h : i < tags.length), 0 ≤ tags[i] ∧
    ∃ (ht : tags[i].toNat < cs.length), 0 ≤ index[i] ∧ index[i] < (cs[tags[i].toNat]).len

/-- An alternative of a union that `simplify` accepts: a valid array, or a union of valid arrays
(which `validity` rejects inside of a union). -/
inductive Alternative : Content → Prop
  | valid {c : Content} : c.validity = .ok () → Alternative c
  | nested {p : Params} {tags index : List Int} {cs : List Content} :
      (∀ c ∈ cs, c.validity = .ok ()) → UnionRefers tags index cs →
      Alternative (union p tags index cs)

end Content
end Awk
