import Verif.Spec.List
import Verif.Spec.Slice
import Verif.Model.Getitem
/-
Specification of `array[item, item, …]` on the values that `to_list` shows, written from the
documentation of NumPy indexing and of `ak.Array.__getitem__`: items are applied level by level.
An integer picks one item of every list, a range picks a Python slice of every list, an integer
array picks several items and the first such array sets up an index that the following ones are
zipped with, `newaxis` adds a level of lists of length one. A missing list stays missing, and
records are sliced field by field.
-/

namespace Awk
namespace Spec

/-- Nested lists of the given shape from a list in row-major order. -/
def nest : List Nat → List Val → Val
  | [], xs => xs.headD .null
  | n :: ns, xs =>
    .list ((List.range n).map (fun i => nest ns ((xs.drop (i * ns.prod)).take ns.prod)))

/-- One item applied to a list of values: `k` applies the rest of the slice (given the current
position in the index arrays) to what is selected, and `wrap` makes a list of the same kind. -/
def selList (wrap : List Val → Val) (k : Option Nat → Val → Option Val) (adv : Option Nat)
    (vs : List Val) : SliceItem → Option Val
  | .at i => (pyGet? vs i).bind (k adv)
  | .range start stop step => ((pySlice vs start stop step).mapM (k adv)).map wrap
  | .array shape flat =>
    match adv with
    | none => ((List.range flat.length).mapM (fun j =>
        (flat[j]?.bind (pyGet? vs)).bind (k (some j)))).map (nest shape)
    | some j => (flat[j]?.bind (pyGet? vs)).bind (k (some j))
  | .newaxis => none

mutual
/-- One item (not `newaxis`) applied to a value. -/
def selItem (it : SliceItem) (k : Option Nat → Val → Option Val) (adv : Option Nat) :
    Val → Option Val
  | .null => some .null
  | .atom _ => none
  | .list vs => selList .list k adv vs it
  | .str vs => selList .str k adv vs it
  | .bytes vs => selList .bytes k adv vs it
  | .tuple vs => (selItems it k adv vs).map .tuple
  | .record fs => (selFields it k adv fs).map .record
/-- Every member of a tuple. -/
def selItems (it : SliceItem) (k : Option Nat → Val → Option Val) (adv : Option Nat) :
    List Val → Option (List Val)
  | [] => some []
  | v :: vs => (selItem it k adv v).bind (fun w => (selItems it k adv vs).map (w :: ·))
/-- Every field of a record. -/
def selFields (it : SliceItem) (k : Option Nat → Val → Option Val) (adv : Option Nat) :
    List (String × Val) → Option (List (String × Val))
  | [] => some []
  | (key, v) :: fs =>
    (selItem it k adv v).bind (fun w => (selFields it k adv fs).map ((key, w) :: ·))
end

/-- A whole slice applied to a value; `none` when some item does not apply (an index out of range
or too many items). `adv` is the position in the index arrays, once one of them was met. -/
def select : List SliceItem → Option Nat → Val → Option Val
  | [], _, v => some v
  | .newaxis :: rest, adv, v => (select rest adv v).map (fun w => .list [w])
  | it :: rest, adv, v => selItem it (select rest) adv v

/-- Two values that are the same, except that a list of characters or bytes may be shown as text
or bytes. -/
def Alike (v w : Val) : Prop := v = w ∨ (v.isList = true ∧ w.isList = true ∧ v.items = w.items)

/-- How far index arrays were used already: not at all; once, at the outermost level; once or
more, so that one more array can be zipped with it; or so that no other array may follow. -/
inductive Mode
  | none
  | ident
  | some
  | junk
deriving DecidableEq

/-- How an item changes the mode; `none` when the item is not allowed there (a slice with index
arrays has no single integers left, because they become arrays, Slice.cpp:965-1088). -/
def nextMode : Mode → SliceItem → Option Mode
  | .none, .at _ => Option.some .none
  | _, .at _ => Option.none
  | .ident, .range .. => Option.some .some
  | m, .range .. => Option.some m
  | .none, .array .. => Option.some .some
  | .ident, .array .. => Option.some .ident
  | .some, .array .. => Option.some .junk
  | .junk, .array .. => Option.none
  | _, .newaxis => Option.none

/-- The item is well formed: bounds and steps are representable, steps are not zero, and an index array
has `m` entries, where `m` is positive. -/
def ItemOk (m : Nat) : SliceItem → Prop
  | .at _ => True
  | .range start stop step => GoodArg start ∧ GoodArg stop ∧ step ≠ 0 ∧ step ≠ kSliceNone
  | .array shape flat => flat.length = m ∧ shape.prod = m ∧ 0 < m
  | .newaxis => True

/-- The position of Python index `i` in a list of `n` items. -/
def regAt (i : Int) (n : Nat) : Option Nat :=
  let r := if i < 0 then i + n else i
  if 0 ≤ r ∧ r < n then some r.toNat else none

/-- Indices into a list type of fixed size are in range. -/
def SizeOk (it : SliceItem) (size : Nat) : Prop :=
  match it with
  | .at i => (regAt i size).isSome
  | .array _ flat => ∀ a ∈ flat, (regAt a size).isSome
  | _ => True

/-- IndexedArray and UnmaskedArray: as many elements as the node itself. -/
def isIndex : Content → Bool
  | .indexed .. | .unmasked .. => true
  | _ => false

/-- The options whose content holds fewer elements than the node. -/
def canMiss : Content → Bool
  | .indexedOption .. | .byteMasked .. | .bitMasked .. => true
  | _ => false

open Content in
/-- The slice fits the type of the array: every item meets a list, below any options (but see
`Mode`) and indexes, and at most one item is left where records are met. With `b`, indices into
lists of fixed size are in range, and record arrays are trimmed to their length and have as many
keys as fields. -/
inductive Fits (b : Bool) (m : Nat) : Mode → List SliceItem → Content → Prop
  | nil {mode : Mode} {c : Content} : Fits b m mode [] c
  | newaxis {mode : Mode} {rest : List SliceItem} {c : Content} :
      (∀ p k cs n, c ≠ record p k cs n) → Fits b m mode rest c → Fits b m mode (.newaxis :: rest) c
  | list {mode mode' : Mode} {it : SliceItem} {rest : List SliceItem} {c : Content} :
      c.isListNode = true → ItemOk m it → nextMode mode it = Option.some mode' →
      (b = true → ∀ p d size zeros, c = regular p d size zeros → SizeOk it size) →
      (∀ d ∈ c.children, Fits b m mode' rest d) → Fits b m mode (it :: rest) c
  | index {mode : Mode} {it : SliceItem} {rest : List SliceItem} {c : Content} :
      it ≠ .newaxis → isIndex c = true →
      (∀ d ∈ c.children, Fits b m mode (it :: rest) d) → Fits b m mode (it :: rest) c
  | option {it : SliceItem} {rest : List SliceItem} {c : Content} :
      it ≠ .newaxis → canMiss c = true →
      (∀ d ∈ c.children, Fits b m .none (it :: rest) d) → Fits b m .none (it :: rest) c
  | record {mode : Mode} {it : SliceItem} {p : Params} {keys : Option (List String)}
      {cs : List Content} {length : Nat} :
      it ≠ .newaxis → cs ≠ [] → (mode ≠ .none ∨ b = true → ∀ d ∈ cs, d.len = length) →
      (b = true → ∀ ks, keys = Option.some ks → ks.length = cs.length) →
      (∀ d ∈ cs, Fits b m mode [it] d) → Fits b m mode [it] (record p keys cs length)

open Content in
/-- The slice fits an array: its first item is applied to the array itself, and an index array
there lets the following ones be zipped with it. -/
def FitsTop (b : Bool) (m : Nat) : List SliceItem → Content → Prop
  | [], _ => True
  | .newaxis :: rest, c => Fits b m .none rest (regular {} c c.len 1)
  | .array shape flat :: rest, c => ItemOk m (.array shape flat) ∧ Fits b m .ident rest c
  | it :: rest, c => ItemOk m it ∧ Fits b m .none rest c

end Spec
end Awk
