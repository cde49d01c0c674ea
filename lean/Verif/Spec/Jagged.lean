import Verif.Spec.Getitem
import Verif.Model.Jagged
/-
Specification of `array[index]` with a ragged index, on the values that `to_list` shows: the lists
of the index and of the array are matched level by level, and the integers of the innermost lists of
the index are Python positions in the lists of the array found there. A missing list of the array
stays missing, records are sliced field by field, and a missing position selects a missing value.
-/

namespace Awk
namespace Spec

mutual
/-- Apply `k` to the list that a value is, through records; a missing value stays missing. -/
def onList (k : List Val → Option Val) : Val → Option Val
  | .null => some .null
  | .list vs => k vs
  | .tuple vs => (onListItems k vs).map .tuple
  | .record fs => (onListFields k fs).map .record
  | _ => none
/-- Every member of a tuple. -/
def onListItems (k : List Val → Option Val) : List Val → Option (List Val)
  | [] => some []
  | v :: vs => (onList k v).bind (fun w => (onListItems k vs).map (w :: ·))
/-- Every field of a record. -/
def onListFields (k : List Val → Option Val) : List (String × Val) → Option (List (String × Val))
  | [] => some []
  | (key, v) :: fs => (onList k v).bind (fun w => (onListFields k fs).map ((key, w) :: ·))
end

/-- The item at a position. -/
def itemAt (vs : List Val) : Val → Option Val
  | .null => some .null
  | .atom (.int i) => pyGet? vs i
  | _ => none

/-- The index `ix` applied to the list `vs`, where `ix` has `n` more levels of lists: `none` when
the lengths of two lists differ, or a position is out of range. -/
def jagged : Nat → List Val → List Val → Option Val
  | 0, ix, vs => (ix.mapM (itemAt vs)).map .list
  | n + 1, ix, vs =>
    if ix.length = vs.length then
      ((ix.zip vs).mapM (fun jv => onList (jagged n jv.1.items) jv.2)).map .list
    else none

/-- The positions of the true values. -/
def truePositions (ms : List Val) : List Val :=
  (List.range ms.length).filterMap (fun i => match ms[i]? with
    | some (.atom (.bool true)) => some (.atom (.int i))
    | _ => none)

/-- A ragged mask with `n` more levels of lists, as a ragged index. -/
def unmask : Nat → List Val → List Val
  | 0, ms => truePositions ms
  | n + 1, ms => ms.map (fun m => .list (unmask n m.items))

/-- Not text. -/
def PlainList (p : Params) : Prop := ¬ (p.arr = .string ∨ p.arr = .bytestring)

open Content in
/-- The array has `n + 1` levels of lists to be sliced, below any indexes and records. Missing lists
are allowed at the last level only, and not at all when `strict` holds. -/
inductive Ragged (strict : Bool) : Nat → Content → Prop
  | last {c : Content} : c.isListNode = true → PlainList c.params → Ragged strict 0 c
  | list {n : Nat} {c : Content} : c.isListNode = true → PlainList c.params →
      (∀ d ∈ c.children, Ragged strict n d) → Ragged strict (n + 1) c
  | index {n : Nat} {c : Content} : isIndex c = true → (∀ d ∈ c.children, Ragged strict n d) →
      Ragged strict n c
  | option {c : Content} : strict = false → canMiss c = true →
      (∀ d ∈ c.children, Ragged strict 0 d) → Ragged strict 0 c
  | record {n : Nat} {p : Params} {keys : Option (List String)} {cs : List Content} {length : Nat} :
      cs ≠ [] → (∀ ks, keys = Option.some ks → ks.length = cs.length) →
      (∀ d ∈ cs, Ragged strict n d) → Ragged strict n (record p keys cs length)

/-- The items of the index: integers of an integer type, or booleans. -/
def IndexItems (bools : Bool) (dt : DType) (data : List Atom) : Prop :=
  if bools then dt = .bool ∧ ∀ x ∈ data, ∃ b, x = .bool b
  else dt.isInteger = true ∧ ∀ x ∈ data, ∃ i, x = .int i

open Content in
/-- The index is made of `n` levels of lists of variable length around its items; integers may be
missing when `miss` holds. -/
inductive RaggedIndex (bools : Bool) : (miss : Bool) → Nat → Content → Prop
  | empty {miss : Bool} {p : Params} : RaggedIndex bools miss 0 (empty p)
  | numpy {miss : Bool} {p : Params} {dt : DType} {data : List Atom} : IndexItems bools dt data →
      RaggedIndex bools miss 0 (numpy p dt data)
  | missing {c : Content} : bools = false → canMiss c = true →
      (∀ d ∈ c.children, RaggedIndex bools false 0 d) → RaggedIndex bools true 0 c
  | listOffset {miss : Bool} {n : Nat} {p : Params} {offsets : List Int} {c : Content} :
      (∀ o ∈ offsets, 0 ≤ o ∧ o ≤ c.len) → PlainList p → RaggedIndex bools miss n c →
      RaggedIndex bools miss (n + 1) (listOffset p offsets c)
  | listArray {miss : Bool} {n : Nat} {p : Params} {starts stops : List Int} {c : Content} :
      PlainList p → RaggedIndex bools miss n c →
      RaggedIndex bools miss (n + 1) (listArray p starts stops c)
  | index {miss : Bool} {n : Nat} {c : Content} : isIndex c = true →
      (∀ d ∈ c.children, RaggedIndex bools miss n d) → RaggedIndex bools miss n c

end Spec
end Awk
