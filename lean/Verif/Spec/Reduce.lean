import Verif.Model.Reduce
import Verif.Spec.List
/-
What the reducers mean, in terms of the Python lists shown by `to_list`.
-/

namespace Awk
namespace Spec

/-- A boolean or an integer, as a number. -/
def intOf : Atom → Int
  | .bool true => 1
  | .bool false => 0
  | .int i => i
  | _ => 0

/-- A floating-point number. -/
def realOf : Atom → Rat
  | .real q => q
  | _ => 0

/-- Python's `bool(x)`. -/
def truth : Atom → Bool
  | .bool b => b
  | .int i => i != 0
  | .real q => q != 0
  | _ => true

/-- `x < y`, for booleans, integers and reals. -/
def less : Atom → Atom → Bool
  | .bool a, .bool b => !a && b
  | .int a, .int b => decide (a < b)
  | .real a, .real b => decide (a < b)
  | _, _ => false

/-- The smaller and the larger of two items; the second if they are equal. -/
def minOf (x y : Atom) : Atom := if less x y then x else y
def maxOf (x y : Atom) : Atom := if less y x then x else y

/-- The item of type `dt` is what the type says. -/
def OfType (dt : DType) : Atom → Prop
  | .bool _ => dt = .bool
  | .int _ => dt = .int8 ∨ dt = .int16 ∨ dt = .int32 ∨ dt = .int64 ∨
      dt = .uint8 ∨ dt = .uint16 ∨ dt = .uint32 ∨ dt = .uint64
  | .real _ => dt = .float32 ∨ dt = .float64
  | _ => False

/-- The identity given to `min` or `max` is of the type of the items. -/
def _root_.Awk.Reducer.identityOk (dt : DType) : Reducer → Prop
  | .min i | .max i => OfType dt i
  | _ => True

/-- The reduction of the items `xs` of type `dt`. Sums and products of booleans and integers are
integers; minima and maxima begin with the identity, except for booleans. -/
def total (red : Reducer) (dt : DType) (xs : List Atom) : Atom :=
  let float := decide (dt = .float32 ∨ dt = .float64)
  match red with
  | .count => .int xs.length
  | .countNonzero => .int (xs.countP truth)
  | .sum => if float then .real (xs.map realOf).sum else .int (xs.map intOf).sum
  | .prod => if float then .real (xs.map realOf).prod else .int (xs.map intOf).prod
  | .any => .bool (xs.any truth)
  | .all => .bool (xs.all truth)
  | .min identity =>
    if dt = .bool then .bool (xs.all truth) else xs.foldr minOf identity
  | .max identity =>
    if dt = .bool then .bool (xs.any truth) else xs.foldr maxOf identity
  | .argmin | .argmax => .int (-1)

/-- The items of a list that are not None. -/
def present (vals : List Val) : List Atom :=
  vals.filterMap (fun v => match v with | .atom a => some a | _ => none)

/-- The first position holding an item than which no item of the list is better; positions count
from the beginning of the list, and Nones count too. -/
def firstBest (better : Atom → Atom → Bool) (vals : List Val) : Option Nat :=
  (List.range vals.length).find? (fun p => match vals[p]? with
    | some (.atom x) => (present vals).all (fun y => !better y x)
    | _ => false)

/-- The reduction of one list of items: None is ignored; if nothing is left, the result is None
when `mask` (the `mask_identity` argument) is true. -/
def reduceList (red : Reducer) (mask : Bool) (dt : DType) (vals : List Val) : Val :=
  let position (better : Atom → Atom → Bool) : Val := match firstBest better vals with
    | some p => .atom (.int p)
    | none => if mask then .null else .atom (.int (-1))
  match red with
  | .argmin => position less
  | .argmax => position (fun x y => less y x)
  | red => if mask && (present vals).isEmpty then .null else .atom (total red dt (present vals))

/-- The items at position `j` of the given lists, None where a list is missing or too short. -/
def column (vals : List Val) (j : Nat) : List Val := vals.map (fun v => v.items[j]?.getD .null)

/-- The length of the longest list. -/
def longest (vals : List Val) : Nat := (vals.map (fun v => v.items.length)).foldr max 0

/-- The reduction of lists nested `d` deep across their outermost dimension. -/
def reduceAcross (red : Reducer) (mask : Bool) (dt : DType) : Nat → List Val → Val
  | 0, vals => reduceList red mask dt vals
  | d + 1, vals => .list ((List.range (longest vals)).map (fun j =>
      reduceAcross red mask dt d (column vals j)))

/-- Apply `f` to the lists `m` levels down; a missing list stays missing. -/
def atDepth (f : List Val → Val) : Nat → List Val → Val
  | 0, vals => f vals
  | m + 1, vals => .list (vals.map (fun v => match v with
      | .null => .null
      | v => atDepth f m v.items))

/-- The lists `m` levels down, in order. -/
def groupsAt : Nat → List Val → List (List Val)
  | 0, vals => [vals]
  | m + 1, vals => vals.flatMap (fun v => match v with
      | .null => []
      | v => groupsAt m v.items)

/-- No group whose lists are all empty precedes a group that has a nonempty list. -/
def Ordered (gs : List (List Val)) : Prop :=
  gs.Pairwise (fun a b => (∃ v ∈ b, v.items ≠ []) → (∃ v ∈ a, v ≠ .null) → ∃ v ∈ a, v.items ≠ [])

/-- The longest list is as long in every group. -/
def SameLength (gs : List (List Val)) : Prop := ∀ a ∈ gs, ∀ b ∈ gs, longest a = longest b

/-- The lists of items at equal positions. -/
def columns (vals : List Val) : List (List Val) := (List.range (longest vals)).map (column vals)

/-- An array of numbers of type `dt` in lists nested `n - 1` deep, with or without missing values:
every node class except RecordArray and UnionArray. The parameters say which arrays are included:

* `z`: all ListOffsetArrays begin at offset zero (false of some slices of an array);
* `ix`: IndexedArrays (without missing values) are allowed;
* `k`: the axis counted from the innermost dimension; if `z` is not known, missing values and
  IndexedArrays are only allowed in the innermost `k` dimensions;
* `rg`: RegularArrays are allowed in the innermost `k` dimensions (innermost lists are in dimension 2);
* `o`: a missing value or an IndexedArray is allowed at the top.

An EmptyArray counts as numbers of the reducer's preferred type. Strings are excluded. All offsets
lie within the content. -/
inductive Nested (red : Reducer) (dt : DType) (z ix rg : Prop) (k : Nat) : Nat → Bool → Content → Prop
  | numpy {o p data} : dt.reducible = true → (∀ x ∈ data, OfType dt x) →
      Nested red dt z ix rg k 1 o (.numpy p dt data)
  | empty {o p} : dt.reducible = true → dt = red.preferred → Nested red dt z ix rg k 1 o (.empty p)
  | regular {n o p c size zeros} : ¬ (p.arr = .string ∨ p.arr = .bytestring) → (n + 1 ≤ k → rg) →
      Nested red dt z ix rg k n true c → Nested red dt z ix rg k (n + 1) o (.regular p c size zeros)
  | listArray {n o p starts stops c} : ¬ (p.arr = .string ∨ p.arr = .bytestring) →
      Nested red dt z ix rg k n true c → Nested red dt z ix rg k (n + 1) o (.listArray p starts stops c)
  | listOffset {n o p offsets c} : ¬ (p.arr = .string ∨ p.arr = .bytestring) →
      (z → offsets[0]? = some 0) → (∀ x ∈ offsets, 0 ≤ x ∧ x ≤ (c.len : Int)) →
      Nested red dt z ix rg k n true c → Nested red dt z ix rg k (n + 1) o (.listOffset p offsets c)
  | indexed {n p index c} : ix → (z ∨ n ≤ k) → Nested red dt z ix rg k n false c →
      Nested red dt z ix rg k n true (.indexed p index c)
  | indexedOption {n p index c} : (z ∨ n ≤ k) → Nested red dt z ix rg k n false c →
      Nested red dt z ix rg k n true (.indexedOption p index c)
  | byteMasked {n p mask vw c} : (z ∨ n ≤ k) → Nested red dt z ix rg k n false c →
      Nested red dt z ix rg k n true (.byteMasked p mask vw c)
  | bitMasked {n p mask vw length lsb c} : (z ∨ n ≤ k) → Nested red dt z ix rg k n false c →
      Nested red dt z ix rg k n true (.bitMasked p mask vw length lsb c)
  | unmasked {n p c} : Nested red dt z ix rg k n false c → Nested red dt z ix rg k n true (.unmasked p c)

end Spec
end Awk
