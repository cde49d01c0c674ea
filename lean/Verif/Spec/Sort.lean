import Verif.Spec.Reduce
import Verif.Model.Sort
import Mathlib.Data.List.Forall2
/-
What `sort` and `argsort` mean, in terms of the Python lists shown by `to_list`.
-/

namespace Awk
namespace Spec

/-- `x` may come before `y`: `x <= y`, or `x >= y` in descending order. -/
def inOrder (ascending : Bool) (x y : Atom) : Bool := if ascending then !less y x else !less x y

/-- `ys` is the list `xs` sorted; missing values come last. -/
def Sorted (ascending : Bool) (xs ys : List Val) : Prop :=
  ∃ zs : List Atom, zs.Perm (present xs) ∧ zs.Pairwise (fun x y => inOrder ascending x y = true) ∧
    ys = zs.map Val.atom ++ List.replicate (xs.length - (present xs).length) .null

/-- `ys` are the positions of the items of `xs` in sorted order, counted among the items that are not
missing; a None for each missing value comes last. With `stable`, equal items keep their order. -/
def ArgSorted (ascending stable : Bool) (xs ys : List Val) : Prop :=
  ∃ is : List Nat, is.Perm (List.range (present xs).length) ∧
    is.Pairwise (fun i j => ∀ x y, (present xs)[i]? = some x → (present xs)[j]? = some y →
      inOrder ascending x y = true ∧ (stable = true → inOrder ascending y x = true → i < j)) ∧
    ys = is.map (fun (i : Nat) => Val.atom (.int i)) ++ List.replicate (xs.length - (present xs).length) .null

/-- Lists `d` levels down are related by `rel`; a missing list corresponds to a missing list. -/
def AtDepth (rel : List Val → List Val → Prop) : Nat → List Val → List Val → Prop
  | 0, xs, ys => rel xs ys
  | d + 1, xs, ys => List.Forall₂ (fun x y => (x = .null ∧ y = .null) ∨
      ∃ xs' ys', x = .list xs' ∧ y = .list ys' ∧ AtDepth rel d xs' ys') xs ys

/-- No list is missing above the innermost dimension, `d` levels down, and unless the stable
algorithm is used, the innermost lists have less than 2⁴⁸ items. -/
def Sortable (stable : Bool) : Nat → List Val → Prop
  | 0, vals => stable = true ∨ vals.length < 2 ^ 48
  | d + 1, vals => ∀ v ∈ vals, v ≠ .null ∧ Sortable stable d v.items

/-- As `Sortable`, for a whole array: lists may be missing at its top level, numbers may not. -/
def SortableTop (stable : Bool) : Nat → List Val → Prop
  | 0, vals => (∀ v ∈ vals, v ≠ .null) ∧ Sortable stable 0 vals
  | d + 1, vals => ∀ v ∈ vals, v ≠ .null → Sortable stable d v.items

/-- The items of `xs` at the positions `is`. -/
def itemsAt (xs is : List Val) : List Val :=
  is.map fun i => match i with
    | .atom (.int i) => xs[i.toNat]?.getD .null
    | _ => .null

/-- In each list `d` levels down in which nothing is missing, the items of `xs` at the positions `is`
are `ys`. -/
def Taken : Nat → List Val → List Val → List Val → Prop
  | 0, xs, is, ys => (∀ v ∈ xs, v ≠ .null) → itemsAt xs is = ys
  | d + 1, xs, is, ys => is.length = xs.length ∧ ys.length = xs.length ∧
      ∀ (k : Nat) (x i y : Val), xs[k]? = some x → is[k]? = some i → ys[k]? = some y →
        (x = .null ∧ i = .null ∧ y = .null) ∨
        ∃ xs' is' ys', x = .list xs' ∧ i = .list is' ∧ y = .list ys' ∧ Taken d xs' is' ys'

/-- The bytes of a string. -/
def text (v : Val) : List Int := (present v.items).map Atom.toInt

/-- The alphabetical order of strings, byte by byte. -/
def before : List Int → List Int → Bool
  | _, [] => false
  | [], _ :: _ => true
  | a :: as, b :: bs => decide (a < b) || (decide (a = b) && before as bs)

/-- `ys` are the strings `xs`, reordered. If no string has zero bytes, they are in alphabetical
order. -/
def StringsSorted (xs ys : List Val) : Prop :=
  ys.Perm xs ∧ ((∀ v ∈ xs, 0 ∉ text v) → ys.Pairwise fun x y => before (text y) (text x) = false)

/-- `ys` are the positions of the strings `xs`, in some order. If no string has zero bytes, it is the
alphabetical order of the strings; with `stable`, equal strings keep their order. -/
def StringsArgSorted (stable : Bool) (xs ys : List Val) : Prop :=
  ∃ is : List Nat, is.Perm (List.range xs.length) ∧ ys = is.map (fun (i : Nat) => Val.atom (.int i)) ∧
    ((∀ v ∈ xs, 0 ∉ text v) → is.Pairwise fun i j => ∀ x y, xs[i]? = some x → xs[j]? = some y →
      before (text y) (text x) = false ∧ (stable = true → before (text x) (text y) = false → i < j))

/-- The content of a string: bytes. -/
def Chars (p : Params) (c : Content) : Prop := ∃ q data, c = .numpy q .uint8 data ∧
  ((p.arr = .string ∧ q.arr = .char) ∨ (p.arr = .bytestring ∧ q.arr = .byte))

/-- Strings in lists with `n` dimensions; a string counts as one. All ListOffsetArrays above the
strings begin at offset zero. -/
inductive Strings : Nat → Content → Prop
  | regularText {p c size zeros} : Chars p c → Strings 1 (.regular p c size zeros)
  | listArrayText {p starts stops c} : Chars p c → Strings 1 (.listArray p starts stops c)
  | listOffsetText {p offsets c} : Chars p c → Strings 1 (.listOffset p offsets c)
  | regular {n p c size zeros} : ¬ (p.arr = .string ∨ p.arr = .bytestring) → Strings n c →
      Strings (n + 1) (.regular p c size zeros)
  | listArray {n p starts stops c} : ¬ (p.arr = .string ∨ p.arr = .bytestring) → Strings n c →
      Strings (n + 1) (.listArray p starts stops c)
  | listOffset {n p offsets c} : ¬ (p.arr = .string ∨ p.arr = .bytestring) → offsets[0]? = some 0 →
      (∀ x ∈ offsets, 0 ≤ x ∧ x ≤ (c.len : Int)) → Strings n c →
      Strings (n + 1) (.listOffset p offsets c)

/-- What the C++ standard says about `std::sort`: if the comparison is a strict weak order on different
elements, the result is a reordering in which no element comes after a larger one. -/
def Lawful (std : StdSort) : Prop :=
  ∀ lt xs, xs.Nodup → strictWeak lt xs = true → (std lt xs).Perm xs ∧ (std lt xs).Pairwise fun a b => lt b a = false

end Spec
end Awk
