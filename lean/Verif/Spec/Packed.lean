import Verif.Model.Packed
import Verif.Spec.Option
/-
What an array without unreachable data looks like, and which arrays `ak.packed` handles.
-/

namespace Awk.Content
open Awk

mutual
/-- The array has no data that cannot be reached from it: lists follow each other from the first
item of the content to its last, nothing is gathered by an index except the items that are not
missing, which are numbered in order, and fields, masked contents and the contents of lists of
fixed size have exactly as many items as are needed. (The content of an array of no lists of fixed
size is not looked at.) -/
def Packed : Content → Prop
  | empty _ => True
  | numpy _ _ _ => True
  | regular p c size zeros =>
    (regular p c size zeros).len = 0 ∨ (c.len = (regular p c size zeros).len * size ∧ c.Packed)
  | listArray _ _ _ _ => False
  | listOffset _ offsets c =>
    offsets[0]? = some 0 ∧ offsets.getLast? = some (c.len : Int) ∧ offsets.Pairwise (· ≤ ·) ∧ c.Packed
  | indexed _ _ _ => False
  | indexedOption _ index c =>
    (∀ j ∈ index, j < 0 → j = -1) ∧
      index.filter (fun j => 0 ≤ j) = (List.range c.len).map (fun (k : Nat) => (k : Int)) ∧ c.Packed
  | byteMasked _ mask _ c => c.len = mask.length ∧ c.Packed
  | bitMasked _ _ _ length _ c => c.len = length ∧ c.Packed
  | unmasked _ c => c.Packed
  | record _ _ cs length => PackedAll length cs
  | union _ _ _ _ => False
/-- `Packed` of every field, with `n` items. -/
def PackedAll (n : Nat) : List Content → Prop
  | [] => True
  | c :: cs => (c.len = n ∧ c.Packed) ∧ PackedAll n cs
end

/-- A RecordArray. -/
def isRecordNode : Content → Bool
  | record .. => true
  | _ => false

mutual
/-- No unions, no lists of fixed size zero and no fixed-size strings; an array of missing values
does not have another one as its content; a mask does not have an index, nor, inside of lists
(`under`), records as its content. If `bare`, the lists of fixed size, indexed arrays and arrays of
missing values have no parameters. -/
def Packable (bare : Bool) : Bool → Content → Prop
  | _, empty _ => True
  | _, numpy _ _ _ => True
  | under, regular p c size _ =>
    size ≠ 0 ∧ p.arr ≠ .string ∧ p.arr ≠ .bytestring ∧ (bare = true → p = {}) ∧ Packable bare under c
  | _, listArray _ _ _ c => Packable bare true c
  | _, listOffset _ _ c => Packable bare true c
  | under, indexed p _ c => (bare = true → p = {}) ∧ Packable bare under c
  | under, indexedOption p _ c =>
    c.isOption = false ∧ (bare = true → p = {}) ∧ Packable bare under c
  | under, byteMasked p _ _ c =>
    c.isOptionOrIndexed = false ∧ (under = true → c.isRecordNode = false) ∧ (bare = true → p = {}) ∧
      Packable bare under c
  | under, bitMasked p _ _ _ _ c =>
    c.isOptionOrIndexed = false ∧ (under = true → c.isRecordNode = false) ∧ (bare = true → p = {}) ∧
      Packable bare under c
  | under, unmasked p c => (bare = true → p = {}) ∧ Packable bare under c
  | under, record _ _ cs _ => PackableAll bare under cs
  | _, union _ _ _ _ => False
/-- `Packable` of every member. -/
def PackableAll (bare : Bool) : Bool → List Content → Prop
  | _, [] => True
  | under, c :: cs => Packable bare under c ∧ PackableAll bare under cs
end

end Awk.Content
