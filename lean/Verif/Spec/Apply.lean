import Verif.Spec.List
import Verif.Spec.Option
/-
Vocabulary for operations on the elements at a given depth.
-/

namespace Awk
namespace Val

mutual
/-- Apply `g` to every element that is `a` levels of lists below this one (`a = 0`: to this one).
Missing lists stay missing, and records are mapped field by field. -/
def mapDepth (g : Val → Val) : Nat → Val → Val
  | 0, v => g v
  | _ + 1, .null => .null
  | _ + 1, .atom x => .atom x
  | a + 1, .list vs => .list (mapDepthList g a vs)
  | a + 1, .str vs => .str (mapDepthList g a vs)
  | a + 1, .bytes vs => .bytes (mapDepthList g a vs)
  | a + 1, .tuple vs => .tuple (mapDepthList g (a + 1) vs)
  | a + 1, .record fs => .record (mapDepthFields g (a + 1) fs)
/-- `mapDepth` of every member of a list. -/
def mapDepthList (g : Val → Val) : Nat → List Val → List Val
  | _, [] => []
  | a, v :: vs => mapDepth g a v :: mapDepthList g a vs
/-- `mapDepth` of every field. -/
def mapDepthFields (g : Val → Val) : Nat → List (String × Val) → List (String × Val)
  | _, [] => []
  | a, (k, v) :: fs => (k, mapDepth g a v) :: mapDepthFields g a fs
end

/-- Whether the element is missing. -/
def missing (v : Val) : Val := .atom (.bool v.isNull)

/-- A list of the element; an empty list if it is missing. -/
def singleton (v : Val) : Val := .list (if v.isNull then [] else [v])

end Val

namespace Content

/-- Every branch of the array has lists (not strings) at least `a` levels deep. Missing data, indexes,
records, unions and arrays of unknown type do not count as levels. -/
inductive Deep : Nat → Content → Prop
  | zero {c : Content} : Deep 0 c
  | list {c : Content} {a : Nat} : c.isListNode = true → c.params.arr ≠ .string →
      c.params.arr ≠ .bytestring → (∀ d ∈ c.children, Deep a d) → Deep (a + 1) c
  | thru {c : Content} {a : Nat} : c.isThru true = true → (∀ d ∈ c.children, Deep a d) → Deep a c
  | empty {p : Params} {a : Nat} : Deep a (empty p)

/-- No element of the array is missing: its elements are not of option type, seen through indexes and
unions. -/
inductive Solid : Content → Prop
  | node {c : Content} : c.isThru true = false → Solid c
  | record {p : Params} {keys : Option (List String)} {cs : List Content} {length : Nat} :
      Solid (record p keys cs length)
  | indexed {p : Params} {index : List Int} {c : Content} : Solid c → Solid (indexed p index c)
  | union {p : Params} {tags index : List Int} {cs : List Content} : (∀ d ∈ cs, Solid d) →
      Solid (union p tags index cs)

/-- An option-type node has no option-type node directly below it: what is missing is missing once. -/
def OnceNode (c : Content) : Prop := c.isOption = true → ∀ d ∈ c.children, Solid d

/-- If an option-type node contains a union, no member of this union is of option type. -/
def OnceUnion (c : Content) : Prop :=
  c.isOption = true → ∀ d ∈ c.children, d.isUnion = true → ∀ e ∈ d.children, Solid e

/-- The first option-type nodes that are met from the outside are `a` levels of lists deep, with no
records before them. -/
inductive OptionsAt : Nat → Content → Prop
  | here {c : Content} : c.isOption = true → OptionsAt 0 c
  | list {c : Content} {a : Nat} : c.isListNode = true → (∀ d ∈ c.children, OptionsAt a d) →
      OptionsAt (a + 1) c
  | indexed {p : Params} {index : List Int} {c : Content} {a : Nat} : OptionsAt a c →
      OptionsAt a (indexed p index c)
  | union {p : Params} {tags index : List Int} {cs : List Content} {a : Nat} :
      (∀ d ∈ cs, OptionsAt a d) → OptionsAt a (union p tags index cs)

/-- Every branch of the array is exactly `n` levels deep, where the array itself is one level and
strings are not lists. Records count as one level, with fields that have no further levels. -/
inductive Uniform : Nat → Content → Prop
  | empty {p : Params} : Uniform 1 (empty p)
  | numpy {p : Params} {dt : DType} {data : List Atom} : Uniform 1 (numpy p dt data)
  | string {c : Content} : c.isListNode = true →
      c.params.arr = .string ∨ c.params.arr = .bytestring → Uniform 1 c
  | list {c : Content} {n : Nat} : c.isListNode = true → c.params.arr ≠ .string →
      c.params.arr ≠ .bytestring → (∀ d ∈ c.children, Uniform n d) → Uniform (n + 1) c
  | thru {c : Content} {n : Nat} : c.isOptionOrIndexed = true → (∀ d ∈ c.children, Uniform n d) →
      Uniform n c
  | record {p : Params} {keys : Option (List String)} {cs : List Content} {length : Nat} : cs ≠ [] →
      (∀ d ∈ cs, Uniform 1 d) → Uniform 1 (record p keys cs length)
  | union {p : Params} {tags index : List Int} {cs : List Content} {n : Nat} : cs ≠ [] →
      (∀ d ∈ cs, Uniform n d) → Uniform n (union p tags index cs)

end Content
end Awk
