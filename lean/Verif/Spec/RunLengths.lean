import Verif.Spec.Apply
import Verif.Lemmas.ValDec
/-
Runs of equal neighbours.
-/

namespace Awk

namespace Spec

/-- `xs` consists of runs of the lengths `ns`: it repeats some values that many times, in order, where
no run is empty and neighbouring runs have different values. -/
def IsRuns (xs : List Val) (ns : List Nat) : Prop :=
  ∃ vs : List Val, vs.length = ns.length ∧ xs = (List.zipWith List.replicate ns vs).flatten ∧
    (∀ n ∈ ns, 0 < n) ∧ ∀ i (h : i + 1 < vs.length), vs[i] ≠ vs[i + 1]

/-- One more in the first run. -/
def grow : List Nat → List Nat
  | [] => []
  | n :: ns => (n + 1) :: ns

/-- The lengths of the runs; `C65_runs` shows that they are those of `IsRuns`, and no others. -/
def runs : List Val → List Nat
  | [] => []
  | [_] => [1]
  | x :: y :: xs => if x = y then grow (runs (y :: xs)) else 1 :: runs (y :: xs)

end Spec

namespace Val

/-- The list of the lengths of the runs in a list. -/
def runs (v : Val) : Val := .list ((Spec.runs v.items).map (fun (n : Nat) => .atom (.int n)))

end Val

namespace Content

/-- A flat array of numbers or strings, or an index of an array of numbers. -/
inductive Leaf : Content → Prop
  | numpy {p : Params} {dt : DType} {data : List Atom} : Leaf (numpy p dt data)
  | empty {p : Params} : Leaf (empty p)
  | string {c : Content} : c.isListNode = true →
      c.params.arr = .string ∨ c.params.arr = .bytestring → Leaf c
  | indexed {p p' : Params} {index : List Int} {dt : DType} {data : List Atom} :
      Leaf (indexed p index (.numpy p' dt data))

/-- A flat array of numbers or strings, or an index of one. -/
inductive FlatArray : Content → Prop
  | leaf {c : Content} : Leaf c → FlatArray c
  | strings {p : Params} {index : List Int} {c : Content} : c.isListNode = true →
      c.params.arr = .string ∨ c.params.arr = .bytestring → FlatArray (indexed p index c)

/-- The first and the last list of the array have elements, or there is at most one list, or no list
has elements. -/
def EndsFull (c : Content) : Prop := ∀ vs, c.toList = .ok vs → vs.length ≤ 1 ∨
  (∀ v ∈ vs, v.items = []) ∨
  ((∀ v, vs.head? = some v → v.items ≠ []) ∧ ∀ v, vs.getLast? = some v → v.items ≠ [])

/-- The innermost lists of the array are `a` levels deep, have numbers or strings, and the first and
the last of them have elements. Options and records are not between these lists and their elements, and
not directly around them. -/
inductive InnerLists : Nat → Content → Prop
  | here {c : Content} : c.isListNode = true → c.params.arr ≠ .string →
      c.params.arr ≠ .bytestring → (∀ d ∈ c.children, Leaf d) → EndsFull c → InnerLists 0 c
  | indexed {p : Params} {index : List Int} {c : Content} : c.isListNode = true →
      c.params.arr ≠ .string → c.params.arr ≠ .bytestring → (∀ d ∈ c.children, Leaf d) →
      EndsFull (indexed p index c) → InnerLists 0 (indexed p index c)
  | list {c : Content} {a : Nat} : c.isListNode = true → c.params.arr ≠ .string →
      c.params.arr ≠ .bytestring → (∀ d ∈ c.children, InnerLists a d) → InnerLists (a + 1) c
  | thru {c : Content} {a : Nat} : c.isThru true = true → c.children ≠ [] →
      (∀ d ∈ c.children, InnerLists (a + 1) d) → InnerLists (a + 1) c

end Content
end Awk
