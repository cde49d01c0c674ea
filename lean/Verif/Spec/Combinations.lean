import Verif.Spec.List

/-!
# What `ak.combinations` promises

All ways to pick `n` items of a list, in the order of their positions. Without replacement the
positions of a pick strictly increase; with replacement a position may be repeated. The picks
themselves come in lexicographic order of their positions.
-/

namespace Awk.Spec

/-- All picks of `n` items: those that start with the first item, then those that do not. -/
def choose (repl : Bool) : Nat → List α → List (List α)
  | 0, _ => [[]]
  | _ + 1, [] => []
  | n + 1, x :: xs =>
    (choose repl n (if repl then x :: xs else xs)).map (x :: ·) ++ choose repl (n + 1) xs
termination_by n xs => (n, xs.length)

/-- A pick of `n` positions below `size`: strictly increasing or, with replacement,
non-decreasing. -/
def IsPick (repl : Bool) (n size : Nat) (t : List Nat) : Prop :=
  t.length = n ∧ (∀ x ∈ t, x < size) ∧ t.Pairwise (fun x y => if repl then x ≤ y else x < y)

/-- The list of the picks of a list, each shown as a tuple or record. -/
def combine (repl : Bool) (n : Nat) (keys : Option (List String)) (v : Val) : Val :=
  .list ((choose repl n v.items).map (mkRecord keys))

/-- Every list node at the list level `a` (`axis = a`) satisfies `φ`. -/
inductive ListsAt (φ : Content → Prop) : Nat → Content → Prop
  | here {c : Content} (hl : c.isListNode = true) (h : φ c) : ListsAt φ 1 c
  | inside {a : Nat} {c : Content} (hl : c.isListNode = true) (ha : 1 ≤ a)
      (h : ∀ d ∈ c.children, ListsAt φ a d) : ListsAt φ (a + 1) c
  | thru {a : Nat} {c : Content} (ht : c.isThru true = true)
      (h : ∀ d ∈ c.children, ListsAt φ a d) : ListsAt φ a c
  | leaf {a : Nat} {c : Content} (h : c.children = []) : ListsAt φ a c

/-- Not a string or bytestring. -/
def NotString (c : Content) : Prop := c.params.arr ≠ .string ∧ c.params.arr ≠ .bytestring

/-- Lists of a fixed size hold nothing or at least `n` items (any number with replacement). -/
def Wide (repl : Bool) (n : Nat) (c : Content) : Prop :=
  ∀ p d size zeros, c = .regular p d size zeros → repl = true ∨ size = 0 ∨ n ≤ size

end Awk.Spec
