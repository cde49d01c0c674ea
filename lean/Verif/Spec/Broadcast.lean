import Verif.Spec.Field
/-
Specification of broadcasting, on the values that `to_list` shows.
-/

namespace Awk
namespace Val

/-- Item `j` of a list; anything else stands for itself in every item. -/
def elem (j : Nat) : Val → Val
  | .list xs => xs[j]?.getD .null
  | v => v

/-- The field called `key` of a record or tuple; anything else stands for itself in every field. -/
def fieldOr (key : String) (v : Val) : Val := match v with
  | .record _ | .tuple _ => field key v
  | v => v

/-- The names of the fields. -/
def names (v : Val) : List String := (named v).map (·.1)

/-- A record or a tuple. -/
def IsRecord (v : Val) : Prop := (∃ fs, v = .record fs) ∨ ∃ vs, v = .tuple vs

end Val

/-- Broadcasting of one row of values, one value for each input. If one of them is missing, all
outputs are missing. Otherwise, if there are lists, they must have the same length and their items
are broadcast with one another, together with the values that are not lists. Otherwise, if there are
records, they must have the same field names, and the fields of each name are broadcast together
with the values that are not records. Numbers stay as they are. -/
inductive Bcast : List Val → List Val → Prop
  | null {vs : List Val} (h : Val.null ∈ vs) : Bcast vs (vs.map (fun _ => .null))
  | list {vs outs : List Val} (n : Nat) (h : Val.null ∉ vs) (hl : ∃ xs, Val.list xs ∈ vs)
      (hn : ∀ xs, Val.list xs ∈ vs → xs.length = n) (ho : outs.length = vs.length)
      (hm : ∀ o ∈ outs, ∃ ys, o = .list ys ∧ ys.length = n)
      (hj : ∀ j, j < n → Bcast (vs.map (Val.elem j)) (outs.map (Val.elem j))) : Bcast vs outs
  | record {vs outs : List Val} (names : List String) (h : Val.null ∉ vs)
      (hl : ∀ xs, Val.list xs ∉ vs) (hr : ∃ v ∈ vs, v.IsRecord)
      (hn : ∀ v ∈ vs, v.IsRecord → ∀ key, key ∈ v.names ↔ key ∈ names)
      (ho : outs.length = vs.length) (hm : ∀ o ∈ outs, o.IsRecord ∧ o.names = names)
      (ht : ∀ o ∈ outs, (∃ ws, o = .tuple ws) ↔ ∀ v ∈ vs, v.IsRecord → ∃ ws, v = .tuple ws)
      (hj : ∀ key ∈ names, Bcast (vs.map (Val.fieldOr key)) (outs.map (Val.fieldOr key))) :
      Bcast vs outs
  | number {vs : List Val} (h : ∀ v ∈ vs, ∃ a, v = .atom a) : Bcast vs vs

namespace Content

/-- The layouts of the theorem: no fixed-size lists, strings or unions, and no tuples with 2³¹
fields or more. -/
def BcastNode : Content → Prop
  | regular .. => False
  | union .. => False
  | listArray p _ _ _ => p.arr = .none
  | listOffset p _ _ => p.arr = .none
  | record _ none cs _ => cs.length < 2 ^ 31
  | _ => True

/-- A flat array of numbers, or an array of lists of numbers whose positions, also those of empty
lists, are in the range of the numbers. -/
def FlatOrLists : Content → Prop
  | numpy .. => True
  | listOffset p o (numpy _ _ data) =>
    p.arr = .none ∧ data.length < 2 ^ 63 - 1 ∧ ∀ x ∈ o, 0 ≤ x ∧ x ≤ data.length
  | listArray p _ stops (numpy _ _ data) =>
    p.arr = .none ∧ data.length < 2 ^ 63 - 1 ∧ ∀ x ∈ stops, 0 ≤ x ∧ x ≤ data.length
  | _ => False

end Content
end Awk
