import Verif.Spec.Broadcast
/-
Specification of `zip`, `mask` and element-wise functions, on the values that `to_list` shows.
-/

namespace Awk
namespace Spec

/-- One row of an operation with `k` outputs that broadcasts its inputs. The row may be the row of a
nested list, `depth` counts the lists around it. `done` says what the operation does with the values
it is for. Where `go` holds it broadcasts: if one of the values is
missing, the outputs are missing. Otherwise, if there are lists, they must have the same length and
the operation applies to their items, together with the values that are not lists. Otherwise, if
there are records, they must have the same field names and the operation applies to the fields of
each name, together with the values that are not records. -/
inductive Applies (done : Nat → List Val → List Val → Prop) (go : Nat → List Val → Prop) (k : Nat) :
    Nat → List Val → List Val → Prop
  | done {depth : Nat} {vs outs : List Val} (h : done depth vs outs) : Applies done go k depth vs outs
  | null {depth : Nat} {vs : List Val} (hg : go depth vs) (h : Val.null ∈ vs) :
      Applies done go k depth vs (List.replicate k .null)
  | list {depth : Nat} {vs outs : List Val} (hg : go depth vs) (n : Nat) (h : Val.null ∉ vs)
      (hl : ∃ xs, Val.list xs ∈ vs) (hn : ∀ xs, Val.list xs ∈ vs → xs.length = n)
      (ho : outs.length = k) (hm : ∀ o ∈ outs, ∃ ys, o = .list ys ∧ ys.length = n)
      (hj : ∀ j, j < n → Applies done go k (depth + 1) (vs.map (Val.elem j)) (outs.map (Val.elem j))) :
      Applies done go k depth vs outs
  | record {depth : Nat} {vs outs : List Val} (hg : go depth vs) (names : List String)
      (h : Val.null ∉ vs) (hl : ∀ xs, Val.list xs ∉ vs) (hr : ∃ v ∈ vs, v.IsRecord)
      (hn : ∀ v ∈ vs, v.IsRecord → ∀ key, key ∈ v.names ↔ key ∈ names)
      (ho : outs.length = k) (hm : ∀ o ∈ outs, o.IsRecord ∧ o.names = names)
      (ht : ∀ o ∈ outs, (∃ ws, o = .tuple ws) ↔ ∀ v ∈ vs, v.IsRecord → ∃ ws, v = .tuple ws)
      (hj : ∀ key ∈ names,
        Applies done go k depth (vs.map (Val.fieldOr key)) (outs.map (Val.fieldOr key))) :
      Applies done go k depth vs outs

/-- A row of `zip` with depth limit `limit`: exactly at this depth the values become the fields of
one record (without `keys`, a tuple). -/
def Zipped (limit : Nat) (keys : Option (List String)) (vs : List Val) (out : Val) : Prop :=
  Applies (fun depth vs outs => depth = limit ∧ outs = [mkRecord keys vs]) (fun depth _ => depth ≠ limit)
    1 1 vs [out]

/-- A row of `zip` without a depth limit: values that are not lists become the fields of one record;
lists are zipped item by item, and where a list is missing the result is missing. -/
def ZippedAll (keys : Option (List String)) (vs : List Val) (out : Val) : Prop :=
  Applies (fun _ vs outs => (∀ v ∈ vs, v.isList = false) ∧ outs = [mkRecord keys vs])
    (fun _ vs => Val.null ∈ vs ∨ ∃ v ∈ vs, v.isList = true) 1 1 vs [out]

/-- A row of `mask`: the value of the array where the boolean is `validWhen`, missing elsewhere. The
values are broadcast only down to the booleans. -/
def Masked (validWhen : Bool) (v mask out : Val) : Prop :=
  Applies (fun _ vs outs => ∃ v b, vs = [v, .atom b] ∧
      outs = [if decide (b = .bool true) = validWhen then v else .null])
    (fun _ vs => ∃ v m, vs = [v, m] ∧ (v = .null ∨ ∀ a, m ≠ .atom a)) 1 1 [v, mask] [out]

/-- A row of an element-wise function: `f` of numbers; lists are combined item by item, and where a
value is missing the result is missing. -/
def Elementwise (f : List Atom → Atom) (vs : List Val) (out : Val) : Prop :=
  Applies (fun _ vs outs => ∃ as, vs = as.map Val.atom ∧ outs = [.atom (f as)])
    (fun _ vs => Val.null ∈ vs ∨ ∃ xs, Val.list xs ∈ vs) 1 1 vs [out]

end Spec

namespace Content

/-- No unions, strings, or tuples with 2³¹ fields or more; fixed-size lists only if `reg`. -/
def ClearNode (reg : Bool) : Content → Prop
  | regular p _ _ _ => reg = true ∧ p.arr = .none
  | union .. => False
  | listArray p _ _ _ => p.arr = .none
  | listOffset p _ _ => p.arr = .none
  | record _ none cs _ => cs.length < 2 ^ 31
  | _ => True

/-- No unions, no nodes with an `__array__` parameter (strings, categoricals), no tuples with 2³¹
fields or more. -/
def UnmarkedNode (c : Content) : Prop := c.params.arr = .none ∧ ClearNode true c

/-- `ClearNode` holds of all nodes outside of more than `b` nested lists. -/
inductive Clear (reg : Bool) : Nat → Content → Prop
  | zero (c : Content) : Clear reg 0 c
  | mk {b : Nat} {c : Content} (h : ClearNode reg c)
      (hd : ∀ d ∈ c.children, Clear reg (if c.isListNode then b else b + 1) d) : Clear reg (b + 1) c

end Content
end Awk
