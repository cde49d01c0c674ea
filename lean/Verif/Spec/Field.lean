import Verif.Spec.List
/-
Specification of selecting fields of records by name, on the values that `to_list` shows.
-/

namespace Awk

/-- One item of a projection: one name (`array["x"]`) or a list of names (`array[["x", "y"]]`). -/
inductive FieldSel where
  | one (key : String)
  | many (keys : List String)
deriving Repr, DecidableEq

namespace Val

/-- The fields of a record with their names; those of a tuple are named "0", "1", … -/
def named : Val → List (String × Val)
  | .record fs => fs
  | .tuple vs => vs.zipIdx.map (fun vi => (toString vi.2, vi.1))
  | _ => []

/-- The field called `key`: the first of that name. -/
def field (key : String) (v : Val) : Val := ((named v).lookup key).getD .null

mutual
/-- The element with every record (outside of other records) replaced by its selected field, or by
the record of its selected fields, after `g` has been applied to these fields. Missing elements
stay missing. -/
def selectFields (s : FieldSel) (g : Val → Val) : Val → Val
  | .list vs => .list (selectFieldsList s g vs)
  | .record fs => match s with
    | .one key => g (field key (.record fs))
    | .many keys => .record (keys.map (fun key => (key, g (field key (.record fs)))))
  | .tuple vs => match s with
    | .one key => g (field key (.tuple vs))
    | .many keys => .tuple (keys.map (fun key => g (field key (.tuple vs))))
  | v => v
/-- `selectFields` of every member. -/
def selectFieldsList (s : FieldSel) (g : Val → Val) : List Val → List Val
  | [] => []
  | v :: vs => selectFields s g v :: selectFieldsList s g vs
end

/-- `element[s₁, s₂, …]`: each item selects fields of the fields selected before. -/
def project : List FieldSel → Val → Val
  | [] => fun v => v
  | s :: ss => selectFields s (project ss)

end Val

namespace Content

/-- In a record array with these names (`none` for tuples) and `n` fields, number `i` is the field
called `key`: the first one of that name, or the one with that number in decimal notation (in the
range of a C `int`). -/
def Named (keys : Option (List String)) (n : Nat) (key : String) (i : Nat) : Prop :=
  i < n ∧ match keys with
    | some ks => ks[i]? = some key ∧ ∀ j, j < i → ks[j]? ≠ some key
    | none => key = toString i ∧ i < 2 ^ 31

/-- The array has the fields that the items select: below any lists (that are not strings) and any
missing values there are records with fields of these names, and so on inside of these fields. -/
inductive HasFields : List FieldSel → Content → Prop
  | nil {c : Content} : HasFields [] c
  | list {s : FieldSel} {ss : List FieldSel} {c : Content} (hl : c.isListNode = true)
      (hp : c.params.arr = .none) (h : ∀ d ∈ c.children, HasFields (s :: ss) d) :
      HasFields (s :: ss) c
  | option {s : FieldSel} {ss : List FieldSel} {c : Content} (ho : c.isOptionOrIndexed = true)
      (h : ∀ d ∈ c.children, HasFields (s :: ss) d) : HasFields (s :: ss) c
  | one {key : String} {ss : List FieldSel} {p : Params} {keys : Option (List String)}
      {cs : List Content} {length : Nat} {i : Nat} {d : Content}
      (hn : Named keys cs.length key i) (hd : cs[i]? = some d) (h : HasFields ss d) :
      HasFields (.one key :: ss) (record p keys cs length)
  | many {names : List String} {ss : List FieldSel} {p : Params} {keys : Option (List String)}
      {cs : List Content} {length : Nat}
      (h : ∀ key ∈ names, ∃ i d, Named keys cs.length key i ∧ cs[i]? = some d)
      (h' : ∀ key ∈ names, ∀ i d, Named keys cs.length key i → cs[i]? = some d → HasFields ss d) :
      HasFields (.many names :: ss) (record p keys cs length)

/-- Somewhere among the records that a name is looked up in (below lists, missing values and the
alternatives of unions) no field is called `key`. -/
inductive Lacks (key : String) : Content → Prop
  | empty {p : Params} : Lacks key (empty p)
  | numpy {p : Params} {dt : DType} {data : List Atom} : Lacks key (numpy p dt data)
  | under {c d : Content} (hr : ∀ p keys cs length, c ≠ record p keys cs length)
      (hd : d ∈ c.children) (h : Lacks key d) : Lacks key c
  | tuple {p : Params} {cs : List Content} {length : Nat} :
      (∀ i, i < cs.length → key ≠ toString i) → Lacks key (record p none cs length)
  | record {p : Params} {ks : List String} {cs : List Content} {length : Nat} :
      key ∉ ks → Lacks key (record p (some ks) cs length)

end Content
end Awk
