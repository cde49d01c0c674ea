import Verif.Spec.List
/-
Specification of `ak.fields`.
-/

namespace Awk

namespace Val

/-- Every outermost record of `v` has a field called `key`: tuples have the fields `"0"`, `"1"`, …. Values other than
lists (or strings), records and `None` do not have fields. -/
inductive HasField (key : String) : Val → Prop
  | null : HasField key .null
  | list {vs : List Val} (h : ∀ v ∈ vs, HasField key v) : HasField key (.list vs)
  | str {vs : List Val} (h : ∀ v ∈ vs, HasField key v) : HasField key (.str vs)
  | bytes {vs : List Val} (h : ∀ v ∈ vs, HasField key v) : HasField key (.bytes vs)
  | record {fs : List (String × Val)} {v : Val} (h : (key, v) ∈ fs) : HasField key (.record fs)
  | tuple {vs : List Val} {i : Nat} (hi : i < vs.length) (hk : key = toString i) : HasField key (.tuple vs)

/-- `names` are the names of the fields of every outermost record of `v`, in this order. -/
inductive NamesAre (names : List String) : Val → Prop
  | null : NamesAre names .null
  | atom {a : Atom} (h : names = []) : NamesAre names (.atom a)
  | list {vs : List Val} (h : ∀ v ∈ vs, NamesAre names v) : NamesAre names (.list vs)
  | str {vs : List Val} (h : ∀ v ∈ vs, NamesAre names v) : NamesAre names (.str vs)
  | bytes {vs : List Val} (h : ∀ v ∈ vs, NamesAre names v) : NamesAre names (.bytes vs)
  | record {fs : List (String × Val)} (h : fs.map Prod.fst = names) : NamesAre names (.record fs)
  | tuple {vs : List Val} (h : (List.range vs.length).map toString = names) : NamesAre names (.tuple vs)

end Val

namespace Content

/-- Records have as many names as fields and unions have alternatives (checked by the constructors,
RecordArray.cpp:368-373 and UnionArray.cpp:439-441). -/
def KeyedNode : Content → Prop
  | record _ keys cs _ => ∀ ks, keys = some ks → ks.length = cs.length
  | union _ _ _ cs => cs ≠ []
  | _ => True

/-- Neither a union nor a string, and tuples have less than 2^31 slots. -/
def BareNode : Content → Prop
  | union .. => False
  | record _ keys cs _ => keys = none → cs.length < 2 ^ 31
  | regular p .. | listArray p .. | listOffset p .. => p.arr = .none
  | _ => True

/-- Not a union. -/
def SureNode : Content → Prop
  | union .. => False
  | _ => True

end Content
end Awk
