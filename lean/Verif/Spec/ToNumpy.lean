import Verif.Spec.Option
import Verif.Spec.List
/-
Specification of `ak.to_numpy`.
-/

namespace Awk

namespace Val

/-- `x` is `v`, or it is found in the lists of `v` at any depth. -/
inductive Inside (x : Val) : Val → Prop
  | here : Inside x x
  | list {vs : List Val} {v : Val} (hv : v ∈ vs) (h : Inside x v) : Inside x (.list vs)

/-- `v` has the dimensions `dims`: lists of that many lists of that many … of values that are not lists. -/
inductive Dims : List Nat → Val → Prop
  | item {v : Val} (h : ∀ vs, v ≠ .list vs) : Dims [] v
  | list {d : Nat} {ds : List Nat} {vs : List Val} (hd : vs.length = d) (h : ∀ v ∈ vs, Dims ds v) :
    Dims (d :: ds) (.list vs)

/-- A list without the zeros at its end. -/
def trimmed (codes : List Val) : List Val :=
  (codes.reverse.dropWhile (fun v => match v with | .atom (.int 0) => true | _ => false)).reverse

mutual
/-- Strings and bytestrings, at any depth of lists, lose the zeros at their end. -/
def stripped : Val → Val
  | .str codes => .str (trimmed codes)
  | .bytes codes => .bytes (trimmed codes)
  | .list vs => .list (strippedList vs)
  | v => v
/-- `stripped` of every member. -/
def strippedList : List Val → List Val
  | [] => []
  | v :: vs => v.stripped :: strippedList vs
end

/-- A record is seen as the tuple of its (stripped) fields. -/
def structured : Val → Val
  | .record fs => .tuple (fs.map (fun f => f.2.stripped))
  | .tuple vs => .tuple (vs.map stripped)
  | v => v

end Val

namespace Content

/-- Strings or bytestrings. -/
def isTextNode (c : Content) : Bool := c.isListNode && (c.params.arr = .string || c.params.arr = .bytestring)

/-- The node is not declared to be a string or bytestring. -/
def notText (c : Content) : Prop := c.params.arr ≠ .string ∧ c.params.arr ≠ .bytestring

/-- Arrays of numbers, strings and (if `lists` is true) lists of them, in which no list is missing and the
offsets lie within the contents: an offset may only be larger in an array of empty lists. There are neither
records nor unions. -/
inductive NumpyLike : Bool → Content → Prop
  | numpy {lists : Bool} {p : Params} {dt : DType} {data : List Atom} (h : notText (numpy p dt data)) :
    NumpyLike lists (numpy p dt data)
  | empty {lists : Bool} {p : Params} (h : notText (empty p)) : NumpyLike lists (empty p)
  | text {lists : Bool} {c : Content} (h : c.isTextNode = true) : NumpyLike lists c
  | list {c : Content} (hl : c.isListNode = true) (hp : notText c)
    (ho : ∀ p offsets d, c = listOffset p offsets d → ∀ o ∈ offsets, 0 ≤ o ∧ o ≤ d.len)
    (hd : ∀ d ∈ c.children, NumpyLike true d) : NumpyLike true c
  | indexed {lists : Bool} {p : Params} {index : List Int} {c : Content} (hp : notText (indexed p index c))
    (h : NumpyLike lists c) : NumpyLike lists (indexed p index c)
  | option {lists : Bool} {c : Content} (ho : c.isOption = true) (hp : notText c)
    (h : ∀ d ∈ c.children, NumpyLike false d) : NumpyLike lists c

/-- The node is not an array of fixed-size lists. -/
def NotFixed (c : Content) : Prop := ∀ p d s z, c ≠ regular p d s z

end Content
end Awk
