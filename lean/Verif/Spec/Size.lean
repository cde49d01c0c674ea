import Verif.Model.Content
/-
Specification of `ak.size`.
-/

namespace Awk

namespace Val

/-- `l` is one of the lists (or strings) of `v` at the depth `a`: `v` itself has the depth 0. Records and tuples
do not add to the depth. -/
inductive ListAt (l : List Val) : Nat → Val → Prop
  | list : ListAt l 0 (.list l)
  | str : ListAt l 0 (.str l)
  | bytes : ListAt l 0 (.bytes l)
  | deeper {a : Nat} {vs : List Val} {v : Val} (hv : v ∈ vs) (h : ListAt l a v) : ListAt l (a + 1) (.list vs)
  | tuple {a : Nat} {vs : List Val} {v : Val} (hv : v ∈ vs) (h : ListAt l a v) : ListAt l a (.tuple vs)
  | record {a : Nat} {fs : List (String × Val)} {f : String × Val} (hf : f ∈ fs) (h : ListAt l a f.2) :
    ListAt l a (.record fs)

/-- `v` is rectilinear with the dimensions `dims`: lists of that many lists of that many … numbers. Each field of
a record has these dimensions. Anything can be missing. -/
inductive Rectilinear : List Nat → Val → Prop
  | null {ds : List Nat} : Rectilinear ds .null
  | atom {a : Atom} : Rectilinear [] (.atom a)
  | list {ds : List Nat} {vs : List Val} (h : ∀ v ∈ vs, Rectilinear ds v) : Rectilinear (vs.length :: ds) (.list vs)
  | str {ds : List Nat} {vs : List Val} (h : ∀ v ∈ vs, Rectilinear ds v) : Rectilinear (vs.length :: ds) (.str vs)
  | bytes {ds : List Nat} {vs : List Val} (h : ∀ v ∈ vs, Rectilinear ds v) :
    Rectilinear (vs.length :: ds) (.bytes vs)
  | tuple {ds : List Nat} {vs : List Val} (h : ∀ v ∈ vs, Rectilinear ds v) : Rectilinear ds (.tuple vs)
  | record {ds : List Nat} {fs : List (String × Val)} (h : ∀ f ∈ fs, Rectilinear ds f.2) :
    Rectilinear ds (.record fs)

/-- `n` is the number of numbers in `v`, which consists of nothing but lists and numbers. -/
inductive Counted : Nat → Val → Prop
  | atom {a : Atom} : Counted 1 (.atom a)
  | nil : Counted 0 (.list [])
  | cons {n m : Nat} {v : Val} {vs : List Val} (hv : Counted n v) (h : Counted m (.list vs)) :
    Counted (n + m) (.list (v :: vs))

end Val

namespace Content

/-- Lists of fixed size, of any depth, of numbers, with options and indexes anywhere. -/
inductive Boxlike : Content → Prop
  | numpy {p : Params} {dt : DType} {data : List Atom} : Boxlike (numpy p dt data)
  | empty {p : Params} : Boxlike (empty p)
  | regular {p : Params} {c : Content} {size zeros : Nat} (h : Boxlike c) : Boxlike (regular p c size zeros)
  | indexed {p : Params} {index : List Int} {c : Content} (h : Boxlike c) : Boxlike (indexed p index c)
  | indexedOption {p : Params} {index : List Int} {c : Content} (h : Boxlike c) : Boxlike (indexedOption p index c)
  | byteMasked {p : Params} {mask : List Int} {vw : Bool} {c : Content} (h : Boxlike c) :
    Boxlike (byteMasked p mask vw c)
  | bitMasked {p : Params} {mask : List Nat} {vw : Bool} {length : Nat} {lsb : Bool} {c : Content}
    (h : Boxlike c) : Boxlike (bitMasked p mask vw length lsb c)
  | unmasked {p : Params} {c : Content} (h : Boxlike c) : Boxlike (unmasked p c)

end Content
end Awk
