import Verif.Spec.List
import Verif.Model.Astype
/-
Vocabulary for arrays with the structure of another array, and for arrays without parameters.
-/

namespace Awk

/-- The item belongs to the type. -/
def Atom.isOf : DType → Atom → Prop
  | .bool, .bool _ => True
  | .float32, .real _ | .float64, .real _ => True
  | .complex64, .complex _ _ | .complex128, .complex _ _ => True
  | .datetime64, .datetime _ => True
  | .timedelta64, .timedelta _ => True
  | dt, .int _ => dt.signedBits.isSome = true
  | _, _ => False

/-- The integer that is left when the digits after the point are dropped. -/
def truncated (q : Rat) : Int := if 0 ≤ q then q.floor else q.ceil

/-- The number `re + im·i` as an item of the same kind as `x`. -/
def Atom.filled (re im : Rat) (x : Atom) : Atom :=
  match x with
  | .bool _ => .bool (re ≠ 0 ∨ im ≠ 0)
  | .int _ => .int (truncated re)
  | .real _ => .real re
  | .complex _ _ => .complex re im
  | .datetime _ => .datetime (truncated re)
  | .timedelta _ => .timedelta (truncated re)

/-- The type has the number, when the digits after the point are dropped. (Of the dates, only 0 and 1 are
considered.) -/
def DType.has (re im : Rat) (dt : DType) : Prop :=
  match dt with
  | .datetime64 | .timedelta64 => (re = 0 ∨ re = 1) ∧ im = 0
  | dt => ∀ signed bits, dt.signedBits = some (signed, bits) →
    (if signed then -2 ^ (bits - 1) else 0 : Int) ≤ truncated re ∧
      truncated re < (if signed then -2 ^ (bits - 1) else 0 : Int) + 2 ^ bits

namespace Val

mutual
/-- Every number is replaced by `re + im·i` as an item of the same kind, and every string by `text`. Missing
values, the lengths of lists and the fields of records stay the same. -/
def like (re im : Rat) (text : List Val) : Val → Val
  | .null => .null
  | .atom x => .atom (x.filled re im)
  | .str _ => .str text
  | .bytes _ => .bytes text
  | .list vs => .list (likeList re im text vs)
  | .tuple vs => .tuple (likeList re im text vs)
  | .record fs => .record (likeFields re im text fs)
/-- `like` of every member of a list. -/
def likeList (re im : Rat) (text : List Val) : List Val → List Val
  | [] => []
  | v :: vs => v.like re im text :: likeList re im text vs
/-- `like` of every field. -/
def likeFields (re im : Rat) (text : List Val) : List (String × Val) → List (String × Val)
  | [] => []
  | (k, v) :: fs => (k, v.like re im text) :: likeFields re im text fs
end

mutual
/-- Strings and bytestrings are seen as lists of their bytes. -/
def unnamed : Val → Val
  | .null => .null
  | .atom x => .atom x
  | .str vs => .list (unnamedList vs)
  | .bytes vs => .list (unnamedList vs)
  | .list vs => .list (unnamedList vs)
  | .tuple vs => .tuple (unnamedList vs)
  | .record fs => .record (unnamedFields fs)
/-- `unnamed` of every member of a list. -/
def unnamedList : List Val → List Val
  | [] => []
  | v :: vs => v.unnamed :: unnamedList vs
/-- `unnamed` of every field. -/
def unnamedFields : List (String × Val) → List (String × Val)
  | [] => []
  | (k, v) :: fs => (k, v.unnamed) :: unnamedFields fs
end

end Val

namespace Content

/-- The array is of strings or bytestrings. -/
def isText (c : Content) : Prop := c.isListNode = true ∧ (c.params.arr = .string ∨ c.params.arr = .bytestring)

/-- The items of every NumpyArray, except the bytes of strings, belong to its type, which has the number. -/
inductive Fillable (re im : Rat) : Content → Prop
  | text {c : Content} : c.isText → Fillable re im c
  | numpy {p : Params} {dt : DType} {data : List Atom} : p.arr ≠ .string → p.arr ≠ .bytestring →
      (∀ x ∈ data, x.isOf dt) → dt.has re im → Fillable re im (numpy p dt data)
  | node {c : Content} : c.params.arr ≠ .string → c.params.arr ≠ .bytestring → (∀ p dt data, c ≠ Content.numpy p dt data) →
      (∀ d ∈ c.children, Fillable re im d) → Fillable re im c

/-- Strings are lists of any lengths, and have no other parameters. -/
def PlainText (c : Content) : Prop :=
  (c.params.arr = .string → c.isListNode = true ∧ c.params = { arr := .string } ∧ (∀ p d s z, c ≠ regular p d s z) ∧
    ∀ d ∈ c.children, ∃ data, d = numpy { arr := .char } .uint8 data) ∧
  (c.params.arr = .bytestring → c.isListNode = true ∧ c.params = { arr := .bytestring } ∧
    (∀ p d s z, c ≠ regular p d s z) ∧ ∀ d ∈ c.children, ∃ data, d = numpy { arr := .byte } .uint8 data)

end Content
end Awk
