import Verif.Spec.List
/-
Specification of converting the numbers of an array to another type.
-/

namespace Awk

namespace Val

mutual
/-- The element with `f` applied to every number in it. Strings and missing elements stay. -/
def mapNumbers (f : Atom → Atom) : Val → Val
  | .atom a => .atom (f a)
  | .list vs => .list (mapNumbersList f vs)
  | .tuple vs => .tuple (mapNumbersList f vs)
  | .record fs => .record (mapNumbersFields f fs)
  | v => v
/-- `mapNumbers` of every member. -/
def mapNumbersList (f : Atom → Atom) : List Val → List Val
  | [] => []
  | v :: vs => mapNumbers f v :: mapNumbersList f vs
/-- `mapNumbers` of every field. -/
def mapNumbersFields (f : Atom → Atom) : List (String × Val) → List (String × Val)
  | [] => []
  | (k, v) :: fs => (k, mapNumbers f v) :: mapNumbersFields f fs
end

end Val

/-- The real part and the imaginary part of a number or boolean. -/
inductive Atom.HasParts : Atom → Rat → Rat → Prop
  | bool (b : Bool) : HasParts (.bool b) (if b then 1 else 0) 0
  | int (i : Int) : HasParts (.int i) i 0
  | real (q : Rat) : HasParts (.real q) q 0
  | complex (re im : Rat) : HasParts (.complex re im) re im

/-- `k` is `q` without its fractional part. -/
def Truncates (q : Rat) (k : Int) : Prop :=
  (0 ≤ q → (k : Rat) ≤ q ∧ q < k + 1) ∧ (q ≤ 0 → q ≤ k ∧ (k : Rat) - 1 < q)

/-- The least value and the number of bits of an integer type. -/
def DType.intType : DType → Option (Int × Nat)
  | .int8 => some (-2 ^ 7, 8)
  | .int16 => some (-2 ^ 15, 16)
  | .int32 => some (-2 ^ 31, 32)
  | .int64 => some (-2 ^ 63, 64)
  | .uint8 => some (0, 8)
  | .uint16 => some (0, 16)
  | .uint32 => some (0, 32)
  | .uint64 => some (0, 64)
  | _ => none

/-- `b` is the number `a`, converted to the type `ty`:
* as a boolean, exactly zero is false;
* as an integer, the fractional and imaginary parts are dropped, and the result is the integer of
  the type that differs by a multiple of two to the number of bits;
* as a real number, the imaginary part is dropped;
* as a complex number, nothing is;
* as a date, the number of units is the number as a 64-bit integer. -/
def Converted (ty : DType) (a b : Atom) : Prop :=
  ∃ re im, a.HasParts re im ∧ match ty with
    | .bool => ∃ t : Bool, b = .bool t ∧ (t = false ↔ re = 0 ∧ im = 0)
    | .float32 | .float64 => b = .real re
    | .complex64 | .complex128 => b = .complex re im
    | .datetime64 => ∃ k j : Int, Truncates re k ∧ b = .datetime j ∧ -2 ^ 63 ≤ j ∧ j < 2 ^ 63 ∧
        (2 ^ 64 : Int) ∣ k - j
    | .timedelta64 => False
    | d => ∃ lo n k j, d.intType = some (lo, n) ∧ Truncates re k ∧ b = .int j ∧ lo ≤ j ∧
        j < lo + 2 ^ n ∧ (2 ^ n : Int) ∣ k - j

/-- A number whose conversion to the type `ty` is proved correct: a number with a fractional or
imaginary part is in the range of an integer type, and a boolean is not made out of a negative
number or a number that is imaginary only. -/
def Convertible (ty : DType) (a : Atom) : Prop :=
  ∃ re im, a.HasParts re im ∧ match ty with
    | .bool => (∃ re im, a = .complex re im ∧ (re = 0 → im = 0)) ∨
        ((∀ re im, a ≠ .complex re im) ∧ 0 ≤ re)
    | .float32 | .float64 | .complex64 | .complex128 => True
    | .datetime64 => (∀ i, a ≠ .int i) → -2 ^ 63 - 1 < re ∧ re < 2 ^ 63
    | .timedelta64 => False
    | d => ∀ lo n, d.intType = some (lo, n) → (∀ i, a ≠ .int i) →
        (lo : Rat) - 1 < re ∧ re < lo + 2 ^ n

namespace Content

/-- The numbers of a node can be converted to the type `ty`. -/
def ConvertibleNode (ty : DType) : Content → Prop
  | numpy _ d data => d ≠ .datetime64 ∧ d ≠ .timedelta64 ∧ ∀ a ∈ data, Convertible ty a
  | _ => True

end Content
end Awk
