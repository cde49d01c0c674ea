import Verif.Model.Mean
import Verif.Model.BcastWith
import Verif.Model.Virtual
/-
`ak.moment`, `ak.mean` and `ak.var` (src/awkward/operations/reducers.py) with weights and with `axis=None`, for arrays of
floating-point numbers. Simplification: without rounding, infinities and NaN; a quotient by zero, which is NaN or infinite, is
`none`, and so is everything that is computed from it.
-/

namespace Awk
open R

/-- The number that an item of an array of real numbers is. -/
def Atom.asRat : Atom → Rat
  | .real q => q
  | .int i => i
  | .bool b => if b then 1 else 0
  | _ => 0

/-- `numpy.sum` of floating-point numbers. -/
def npSumReal (l : List Atom) : Rat := l.foldr (fun x r => x.asRat + r) 0

/-- `numpy.true_divide`. -/
def divideReal (a b : Rat) : Option Rat := if b = 0 then none else some (a / b)

namespace Content

/-- An operator of Python between an array and a number, by `array_ufunc`. -/
def mapReal (f : Rat → Rat) (fuel : Nat) (c : Content) : R Content :=
  elementwise (fun l => .real (f (l.headD (.int 0)).asRat)) .float64 fuel [c] >>= Item.asArray

/-- An operator of Python between two arrays, by `array_ufunc`. -/
def zipReal (f : Rat → Rat → Rat) (fuel : Nat) (c d : Content) : R Content :=
  elementwise (fun l => .real (f (l.headD (.int 0)).asRat (l.tail.headD (.int 0)).asRat)) .float64 fuel [c, d]
    >>= Item.asArray

/-- reducers.py:331-343 `sum` with `axis=None`. -/
def sumReal (c : Content) : R Rat := reduceAll npSumReal (· + ·) c

/-- reducers.py:861 and 866-871, 941 and 945-950, 1014 and 1021-1027: `sumw`. -/
def sumWeights (fuel : Nat) (x : Content) : Option Content → R Rat
  | none => reduceAll List.length (· + ·) x >>= fun n => ok (n : Rat)
  | some weight => mapReal (fun a => a * 0) fuel x >>= fun zero => zipReal (· + ·) fuel zero weight >>= sumReal

/-- reducers.py:859-878 `moment`. -/
def momentReal (fuel n : Nat) (weight : Option Content) (x : Content) : R (Option Rat) :=
  sumWeights fuel x weight >>= fun sumw =>
  (match weight with
    | none => mapReal (fun a => a ^ n) fuel x
    | some weight => zipReal (· * ·) fuel x weight >>= fun xw => mapReal (fun a => a ^ n) fuel xw) >>= fun y =>
  sumReal y >>= fun sumwxn => ok (divideReal sumwxn sumw)

/-- reducers.py:940-956 `mean`. -/
def meanReal (fuel : Nat) (weight : Option Content) (x : Content) : R (Option Rat) :=
  sumWeights fuel x weight >>= fun sumw =>
  (match weight with
    | none => ok x
    | some weight => zipReal (· * ·) fuel x weight) >>= fun y =>
  sumReal y >>= fun sumwx => ok (divideReal sumwx sumw)

/-- reducers.py:1009-1040 `var`. -/
def varReal (fuel : Nat) (weight : Option Content) (ddof : Int) (x : Content) : R (Option Rat) :=
  meanReal fuel weight x >>= fun
  | none => ok none
  | some xmean =>
    sumWeights fuel x weight >>= fun sumw =>
    mapReal (fun a => a - xmean) fuel x >>= fun centered =>
    mapReal (fun a => a ^ 2) fuel centered >>= fun squares =>
    (match weight with
      | none => ok squares
      | some weight => zipReal (· * ·) fuel squares weight) >>= fun y =>
    sumReal y >>= fun sumwxx =>
    if ddof ≠ 0 then
      ok (match divideReal sumwxx sumw, divideReal sumw (sumw - ddof) with
        | some a, some b => some (a * b)
        | _, _ => none)
    else ok (divideReal sumwxx sumw)

end Content
end Awk
