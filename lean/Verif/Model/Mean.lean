import Verif.Model.Complete
/-
`ak.mean` and `ak.ptp` (src/awkward/operations/reducers.py) with `axis=None`, for arrays of signed integers.
-/

namespace Awk
open R

/-- A signed integer or boolean as NumPy adds it: in 64 bits. -/
def numAs64 : Atom → BitVec 64
  | .int i => BitVec.ofInt 64 i
  | .bool b => if b then 1 else 0
  | _ => 0

/-- `numpy.sum` of signed integers. -/
def npSum64 (l : List Atom) : BitVec 64 := l.foldr (fun x r => numAs64 x + r) 0

/-- `numpy.true_divide` of an integer by a count; `none` is NaN, for 0/0. Simplification: without rounding. -/
def trueDivide (a : Int) (n : Nat) : Option Rat := if n = 0 then none else some (a / n)

namespace Content

/-- reducers.py:941-944, 956 `mean` without weights and with `axis=None`: `count`, `sum` (reducers.py:81-92 and
331-343) and their quotient. -/
def meanAll (c : Content) : R (Option Rat) :=
  reduceAll List.length (· + ·) c >>= fun sumw =>
  reduceAll npSum64 (· + ·) c >>= fun sumwx => ok (trueDivide sumwx.toInt sumw)

/-- reducers.py:665-670 `ptp` with `axis=None`, for 64-bit integers. `max` and `min` are `None` if there are no numbers,
and `None - None` raises. With `mask_identity=False` the difference, a number, is given to `ak.fill_none`, whose
`to_layout` raises (convert.py:1904-1908) for everything that is not an array. -/
def ptpAll (lt : Atom → Atom → Bool) (maskIdentity : Bool) (c : Content) : R Int :=
  minAll (fun a b => lt b a) none c >>= fun hi =>
  minAll lt none c >>= fun lo =>
  match hi, lo with
  | some a, some b =>
    if maskIdentity then ok (numAs64 a - numAs64 b).toInt else err "cannot be converted into an Awkward Array"
  | _, _ => err "unsupported operand type(s) for -: 'NoneType' and 'NoneType'"

end Content
end Awk
