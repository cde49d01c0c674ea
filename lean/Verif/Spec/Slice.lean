import Verif.Basic
/-
Specification: Python rules for `xs[start:stop:step]`.
Written from the Python documentation (`slice.indices`, common sequence operations),
independently of the C++ code.
-/

namespace Awk.Spec

/-- One bound of a Python slice: the default if absent; otherwise a negative bound counts
from the end, and the result is clamped to `[lo, hi]`. -/
def pyBound (len dflt lo hi : Int) : Option Int → Int
  | none => dflt
  | some x => max lo (min hi (if x < 0 then x + len else x))

/-- `slice(start, stop, step).indices(len)` without the step. -/
def pyIndices (len : Int) (start stop : Option Int) (step : Int) : Int × Int :=
  if 0 < step then (pyBound len 0 0 len start, pyBound len len 0 len stop)
  else (pyBound len (len - 1) (-1) (len - 1) start, pyBound len (-1) (-1) (len - 1) stop)

/-- Number of items of `range(a, b, s)`. -/
def pyRangeLen (a b s : Int) : Nat :=
  if 0 < s then ((b - a + s - 1) / s).toNat else ((a - b + -s - 1) / -s).toNat

/-- `list(range(a, b, s))`. -/
def pyRange (a b s : Int) : List Int := (List.range (pyRangeLen a b s)).map fun (n : Nat) => a + (n : Int) * s

/-- The positions selected by `[start:stop:step]` in a list of length `len`. -/
def pySlicePositions (len : Int) (start stop : Option Int) (step : Int) : List Int :=
  pyRange (pyIndices len start stop step).1 (pyIndices len start stop step).2 step

/-- `xs[start:stop:step]`. -/
def pySlice (xs : List α) (start stop : Option Int) (step : Int) : List α :=
  (pySlicePositions xs.length start stop step).filterMap fun i => xs[i.toNat]?

/-- `xs[i]` with a negative `i` counted from the end; `none` when out of range. -/
def pyGet? (xs : List α) (i : Int) : Option α :=
  if 0 ≤ i then xs[i.toNat]? else if 0 ≤ i + xs.length then xs[(i + xs.length).toNat]? else none

end Awk.Spec
