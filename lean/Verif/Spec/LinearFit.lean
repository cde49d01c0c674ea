import Mathlib.Algebra.Order.Ring.Rat
/-
Points with weights, for C94.
-/

namespace Awk.Spec

/-- A point with a weight. -/
structure Point where
  x : Rat
  y : Rat
  w : Rat

/-- The sum of the squared vertical distances of the points from the line `y = intercept + slope * x`, with weights. -/
def lineError (pts : List Point) (intercept slope : Rat) : Rat :=
  (pts.map (fun p => p.w * (p.y - (intercept + slope * p.x)) ^ 2)).sum

end Awk.Spec
