import Verif.Model.Moment
/-
`ak.covar` and `ak.linear_fit` (src/awkward/operations/reducers.py) with `axis=None`, for arrays of floating-point numbers.
Simplifications as in Model/Moment.lean.
-/

namespace Awk
open R

namespace Content

/-- reducers.py:1137-1165 `covar`. -/
def covarReal (fuel : Nat) (weight : Option Content) (x y : Content) : R (Option Rat) :=
  meanReal fuel weight x >>= fun xmean =>
  meanReal fuel weight y >>= fun ymean =>
  match xmean, ymean with
  | some xmean, some ymean =>
    sumWeights fuel x weight >>= fun sumw =>
    mapReal (fun a => a - xmean) fuel x >>= fun dx =>
    mapReal (fun a => a - ymean) fuel y >>= fun dy =>
    zipReal (· * ·) fuel dx dy >>= fun dxdy =>
    (match weight with
      | none => ok dxdy
      | some weight => zipReal (· * ·) fuel dxdy weight) >>= fun z =>
    sumReal z >>= fun sumwxy => ok (divideReal sumwxy sumw)
  | _, _ => ok none

/-- The array, multiplied by the weights if there are any (reducers.py:1306-1342). -/
def timesWeight (fuel : Nat) (weight : Option Content) (x : Content) : R Content :=
  match weight with
  | none => ok x
  | some weight => zipReal (· * ·) fuel x weight

/-- reducers.py:1303-1345 `linear_fit`: the fields `intercept` and `slope` of the result. Not modelled: the errors, which
are square roots, and the record around the four numbers (1346-1442). -/
def linearFit (fuel : Nat) (weight : Option Content) (x y : Content) : R (Option (Rat × Rat)) :=
  sumWeights fuel x weight >>= fun sumw =>
  (timesWeight fuel weight x >>= sumReal) >>= fun sumwx =>
  (timesWeight fuel weight y >>= sumReal) >>= fun sumwy =>
  (mapReal (fun a => a ^ 2) fuel x >>= fun xx => timesWeight fuel weight xx >>= sumReal) >>= fun sumwxx =>
  (zipReal (· * ·) fuel x y >>= fun xy => timesWeight fuel weight xy >>= sumReal) >>= fun sumwxy =>
  let delta := sumw * sumwxx - sumwx * sumwx
  ok (match divideReal (sumwxx * sumwy - sumwx * sumwxy) delta, divideReal (sumw * sumwxy - sumwx * sumwy) delta with
    | some intercept, some slope => some (intercept, slope)
    | _, _ => none)

end Content
end Awk
