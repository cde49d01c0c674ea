import Verif.Lemmas.LinearFit
import Verif.Props.Moment
/-
C94: `ak.linear_fit` and `ak.covar` of all numbers of two arrays.
-/

namespace Awk.Props
open R Content Spec

/-- **C94 (partial).** `linear_fit` with positive weights, of flat arrays with at least two different `x`, gives a line, and
no line has a smaller sum of squared distances from the points. Missing: nested arrays, an axis, the errors of the fit, and
rounding. -/
theorem C94_least_squares_partial (fuel : Nat) (hf : 1 ≤ fuel) (pts : List Point) (hw : ∀ p ∈ pts, 0 < p.w)
    (hx : ∃ p ∈ pts, ∃ q ∈ pts, p.x ≠ q.x) :
    ∃ intercept slope,
      linearFit fuel (some (reals (pts.map Point.w))) (reals (pts.map Point.x)) (reals (pts.map Point.y)) =
        ok (some (intercept, slope)) ∧
      ∀ b a, lineError pts intercept slope ≤ lineError pts b a := by
  obtain ⟨p, hp, q, hq, hx⟩ := hx
  obtain ⟨b, a, h⟩ := fitOf_isSome pts hw hp hq hx (pts.map (fun p => p.y * p.w)).sum
    (pts.map (fun p => p.x * p.y * p.w)).sum
  exact ⟨b, a, by rw [linearFit_some hf, h], fit_least pts (fun p hp => (hw p hp).le) h⟩

/-- **C94 (partial).** The same without weights. -/
theorem C94_no_weights_partial (fuel : Nat) (hf : 1 ≤ fuel) (pts : List Point) (hw : ∀ p ∈ pts, p.w = 1)
    (hx : ∃ p ∈ pts, ∃ q ∈ pts, p.x ≠ q.x) :
    ∃ intercept slope,
      linearFit fuel none (reals (pts.map Point.x)) (reals (pts.map Point.y)) = ok (some (intercept, slope)) ∧
      ∀ b a, lineError pts intercept slope ≤ lineError pts b a := by
  have hw' : ∀ p ∈ pts, 0 < p.w := fun p hp => by rw [hw p hp]; exact one_pos
  obtain ⟨p, hp, q, hq, hx⟩ := hx
  obtain ⟨b, a, h⟩ := fitOf_isSome pts hw' hp hq hx (pts.map (fun p => p.y * p.w)).sum
    (pts.map (fun p => p.x * p.y * p.w)).sum
  exact ⟨b, a, by rw [linearFit_none hf pts hw, h], fit_least pts (fun p hp => (hw' p hp).le) h⟩

/-- **C94 (partial).** Points on a line are fitted by that line. -/
theorem C94_exact_partial (fuel : Nat) (hf : 1 ≤ fuel) (pts : List Point) (hw : ∀ p ∈ pts, 0 < p.w)
    (hx : ∃ p ∈ pts, ∃ q ∈ pts, p.x ≠ q.x) (b a : Rat) (hy : ∀ p ∈ pts, p.y = b + a * p.x) :
    linearFit fuel (some (reals (pts.map Point.w))) (reals (pts.map Point.x)) (reals (pts.map Point.y)) =
      ok (some (b, a)) := by
  obtain ⟨b', a', h1, h2⟩ := C94_least_squares_partial fuel hf pts hw hx
  have h0 : lineError pts b a = 0 := by
    unfold lineError
    apply List.sum_eq_zero
    intro z hz
    obtain ⟨p, hp, rfl⟩ := List.mem_map.mp hz
    rw [hy p hp]
    ring
  have hon : ∀ p ∈ pts, p.y = b' + a' * p.x := by
    intro p hp
    have h3 : p.w * (p.y - (b' + a' * p.x)) ^ 2 ≤ 0 := by
      refine le_trans ?_ ((h2 b a).trans h0.le)
      apply List.single_le_sum
      · intro z hz
        obtain ⟨t, ht, rfl⟩ := List.mem_map.mp hz
        exact mul_nonneg (hw t ht).le (sq_nonneg _)
      · exact List.mem_map.mpr ⟨p, hp, rfl⟩
    have h4 : (p.y - (b' + a' * p.x)) ^ 2 = 0 := by
      have := hw p hp
      have h5 := sq_nonneg (p.y - (b' + a' * p.x))
      nlinarith
    have h5 := (pow_eq_zero_iff two_ne_zero).mp h4
    linarith
  obtain ⟨p, hp, q, hq, hne⟩ := hx
  have e1 := hon p hp
  have e2 := hon q hq
  rw [hy p hp] at e1
  rw [hy q hq] at e2
  have ha : a = a' := by
    have : (a - a') * (p.x - q.x) = 0 := by linarith
    rcases mul_eq_zero.mp this with h | h
    · linarith
    · exact absurd (by linarith) hne
  have hb : b = b' := by rw [ha] at e1; linarith
  rw [h1, ha, hb]

/-- **C94 (partial).** `covar(x, y)` is the mean of the products of the distances from the means, with weights or without. -/
theorem C94_covar_partial (fuel : Nat) (hf : 1 ≤ fuel) (pts : List Point) (hw : (pts.map Point.w).sum ≠ 0) :
    ∃ mx my, meanReal fuel (some (reals (pts.map Point.w))) (reals (pts.map Point.x)) = ok (some mx) ∧
      meanReal fuel (some (reals (pts.map Point.w))) (reals (pts.map Point.y)) = ok (some my) ∧
      covarReal fuel (some (reals (pts.map Point.w))) (reals (pts.map Point.x)) (reals (pts.map Point.y)) =
        ok (some ((pts.map (fun p => (p.x - mx) * (p.y - my) * p.w)).sum / (pts.map Point.w).sum)) := by
  refine ⟨_, _, ?_, ?_, covarReal_some hf pts hw⟩ <;>
  · rw [C93_weighted_mean_partial fuel hf _ _ (by simp) hw, zipWith_maps]

/-- **C94 (partial).** `covar(x, x)` is `var(x)`. -/
theorem C94_covar_var_partial (fuel : Nat) (hf : 1 ≤ fuel) (xs : List Rat) (hx : xs ≠ []) :
    covarReal fuel none (reals xs) (reals xs) = varReal fuel none 0 (reals xs) := by
  have hn : (xs.length : Rat) ≠ 0 := by simpa using hx
  have h := covarReal_none hf (xs.map (fun x => Point.mk x x 1)) (by simpa using hx)
  simp only [List.map_map, Function.comp_def, List.map_id', List.length_map] at h
  rw [h, varReal_none hf 0 hx, if_neg (by simp), divideReal, if_neg hn]
  simp only [pow_two]

/-- Four points, one of which is not on a line with the others. -/
def fewPoints : List Point := [⟨0, 1, 1⟩, ⟨1, 3, 2⟩, ⟨2, 5, 1⟩, ⟨3, 4, 1⟩]

example : (∀ p ∈ fewPoints, 0 < p.w) ∧ ∃ p ∈ fewPoints, ∃ q ∈ fewPoints, p.x ≠ q.x := by
  refine ⟨by simp [fewPoints], ⟨0, 1, 1⟩, by simp [fewPoints], ⟨1, 3, 2⟩, by simp [fewPoints], by simp⟩

/-- A line through three points. -/
example : linearFit 1 (some (reals [1, 2, 1])) (reals [0, 1, 2]) (reals [1, 3, 5]) = ok (some (1, 2)) :=
  C94_exact_partial 1 (by decide) [⟨0, 1, 1⟩, ⟨1, 3, 2⟩, ⟨2, 5, 1⟩] (by simp)
    ⟨⟨0, 1, 1⟩, by simp, ⟨1, 3, 2⟩, by simp, by simp⟩ 1 2 (by norm_num)

end Awk.Props
