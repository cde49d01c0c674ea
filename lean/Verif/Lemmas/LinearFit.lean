import Verif.Model.LinearFit
import Verif.Spec.LinearFit
import Verif.Lemmas.Moment
import Mathlib.Algebra.Order.BigOperators.Group.List
import Mathlib.Tactic.LinearCombination
import Mathlib.Tactic.Positivity
/-
Lemmas for linear fits.
-/

namespace Awk
open R Spec

namespace Content

theorem zipWith_maps {α : Type} (f : Rat → Rat → Rat) (g h : α → Rat) (l : List α) :
    (l.map g).zipWith f (l.map h) = l.map (fun a => f (g a) (h a)) := by
  induction l with
  | nil => rfl
  | cons a l ih => simp only [List.map_cons, List.zipWith_cons_cons, ih]

/-- What `linear_fit` computes from the five sums. -/
def fitOf (s sx sy sxx sxy : Rat) : Option (Rat × Rat) :=
  if s * sxx - sx * sx = 0 then none
  else some ((sxx * sy - sx * sxy) / (s * sxx - sx * sx), (s * sxy - sx * sy) / (s * sxx - sx * sx))

theorem linearFit_some {fuel : Nat} (hf : 1 ≤ fuel) (pts : List Point) :
    linearFit fuel (some (reals (pts.map Point.w))) (reals (pts.map Point.x)) (reals (pts.map Point.y)) =
      ok (fitOf (pts.map Point.w).sum (pts.map (fun p => p.x * p.w)).sum (pts.map (fun p => p.y * p.w)).sum
        (pts.map (fun p => p.x ^ 2 * p.w)).sum (pts.map (fun p => p.x * p.y * p.w)).sum) := by
  unfold linearFit timesWeight
  rw [sumWeights_some hf (by simp)]
  simp only [bind_ok, mapReal_reals _ hf, List.map_map, Function.comp_def]
  rw [zipReal_reals _ hf (by simp), zipReal_reals _ hf (by simp), zipReal_reals _ hf (by simp),
    zipReal_reals (ys := pts.map Point.y) _ hf (by simp)]
  simp only [bind_ok, zipWith_maps, sumReal_reals]
  rw [zipReal_reals _ hf (by simp)]
  simp only [bind_ok, zipWith_maps, sumReal_reals]
  unfold divideReal fitOf
  split_ifs <;> rfl

theorem linearFit_none {fuel : Nat} (hf : 1 ≤ fuel) (pts : List Point) (hw : ∀ p ∈ pts, p.w = 1) :
    linearFit fuel none (reals (pts.map Point.x)) (reals (pts.map Point.y)) =
      ok (fitOf (pts.map Point.w).sum (pts.map (fun p => p.x * p.w)).sum (pts.map (fun p => p.y * p.w)).sum
        (pts.map (fun p => p.x ^ 2 * p.w)).sum (pts.map (fun p => p.x * p.y * p.w)).sum) := by
  unfold linearFit timesWeight
  simp only [sumWeights_none, bind_ok, mapReal_reals _ hf, List.map_map, Function.comp_def]
  rw [zipReal_reals _ hf (by simp)]
  simp only [bind_ok, zipWith_maps, sumReal_reals]
  have h1 : (pts.map Point.w).sum = ((pts.map Point.x).length : Rat) := by
    rw [List.map_congr_left (g := fun _ => (1 : Rat)) hw]
    simp
  have h2 : ∀ f : Point → Rat, (pts.map (fun p => f p * p.w)) = pts.map f := fun f =>
    List.map_congr_left fun p hp => by rw [hw p hp, mul_one]
  rw [h2 Point.x, h2 Point.y, h2 (fun p => p.x ^ 2), h2 (fun p => p.x * p.y), h1]
  unfold divideReal fitOf
  split_ifs <;> rfl

theorem lineError_expand (pts : List Point) (b a : Rat) : lineError pts b a =
    (pts.map (fun p => p.y ^ 2 * p.w)).sum - 2 * b * (pts.map (fun p => p.y * p.w)).sum
      - 2 * a * (pts.map (fun p => p.x * p.y * p.w)).sum + b ^ 2 * (pts.map Point.w).sum
      + 2 * a * b * (pts.map (fun p => p.x * p.w)).sum + a ^ 2 * (pts.map (fun p => p.x ^ 2 * p.w)).sum := by
  unfold lineError
  induction pts with
  | nil => simp
  | cons p pts ih =>
    simp only [List.map_cons, List.sum_cons, ih]
    ring

theorem quadratic_nonneg (pts : List Point) (hw : ∀ p ∈ pts, 0 ≤ p.w) (b a : Rat) :
    0 ≤ b ^ 2 * (pts.map Point.w).sum + 2 * a * b * (pts.map (fun p => p.x * p.w)).sum
      + a ^ 2 * (pts.map (fun p => p.x ^ 2 * p.w)).sum := by
  have h : b ^ 2 * (pts.map Point.w).sum + 2 * a * b * (pts.map (fun p => p.x * p.w)).sum
      + a ^ 2 * (pts.map (fun p => p.x ^ 2 * p.w)).sum = (pts.map (fun p => p.w * (b + a * p.x) ^ 2)).sum := by
    clear hw
    induction pts with
    | nil => simp
    | cons p pts ih =>
      simp only [List.map_cons, List.sum_cons, ← ih]
      ring
  rw [h]
  apply List.sum_nonneg
  intro q hq
  obtain ⟨p, hp, rfl⟩ := List.mem_map.mp hq
  exact mul_nonneg (hw p hp) (sq_nonneg _)

/-- The normal equations. -/
theorem fitOf_normal {s sx sy sxx sxy b a : Rat} (h : fitOf s sx sy sxx sxy = some (b, a)) :
    s * b + sx * a = sy ∧ sx * b + sxx * a = sxy := by
  unfold fitOf at h
  split at h
  · simp at h
  · rename_i hd
    simp only [Option.some.injEq, Prod.mk.injEq] at h
    obtain ⟨rfl, rfl⟩ := h
    constructor <;>
    · rw [mul_div_assoc', mul_div_assoc', ← add_div, div_eq_iff hd]
      ring

theorem fit_least (pts : List Point) (hw : ∀ p ∈ pts, 0 ≤ p.w) {b a : Rat}
    (h : fitOf (pts.map Point.w).sum (pts.map (fun p => p.x * p.w)).sum (pts.map (fun p => p.y * p.w)).sum
        (pts.map (fun p => p.x ^ 2 * p.w)).sum (pts.map (fun p => p.x * p.y * p.w)).sum = some (b, a)) (b' a' : Rat) :
    lineError pts b a ≤ lineError pts b' a' := by
  obtain ⟨n1, n2⟩ := fitOf_normal h
  have hq := quadratic_nonneg pts hw (b' - b) (a' - a)
  rw [lineError_expand, lineError_expand]
  nlinarith [hq, n1, n2, congrArg (fun z => (b' - b) * z) n1, congrArg (fun z => (a' - a) * z) n2]

theorem sum_centered (pts : List Point) (m : Rat) : (pts.map (fun p => p.w * (p.x - m) ^ 2)).sum =
    (pts.map (fun p => p.x ^ 2 * p.w)).sum - 2 * m * (pts.map (fun p => p.x * p.w)).sum
      + m ^ 2 * (pts.map Point.w).sum := by
  induction pts with
  | nil => simp
  | cons p pts ih =>
    simp only [List.map_cons, List.sum_cons, ih]
    ring

/-- Two points with different `x` and positive weights make the fit unique. -/
theorem fitOf_isSome (pts : List Point) (hw : ∀ p ∈ pts, 0 < p.w) {p q : Point} (hp : p ∈ pts) (hq : q ∈ pts)
    (hx : p.x ≠ q.x) (sy sxy : Rat) :
    ∃ b a, fitOf (pts.map Point.w).sum (pts.map (fun p => p.x * p.w)).sum sy (pts.map (fun p => p.x ^ 2 * p.w)).sum sxy
      = some (b, a) := by
  unfold fitOf
  rw [if_neg]
  · exact ⟨_, _, rfl⟩
  intro hd
  have hs : 0 < (pts.map Point.w).sum := by
    apply List.sum_pos
    · intro w hw'
      obtain ⟨p, hp, rfl⟩ := List.mem_map.mp hw'
      exact hw p hp
    · intro h
      rw [List.map_eq_nil_iff] at h
      simp [h] at hp
  have h0 : (pts.map (fun p => p.w * (p.x - (pts.map (fun p => p.x * p.w)).sum / (pts.map Point.w).sum) ^ 2)).sum = 0 := by
    rw [sum_centered]
    have hne := hs.ne'
    field_simp
    linarith
  have hz : ∀ r ∈ pts, r.x = (pts.map (fun p => p.x * p.w)).sum / (pts.map Point.w).sum := by
    intro r hr
    have h1 : r.w * (r.x - (pts.map (fun p => p.x * p.w)).sum / (pts.map Point.w).sum) ^ 2 ≤ 0 := by
      rw [← h0]
      apply List.single_le_sum
      · intro z hz
        obtain ⟨t, ht, rfl⟩ := List.mem_map.mp hz
        exact mul_nonneg (hw t ht).le (sq_nonneg _)
      · exact List.mem_map.mpr ⟨r, hr, rfl⟩
    have h2 : (r.x - (pts.map (fun p => p.x * p.w)).sum / (pts.map Point.w).sum) ^ 2 = 0 := by
      have := hw r hr
      have h3 := sq_nonneg (r.x - (pts.map (fun p => p.x * p.w)).sum / (pts.map Point.w).sum)
      nlinarith
    have h4 := pow_eq_zero_iff (two_ne_zero) |>.mp h2
    linarith
  exact hx ((hz p hp).trans (hz q hq).symm)

theorem covarReal_some {fuel : Nat} (hf : 1 ≤ fuel) (pts : List Point) (hw : (pts.map Point.w).sum ≠ 0) :
    covarReal fuel (some (reals (pts.map Point.w))) (reals (pts.map Point.x)) (reals (pts.map Point.y)) =
      ok (some ((pts.map (fun p => (p.x - (pts.map (fun p => p.x * p.w)).sum / (pts.map Point.w).sum) *
        (p.y - (pts.map (fun p => p.y * p.w)).sum / (pts.map Point.w).sum) * p.w)).sum / (pts.map Point.w).sum)) := by
  unfold covarReal
  rw [meanReal_some hf (by simp), meanReal_some hf (by simp)]
  simp only [bind_ok, divideReal, if_neg hw, zipWith_maps]
  rw [sumWeights_some hf (by simp)]
  simp only [bind_ok, mapReal_reals _ hf, List.map_map, Function.comp_def]
  rw [zipReal_reals _ hf (by simp)]
  simp only [bind_ok, zipWith_maps]
  rw [zipReal_reals _ hf (by simp)]
  simp only [bind_ok, zipWith_maps, sumReal_reals]
  rw [if_neg hw]

theorem covarReal_none {fuel : Nat} (hf : 1 ≤ fuel) (pts : List Point) (hp : pts ≠ []) :
    covarReal fuel none (reals (pts.map Point.x)) (reals (pts.map Point.y)) =
      ok (some ((pts.map (fun p => (p.x - (pts.map Point.x).sum / pts.length) *
        (p.y - (pts.map Point.y).sum / pts.length))).sum / pts.length)) := by
  have hn : (pts.length : Rat) ≠ 0 := by simpa using hp
  unfold covarReal
  rw [meanReal_none, meanReal_none]
  simp only [bind_ok, divideReal, List.length_map, if_neg hn, sumWeights_none, mapReal_reals _ hf, List.map_map,
    Function.comp_def]
  rw [zipReal_reals _ hf (by simp)]
  simp only [bind_ok, zipWith_maps, sumReal_reals]

end Content
end Awk
