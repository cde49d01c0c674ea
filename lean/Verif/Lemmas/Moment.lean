import Verif.Model.Moment
import Verif.Lemmas.BcastMask
import Mathlib.Algebra.BigOperators.Group.List.Basic
import Mathlib.Algebra.BigOperators.Ring.List
import Mathlib.Tactic.Ring
import Mathlib.Tactic.FieldSimp
import Mathlib.Tactic.Linarith
import Mathlib.Tactic.NormNum
/-
Lemmas for moments.
-/

namespace Awk
open R

namespace Content

/-- A flat array of floating-point numbers. -/
def reals (xs : List Rat) : Content := numpy {} .float64 (xs.map .real)

theorem numpy_toList_inj {p : Params} {dt : DType} {l m : List Atom}
    (h : (numpy p dt l).toList = ok (m.map .atom)) : l = m := by
  have h1 := (good_numpy p dt l).toList
  rw [h1, ok.injEq] at h
  have hl : l.length = m.length := by simpa [len] using congrArg List.length h
  refine List.ext_getElem hl fun i h2 h3 => ?_
  have h4 := congrArg (fun l => l[i]?) h
  simp only [List.getElem?_map, List.getElem?_range (show i < (numpy p dt l).len from h2), Option.map_some,
    List.getElem?_eq_getElem h3, Option.some.injEq] at h4
  have h5 : (numpy p dt l).valD i = .atom l[i] := valD_eq (by simp [val, rd, h2])
  rw [h5] at h4
  exact Val.atom.inj h4

theorem mapReal_reals (f : Rat → Rat) {fuel : Nat} (hf : 1 ≤ fuel) (xs : List Rat) :
    mapReal f fuel (reals xs) = ok (reals (xs.map f)) := by
  obtain ⟨out, h1, h2, data, rfl⟩ := elementwise_flat_numpy
    (fun l => .real (f (l.headD (.int 0)).asRat)) .float64 (n := xs.length) hf [({}, .float64, xs.map .real)] (by simp)
    (by simp)
  unfold mapReal reals
  simp only [List.map_cons, List.map_nil] at h1 h2
  rw [h1, bind_ok]
  have : data = (xs.map f).map .real := by
    apply numpy_toList_inj
    rw [h2]
    congr 1
    apply List.ext_getElem (by simp)
    intro i h3 h4
    simp at h3
    simp [h3, Atom.asRat]
  rw [this]
  rfl

theorem zipReal_reals (f : Rat → Rat → Rat) {fuel : Nat} (hf : 1 ≤ fuel) {xs ys : List Rat} (hl : ys.length = xs.length) :
    zipReal f fuel (reals xs) (reals ys) = ok (reals (xs.zipWith f ys)) := by
  obtain ⟨out, h1, h2, data, rfl⟩ := elementwise_flat_numpy
    (fun l => .real (f (l.headD (.int 0)).asRat (l.tail.headD (.int 0)).asRat)) .float64 (n := xs.length) hf
    [({}, .float64, xs.map .real), ({}, .float64, ys.map .real)] (by simp) (by simp [hl])
  unfold zipReal reals
  simp only [List.map_cons, List.map_nil] at h1 h2
  rw [h1, bind_ok]
  have : data = (xs.zipWith f ys).map .real := by
    apply numpy_toList_inj
    rw [h2]
    congr 1
    apply List.ext_getElem (by simp [hl])
    intro i h3 h4
    simp at h3
    simp [h3, hl, Atom.asRat]
  rw [this]
  rfl

theorem sumReal_reals (xs : List Rat) : sumReal (reals xs) = ok xs.sum := by
  have : sumReal (reals xs) = ok (npSumReal (xs.map .real)) := rfl
  rw [this]
  congr 1
  clear this
  induction xs with
  | nil => rfl
  | cons x xs ih =>
    have h : npSumReal ((x :: xs).map .real) = x + npSumReal (xs.map .real) := rfl
    rw [h, ih, List.sum_cons]

theorem sumWeights_none (fuel : Nat) (xs : List Rat) : sumWeights fuel (reals xs) none = ok (xs.length : Rat) := by
  have : sumWeights fuel (reals xs) none = ok (((xs.map Atom.real).length : Nat) : Rat) := rfl
  rw [this, List.length_map]

theorem sumWeights_some {fuel : Nat} (hf : 1 ≤ fuel) {xs ws : List Rat} (hl : ws.length = xs.length) :
    sumWeights fuel (reals xs) (some (reals ws)) = ok ws.sum := by
  unfold sumWeights
  simp only
  rw [mapReal_reals _ hf, bind_ok, zipReal_reals _ hf (by simpa using hl), bind_ok, sumReal_reals]
  congr 2
  apply List.ext_getElem (by simp [hl])
  intro i h1 h2
  simp

theorem meanReal_none (fuel : Nat) (xs : List Rat) :
    meanReal fuel none (reals xs) = ok (divideReal xs.sum xs.length) := by
  unfold meanReal
  simp only [sumWeights_none, bind_ok, sumReal_reals]

theorem meanReal_some {fuel : Nat} (hf : 1 ≤ fuel) {xs ws : List Rat} (hl : ws.length = xs.length) :
    meanReal fuel (some (reals ws)) (reals xs) = ok (divideReal (xs.zipWith (· * ·) ws).sum ws.sum) := by
  unfold meanReal
  simp only [sumWeights_some hf hl, bind_ok, zipReal_reals _ hf hl, sumReal_reals]

theorem momentReal_none {fuel : Nat} (hf : 1 ≤ fuel) (n : Nat) (xs : List Rat) :
    momentReal fuel n none (reals xs) = ok (divideReal (xs.map (· ^ n)).sum xs.length) := by
  unfold momentReal
  simp only [sumWeights_none, bind_ok, mapReal_reals _ hf, sumReal_reals]

theorem momentReal_some {fuel : Nat} (hf : 1 ≤ fuel) (n : Nat) {xs ws : List Rat} (hl : ws.length = xs.length) :
    momentReal fuel n (some (reals ws)) (reals xs)
      = ok (divideReal ((xs.zipWith (· * ·) ws).map (· ^ n)).sum ws.sum) := by
  unfold momentReal
  simp only [sumWeights_some hf hl, bind_ok, zipReal_reals _ hf hl, mapReal_reals _ hf, sumReal_reals]

theorem varReal_none {fuel : Nat} (hf : 1 ≤ fuel) (ddof : Int) {xs : List Rat} (hx : xs ≠ []) :
    varReal fuel none ddof (reals xs) =
      if ddof ≠ 0 then
        ok (match divideReal (xs.map (fun x => (x - xs.sum / xs.length) ^ 2)).sum xs.length,
            divideReal xs.length (xs.length - ddof) with
          | some a, some b => some (a * b)
          | _, _ => none)
      else ok (divideReal (xs.map (fun x => (x - xs.sum / xs.length) ^ 2)).sum xs.length) := by
  have hn : (xs.length : Rat) ≠ 0 := by simpa using hx
  unfold varReal
  rw [meanReal_none, bind_ok, divideReal, if_neg hn]
  simp only [sumWeights_none, bind_ok, mapReal_reals _ hf, sumReal_reals, List.map_map, Function.comp_def]
  rfl

theorem varReal_some {fuel : Nat} (hf : 1 ≤ fuel) {xs ws : List Rat} (hl : ws.length = xs.length) (hw : ws.sum ≠ 0) :
    varReal fuel (some (reals ws)) 0 (reals xs) =
      ok (divideReal ((xs.map (fun x => (x - (xs.zipWith (· * ·) ws).sum / ws.sum) ^ 2)).zipWith (· * ·) ws).sum
        ws.sum) := by
  unfold varReal
  rw [meanReal_some hf hl, bind_ok, divideReal, if_neg hw]
  simp only [sumWeights_some hf hl, bind_ok, mapReal_reals _ hf, List.map_map, Function.comp_def]
  rw [zipReal_reals _ hf (by simpa using hl), bind_ok, sumReal_reals, bind_ok]
  simp

theorem zipWith_replicate_mul (xs : List Rat) (k : Rat) :
    (xs.zipWith (· * ·) (List.replicate xs.length k)).sum = xs.sum * k := by
  induction xs with
  | nil => simp
  | cons x xs ih => simp only [List.length_cons, List.replicate_succ, List.zipWith_cons_cons, List.sum_cons, ih]; ring

theorem sum_squares (xs : List Rat) (m : Rat) :
    (xs.map (fun x => (x - m) ^ 2)).sum = (xs.map (· ^ 2)).sum - 2 * m * xs.sum + xs.length * m ^ 2 := by
  induction xs with
  | nil => simp
  | cons x xs ih =>
    simp only [List.map_cons, List.sum_cons, List.length_cons, ih, Nat.cast_add, Nat.cast_one]
    ring

theorem divide_scaled {a b k : Rat} (hk : k ≠ 0) : divideReal (a * k) (b * k) = divideReal a b := by
  unfold divideReal
  by_cases hb : b = 0
  · simp [hb]
  · rw [if_neg (mul_ne_zero hb hk), if_neg hb, mul_div_mul_right _ _ hk]

end Content
end Awk
