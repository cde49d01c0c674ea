import Verif.Model.Slice
import Verif.Spec.Slice
import Mathlib.Tactic.Ring
import Mathlib.Tactic.Linarith
/-
Helper lemmas about ranges and slices.
-/

namespace Awk
open R Spec

theorem flatten_length_const {xss : List (List α)} {m : Nat} (h : ∀ xs ∈ xss, xs.length = m) :
    xss.flatten.length = xss.length * m := by
  induction xss with
  | nil => simp
  | cons x xs ih =>
    simp only [List.flatten_cons, List.length_append, List.length_cons]
    rw [ih (fun y hy => h y (List.mem_cons_of_mem _ hy)), h x List.mem_cons_self]; ring

theorem filterMap_congr' {f g : α → Option β} {l : List α} (h : ∀ x ∈ l, f x = g x) :
    l.filterMap f = l.filterMap g := by
  induction l with
  | nil => rfl
  | cons x xs ih =>
    simp only [List.filterMap_cons]
    rw [h x List.mem_cons_self, ih (fun y hy => h y (List.mem_cons_of_mem _ hy))]

/-- Nested loop writing `out[off + i*m + j] = f i j`. -/
theorem forN_fill_nested {n m : Nat} (f : Nat → Nat → R α) (off : Nat) (out : List α)
    (hlen : off + n * m ≤ out.length) :
    forN n (fun i b => forN m (fun j b => f i j >>= fun x =>
        wr b ((off + i * m + j : Nat) : Int) x) b) out
      = mapN n (fun i => mapN m (f i)) >>= fun xss =>
          ok (out.take off ++ xss.flatten ++ out.drop (off + n * m)) := by
  induction n with
  | zero => simp
  | succ n ih =>
    have hs : (n + 1) * m = n * m + m := by ring
    rw [hs] at hlen
    rw [forN_succ, mapN_succ, ih (by omega)]
    cases hm : mapN n (fun i => mapN m (f i)) with
    | err e => simp
    | ub => simp
    | ok xss =>
      have hfl : xss.flatten.length = n * m := by
        have h := mapN_eq_ok.mp hm
        have : ∀ xs ∈ xss, xs.length = m := by
          intro xs hxs
          obtain ⟨i, hi, rfl⟩ := List.getElem_of_mem hxs
          exact mapN_length (h.2 i hi)
        rw [flatten_length_const this, h.1]
      simp only [bind_ok]
      have hto : (out.take off).length = off := by simp; omega
      have hl : off + n * m + m ≤ (out.take off ++ xss.flatten ++ out.drop (off + n * m)).length := by
        simp [hfl]; omega
      rw [forN_fill (f n) (off + n * m) _ hl]
      cases mapN m (f n) with
      | err e => simp
      | ub => simp
      | ok ys =>
        simp only [bind_ok]
        congr 1
        have e1 : (out.take off ++ xss.flatten).length = off + n * m := by simp [hfl]; omega
        rw [List.take_left' e1, List.drop_append, List.drop_of_length_le (by omega)]
        rw [e1, hs]
        simp [Nat.add_assoc]

/-- Elements of `xs` whose position (counted from `off`) satisfies `p`. -/
def selSlice (p : Int → Bool) : List α → Int → List α
  | [], _ => []
  | x :: xs, off => (if p off then [x] else []) ++ selSlice p xs (off + 1)

theorem selSlice_append (p : Int → Bool) (xs ys : List α) (off : Int) :
    selSlice p (xs ++ ys) off = selSlice p xs off ++ selSlice p ys (off + xs.length) := by
  induction xs generalizing off with
  | nil => simp [selSlice]
  | cons x xs ih =>
    simp only [List.cons_append, selSlice, ih, List.length_cons, List.append_assoc]
    congr 3; push_cast; ring

theorem selSlice_congr {p q : Int → Bool} {xs : List α} {off off' : Int}
    (h : ∀ i : Nat, i < xs.length → p (off + i) = q (off' + i)) :
    selSlice p xs off = selSlice q xs off' := by
  induction xs generalizing off off' with
  | nil => rfl
  | cons x xs ih =>
    simp only [selSlice]
    have h0 := h 0 (by simp)
    simp only [Int.natCast_zero, add_zero] at h0
    rw [h0]
    congr 1
    apply ih
    intro i hi
    have := h (i + 1) (by simpa using hi)
    push_cast at this
    rw [add_assoc, add_assoc, add_comm 1 (i : Int)]
    exact this

theorem selSlice_none {p : Int → Bool} {xs : List α} {off : Int}
    (h : ∀ i : Nat, i < xs.length → p (off + i) = false) : selSlice p xs off = [] := by
  induction xs generalizing off with
  | nil => rfl
  | cons x xs ih =>
    have h0 := h 0 (by simp)
    simp only [Int.natCast_zero, add_zero] at h0
    simp only [selSlice, h0]
    simp only [Bool.false_eq_true, if_false, List.nil_append]
    apply ih
    intro i hi
    have := h (i + 1) (by simpa using hi)
    push_cast at this
    rw [add_assoc, add_comm 1 (i : Int)]; exact this

theorem selSlice_all {p : Int → Bool} {xs : List α} {off : Int}
    (h : ∀ i : Nat, i < xs.length → p (off + i) = true) : selSlice p xs off = xs := by
  induction xs generalizing off with
  | nil => rfl
  | cons x xs ih =>
    have h0 := h 0 (by simp)
    simp only [Int.natCast_zero, add_zero] at h0
    simp only [selSlice, h0]
    simp only [if_true, List.cons_append, List.nil_append]
    congr 1
    apply ih
    intro i hi
    have := h (i + 1) (by simpa using hi)
    push_cast at this
    rw [add_assoc, add_comm 1 (i : Int)]; exact this

/-- Position `x` is in `range(lo, hi, s)` for `s > 0`. -/
def sel (lo hi s : Int) (x : Int) : Bool := decide (lo ≤ x ∧ x < hi ∧ (x - lo) % s = 0)

theorem pyRangeLen_pos {a b s : Int} (hs : 0 < s) :
    pyRangeLen a b s = ((b - a + s - 1) / s).toNat := by simp [pyRangeLen, hs]

theorem pyRangeLen_le {a b s : Int} (hs : 0 < s) (h : b ≤ a) : pyRangeLen a b s = 0 := by
  rw [pyRangeLen_pos hs]
  have : (b - a + s - 1) / s < 1 := by
    apply Int.ediv_lt_of_lt_mul hs; omega
  omega

theorem pyRangeLen_succ {a s : Int} (hs : 0 < s) (m : Int) (h : a ≤ m) :
    pyRangeLen a (m + 1) s = pyRangeLen a m s + (if (m - a) % s = 0 then 1 else 0) ∧
    ((m - a) % s = 0 → a + (pyRangeLen a m s : Int) * s = m) := by
  rw [pyRangeLen_pos hs, pyRangeLen_pos hs]
  obtain ⟨q, r, hqr, hr0, hrs⟩ : ∃ q r, m - a = s * q + r ∧ 0 ≤ r ∧ r < s :=
    ⟨(m - a) / s, (m - a) % s, (Int.mul_ediv_add_emod _ _).symm, Int.emod_nonneg _ (by omega),
      Int.emod_lt_of_pos _ hs⟩
  have hq0 : 0 ≤ q := by
    by_contra hq
    have : s * q ≤ s * (-1) := Int.mul_le_mul_of_nonneg_left (by omega) (by omega)
    omega
  have hmod : (m - a) % s = r := by
    rw [hqr, Int.mul_add_emod_self_left]; exact Int.emod_eq_of_lt hr0 hrs
  have h1 : (m + 1 - a + s - 1) / s = q + 1 := by
    have : m + 1 - a + s - 1 = r + s * (q + 1) := by linarith
    rw [this, Int.add_mul_ediv_left _ _ (by omega), Int.ediv_eq_zero_of_lt hr0 hrs]; ring
  rw [h1, hmod]
  by_cases hr : r = 0
  · subst hr
    have h2 : (m - a + s - 1) / s = q := by
      have : m - a + s - 1 = (s - 1) + s * q := by linarith
      rw [this, Int.add_mul_ediv_left _ _ (by omega), Int.ediv_eq_zero_of_lt (by omega) (by omega)]
      ring
    rw [h2]
    refine ⟨by simp; omega, fun _ => ?_⟩
    rw [Int.toNat_of_nonneg hq0]; linarith
  · have h2 : (m - a + s - 1) / s = q + 1 := by
      have : m - a + s - 1 = (r - 1) + s * (q + 1) := by linarith
      rw [this, Int.add_mul_ediv_left _ _ (by omega), Int.ediv_eq_zero_of_lt (by omega) (by omega)]
      ring
    rw [h2]
    exact ⟨by simp [hr], fun h => absurd h hr⟩

theorem pyRange_le {a b s : Int} (hs : 0 < s) (h : b ≤ a) : pyRange a b s = [] := by
  simp [pyRange, pyRangeLen_le hs h]

theorem pyRange_succ {a s : Int} (hs : 0 < s) (m : Int) (h : a ≤ m) :
    pyRange a (m + 1) s = pyRange a m s ++ (if (m - a) % s = 0 then [m] else []) := by
  obtain ⟨h1, h2⟩ := pyRangeLen_succ hs m h
  unfold pyRange
  rw [h1]
  split
  · rename_i hm
    rw [List.range_succ, List.map_append]; simp [h2 hm]
  · simp

/-- Taking the elements at `range(lo, hi, s)` keeps exactly the selected positions. -/
theorem filterMap_pyRange {s : Int} (hs : 0 < s) (xs : List α) (lo hi : Int)
    (hlo : 0 ≤ lo) (hhi : hi ≤ xs.length) :
    (pyRange lo hi s).filterMap (fun i => xs[i.toNat]?) = selSlice (sel lo hi s) xs 0 := by
  -- generalise to prefixes
  have key : ∀ m : Nat, m ≤ xs.length →
      (pyRange lo m s).filterMap (fun i => xs[i.toNat]?)
        = selSlice (fun x => decide (lo ≤ x ∧ (x - lo) % s = 0)) (xs.take m) 0 := by
    intro m hm
    induction m with
    | zero => rw [pyRange_le hs (by simpa using hlo)]; simp [selSlice]
    | succ m ih =>
      have hm' : m < xs.length := by omega
      rw [List.take_succ_eq_append_getElem hm', selSlice_append, ← ih (by omega)]
      have hl : (xs.take m).length = m := by simp; omega
      simp only [hl, selSlice, List.append_nil, zero_add]
      by_cases h : lo ≤ m
      · push_cast
        rw [pyRange_succ hs _ h, List.filterMap_append]
        congr 1
        by_cases h2 : ((m : Int) - lo) % s = 0
        · simp [h2, h, hm']
        · simp [h2]
      · rw [pyRange_le hs (by push_cast; omega), pyRange_le hs (by omega)]
        simp; omega
  by_cases hneg : hi < 0
  · rw [pyRange_le hs (by omega), selSlice_none]
    · simp
    · intro i _; simp [sel]; omega
  · have := key hi.toNat (by omega)
    rw [Int.toNat_of_nonneg (by omega)] at this
    rw [this]
    conv_rhs => rw [← List.take_append_drop hi.toNat xs]
    rw [selSlice_append, selSlice_none (xs := xs.drop hi.toNat), List.append_nil]
    · apply selSlice_congr
      intro i hi'
      have : (i : Int) < hi := by simp at hi'; omega
      simp [sel, this]
    · intro i hi'
      have : (xs.take hi.toNat).length = hi.toNat := by simp; omega
      simp [sel, this]; omega

/-- Mirror image: a descending range over `xs` is an ascending range over `xs.reverse`. -/
theorem pyRange_neg {a b s : Int} (hs : s < 0) (n : Int) :
    (pyRange a b s).map (fun x => n - 1 - x) = pyRange (n - 1 - a) (n - 1 - b) (-s) := by
  have hs' : ¬ 0 < s := by omega
  have hs'' : 0 < -s := by omega
  have hl : pyRangeLen a b s = pyRangeLen (n - 1 - a) (n - 1 - b) (-s) := by
    unfold pyRangeLen
    rw [if_neg hs', if_pos hs'']
    congr 2; ring
  unfold pyRange
  rw [hl, List.map_map]
  apply List.map_congr_left
  intro k _
  simp only [Function.comp]; ring

theorem filterMap_mirror (xs : List α) (L : List Int) (h : ∀ x ∈ L, 0 ≤ x ∧ x < xs.length) :
    L.filterMap (fun i => xs[i.toNat]?)
      = (L.map (fun x => (xs.length : Int) - 1 - x)).filterMap (fun i => xs.reverse[i.toNat]?) := by
  rw [List.filterMap_map]
  apply filterMap_congr'
  intro x hx
  obtain ⟨h0, h1⟩ := h x hx
  simp only [Function.comp]
  rw [List.getElem?_reverse (by omega)]
  congr 1; omega

theorem mem_pyRange_pos {a b s x : Int} (hs : 0 < s) (h : x ∈ pyRange a b s) :
    a ≤ x ∧ x < b := by
  unfold pyRange at h
  rw [pyRangeLen_pos hs] at h
  simp only [List.mem_map, List.mem_range] at h
  obtain ⟨n, hn, rfl⟩ := h
  have hn0 : (0:Int) ≤ n * s := by positivity
  have : ((n : Int) + 1) ≤ (b - a + s - 1) / s := by omega
  have h2 := Int.mul_le_of_le_ediv hs this
  constructor
  · linarith
  · have e : ((n : Int) + 1) * s = n * s + s := by ring
    rw [e] at h2; linarith

theorem mem_pyRange_neg {a b s x : Int} (hs : s < 0) (h : x ∈ pyRange a b s) :
    b < x ∧ x ≤ a := by
  have h2 : (0 - 1 - x) ∈ pyRange (0 - 1 - a) (0 - 1 - b) (-s) := by
    rw [← pyRange_neg hs 0]; exact List.mem_map_of_mem h
  have := mem_pyRange_pos (by omega) h2
  omega

end Awk
