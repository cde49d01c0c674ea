import Verif.Lemmas.ReduceLocal
/-
Merging a dimension: the kernels that put the items at equal positions of the lists of a group next
to each other.
-/

namespace Awk
open R

theorem forN_state {n : Nat} {body : Nat → σ → R σ} {s : σ} (S : Nat → σ) (h0 : s = S 0)
    (h : ∀ i, i < n → body i (S i) = ok (S (i + 1))) : forN n body s = ok (S n) := by
  induction n with
  | zero => rw [h0]; rfl
  | succ n ih => rw [forN_succ, ih (fun i hi => h i (by omega)), bind_ok, h n (by omega)]

/-! ### Maxima and counts -/

/-- The largest of `f 0, …, f (n - 1)`, or zero. -/
def maxTo (f : Nat → Nat) : Nat → Nat
  | 0 => 0
  | n + 1 => if maxTo f n < f n then f n else maxTo f n

theorem maxTo_succ (f : Nat → Nat) (n : Nat) :
    maxTo f (n + 1) = if maxTo f n < f n then f n else maxTo f n := rfl

theorem maxTo_le {f : Nat → Nat} {n i : Nat} (h : i < n) : f i ≤ maxTo f n := by
  induction n with
  | zero => omega
  | succ n ih =>
    unfold maxTo
    by_cases he : i = n
    · subst he; split <;> omega
    · have := ih (by omega); split <;> omega

theorem maxTo_mono {f : Nat → Nat} {m n : Nat} (h : m ≤ n) : maxTo f m ≤ maxTo f n := by
  induction n with
  | zero => have : m = 0 := by omega
            subst this; exact Nat.le_refl _
  | succ n ih =>
    by_cases he : m = n + 1
    · subst he; exact Nat.le_refl _
    · have := ih (by omega)
      conv => rhs; unfold maxTo
      split <;> omega

theorem maxTo_lt {f : Nat → Nat} {n q : Nat} (h : q < maxTo f n) : ∃ i, i < n ∧ q < f i := by
  induction n with
  | zero => simp [maxTo] at h
  | succ n ih =>
    unfold maxTo at h
    split at h
    · exact ⟨n, by omega, h⟩
    · obtain ⟨i, h1, h2⟩ := ih h
      exact ⟨i, by omega, h2⟩

theorem maxTo_le_of {f : Nat → Nat} {n b : Nat} (h : ∀ i, i < n → f i ≤ b) : maxTo f n ≤ b := by
  by_contra hc
  obtain ⟨i, h1, h2⟩ := maxTo_lt (f := f) (n := n) (q := b) (by omega)
  have := h i h1
  omega

/-- A yes/no function, to be counted with `cnt`. -/
def ob (f : Nat → Bool) (p : Nat) : Option Int := if f p then some 0 else none

theorem ob_isSome (f : Nat → Bool) (p : Nat) : (ob f p).isSome = f p := by
  unfold ob; cases f p <;> rfl

theorem cnt_ob_succ (f : Nat → Bool) (n : Nat) : cnt (ob f) (n + 1) = cnt (ob f) n + (if f n then 1 else 0) := by
  rw [cnt_succ, ob_isSome]

theorem cnt_ob_congr {f f' : Nat → Bool} {n : Nat} (h : ∀ p, p < n → f p = f' p) :
    cnt (ob f) n = cnt (ob f') n := by
  induction n with
  | zero => rfl
  | succ n ih => rw [cnt_ob_succ, cnt_ob_succ, ih (fun p hp => h p (by omega)), h n (by omega)]

theorem cnt_ob_tail {f : Nat → Bool} {a n : Nat} (ha : a ≤ n) (h : ∀ p, a ≤ p → p < n → f p = false) :
    cnt (ob f) n = cnt (ob f) a := by
  induction n with
  | zero => have : a = 0 := by omega
            subst this; rfl
  | succ n ih =>
    by_cases he : a = n + 1
    · rw [he]
    · rw [cnt_ob_succ, ih (by omega) (fun p h1 h2 => h p h1 (by omega)), h n (by omega) (by omega)]
      simp

theorem cnt_ob_le {f f' : Nat → Bool} {n : Nat} (h : ∀ p, p < n → f p = true → f' p = true) :
    cnt (ob f) n ≤ cnt (ob f') n := by
  induction n with
  | zero => exact Nat.le_refl _
  | succ n ih =>
    rw [cnt_ob_succ, cnt_ob_succ]
    have := ih (fun p hp => h p (by omega))
    have := h n (by omega)
    cases h1 : f n <;> cases h2 : f' n <;> simp_all
    omega

/-! ### The order of the items -/

section Cells
variable (ℓ : Nat → Nat) (L : Nat)

/-- The lists that are longer than `q`. -/
def longer (q i : Nat) : Option Int := ob (fun i => decide (q < ℓ i)) i

/-- How many lists are longer than `q`. -/
def wid (q : Nat) : Nat := cnt (longer ℓ q) L

/-- Where item `q` of list `i` goes. -/
def cellAt (q i : Nat) : Nat := sumTo (wid ℓ L) q + cnt (longer ℓ q) i

/-- Which item goes to place `t`: position in its list, and list. -/
def cellQ (t : Nat) : Nat := blk (wid ℓ L) (maxTo ℓ L) t
def cellI (t : Nat) : Nat := keptAt (longer ℓ (cellQ ℓ L t)) L (t - sumTo (wid ℓ L) (cellQ ℓ L t))

variable {ℓ L}

theorem longer_isSome {q i : Nat} : (longer ℓ q i).isSome = decide (q < ℓ i) := ob_isSome _ _

theorem cellAt_zero (q : Nat) : cellAt ℓ L q 0 = sumTo (wid ℓ L) q := by simp [cellAt, cnt]

theorem cellAt_last (q : Nat) : cellAt ℓ L q L = sumTo (wid ℓ L) (q + 1) := rfl

theorem cellAt_succ (q i : Nat) :
    cellAt ℓ L q (i + 1) = cellAt ℓ L q i + (if q < ℓ i then 1 else 0) := by
  unfold cellAt
  rw [cnt_succ, longer_isSome, ← Nat.add_assoc]
  simp

theorem cell_at {q i : Nat} (hi : i < L) (hq : q < ℓ i) :
    cellQ ℓ L (cellAt ℓ L q i) = q ∧ cellI ℓ L (cellAt ℓ L q i) = i ∧
      cellAt ℓ L q i < sumTo (wid ℓ L) (maxTo ℓ L) := by
  have hM : q < maxTo ℓ L := Nat.lt_of_lt_of_le hq (maxTo_le hi)
  obtain ⟨h1, h2⟩ := keptAt_cnt (q := longer ℓ q) hi (by rw [longer_isSome]; simpa using hq)
  have e : cellQ ℓ L (cellAt ℓ L q i) = q := blk_add hM h1
  refine ⟨e, ?_, ?_⟩
  · unfold cellI
    rw [e]
    unfold cellAt
    rw [Nat.add_sub_cancel_left]
    exact h2
  · have := sumTo_mono (f := wid ℓ L) (show q + 1 ≤ maxTo ℓ L by omega)
    rw [sumTo_succ] at this
    unfold cellAt wid at *
    omega

theorem at_cell {t : Nat} (h : t < sumTo (wid ℓ L) (maxTo ℓ L)) :
    cellQ ℓ L t < maxTo ℓ L ∧ cellI ℓ L t < L ∧ cellQ ℓ L t < ℓ (cellI ℓ L t) ∧
      cellAt ℓ L (cellQ ℓ L t) (cellI ℓ L t) = t := by
  obtain ⟨h1, h2, h3⟩ := blk_spec h
  have h2' : sumTo (wid ℓ L) (cellQ ℓ L t) ≤ t := h2
  have h3' : t < sumTo (wid ℓ L) (cellQ ℓ L t + 1) := h3
  rw [sumTo_succ] at h3'
  obtain ⟨k1, k2, k3⟩ := kept_get (q := longer ℓ (cellQ ℓ L t)) (n := L)
    (j := t - sumTo (wid ℓ L) (cellQ ℓ L t)) (by
      have : wid ℓ L (cellQ ℓ L t) = cnt (longer ℓ (cellQ ℓ L t)) L := rfl
      omega)
  rw [longer_isSome] at k2
  refine ⟨h1, k1, of_decide_eq_true k2, ?_⟩
  have : cnt (longer ℓ (cellQ ℓ L t)) (cellI ℓ L t) = t - sumTo (wid ℓ L) (cellQ ℓ L t) := k3
  unfold cellAt
  omega

theorem sumTo_ite (x M : Nat) : sumTo (fun q => if q < x then 1 else 0) M = min M x := by
  induction M with
  | zero => simp [sumTo]
  | succ M ih => rw [sumTo_succ, ih]; split <;> omega

theorem sumTo_add (f f' : Nat → Nat) (n : Nat) : sumTo (fun i => f i + f' i) n = sumTo f n + sumTo f' n := by
  induction n with
  | zero => rfl
  | succ n ih => rw [sumTo_succ, sumTo_succ, sumTo_succ, ih]; omega

/-- Counting the items by columns. -/
theorem cells_total (M : Nat) (h : ∀ i, i < L → ℓ i ≤ M) : sumTo (wid ℓ L) M = sumTo ℓ L := by
  induction L with
  | zero =>
    have : ∀ M, sumTo (wid ℓ 0) M = 0 := by
      intro M
      induction M with
      | zero => rfl
      | succ M ih => rw [sumTo_succ, ih]; simp [wid, cnt]
    rw [this]; rfl
  | succ L ih =>
    rw [sumTo_succ, ← ih (fun i hi => h i (by omega))]
    have : sumTo (wid ℓ (L + 1)) M = sumTo (fun q => wid ℓ L q + (if q < ℓ L then 1 else 0)) M := by
      apply sumTo_congr
      intro q _
      unfold wid
      rw [cnt_succ, longer_isSome]
      simp
    rw [this, sumTo_add, sumTo_ite]
    have := h L (by omega)
    omega

end Cells

/-! ### Groups that have a long list -/

section Groups
variable (g ℓ : Nat → Nat)

/-- Among the first `i` lists, one of group `p` is longer than `r`. -/
def has (r i p : Nat) : Bool := (List.range i).any (fun i => decide (g i = p) && decide (r < ℓ i))

variable {g ℓ}

theorem has_iff {r i p : Nat} : has g ℓ r i p = true ↔ ∃ i', i' < i ∧ g i' = p ∧ r < ℓ i' := by
  unfold has
  simp [List.any_eq_true]

theorem has_succ (r i p : Nat) :
    has g ℓ r (i + 1) p = (has g ℓ r i p || (decide (g i = p) && decide (r < ℓ i))) := by
  unfold has
  rw [List.range_succ, List.any_append]
  simp

theorem has_mono {r i i' p : Nat} (h : i ≤ i') (hh : has g ℓ r i p = true) : has g ℓ r i' p = true := by
  obtain ⟨a, h1, h2, h3⟩ := has_iff.mp hh
  exact has_iff.mpr ⟨a, by omega, h2, h3⟩

theorem has_anti {r r' i p : Nat} (h : r ≤ r') (hh : has g ℓ r' i p = true) : has g ℓ r i p = true := by
  obtain ⟨a, h1, h2, h3⟩ := has_iff.mp hh
  exact has_iff.mpr ⟨a, h1, h2, by omega⟩

variable {L out : Nat} (hs : ∀ i j, i ≤ j → j < L → g i ≤ g j)
include hs

theorem has_before {r i p : Nat} (hi : i < L) (hp : p < g i) : has g ℓ r i p = has g ℓ r L p := by
  apply Bool.eq_iff_iff.mpr
  constructor
  · exact has_mono (by omega)
  · intro h
    obtain ⟨a, h1, h2, h3⟩ := has_iff.mp h
    refine has_iff.mpr ⟨a, ?_, h2, h3⟩
    by_contra hc
    have := hs i a (by omega) h1
    omega

theorem has_after {r i p : Nat} (hi : i < L) (hp : g i < p) : has g ℓ r i p = false := by
  by_contra hc
  rw [Bool.not_eq_false] at hc
  obtain ⟨a, h1, h2, h3⟩ := has_iff.mp hc
  have := hs a i (by omega) hi
  omega

theorem seen_new {r i : Nat} (hi : i < L) (hg : g i < out) (hn : has g ℓ r i (g i) = false)
    (hr : r < ℓ i) :
    cnt (ob (has g ℓ r i)) out = cnt (ob (has g ℓ r L)) (g i) ∧
    cnt (ob (has g ℓ r (i + 1))) out = cnt (ob (has g ℓ r i)) out + 1 := by
  have e1 : cnt (ob (has g ℓ r i)) out = cnt (ob (has g ℓ r i)) (g i) := by
    apply cnt_ob_tail (by omega)
    intro p h1 h2
    by_cases he : p = g i
    · rw [he]; exact hn
    · exact has_after hs hi (by omega)
  refine ⟨?_, ?_⟩
  · rw [e1]
    exact cnt_ob_congr (fun p hp => has_before hs hi hp)
  · have e2 : cnt (ob (has g ℓ r (i + 1))) out = cnt (ob (has g ℓ r (i + 1))) (g i + 1) := by
      apply cnt_ob_tail (by omega)
      intro p h1 h2
      rw [has_succ, has_after hs hi (by omega)]
      simp; omega
    rw [e2, cnt_ob_succ, e1]
    have : has g ℓ r (i + 1) (g i) = true := has_iff.mpr ⟨i, by omega, rfl, hr⟩
    rw [this]
    simp only [if_true]
    congr 1
    apply cnt_ob_congr
    intro p hp
    rw [has_succ]
    have : ¬ (g i = p) := by omega
    simp [this]

omit hs in
theorem seen_old {r i : Nat} (h : has g ℓ r i (g i) = true ∨ ¬ r < ℓ i) : has g ℓ r (i + 1) = has g ℓ r i := by
  funext p
  rw [has_succ]
  rcases h with h | h
  · by_cases hp : g i = p
    · subst hp; rw [h]; rfl
    · simp [hp]
  · simp [h]

end Groups

/-! ### The kernels -/

/-- A buffer whose first `k` slots are written. -/
def mix (k : Nat) (F : Nat → Int) (b : List Int) : List Int :=
  (List.range b.length).map (fun t => if t < k then F t else b[t]?.getD 0)

@[simp] theorem mix_length (k : Nat) (F : Nat → Int) (b : List Int) : (mix k F b).length = b.length := by
  simp [mix]

theorem mix_zero (F : Nat → Int) (b : List Int) : mix 0 F b = b := by
  apply List.ext_getElem (by simp)
  intro i h1 h2
  simp [mix, h2]

theorem mix_all {k : Nat} {F : Nat → Int} {b : List Int} (h : b.length ≤ k) :
    mix k F b = (List.range b.length).map F := by
  unfold mix
  apply map_range_congr
  intro t ht
  rw [if_pos (by omega)]

theorem wr_mix {k : Nat} {F : Nat → Int} {b : List Int} (h : k < b.length) :
    wr (mix k F b) (k : Int) (F k) = ok (mix (k + 1) F b) := by
  unfold mix
  rw [wr_map_range h]
  congr 1
  apply map_range_congr
  intro t _
  by_cases ht : t = k
  · subst ht; simp
  · have : (t < k + 1) ↔ t < k := by omega
    simp [ht, this]

section Kernels
variable {ℓ g : Nat → Nat} {L out b : Nat}

/-- The offsets of lists of lengths `ℓ i` that begin at `b`. -/
def offsFrom (b : Nat) (ℓ : Nat → Nat) (L : Nat) : List Int :=
  (List.range (L + 1)).map (fun i => ((b + sumTo ℓ i : Nat) : Int))

@[simp] theorem offsFrom_length : (offsFrom b ℓ L).length = L + 1 := by simp [offsFrom]

theorem rd_offsFrom {i : Nat} (h : i < L + 1) :
    rd (offsFrom b ℓ L) (i : Int) = ok ((b + sumTo ℓ i : Nat) : Int) := rd_map_range h

theorem maxcount_offsetscopy_ok {oc : List Int} (ho : oc.length = L + 1) :
    ListOffsetArray_reduce_nonlocal_maxcount_offsetscopy oc (offsFrom b ℓ L) L
      = ok ((maxTo ℓ L : Int), offsFrom b ℓ L) := by
  unfold ListOffsetArray_reduce_nonlocal_maxcount_offsetscopy
  have h0 : rd (offsFrom b ℓ L) 0 = ok ((b + sumTo ℓ 0 : Nat) : Int) :=
    rd_offsFrom (i := 0) (by omega)
  let F : Nat → Int := fun i => ((b + sumTo ℓ i : Nat) : Int)
  have w0 : wr oc 0 ((b + sumTo ℓ 0 : Nat) : Int) = ok (mix 1 F oc) := by
    have := wr_mix (k := 0) (F := F) (b := oc) (by omega)
    rw [mix_zero] at this
    exact this
  rw [h0, bind_ok, w0, bind_ok]
  rw [forN_state (s := (0, mix 1 F oc)) (fun i => ((maxTo ℓ i : Int), mix (i + 1) F oc)) rfl]
  · rw [mix_all (by omega), ho]
    rfl
  · intro i hi
    simp only
    rw [rd_offsFrom (by omega), bind_ok, rd_offsFrom (by omega), bind_ok]
    have := wr_mix (k := i + 1) (F := F) (b := oc) (by omega)
    rw [show ((b + sumTo ℓ (i + 1) : Nat) : Int) = F (i + 1) from rfl, this, bind_ok]
    congr 2
    have e : F (i + 1) - ((b + sumTo ℓ i : Nat) : Int) = (ℓ i : Int) := by
      simp only [F, sumTo_succ]; omega
    rw [e]
    conv => rhs; unfold maxTo
    split <;> split <;> first | rfl | omega

/-- `distincts` when pass `q` has seen `i` lists. -/
def dist (g ℓ : Nat → Nat) (L q i P : Nat) : Int :=
  let M := maxTo ℓ L
  if (P % M < q ∧ has g ℓ (P % M) L (P / M) = true) ∨ (P % M = q ∧ has g ℓ q i (P / M) = true) then
    (cnt (ob (has g ℓ (P % M) L)) (P / M) : Int)
  else -1

/-- The state of the loop in pass `q`, when `i` lists are done. -/
def prepAt (g ℓ : Nat → Nat) (L out b : Nat) (nc np : List Int) (q i : Nat) : PrepState where
  nextcarry := mix (cellAt ℓ L q i) (fun t => ((b + sumTo ℓ (cellI ℓ L t) + cellQ ℓ L t : Nat) : Int)) nc
  nextparents := mix (cellAt ℓ L q i)
    (fun t => ((g (cellI ℓ L t) * maxTo ℓ L + cellQ ℓ L t : Nat) : Int)) np
  maxnextparents := (maxTo (fun t => g (cellI ℓ L t) * maxTo ℓ L + cellQ ℓ L t) (cellAt ℓ L q i) : Nat)
  distincts := (List.range (maxTo ℓ L * out)).map (dist g ℓ L q i)
  offsetscopy := (List.range (L + 1)).map (fun i' =>
    ((b + sumTo ℓ i' + (if i' < L then min (if i' < i then q + 1 else q) (ℓ i') else 0) : Nat) : Int))
  k := (cellAt ℓ L q i : Nat)

variable (hs : ∀ i j, i ≤ j → j < L → g i ≤ g j) (hg : ∀ i, i < L → g i < out)
include hs hg

theorem pass_ok {nc np : List Int} (hnc : nc.length = sumTo ℓ L) (hnp : np.length = sumTo ℓ L) (q : Nat) :
    preparenextPass (offsFrom b ℓ L) L (nats g L) (maxTo ℓ L : Int) (prepAt g ℓ L out b nc np q 0)
      = ok (prepAt g ℓ L out b nc np q L) := by
  unfold preparenextPass
  have htot : sumTo (wid ℓ L) (maxTo ℓ L) = sumTo ℓ L := cells_total _ (fun i hi => maxTo_le hi)
  have h0 : cnt (ob (has g ℓ q 0)) out = 0 :=
    cnt_ob_tail (f := has g ℓ q 0) (a := 0) (by omega) (fun p _ _ => rfl)
  rw [forN_state (fun i => (((cnt (ob (has g ℓ q i)) out : Nat) : Int),
      prepAt g ℓ L out b nc np q i)) (by simp [h0])]
  · rfl
  · intro i hi
    simp only
    have hoc : rd (prepAt g ℓ L out b nc np q i).offsetscopy (i : Int)
        = ok ((b + sumTo ℓ i + min q (ℓ i) : Nat) : Int) := by
      simp only [prepAt]
      rw [rd_map_range (by omega), if_pos hi, if_neg (by omega)]
    rw [hoc, bind_ok, rd_offsFrom (by omega), bind_ok]
    by_cases hq : q < ℓ i
    · obtain ⟨c1, c2, c3⟩ := cell_at (ℓ := ℓ) (L := L) hi hq
      rw [htot] at c3
      have hMpos : 0 < maxTo ℓ L := by have := maxTo_le (f := ℓ) hi; omega
      have hqM : q < maxTo ℓ L := by have := maxTo_le (f := ℓ) hi; omega
      have hgi := hg i hi
      have hPlt : g i * maxTo ℓ L + q < maxTo ℓ L * out := by
        have : (g i + 1) * maxTo ℓ L ≤ out * maxTo ℓ L := Nat.mul_le_mul_right _ (by omega)
        rw [Nat.add_mul, Nat.mul_comm out] at this; omega
      have hmod : (g i * maxTo ℓ L + q) % maxTo ℓ L = q := by
        rw [Nat.mul_comm, Nat.mul_add_mod, Nat.mod_eq_of_lt hqM]
      have hdiv : (g i * maxTo ℓ L + q) / maxTo ℓ L = g i := by
        rw [Nat.mul_comm, Nat.mul_add_div hMpos, Nat.div_eq_of_lt hqM]; rfl
      have hnp' : (g i : Int) * (maxTo ℓ L : Int) + (((b + sumTo ℓ i + min q (ℓ i) : Nat) : Int)
          - ((b + sumTo ℓ i : Nat) : Int)) = ((g i * maxTo ℓ L + q : Nat) : Int) := by
        push_cast
        have : min (q : Int) (ℓ i) = q := by omega
        rw [this]; ring
      rw [if_pos (by rw [sumTo_succ]; omega), rd_offsFrom (by omega), bind_ok, rd_nats hi, bind_ok]
      simp only [hnp']
      have w1 : wr (prepAt g ℓ L out b nc np q i).nextcarry (prepAt g ℓ L out b nc np q i).k
          ((b + sumTo ℓ i + min q (ℓ i) : Nat) : Int) = ok (prepAt g ℓ L out b nc np q (i + 1)).nextcarry := by
        simp only [prepAt]
        have := wr_mix (k := cellAt ℓ L q i) (b := nc)
          (F := fun t => ((b + sumTo ℓ (cellI ℓ L t) + cellQ ℓ L t : Nat) : Int)) (by omega)
        rw [c1, c2] at this
        rw [cellAt_succ, if_pos hq, ← this]
        congr 3; omega
      have w2 : wr (prepAt g ℓ L out b nc np q i).nextparents (prepAt g ℓ L out b nc np q i).k
          ((g i * maxTo ℓ L + q : Nat) : Int) = ok (prepAt g ℓ L out b nc np q (i + 1)).nextparents := by
        simp only [prepAt]
        have := wr_mix (k := cellAt ℓ L q i) (b := np)
          (F := fun t => ((g (cellI ℓ L t) * maxTo ℓ L + cellQ ℓ L t : Nat) : Int)) (by omega)
        rw [c1, c2] at this
        rw [cellAt_succ, if_pos hq, ← this]
      have w3 : wr (prepAt g ℓ L out b nc np q i).offsetscopy (i : Int)
          (((b + sumTo ℓ i + min q (ℓ i) : Nat) : Int) + 1)
            = ok (prepAt g ℓ L out b nc np q (i + 1)).offsetscopy := by
        simp only [prepAt]
        rw [wr_map_range (by omega)]
        congr 1
        apply map_range_congr
        intro t ht
        by_cases hti : t = i
        · subst hti
          rw [if_pos rfl, if_pos hi, if_pos (by omega)]
          omega
        · rw [if_neg hti]
          congr 4
          by_cases h' : t < i
          · rw [if_pos h', if_pos (by omega)]
          · rw [if_neg h', if_neg (by omega)]
      have hd : rd (prepAt g ℓ L out b nc np q i).distincts ((g i * maxTo ℓ L + q : Nat) : Int)
          = ok (dist g ℓ L q i (g i * maxTo ℓ L + q)) := by
        simp only [prepAt]
        rw [rd_map_range hPlt]
      have hmx : (if (prepAt g ℓ L out b nc np q i).maxnextparents < ((g i * maxTo ℓ L + q : Nat) : Int)
          then ((g i * maxTo ℓ L + q : Nat) : Int) else (prepAt g ℓ L out b nc np q i).maxnextparents)
            = (prepAt g ℓ L out b nc np q (i + 1)).maxnextparents := by
        simp only [prepAt]
        rw [cellAt_succ, if_pos hq]
        rw [maxTo_succ, c1, c2]
        simp only [Nat.cast_lt]
        split <;> rfl
      have hk : (prepAt g ℓ L out b nc np q i).k + 1 = (prepAt g ℓ L out b nc np q (i + 1)).k := by
        simp only [prepAt]
        rw [cellAt_succ, if_pos hq]
        push_cast; rfl
      rw [w1, bind_ok, w2, bind_ok, hd, bind_ok, w3]
      simp only [bind_ok, hmx, hk]
      have hdv : dist g ℓ L q i (g i * maxTo ℓ L + q) = if has g ℓ q i (g i) = true then
          (cnt (ob (has g ℓ q L)) (g i) : Int) else -1 := by
        unfold dist
        simp only [hmod, hdiv, Nat.lt_irrefl, false_and, true_and, false_or]
      rw [hdv]
      have hother : ∀ P, P ≠ g i * maxTo ℓ L + q → dist g ℓ L q (i + 1) P = dist g ℓ L q i P := by
        intro P hP
        unfold dist
        simp only [has_succ]
        by_cases h1 : P % maxTo ℓ L = q
        · have h2 : ¬ (g i = P / maxTo ℓ L) := by
            intro h2
            apply hP
            have := Nat.div_add_mod P (maxTo ℓ L)
            rw [h1, ← h2, Nat.mul_comm] at this
            omega
          simp [h2]
        · simp [h1]
      cases hh : has g ℓ q i (g i) with
      | true =>
        rw [if_pos rfl, if_neg (by omega), if_neg (by omega), bind_ok, seen_old (.inl hh)]
        congr 2
        have : (prepAt g ℓ L out b nc np q i).distincts = (prepAt g ℓ L out b nc np q (i + 1)).distincts := by
          simp only [prepAt]
          apply map_range_congr
          intro P _
          unfold dist
          rw [seen_old (.inl hh)]
        rw [this]
      | false =>
        obtain ⟨s1, s2⟩ := seen_new hs hi (hg i hi) hh hq
        simp only [Bool.false_eq_true, if_false, if_true, s2]
        have : wr (prepAt g ℓ L out b nc np q i).distincts ((g i * maxTo ℓ L + q : Nat) : Int)
            ((cnt (ob (has g ℓ q i)) out : Nat) : Int) = ok (prepAt g ℓ L out b nc np q (i + 1)).distincts := by
          simp only [prepAt]
          rw [wr_map_range hPlt]
          congr 1
          apply map_range_congr
          intro P _
          by_cases hP : P = g i * maxTo ℓ L + q
          · subst hP
            rw [if_pos rfl, s1]
            unfold dist
            have : has g ℓ q (i + 1) (g i) = true := has_iff.mpr ⟨i, by omega, rfl, hq⟩
            simp only [hmod, hdiv, this, true_and, or_true, if_true]
          · rw [if_neg hP, hother P hP]
        rw [this, bind_ok]
        push_cast
        rfl
    · rw [if_neg (by rw [sumTo_succ]; omega)]
      have he : has g ℓ q (i + 1) = has g ℓ q i := seen_old (.inr hq)
      have hcell : cellAt ℓ L q (i + 1) = cellAt ℓ L q i := by rw [cellAt_succ, if_neg hq]; rfl
      rw [he]
      congr 2
      unfold prepAt
      rw [hcell]
      congr 1
      · apply map_range_congr
        intro P _
        unfold dist
        rw [he]
      · apply map_range_congr
        intro t ht
        congr 2
        by_cases htL : t < L
        · rw [if_pos htL, if_pos htL]
          by_cases hti : t = i
          · subst hti
            rw [if_neg (by omega), if_pos (by omega)]; omega
          · by_cases h' : t < i
            · rw [if_pos h', if_pos (by omega)]
            · rw [if_neg h', if_neg (by omega)]
        · rw [if_neg htL, if_neg htL]

omit hs hg in
theorem prepAt_last {nc np : List Int} (q : Nat) :
    prepAt g ℓ L out b nc np q L = prepAt g ℓ L out b nc np (q + 1) 0 := by
  have hc : cellAt ℓ L q L = cellAt ℓ L (q + 1) 0 := by rw [cellAt_last, cellAt_zero]
  unfold prepAt
  rw [hc]
  congr 1
  · apply map_range_congr
    intro P _
    unfold dist
    have h0 : has g ℓ (q + 1) 0 (P / maxTo ℓ L) = false := rfl
    simp only [h0, Bool.false_eq_true, and_false, or_false]
    congr 1
    apply propext
    constructor
    · rintro (⟨h1, h2⟩ | ⟨h1, h2⟩)
      · exact ⟨by omega, h2⟩
      · rw [h1]; exact ⟨by omega, h2⟩
    · rintro ⟨h1, h2⟩
      by_cases h' : P % maxTo ℓ L < q
      · exact .inl ⟨h', h2⟩
      · have : P % maxTo ℓ L = q := by omega
        rw [this] at h2
        exact .inr ⟨this, h2⟩
  · apply map_range_congr
    intro t ht
    congr 2
    by_cases htL : t < L
    · rw [if_pos htL, if_pos htL, if_pos htL, if_neg (by omega)]
    · rw [if_neg htL, if_neg htL]

omit hs hg in
theorem wid_pos {q : Nat} (h : q < maxTo ℓ L) : 1 ≤ wid ℓ L q := by
  obtain ⟨i, h1, h2⟩ := maxTo_lt h
  have := (keptAt_cnt (q := longer ℓ q) h1 (by rw [longer_isSome]; simpa using h2)).1
  unfold wid
  omega

omit hs hg in
theorem sumTo_strict {f : Nat → Nat} {a n : Nat} (ha : a ≤ n) (h : ∀ q, q < n → 1 ≤ f q) :
    sumTo f a + (n - a) ≤ sumTo f n := by
  induction n with
  | zero => have : a = 0 := by omega
            subst this; simp
  | succ n ih =>
    by_cases he : a = n + 1
    · subst he; simp
    · have := ih (by omega) (fun q hq => h q (by omega))
      have := h n (by omega)
      rw [sumTo_succ]; omega

/-- Where the items go: the final state. -/
theorem preparenext_ok {nc np di : List Int} (hnc : nc.length = sumTo ℓ L) (hnp : np.length = sumTo ℓ L)
    (hdi : di.length = maxTo ℓ L * out) :
    ListOffsetArray_reduce_nonlocal_preparenext nc np ((sumTo ℓ L : Nat) : Int) di
        ((maxTo ℓ L : Int) * (out : Int)) (offsFrom b ℓ L) (offsFrom b ℓ L) L (nats g L) (maxTo ℓ L : Int)
      = ok (prepAt g ℓ L out b nc np (maxTo ℓ L) 0) := by
  unfold ListOffsetArray_reduce_nonlocal_preparenext
  have htot : sumTo (wid ℓ L) (maxTo ℓ L) = sumTo ℓ L := cells_total _ (fun i hi => maxTo_le hi)
  have hd : forI ((maxTo ℓ L : Int) * (out : Int)) (fun i distincts => wr distincts i (-1)) di
      = ok ((List.range (maxTo ℓ L * out)).map (fun _ => (-1 : Int))) := by
    unfold forI
    rw [show ((maxTo ℓ L : Int) * (out : Int)).toNat = maxTo ℓ L * out by
      rw [← Nat.cast_mul]; exact Int.toNat_natCast _]
    exact forN_same hdi
  rw [hd, bind_ok]
  have hinit : PrepState.mk nc np 0 ((List.range (maxTo ℓ L * out)).map (fun _ => (-1 : Int)))
      (offsFrom b ℓ L) 0 = prepAt g ℓ L out b nc np 0 0 := by
    unfold prepAt
    have hc : cellAt ℓ L 0 0 = 0 := by rw [cellAt_zero]; rfl
    rw [hc, mix_zero, mix_zero]
    congr 1
    · apply map_range_congr
      intro P _
      unfold dist
      have h0 : has g ℓ 0 0 (P / maxTo ℓ L) = false := rfl
      rw [if_neg]
      rintro (⟨h, _⟩ | ⟨_, h⟩)
      · omega
      · rw [h0] at h; simp at h
    · apply map_range_congr
      intro t _
      congr 1
      split <;> simp
  rw [hinit]
  suffices hw : ∀ fuel q, q ≤ maxTo ℓ L → maxTo ℓ L - q ≤ fuel →
      whileF fuel (fun st : PrepState => decide (st.k < ((sumTo ℓ L : Nat) : Int)))
        (preparenextPass (offsFrom b ℓ L) L (nats g L) (maxTo ℓ L : Int)) (prepAt g ℓ L out b nc np q 0)
      = ok (prepAt g ℓ L out b nc np (maxTo ℓ L) 0) by
    have := sumTo_strict (f := wid ℓ L) (a := 0) (n := maxTo ℓ L) (by omega) (fun q hq => wid_pos hq)
    exact hw _ 0 (by omega) (by rw [Int.toNat_natCast]; simp at this; omega)
  intro fuel
  induction fuel with
  | zero =>
    intro q h1 h2
    have : q = maxTo ℓ L := by omega
    subst this
    unfold whileF
    rw [if_neg]
    simp only [prepAt, cellAt_zero, htot, decide_eq_true_eq]
    omega
  | succ fuel ih =>
    intro q h1 h2
    unfold whileF
    by_cases hq : q = maxTo ℓ L
    · subst hq
      rw [if_neg]
      simp only [prepAt, cellAt_zero, htot, decide_eq_true_eq]
      omega
    · rw [if_pos]
      · rw [pass_ok hs hg hnc hnp, bind_ok, prepAt_last]
        exact ih (q + 1) (by omega) (by omega)
      · simp only [prepAt, cellAt_zero, decide_eq_true_eq]
        have := sumTo_strict (f := wid ℓ L) (a := q) (n := maxTo ℓ L) (by omega) (fun q hq => wid_pos hq)
        omega

omit hs hg in
/-- `nextstarts`: the first place of every group, when the places of a group are adjacent. -/
theorem nextstarts_ok {G : Nat → Nat} {N : Nat} {ns : List Int}
    (hG : ∀ t, t < N → G t < ns.length)
    (hadj : ∀ t t', t' < N → t < t' → G t = G t' → G (t' - 1) = G t') :
    ∃ o, ListOffsetArray_reduce_nonlocal_nextstarts ns (nats G N) ((N : Nat) : Int) = ok o ∧
      o.length = ns.length ∧
      ∀ t, t < N → o[G t]? = some (((t - cnt (ob (fun t' => decide (G t' = G t))) t : Nat) : Int)) := by
  unfold ListOffsetArray_reduce_nonlocal_nextstarts forI
  rw [Int.toNat_natCast]
  obtain ⟨st, h1, h2, h3, h4⟩ := forN_inv (n := N) (s := (ns, (-1 : Int)))
    (body := fun i (st : List Int × Int) =>
      rd (nats G N) (i : Int) >>= fun np =>
      (if np ≠ st.2 then wr st.1 np (i : Int) else ok st.1) >>= fun nextstarts => ok (nextstarts, np))
    (fun i st => st.1.length = ns.length ∧ st.2 = (if i = 0 then -1 else (G (i - 1) : Int)) ∧
      ∀ t, t < i → st.1[G t]? = some (((t - cnt (ob (fun t' => decide (G t' = G t))) t : Nat) : Int)))
    ⟨rfl, rfl, by omega⟩ (by
      rintro i hi ⟨o, last⟩ ⟨h1, h2, h3⟩
      simp only at h1 h2 h3 ⊢
      rw [rd_nats hi, bind_ok]
      by_cases hne : (G i : Int) ≠ last
      · rw [if_pos hne, wr_nat_ok (by rw [h1]; exact hG i hi), bind_ok]
        refine ⟨_, rfl, by simp [h1], by simp, ?_⟩
        have hnew : ∀ t, t < i → G t ≠ G i := by
          intro t ht he
          have := hadj t i hi ht he
          rw [h2, if_neg (by omega), this] at hne
          exact hne rfl
        intro t ht
        by_cases hti : t = i
        · subst hti
          rw [List.getElem?_set_self (by rw [h1]; exact hG t hi), cnt_ob_tail (a := 0) (by omega)
            (fun p _ hp => by simpa using hnew p hp)]
          simp [cnt]
        · rw [List.getElem?_set_ne (Ne.symm (hnew t (by omega)))]
          exact h3 t (by omega)
      · rw [if_neg hne, bind_ok]
        refine ⟨_, rfl, h1, by simp, ?_⟩
        intro t ht
        by_cases hti : t = i
        · subst hti
          have hlast : (G t : Int) = last := by simpa using hne
          have ht0 : t ≠ 0 := by
            intro h0
            rw [h2, if_pos h0] at hlast; omega
          obtain ⟨u, rfl⟩ : ∃ u, t = u + 1 := ⟨t - 1, by omega⟩
          rw [h2, if_neg (by omega)] at hlast
          simp only [Nat.add_sub_cancel] at hlast
          have hlast : G (u + 1) = G u := by exact_mod_cast hlast
          have := h3 u (by omega)
          rw [hlast, cnt_ob_succ, this]
          simp
        · exact h3 t (by omega))
  exact ⟨st.1, by rw [h1, bind_ok], h2, h4⟩

/-- The position after the last `p' < p` with `f p'`, or zero. -/
def lastBefore (f : Nat → Bool) : Nat → Nat
  | 0 => 0
  | p + 1 => if f p then p + 1 else lastBefore f p

omit hs hg in
theorem lastBefore_le (f : Nat → Bool) (p : Nat) : lastBefore f p ≤ p := by
  induction p with
  | zero => exact Nat.le_refl _
  | succ p ih => unfold lastBefore; split <;> omega

omit hs hg in
theorem lastBefore_congr {f f' : Nat → Bool} {p : Nat} (h : ∀ p', p' < p → f p' = f' p') :
    lastBefore f p = lastBefore f' p := by
  induction p with
  | zero => rfl
  | succ p ih => unfold lastBefore; rw [h p (by omega), ih (fun p' hp => h p' (by omega))]

omit hs hg in
theorem lastBefore_tail {f : Nat → Bool} {a n : Nat} (ha : a ≤ n) (h : ∀ p, a ≤ p → p < n → f p = false) :
    lastBefore f n = lastBefore f a := by
  induction n with
  | zero => have : a = 0 := by omega
            subst this; rfl
  | succ n ih =>
    by_cases he : a = n + 1
    · rw [he]
    · rw [lastBefore, h n (by omega) (by omega)]
      simp only [Bool.false_eq_true, if_false]
      exact ih (by omega) (fun p h1 h2 => h p h1 (by omega))

omit hs hg in
theorem lastBefore_gap {f : Nat → Bool} {p p' : Nat} (h1 : lastBefore f p ≤ p') (h2 : p' < p) : f p' = false := by
  induction p with
  | zero => omega
  | succ p ih =>
    unfold lastBefore at h1
    cases hf : f p with
    | true => rw [hf] at h1; simp at h1; omega
    | false =>
      rw [hf] at h1
      simp only [Bool.false_eq_true, if_false] at h1
      by_cases he : p' = p
      · rw [he]; exact hf
      · exact ih h1 (by omega)

/-- Among the first `i` lists, one is in group `p`. -/
abbrev pres (g : Nat → Nat) (i p : Nat) : Bool := has g (fun _ => 1) 0 i p

/-- `gaps`: how many groups lie between one that has lists and the one before it. -/
theorem findgaps_ok {gp : List Int} (hgp : gp.length = out) :
    ∃ o, ListOffsetArray_reduce_nonlocal_findgaps gp (nats g L) L = ok o ∧ o.length = out ∧
      ∀ p, pres g L p = true →
        o[cnt (ob (pres g L)) p]? = some (((p + 1 - lastBefore (pres g L) p : Nat)) : Int) := by
  unfold ListOffsetArray_reduce_nonlocal_findgaps
  obtain ⟨st, h1, h2, h3, h4, h5⟩ := forN_inv (n := L) (s := (gp, (0 : Int), (-1 : Int)))
    (body := fun i (st : List Int × Int × Int) =>
      rd (nats g L) (i : Int) >>= fun parent =>
      if st.2.2 < parent then
        wr st.1 st.2.1 (parent - st.2.2) >>= fun gaps => ok (gaps, st.2.1 + 1, parent)
      else ok st)
    (fun i st => st.1.length = out ∧ st.2.1 = ((cnt (ob (pres g i)) out : Nat) : Int) ∧
      st.2.2 = (lastBefore (pres g i) out : Int) - 1 ∧
      ∀ p, pres g i p = true →
        st.1[cnt (ob (pres g L)) p]? = some (((p + 1 - lastBefore (pres g L) p : Nat)) : Int))
    ⟨hgp, by
      rw [cnt_ob_tail (f := pres g 0) (a := 0) (by omega) (fun p _ _ => rfl)]; rfl, by
      rw [lastBefore_tail (f := pres g 0) (a := 0) (by omega) (fun p _ _ => rfl)]; rfl, by
      intro p hp; have : pres g 0 p = false := rfl
      rw [this] at hp; simp at hp⟩ (by
      rintro i hi ⟨o, k, last⟩ ⟨h1, h2, h3, h4⟩
      simp only at h1 h2 h3 h4 ⊢
      rw [rd_nats hi, bind_ok]
      have hgi := hg i hi
      cases hh : pres g i (g i) with
      | true =>
        have he : pres g (i + 1) = pres g i := seen_old (.inl hh)
        have hlast : g i < lastBefore (pres g i) out := by
          by_contra hc
          have := lastBefore_gap (f := pres g i) (p := out) (p' := g i) (by omega) hgi
          rw [hh] at this; simp at this
        rw [if_neg (by rw [h3]; omega)]
        exact ⟨_, rfl, h1, by rw [he]; exact h2, by rw [he]; exact h3, by rw [he]; exact h4⟩
      | false =>
        obtain ⟨s1, s2⟩ := seen_new (ℓ := fun _ => 1) (r := 0) hs hi hgi hh (by omega)
        have l1 : lastBefore (pres g i) out = lastBefore (pres g L) (g i) := by
          rw [lastBefore_tail (a := g i) (by omega)]
          · exact lastBefore_congr (fun p hp => has_before hs hi hp)
          · intro p p1 p2
            by_cases he : p = g i
            · rw [he]; exact hh
            · exact has_after hs hi (by omega)
        have hle := lastBefore_le (pres g L) (g i)
        have hlt : cnt (ob (pres g L)) (g i) < out := Nat.lt_of_le_of_lt (cnt_le _ _) hgi
        rw [if_pos (by rw [h3, l1]; omega), h2, s1, wr_nat_ok (by rw [h1]; exact hlt), bind_ok]
        refine ⟨_, rfl, by simp [h1], by simp only; rw [s2, s1]; push_cast; rfl, ?_, ?_⟩
        · have hnew : pres g (i + 1) (g i) = true := has_iff.mpr ⟨i, by omega, rfl, by omega⟩
          have : lastBefore (pres g (i + 1)) out = g i + 1 := by
            rw [lastBefore_tail (a := g i + 1) (by omega)]
            · rw [lastBefore, hnew]; rfl
            · intro p p1 p2
              rw [pres, has_succ, has_after hs hi (by omega)]
              simp; omega
          simp only
          rw [this]; omega
        · intro p hp
          by_cases hpg : p = g i
          · subst hpg
            simp only
            rw [List.getElem?_set_self (by rw [h1]; exact hlt), h3, l1]
            congr 1
            omega
          · have hpi : pres g i p = true := by
              rw [pres, has_succ] at hp
              have : ¬ (g i = p) := fun h => hpg h.symm
              simpa [this] using hp
            have hplt : p < g i := by
              obtain ⟨a, a1, a2, a3⟩ := has_iff.mp hpi
              have := hs a i (by omega) hi
              omega
            have hstrict : cnt (ob (pres g L)) p < cnt (ob (pres g L)) (g i) :=
              (keptAt_cnt hplt (by rw [ob_isSome]; exact has_mono (by omega) hpi)).1
            simp only
            rw [List.getElem?_set_ne (Nat.ne_of_gt hstrict)]
            exact h4 p hpi)
  exact ⟨st.1, by rw [h1, bind_ok], h2, fun p hp => h5 p hp⟩

/-- The length of the longest list of a group. -/
def longestIn (g ℓ : Nat → Nat) (L p : Nat) : Nat := maxTo (fun i => if g i = p then ℓ i else 0) L

omit hs hg in
theorem has_longest {r p : Nat} : has g ℓ r L p = true ↔ r < longestIn g ℓ L p := by
  rw [has_iff]
  constructor
  · rintro ⟨i, h1, h2, h3⟩
    have := maxTo_le (f := fun i => if g i = p then ℓ i else 0) h1
    simp only [h2, if_true] at this
    unfold longestIn
    omega
  · intro h
    obtain ⟨i, h1, h2⟩ := maxTo_lt h
    by_cases hp : g i = p
    · simp only [hp, if_true] at h2
      exact ⟨i, h1, hp, h2⟩
    · simp [hp] at h2

omit hs hg in
theorem longest_le (p : Nat) : longestIn g ℓ L p ≤ maxTo ℓ L := by
  apply maxTo_le_of
  intro i hi
  have := maxTo_le (f := ℓ) hi
  split <;> omega

omit hs hg in
theorem forN_add (a n : Nat) (body : Nat → σ → R σ) (s : σ) :
    forN (a + n) body s = forN a body s >>= forN n (fun r => body (a + r)) := by
  induction n with
  | zero => simp only [Nat.add_zero, forN_zero]; cases forN a body s <;> rfl
  | succ n ih =>
    rw [← Nat.add_assoc, forN_succ, ih, R.bind_assoc]
    rfl

omit hs hg in
theorem forN_blocks {M : Nat} {body : Nat → σ → R σ} {s : σ} (P : Nat → σ → Prop) (h0 : P 0 s)
    (h : ∀ p, p < out → ∀ s, P p s → ∃ s', forN M (fun r => body (M * p + r)) s = ok s' ∧ P (p + 1) s') :
    ∃ s', forN (M * out) body s = ok s' ∧ P out s' := by
  induction out with
  | zero => exact ⟨s, rfl, h0⟩
  | succ out ih =>
    obtain ⟨s1, h1, h2⟩ := ih (fun p hp => h p (by omega))
    obtain ⟨s2, h3, h4⟩ := h out (by omega) s1 h2
    exact ⟨s2, by rw [Nat.mul_succ, forN_add, h1, bind_ok, h3], h4⟩

omit hs hg in
theorem gap_fill {S T : Nat → Int} {i j md : Int} {k n : Nat} (h : k + n ≤ out) :
    forI (n : Int) (fun _ (st : OutState) =>
      wr st.outstarts st.k i >>= fun outstarts => wr st.outstops st.k i >>= fun outstops =>
      ok { st with outstarts, outstops, k := st.k + 1 })
      { outstarts := (List.range out).map S, outstops := (List.range out).map T, j := j, k := (k : Int),
        maxdistinct := md }
    = ok { outstarts := (List.range out).map (fun t => if k ≤ t ∧ t < k + n then i else S t),
           outstops := (List.range out).map (fun t => if k ≤ t ∧ t < k + n then i else T t),
           j := j, k := ((k + n : Nat) : Int), maxdistinct := md } := by
  unfold forI
  rw [Int.toNat_natCast]
  rw [forN_state (fun n =>
    { outstarts := (List.range out).map (fun t => if k ≤ t ∧ t < k + n then i else S t),
      outstops := (List.range out).map (fun t => if k ≤ t ∧ t < k + n then i else T t),
      j := j, k := ((k + n : Nat) : Int), maxdistinct := md })]
  · congr 1
    · apply map_range_congr; intro t _; rw [if_neg (by omega)]
    · apply map_range_congr; intro t _; rw [if_neg (by omega)]
  · intro m hm
    simp only
    rw [wr_map_range (by omega), bind_ok, wr_map_range (by omega), bind_ok]
    congr 2
    · apply map_range_congr
      intro t _
      by_cases ht : t = k + m
      · rw [if_pos ht, if_pos (by omega)]
      · rw [if_neg ht]
        by_cases h' : k ≤ t ∧ t < k + m
        · rw [if_pos h', if_pos (by omega)]
        · rw [if_neg h', if_neg (by omega)]
    · apply map_range_congr
      intro t _
      by_cases ht : t = k + m
      · rw [if_pos ht, if_pos (by omega)]
      · rw [if_neg ht]
        by_cases h' : k ≤ t ∧ t < k + m
        · rw [if_pos h', if_pos (by omega)]
        · rw [if_neg h', if_neg (by omega)]

/-- What the lists of the result must be: at the place of their items, or empty. -/
def SpanOk (g ℓ : Nat → Nat) (L p : Nat) (s t : Int) : Prop :=
  if has g ℓ 0 L p = true then s = (maxTo ℓ L * p : Nat) ∧ t = ((maxTo ℓ L * p + longestIn g ℓ L p : Nat) : Int)
  else s = t

omit hs hg in
theorem list_as_map {l : List Int} {n : Nat} (h : l.length = n) :
    l = (List.range n).map (fun i => l[i]?.getD 0) := by
  subst h
  apply List.ext_getElem (by simp)
  intro i h1 h2
  simp [h1]

omit hs hg in
/-- `outstarts` and `outstops`, if no group whose lists are all empty precedes a group that has a
nonempty list. -/
theorem outstartsstops_ok {os op di gaps : List Int} (hos : os.length = out) (hop : op.length = out)
    (hdi : di = (List.range (maxTo ℓ L * out)).map (dist g ℓ L (maxTo ℓ L) 0))
    (hgaps : ∀ p, pres g L p = true →
        gaps[cnt (ob (pres g L)) p]? = some (((p + 1 - lastBefore (pres g L) p : Nat)) : Int))
    (hC : ∀ p p', p < p' → p' < out → has g ℓ 0 L p' = true → pres g L p = true → has g ℓ 0 L p = true) :
    ∃ S T : Nat → Int, ListOffsetArray_reduce_nonlocal_outstartsstops os op di
        ((maxTo ℓ L : Int) * (out : Int)) gaps out
          = ok ((List.range out).map S, (List.range out).map T) ∧
      ∀ p, p < out → SpanOk g ℓ L p (S p) (T p) := by
  unfold ListOffsetArray_reduce_nonlocal_outstartsstops
  set ne : Nat → Bool := has g ℓ 0 L with hne
  set M := maxTo ℓ L with hM
  have hMo : ((M : Int) * (out : Int)).toNat = M * out := by
    rw [← Nat.cast_mul]; exact Int.toNat_natCast _
  have hdist : ∀ p r, p < out → r < M → rd di ((M * p + r : Nat) : Int)
      = ok (if r < longestIn g ℓ L p then (cnt (ob (has g ℓ r L)) p : Int) else -1) := by
    intro p r hp hr
    have hlt : M * p + r < M * out := by
      have : M * (p + 1) ≤ M * out := Nat.mul_le_mul_left _ (by omega)
      rw [Nat.mul_add] at this; omega
    rw [hdi, rd_map_range hlt]
    congr 1
    unfold dist
    have hmod : (M * p + r) % M = r := by rw [Nat.mul_add_mod, Nat.mod_eq_of_lt hr]
    have hdiv : (M * p + r) / M = p := by rw [Nat.mul_add_div (by omega), Nat.div_eq_of_lt hr]; rfl
    simp only [← hM, hmod, hdiv]
    congr 1
    apply propext
    rw [← has_longest]
    constructor
    · rintro (⟨_, h⟩ | ⟨h, _⟩)
      · exact h
      · omega
    · intro h; exact .inl ⟨hr, h⟩
  obtain ⟨st, h1, S, T, h2, h3, h4, h5, h6, h7⟩ := forN_blocks (out := out) (M := M)
    (s := OutState.mk os op 0 0 (-1))
    (body := fun (i : Nat) (st : OutState) =>
      rd di (i : Int) >>= fun d =>
      (if st.maxdistinct < d then
        rd gaps st.j >>= fun gap =>
        forI gap (fun _ (st : OutState) =>
          wr st.outstarts st.k (i : Int) >>= fun outstarts => wr st.outstops st.k (i : Int) >>= fun outstops =>
          ok { st with outstarts, outstops, k := st.k + 1 }) { st with maxdistinct := d } >>= fun st =>
        ok { st with j := st.j + 1 }
      else ok st) >>= fun st =>
      if d ≠ -1 then
        wr st.outstops (st.k - 1) ((i : Int) + 1) >>= fun outstops => ok { st with outstops }
      else ok st)
    (fun p st => ∃ S T : Nat → Int, st.outstarts = (List.range out).map S ∧
      st.outstops = (List.range out).map T ∧ st.j = (cnt (ob ne) p : Int) ∧
      st.k = (lastBefore ne p : Int) ∧ st.maxdistinct = (cnt (ob ne) p : Int) - 1 ∧
      ∀ p', p' < lastBefore ne p → SpanOk g ℓ L p' (S p') (T p'))
    ⟨_, _, list_as_map hos, list_as_map hop, rfl, rfl, rfl, fun p' hp => by simp [lastBefore] at hp⟩ (by
      rintro p hp ⟨os', op', j, k, md⟩ ⟨S, T, h1, h2, h3, h4, h5, h6⟩
      simp only at h1 h2 h3 h4 h5
      subst h1 h2 h3 h4 h5
      cases hh : ne p with
      | false =>
        have hl0 : longestIn g ℓ L p = 0 := by
          by_contra hc
          have := (has_longest (g := g) (ℓ := ℓ) (L := L) (r := 0) (p := p)).mpr (by omega)
          rw [← hne, hh] at this; simp at this
        refine ⟨_, forN_state (fun _ => _) rfl ?_, S, T, rfl, rfl, ?_, ?_, ?_, ?_⟩
        · intro r hr
          simp only
          rw [hdist p r hp hr, bind_ok, hl0, if_neg (by omega), if_neg (by omega), bind_ok,
            if_neg (by simp)]
        · rw [cnt_ob_succ, hh]; simp
        · rw [lastBefore, hh]; simp
        · rw [cnt_ob_succ, hh]; simp
        · rw [lastBefore, hh]; simpa using h6
      | true =>
        have hlpos : 0 < longestIn g ℓ L p := has_longest.mp hh
        have hlM : longestIn g ℓ L p ≤ M := longest_le p
        have hpres : pres g L p = true := by
          obtain ⟨i, i1, i2, i3⟩ := has_iff.mp hh
          exact has_iff.mpr ⟨i, i1, i2, by omega⟩
        have hsame : ∀ p', p' < p → ne p' = pres g L p' := by
          intro p' hp'
          apply Bool.eq_iff_iff.mpr
          constructor
          · intro h
            obtain ⟨i, i1, i2, i3⟩ := has_iff.mp h
            exact has_iff.mpr ⟨i, i1, i2, by omega⟩
          · exact hC p' p hp' hp hh
        have hcnt : cnt (ob ne) p = cnt (ob (pres g L)) p := cnt_ob_congr hsame
        have hlast : lastBefore ne p = lastBefore (pres g L) p := lastBefore_congr hsame
        have hgap := hgaps p hpres
        rw [← hcnt, ← hlast] at hgap
        have hle := lastBefore_le ne p
        let S' : Nat → Int := fun t => if lastBefore ne p ≤ t ∧ t < p + 1 then ((M * p : Nat) : Int) else S t
        let T' : Nat → Nat → Int := fun r t => if t = p then ((M * p + min r (longestIn g ℓ L p) : Nat) : Int)
          else if lastBefore ne p ≤ t ∧ t < p + 1 then ((M * p : Nat) : Int) else T t
        have key := forN_state (n := M)
          (s := OutState.mk ((List.range out).map S) ((List.range out).map T)
            (cnt (ob ne) p : Int) (lastBefore ne p : Int) ((cnt (ob ne) p : Int) - 1))
          (body := fun (r : Nat) (st : OutState) =>
            rd di ((M * p + r : Nat) : Int) >>= fun d =>
            (if st.maxdistinct < d then
              rd gaps st.j >>= fun gap =>
              forI gap (fun _ (st : OutState) =>
                wr st.outstarts st.k ((M * p + r : Nat) : Int) >>= fun outstarts =>
                wr st.outstops st.k ((M * p + r : Nat) : Int) >>= fun outstops =>
                ok { st with outstarts, outstops, k := st.k + 1 }) { st with maxdistinct := d } >>= fun st =>
              ok { st with j := st.j + 1 }
            else ok st) >>= fun st =>
            if d ≠ -1 then
              wr st.outstops (st.k - 1) (((M * p + r : Nat) : Int) + 1) >>= fun outstops =>
                ok { st with outstops }
            else ok st)
          (fun r => if r = 0 then OutState.mk ((List.range out).map S) ((List.range out).map T)
              (cnt (ob ne) p : Int) (lastBefore ne p : Int) ((cnt (ob ne) p : Int) - 1)
            else OutState.mk ((List.range out).map S') ((List.range out).map (T' r))
              ((cnt (ob ne) p + 1 : Nat) : Int) ((p + 1 : Nat) : Int) (cnt (ob ne) p : Int)) rfl (by
          intro r hr
          rw [hdist p r hp hr, bind_ok, if_neg (show ¬ (r + 1 = 0) by omega)]
          by_cases hr0 : r = 0
          · subst hr0
            rw [if_pos rfl, if_pos hlpos]
            simp only
            rw [if_pos (show (cnt (ob ne) p : Int) - 1 < (cnt (ob (has g ℓ 0 L)) p : Int) by rw [← hne]; omega)]
            have hrd : rd gaps ((cnt (ob ne) p : Nat) : Int) = ok (((p + 1 - lastBefore ne p : Nat)) : Int) := by
              rw [rd_eq_ok]
              exact ⟨by omega, by rw [Int.toNat_natCast]; exact hgap⟩
            rw [hrd, bind_ok, gap_fill (by omega), bind_ok, bind_ok, if_pos (by omega)]
            simp only
            rw [show lastBefore ne p + (p + 1 - lastBefore ne p) = p + 1 by omega,
              show ((p + 1 : Nat) : Int) - 1 = ((p : Nat) : Int) by omega, wr_map_range hp, bind_ok]
            congr 2
            apply map_range_congr
            intro t _
            simp only [T']
            by_cases ht : t = p
            · rw [if_pos ht, if_pos ht]
              push_cast
              have : min (1 : Int) (longestIn g ℓ L p) = 1 := by omega
              rw [this]; omega
            · rw [if_neg ht, if_neg ht]; rfl
          · rw [if_neg hr0]
            simp only
            by_cases hrl : r < longestIn g ℓ L p
            · have hc : cnt (ob (has g ℓ r L)) p ≤ cnt (ob ne) p :=
                cnt_ob_le (fun p' _ h => has_anti (by omega) h)
              rw [if_pos hrl, if_neg (by omega), bind_ok, if_pos (by omega),
                show ((p + 1 : Nat) : Int) - 1 = ((p : Nat) : Int) by omega, wr_map_range hp, bind_ok]
              congr 2
              apply map_range_congr
              intro t _
              simp only [T']
              by_cases ht : t = p
              · rw [if_pos ht, if_pos ht]
                push_cast
                have : min ((r : Int) + 1) (longestIn g ℓ L p) = r + 1 := by omega
                rw [this]; omega
              · rw [if_neg ht, if_neg ht, if_neg ht]
            · rw [if_neg hrl, if_neg (by omega), bind_ok, if_neg (by simp)]
              congr 2
              apply map_range_congr
              intro t _
              simp only [T']
              by_cases ht : t = p
              · rw [if_pos ht, if_pos ht]
                congr 2; omega
              · rw [if_neg ht, if_neg ht])
        rw [if_neg (show ¬ (M = 0) by omega)] at key
        refine ⟨_, key, S', T' M, rfl, rfl, ?_, ?_, ?_, ?_⟩
        · rw [cnt_ob_succ, hh]; rfl
        · rw [lastBefore, hh]; rfl
        · rw [cnt_ob_succ, hh]; simp
        · rw [lastBefore, hh]
          simp only [if_true]
          intro p' hp'
          unfold SpanOk
          by_cases he : p' = p
          · subst he
            rw [if_pos (by rw [← hne]; exact hh)]
            simp only [S', T', if_true]
            rw [if_pos (by omega), Nat.min_eq_right hlM]
            exact ⟨rfl, rfl⟩
          · simp only [S', T', if_neg he]
            by_cases h' : lastBefore ne p ≤ p'
            · have hf : ne p' = false := lastBefore_gap h' (by omega)
              rw [if_neg (by rw [← hne, hf]; simp), if_pos (by omega), if_pos (by omega)]
            · rw [if_neg (show ¬ (lastBefore ne p ≤ p' ∧ p' < p + 1) by omega),
                if_neg (show ¬ (lastBefore ne p ≤ p' ∧ p' < p + 1) by omega)]
              exact h6 p' (by omega))
  obtain ⟨os', op', j, k, md⟩ := st
  simp only at h2 h3 h4 h5 h6
  subst h2 h3 h4 h5 h6
  unfold forI at *
  rw [hMo, h1, bind_ok]
  simp only
  have hle := lastBefore_le ne out
  let x : Int := (M : Int) * (out : Int) + 1
  have hfill := forN_state (n := out - lastBefore ne out)
    (s := ((List.range out).map S, (List.range out).map T))
    (body := fun (i : Nat) (so : List Int × List Int) =>
      wr so.1 ((lastBefore ne out : Int) + (i : Int)) x >>= fun outstarts =>
      wr so.2 ((lastBefore ne out : Int) + (i : Int)) x >>= fun outstops => ok (outstarts, outstops))
    (fun n => ((List.range out).map (fun t => if lastBefore ne out ≤ t ∧ t < lastBefore ne out + n then x else S t),
      (List.range out).map (fun t => if lastBefore ne out ≤ t ∧ t < lastBefore ne out + n then x else T t)))
    (by
      simp only [Prod.mk.injEq]
      constructor <;> (apply map_range_congr; intro t _; rw [if_neg (by omega)]))
    (by
      intro i hi
      simp only
      rw [show (lastBefore ne out : Int) + (i : Int) = ((lastBefore ne out + i : Nat) : Int) by omega,
        wr_map_range (by omega), bind_ok, wr_map_range (by omega), bind_ok]
      congr 2
      · apply map_range_congr
        intro t _
        by_cases ht : t = lastBefore ne out + i
        · rw [if_pos ht, if_pos (by omega)]
        · rw [if_neg ht]
          by_cases h' : lastBefore ne out ≤ t ∧ t < lastBefore ne out + i
          · rw [if_pos h', if_pos (by omega)]
          · rw [if_neg h', if_neg (by omega)]
      · apply map_range_congr
        intro t _
        by_cases ht : t = lastBefore ne out + i
        · rw [if_pos ht, if_pos (by omega)]
        · rw [if_neg ht]
          by_cases h' : lastBefore ne out ≤ t ∧ t < lastBefore ne out + i
          · rw [if_pos h', if_pos (by omega)]
          · rw [if_neg h', if_neg (by omega)])
  refine ⟨fun t => if lastBefore ne out ≤ t ∧ t < lastBefore ne out + (out - lastBefore ne out) then x else S t,
    fun t => if lastBefore ne out ≤ t ∧ t < lastBefore ne out + (out - lastBefore ne out) then x else T t,
    ?_, ?_⟩
  · unfold forFrom
    rw [show ((out : Int) - (lastBefore ne out : Int)).toNat = out - lastBefore ne out by omega]
    exact hfill
  · intro p hp
    simp only
    by_cases h' : lastBefore ne out ≤ p
    · have hf : ne p = false := lastBefore_gap h' hp
      unfold SpanOk
      rw [if_neg (by rw [← hne, hf]; simp), if_pos (by omega), if_pos (by omega)]
    · rw [if_neg (by omega), if_neg (by omega)]
      exact h7 p (by omega)

end Kernels

end Awk
