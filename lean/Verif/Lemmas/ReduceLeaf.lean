import Verif.Lemmas.Maps
import Verif.Spec.Reduce
/-
The reducers on a one-dimensional array: every slot receives the items of its group.
-/

namespace Awk
open R

/-- The values of the positions below `n` whose group is `p`. -/
def grp (g : Nat → Nat) (v : Nat → α) (n p : Nat) : List α :=
  ((List.range n).filter (fun i => g i = p)).map v

theorem grp_zero (g : Nat → Nat) (v : Nat → α) (p : Nat) : grp g v 0 p = [] := rfl

theorem grp_succ (g : Nat → Nat) (v : Nat → α) (n p : Nat) :
    grp g v (n + 1) p = grp g v n p ++ (if g n = p then [v n] else []) := by
  unfold grp
  rw [List.range_succ, List.filter_append, List.map_append]
  by_cases h : g n = p <;> simp [h]

theorem grp_congr {g g' : Nat → Nat} {v v' : Nat → α} {n p : Nat} (h : ∀ i, i < n → g i = g' i)
    (h' : ∀ i, i < n → v i = v' i) : grp g v n p = grp g' v' n p := by
  unfold grp
  rw [List.filter_congr (q := fun i => decide (g' i = p)) (fun i hi => by
    rw [h i (List.mem_range.mp hi)])]
  apply List.map_congr_left
  intro i hi
  exact h' i (List.mem_range.mp (List.mem_filter.mp hi).1)

/-- A list of numbers as the C++ buffer. -/
def nats (g : Nat → Nat) (n : Nat) : List Int := (List.range n).map (fun i => (g i : Int))

@[simp] theorem nats_length (g : Nat → Nat) (n : Nat) : (nats g n).length = n := by simp [nats]

theorem nats_getElem {g : Nat → Nat} {n i : Nat} (h : i < (nats g n).length) :
    (nats g n)[i] = (g i : Int) := by simp [nats]

theorem rd_nats {g : Nat → Nat} {n i : Nat} (h : i < n) : rd (nats g n) (i : Int) = ok (g i : Int) := by
  rw [rd_nat_ok (by simpa using h), nats_getElem]

theorem rd_map_range {f : Nat → α} {n i : Nat} (h : i < n) :
    rd ((List.range n).map f) (i : Int) = ok (f i) := by
  rw [rd_nat_ok (by simpa using h)]; simp

theorem wr_map_range {f : Nat → α} {n i : Nat} {x : α} (h : i < n) :
    wr ((List.range n).map f) (i : Int) x
      = ok ((List.range n).map (fun k => if k = i then x else f k)) := by
  rw [wr_nat_ok (by simpa using h)]
  congr 1
  apply List.ext_getElem (by simp)
  intro k h1 h2
  simp only [List.getElem_set, List.getElem_map, List.getElem_range]
  by_cases hk : i = k
  · subst hk; simp
  · rw [if_neg hk, if_neg (by omega)]

theorem map_range_congr {f f' : Nat → α} {n : Nat} (h : ∀ i, i < n → f i = f' i) :
    (List.range n).map f = (List.range n).map f' :=
  List.map_congr_left (fun i hi => h i (List.mem_range.mp hi))

/-- A loop that fills every slot. -/
theorem forN_same {n : Nat} {x : α} {out : List α} (h : out.length = n) :
    forN n (fun i out => wr out (i : Int) x) out = ok ((List.range n).map (fun _ => x)) := by
  have h1 := forN_fill0 (n := n) (fun _ => ok x) out (by omega)
  simp only [bind_ok] at h1
  rw [h1, mapN_ok' (fun _ => x) (fun _ _ => rfl), bind_ok, List.drop_eq_nil_of_le (by omega)]
  simp

theorem reduceKernel_ok {init : Atom} {step : Atom → Atom → Atom} {toptr : List Atom} {g : Nat → Nat}
    {v : Nat → Atom} {n out : Nat} (hl : toptr.length = out) (hg : ∀ i, i < n → g i < out) :
    reduceKernel init step toptr ((List.range n).map v) (nats g n) n out
      = ok ((List.range out).map (fun p => (grp g v n p).foldl step init)) := by
  unfold reduceKernel
  rw [forN_same hl, bind_ok]
  suffices hs : ∀ m, m ≤ n → forN m (fun i toptr =>
      rd (nats g n) (i : Int) >>= fun parent => rd toptr parent >>= fun acc =>
      rd ((List.range n).map v) (i : Int) >>= fun x => wr toptr parent (step acc x))
      ((List.range out).map (fun _ => init))
      = ok ((List.range out).map (fun p => (grp g v m p).foldl step init)) from hs n (Nat.le_refl _)
  intro m
  induction m with
  | zero => intro _; simp [grp_zero]
  | succ m ih =>
    intro hm
    rw [forN_succ, ih (by omega), bind_ok, rd_nats (by omega), bind_ok,
      rd_map_range (hg m (by omega)), bind_ok, rd_map_range (by omega), bind_ok,
      wr_map_range (hg m (by omega))]
    congr 1
    apply map_range_congr
    intro p _
    rw [grp_succ]
    by_cases hp : p = g m
    · subst hp; simp
    · rw [if_neg hp, if_neg (Ne.symm hp)]; simp

theorem reduce_mask_ok {toptr : List Int} {g : Nat → Nat} {n out : Nat} (hl : toptr.length = out)
    (hg : ∀ i, i < n → g i < out) :
    NumpyArray_reduce_mask_ByteMaskedArray toptr (nats g n) n out
      = ok ((List.range out).map (fun p => if (grp g id n p).isEmpty then (1 : Int) else 0)) := by
  unfold NumpyArray_reduce_mask_ByteMaskedArray
  rw [forN_same hl, bind_ok]
  suffices hs : ∀ m, m ≤ n → forN m (fun i toptr =>
      rd (nats g n) (i : Int) >>= fun parent => wr toptr parent 0)
      ((List.range out).map (fun _ => (1 : Int)))
      = ok ((List.range out).map (fun p => if (grp g id m p).isEmpty then (1 : Int) else 0)) from
    hs n (Nat.le_refl _)
  intro m
  induction m with
  | zero => intro _; simp [grp_zero]
  | succ m ih =>
    intro hm
    rw [forN_succ, ih (by omega), bind_ok, rd_nats (by omega), bind_ok,
      wr_map_range (hg m (by omega))]
    congr 1
    apply map_range_congr
    intro p _
    rw [grp_succ]
    by_cases hp : p = g m
    · subst hp; simp
    · rw [if_neg hp, if_neg (Ne.symm hp)]; simp

theorem zeroparents_ok {out : List Int} {n : Nat} (h : out.length = n) :
    content_reduce_zeroparents out n = ok (nats (fun _ => 0) n) := by
  unfold content_reduce_zeroparents
  exact forN_same h

/-! ### The best position of every group -/

/-- The position the kernel keeps for a group whose members are `L`, in order. -/
def bestIn (better : Atom → Atom → Bool) (v : Nat → Atom) (L : List Nat) : Option Nat :=
  L.foldl (fun best i => match best with
    | none => some i
    | some b => if better (v i) (v b) then some i else some b) none

theorem bestIn_append (better : Atom → Atom → Bool) (v : Nat → Atom) (L : List Nat) (i : Nat) :
    bestIn better v (L ++ [i]) = match bestIn better v L with
      | none => some i
      | some b => if better (v i) (v b) then some i else some b := by
  simp [bestIn]

theorem bestIn_mem {better : Atom → Atom → Bool} {v : Nat → Atom} {L : List Nat} {b : Nat}
    (h : bestIn better v L = some b) : b ∈ L := by
  suffices hs : ∀ (L : List Nat) b, bestIn better v L.reverse = some b → b ∈ L by
    have := hs L.reverse b (by rwa [List.reverse_reverse])
    simpa using this
  clear h b L
  intro L
  induction L with
  | nil => intro b h; simp [bestIn] at h
  | cons i L ih =>
    intro b h
    rw [List.reverse_cons, bestIn_append] at h
    generalize hb : bestIn better v L.reverse = o at h
    cases o with
    | none =>
      simp only [Option.some.injEq] at h; subst h; simp
    | some b' =>
      simp only at h
      split at h
      · simp only [Option.some.injEq] at h; subst h; simp
      · simp only [Option.some.injEq] at h; subst h
        exact List.mem_cons_of_mem _ (ih _ hb)

/-- A position, or −1. -/
def optInt (o : Option Nat) : Int := match o with | some b => (b : Int) | none => -1

theorem reduceArgKernel_ok {better : Atom → Atom → Bool} {toptr : List Int} {g : Nat → Nat}
    {v : Nat → Atom} {n out : Nat} (hl : toptr.length = out) (hg : ∀ i, i < n → g i < out) :
    reduceArgKernel better toptr ((List.range n).map v) (nats g n) n out
      = ok ((List.range out).map (fun p => optInt (bestIn better v (grp g id n p)))) := by
  unfold reduceArgKernel
  rw [forN_same hl, bind_ok]
  suffices hs : ∀ m, m ≤ n → forN m (fun i toptr =>
      rd (nats g n) (i : Int) >>= fun parent => rd toptr parent >>= fun best =>
      if best = -1 then wr toptr parent (i : Int)
      else
        rd ((List.range n).map v) (i : Int) >>= fun x => rd ((List.range n).map v) best >>= fun y =>
        if better x y then wr toptr parent (i : Int) else ok toptr)
      ((List.range out).map (fun _ => (-1 : Int)))
      = ok ((List.range out).map (fun p => optInt (bestIn better v (grp g id m p)))) from
    hs n (Nat.le_refl _)
  intro m
  induction m with
  | zero => intro _; simp [grp_zero, bestIn, optInt]
  | succ m ih =>
    intro hm
    rw [forN_succ, ih (by omega), bind_ok, rd_nats (by omega), bind_ok,
      rd_map_range (hg m (by omega)), bind_ok]
    cases hb : bestIn better v (grp g id m (g m)) with
    | none =>
      rw [if_pos (show optInt none = -1 from rfl), wr_map_range (hg m (by omega))]
      congr 1
      apply map_range_congr
      intro p _
      rw [grp_succ]
      by_cases hp : p = g m
      · subst hp; simp [bestIn_append, hb, optInt]
      · rw [if_neg hp, if_neg (Ne.symm hp)]; simp
    | some b =>
      have hbm : b < m := by
        have := bestIn_mem hb
        simp only [grp, List.map_id, List.mem_filter, List.mem_range] at this
        exact this.1
      rw [if_neg (by simp [optInt]), rd_map_range (by omega), bind_ok,
        show optInt (some b) = (b : Int) from rfl, rd_map_range (by omega), bind_ok]
      by_cases hbt : better (v m) (v b) = true
      · rw [if_pos hbt, wr_map_range (hg m (by omega))]
        congr 1
        apply map_range_congr
        intro p _
        rw [grp_succ]
        by_cases hp : p = g m
        · subst hp; simp [bestIn_append, hb, hbt, optInt]
        · rw [if_neg hp, if_neg (Ne.symm hp)]; simp
      · rw [if_neg hbt]
        congr 1
        apply map_range_congr
        intro p _
        rw [grp_succ]
        by_cases hp : p = g m
        · subst hp; simp [bestIn_append, hb, hbt]
        · rw [if_neg (Ne.symm hp)]; simp

/-- `shifts[i]`, zero when there are none. -/
def shiftAt (shifts : List Int) (i : Nat) : Int := if shifts.length = 0 then 0 else shifts[i]?.getD 0

theorem adjust_starts_ok {g : Nat → Nat} {n out : Nat} {starts shifts : List Int}
    {best : Nat → Option Nat} (hb : ∀ p, p < out → ∀ b, best p = some b → b < n ∧ g b = p)
    (hs : out ≤ starts.length) (hsh : shifts.length = 0 ∨ shifts.length = n) :
    NumpyArray_reduce_adjust_starts ((List.range out).map (fun p => optInt (best p))) out (nats g n)
        starts shifts
      = ok ((List.range out).map (fun p => match best p with
          | some b => (b : Int) + (shiftAt shifts b - starts[p]?.getD 0)
          | none => -1)) := by
  unfold NumpyArray_reduce_adjust_starts
  suffices hs' : ∀ m, m ≤ out → forN m (fun k toptr =>
      rd toptr (k : Int) >>= fun i =>
      if i ≥ 0 then
        rd (nats g n) i >>= fun parent => rd starts parent >>= fun start =>
        (if shifts.length = 0 then ok 0 else rd shifts i) >>= fun shift =>
        wr toptr (k : Int) (i + (shift - start))
      else ok toptr) ((List.range out).map (fun p => optInt (best p)))
      = ok ((List.range out).map (fun p => if p < m then (match best p with
          | some b => (b : Int) + (shiftAt shifts b - starts[p]?.getD 0)
          | none => -1) else optInt (best p))) by
    rw [hs' out (Nat.le_refl _)]
    congr 1
    apply map_range_congr
    intro p hp
    rw [if_pos hp]
  intro m
  induction m with
  | zero => intro _; simp
  | succ m ih =>
    intro hm
    rw [forN_succ, ih (by omega), bind_ok, rd_map_range (by omega), bind_ok, if_neg (Nat.lt_irrefl m)]
    cases hbm : best m with
    | none =>
      rw [if_neg (by simp [optInt])]
      congr 1
      apply map_range_congr
      intro p hp
      by_cases h1 : p = m
      · subst h1; simp [hbm, optInt]
      · by_cases h2 : p < m
        · rw [if_pos h2, if_pos (by omega)]
        · rw [if_neg h2, if_neg (by omega)]
    | some b =>
      obtain ⟨h1, h2⟩ := hb m (by omega) b hbm
      rw [if_pos (by simp [optInt]), show optInt (some b) = (b : Int) from rfl, rd_nats h1, bind_ok, h2,
        rd_nat_ok (show m < starts.length by omega), bind_ok]
      have hsh' : (if shifts.length = 0 then ok 0 else rd shifts (b : Int)) = ok (shiftAt shifts b) := by
        unfold shiftAt
        by_cases h0 : shifts.length = 0
        · rw [if_pos h0, if_pos h0]
        · have : b < shifts.length := by omega
          rw [if_neg h0, if_neg h0, rd_nat_ok this, List.getElem?_eq_getElem this]; rfl
      rw [hsh', bind_ok, wr_map_range (by omega)]
      congr 1
      apply map_range_congr
      intro p hp
      by_cases h3 : p = m
      · subst h3
        rw [if_pos rfl, if_pos (by omega), hbm]
        simp [List.getElem?_eq_getElem (show p < starts.length by omega)]
      · rw [if_neg h3]
        by_cases h4 : p < m
        · rw [if_pos h4, if_pos (by omega)]
        · rw [if_neg h4, if_neg (by omega)]

end Awk
