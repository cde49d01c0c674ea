import Verif.Lemmas.SliceRange
import Verif.Spec.Partition

namespace Awk
open R Spec

/-- `((x % s) + s) % s` in C++ is the nonnegative remainder. -/
theorem tmod_fix {x s : Int} (hs : 0 < s) : (x.tmod s + s).tmod s = x % s := by
  have h := Int.tmod_lt_of_pos x hs
  have h' : -s < x.tmod s := by
    have := Int.lt_tmod_of_pos x hs
    exact this
  rw [Int.tmod_eq_emod_of_nonneg (by omega), Int.add_emod_right]
  obtain ⟨k, hk⟩ : ∃ k, x = x.tmod s + s * k := ⟨x.tdiv s, by rw [Int.tmod_add_mul_tdiv]⟩
  conv_rhs => rw [hk, Int.add_mul_emod_self_left]

theorem slicerange_pos (q : List α) {a b s : Int} (ha : 0 ≤ a) (hb : 0 ≤ b)
    (ha' : a ≠ kSliceNone) (hb' : b ≠ kSliceNone) (hs : 0 < s) (hs' : s ≠ kSliceNone) :
    getitem_slicerange q a b s = ok (selSlice (sel a b s) q 0) := by
  have := getitem_slicerange_eq q (start := some a) (stop := some b) (step := s)
    (by simpa [GoodArg] using ha') (by simpa [GoodArg] using hb') (by omega) hs'
  simp only [sliceArg] at this
  rw [this, pySlice_pos_eq _ _ _ hs]
  congr 1
  apply selSlice_congr
  intro i hi
  simp only [sel, pyIndices, if_pos hs, pyBound]
  rw [decide_eq_decide]
  have e1 : ¬ a < 0 := by omega
  have e2 : ¬ b < 0 := by omega
  simp only [e1, e2, if_false]
  by_cases h : a ≤ q.length
  · have e3 : max 0 (min (q.length : Int) a) = a := by omega
    rw [e3]
    constructor <;> (rintro ⟨h1, h2, h3⟩; exact ⟨by omega, by omega, h3⟩)
  · constructor
    · rintro ⟨h1, _, _⟩; omega
    · rintro ⟨h1, _, _⟩; omega

theorem slicerange_neg (q : List α) {a b s : Int} (ha : a < q.length) (hk : (q.length : Int) < kSliceNone)
    (hb' : b ≠ kSliceNone) (hs : s < 0) :
    getitem_slicerange q (if a < 0 then -q.length - 1 else a) (if b < 0 then -q.length - 1 else b) s
      = ok (selSlice (sel (q.length - 1 - a) (q.length - 1 - b) (-s)) q.reverse 0) := by
  have hkk : kSliceNone = 9223372036854775807 := rfl
  have := getitem_slicerange_eq q (start := some (if a < 0 then -q.length - 1 else a))
    (stop := some (if b < 0 then -q.length - 1 else b)) (step := s)
    (by simp only [GoodArg, ne_eq, Option.some.injEq]; split <;> omega)
    (by simp only [GoodArg, ne_eq, Option.some.injEq]; split <;> omega) (by omega) (by omega)
  simp only [sliceArg] at this
  rw [this, pySlice_neg_eq _ _ _ hs]
  congr 1
  apply selSlice_congr
  intro i hi
  simp at hi
  have hs' : ¬ 0 < s := by omega
  simp only [sel, pyIndices, if_neg hs', pyBound]
  rw [decide_eq_decide]
  by_cases h : a < 0
  · simp only [h, if_true]
    constructor
    · rintro ⟨h1, _, _⟩; exfalso; revert h1; split <;> omega
    · rintro ⟨h1, _, _⟩; omega
  · have e3 : max (-1) (min ((q.length : Int) - 1) (if (if a < 0 then -(q.length:Int) - 1 else a) < 0
        then (if a < 0 then -(q.length:Int) - 1 else a) + q.length
        else (if a < 0 then -(q.length:Int) - 1 else a))) = a := by
      simp only [h, if_false]; omega
    rw [e3]
    constructor
    · rintro ⟨h1, h2, h3⟩
      refine ⟨h1, ?_, h3⟩
      revert h2; repeat' split
      all_goals omega
    · rintro ⟨h1, h2, h3⟩
      refine ⟨h1, ?_, h3⟩
      repeat' split
      all_goals omega

/-! ### The partition search -/

theorem findPartition_spec (at_ : Int) (parts : List (List α)) (i start : Int) (h0 : start ≤ at_) :
    (∃ k : Nat, ∃ hk : k < parts.length,
        PArr.findPartition at_ (runningTotals start parts) i start
          = (i + k, at_ - (start + (parts.take k).flatten.length)) ∧
        start + (parts.take k).flatten.length ≤ at_ ∧
        at_ < start + (parts.take (k + 1)).flatten.length) ∨
    (PArr.findPartition at_ (runningTotals start parts) i start = (i + parts.length, 0) ∧
      start + parts.flatten.length ≤ at_) := by
  induction parts generalizing i start with
  | nil => right; simp [runningTotals, PArr.findPartition, h0]
  | cons q qs ih =>
    by_cases h : at_ < start + q.length
    · left
      refine ⟨0, by simp, ?_, ?_, ?_⟩
      · simp [runningTotals, PArr.findPartition, h]
      · simpa using h0
      · simpa using h
    · have := ih (i + 1) (start + q.length) (by omega)
      have e : PArr.findPartition at_ (runningTotals start (q :: qs)) i start
          = PArr.findPartition at_ (runningTotals (start + q.length) qs) (i + 1) (start + q.length) := by
        simp only [runningTotals, PArr.findPartition, if_neg h]
      rw [e]
      rcases this with ⟨k, hk, h1, h2, h3⟩ | ⟨h1, h2⟩
      · left
        refine ⟨k + 1, by simpa using hk, ?_, ?_, ?_⟩
        · rw [h1]; simp only [List.take_succ_cons, List.flatten_cons, List.length_append]
          push_cast
          congr 1 <;> ring
        · simp only [List.take_succ_cons, List.flatten_cons, List.length_append]; push_cast; omega
        · simp only [List.take_succ_cons, List.flatten_cons, List.length_append]; push_cast; push_cast at h3; omega
      · right
        refine ⟨?_, ?_⟩
        · rw [h1]; simp only [List.length_cons]; push_cast; congr 1; ring
        · simp only [List.flatten_cons, List.length_append]; push_cast; omega

/-- Start position of partition `k`. -/
def PArr.base (p : PArr α) (k : Nat) : Int := (p.parts.take k).flatten.length

theorem PArr.base_succ (p : PArr α) {k : Nat} (hk : k < p.parts.length) :
    p.base (k + 1) = p.base k + (p.parts[k]).length := by
  unfold PArr.base
  rw [List.take_succ_eq_append_getElem hk, List.flatten_append, List.length_append]
  simp only [List.flatten_cons, List.flatten_nil, List.append_nil]
  push_cast; rfl

theorem PArr.base_mono (p : PArr α) {j k : Nat} (h : j ≤ k) : p.base j ≤ p.base k := by
  unfold PArr.base
  have : p.parts.take j = (p.parts.take k).take j := by rw [List.take_take]; congr 1; omega
  rw [this]
  have h2 : (p.parts.take k).flatten.length
      = ((p.parts.take k).take j).flatten.length + ((p.parts.take k).drop j).flatten.length := by
    rw [← List.length_append, ← List.flatten_append, List.take_append_drop]
  omega

theorem PArr.base_all (p : PArr α) {k : Nat} (h : p.parts.length ≤ k) :
    p.base k = p.parts.flatten.length := by
  unfold PArr.base; rw [List.take_of_length_le h]

@[simp] theorem PArr.base_zero (p : PArr α) : p.base 0 = 0 := by simp [PArr.base]

theorem PArr.base_nonneg (p : PArr α) (k : Nat) : 0 ≤ p.base k := by unfold PArr.base; omega

/-- What the search returns, in one statement: the partition `k` and index inside it. -/
theorem partitionid_spec {p : PArr α} (hv : PartitionsOk p) {at_ : Int} (h0 : 0 ≤ at_) :
    (∃ k : Nat, k < p.parts.length ∧ p.partitionid_index_at at_ = ((k : Int), at_ - p.base k) ∧
        p.base k ≤ at_ ∧ at_ < p.base (k + 1)) ∨
    (p.partitionid_index_at at_ = ((p.parts.length : Int), 0) ∧
      (p.parts.flatten.length : Int) ≤ at_) := by
  have := findPartition_spec at_ p.parts 0 0 h0
  unfold PArr.partitionid_index_at
  rw [if_neg (by omega), hv.2]
  rcases this with ⟨k, hk, h1, h2, h3⟩ | ⟨h1, h2⟩
  · left; refine ⟨k, hk, ?_, by simpa [PArr.base] using h2, by simpa [PArr.base] using h3⟩
    rw [h1]; simp [PArr.base]
  · right; refine ⟨by rw [h1]; simp, by simpa using h2⟩

theorem runningTotals_length (start : Int) (parts : List (List α)) :
    (runningTotals start parts).length = parts.length := by
  induction parts generalizing start with
  | nil => rfl
  | cons q qs ih => simp [runningTotals, ih]

theorem runningTotals_append (start : Int) (ps qs : List (List α)) :
    runningTotals start (ps ++ qs)
      = runningTotals start ps ++ runningTotals (start + ps.flatten.length) qs := by
  induction ps generalizing start with
  | nil => simp [runningTotals]
  | cons q ps ih =>
    simp only [List.cons_append, runningTotals, ih, List.flatten_cons, List.length_append]
    push_cast
    rw [add_assoc]

theorem runningTotals_last (start : Int) {parts : List (List α)} (h : parts ≠ []) :
    (runningTotals start parts).getLast? = some (start + parts.flatten.length) := by
  obtain ⟨ps, q, rfl⟩ : ∃ ps q, parts = ps ++ [q] :=
    ⟨parts.dropLast, parts.getLast h, (List.dropLast_concat_getLast h).symm⟩
  rw [runningTotals_append]
  simp [runningTotals, add_assoc]

theorem PArr.length_eq {p : PArr α} (hv : PartitionsOk p) :
    p.length = ok ((unpartitioned p).length : Int) := by
  unfold PArr.length
  rw [hv.2, runningTotals_last 0 hv.1]; simp [unpartitioned]

/-- Element `base k + i` of the whole is element `i` of partition `k`. -/
theorem flatten_get {p : PArr α} {k : Nat} (hk : k < p.parts.length) {i : Nat}
    (hi : i < (p.parts[k]).length) :
    p.parts.flatten[(p.base k).toNat + i]? = some (p.parts[k])[i] := by
  have e : p.parts = p.parts.take k ++ p.parts[k] :: p.parts.drop (k + 1) := by
    rw [← List.drop_eq_getElem_cons hk, List.take_append_drop]
  conv_lhs => rw [e]
  have hb : (p.base k).toNat = (p.parts.take k).flatten.length := by unfold PArr.base; omega
  rw [List.flatten_append, List.flatten_cons, hb, List.getElem?_append_right (by omega),
    Nat.add_sub_cancel_left, List.getElem?_append_left hi, List.getElem?_eq_getElem hi]

/-! ### Slicing with a positive step -/

/-- Loop state invariant shared by both directions. -/
structure PArr.StOk (st : PArr.St α) (xs : List α) : Prop where
  flat : st.parts.flatten = xs
  tot : st.total = st.parts.flatten.length
  stops : st.stops = runningTotals 0 st.parts

theorem PArr.StOk.push {st : PArr.St α} {xs r : List α} (h : PArr.StOk st xs) :
    PArr.StOk (st.push r) (xs ++ r) := by
  unfold PArr.St.push
  by_cases hr : r.length > 0
  · simp only [hr, if_true]
    refine ⟨by simp [h.flat], by simp [h.tot], ?_⟩
    simp only [runningTotals_append, runningTotals, h.stops, h.tot]; simp
  · have : r = [] := List.length_eq_zero_iff.mp (by omega)
    subst this
    simp only [List.length_nil, Nat.lt_irrefl, gt_iff_lt, if_false]
    exact ⟨by simp [h.flat], by simp [h.tot], h.stops⟩

theorem PArr.St.push_offset (st : PArr.St α) (r : List α) : (st.push r).offset = st.offset := by
  unfold PArr.St.push; split <;> rfl

theorem PArr.StOk.offset {st : PArr.St α} {xs : List α} (h : PArr.StOk st xs) (o : Int) :
    PArr.StOk { st with offset := o } xs := ⟨h.flat, h.tot, h.stops⟩

theorem PArr.finish_ok {st : PArr.St α} {xs : List α} (h : PArr.StOk st xs) :
    ∃ q, PArr.finish st = ok q ∧ PartitionsOk q ∧ unpartitioned q = xs := by
  unfold PArr.finish
  by_cases he : st.parts = []
  · refine ⟨⟨[[]], [0]⟩, ?_, ⟨by simp, by simp [runningTotals]⟩, ?_⟩
    · simp [he, PArr.mk?]
    · simp [unpartitioned, ← h.flat, he]
  · refine ⟨⟨st.parts, st.stops⟩, ?_, ⟨he, h.stops⟩, h.flat⟩
    have h2 : st.parts.length = st.stops.length := by rw [h.stops, runningTotals_length]
    simp [he, PArr.mk?, h2]

theorem sel_mono_eq {lo hi s base i a b : Int} (hdvd : s ∣ (base + a - lo))
    (h1 : (lo ≤ base + i ∧ base + i < hi) ∧ s ∣ (base + i - lo) ↔ (a ≤ i ∧ i < b) ∧ s ∣ (i - a)) :
    sel lo hi s (base + i) = sel a b s (0 + i) := by
  unfold sel
  rw [decide_eq_decide, zero_add, ← Int.dvd_iff_emod_eq_zero, ← Int.dvd_iff_emod_eq_zero,
    ← and_assoc, ← and_assoc]
  exact h1

theorem dvd_shift {s base a lo i : Int} (hdvd : s ∣ (base + a - lo)) :
    s ∣ (base + i - lo) ↔ s ∣ (i - a) := by
  have e : base + i - lo = (base + a - lo) + (i - a) := by ring
  rw [e]; exact Int.dvd_add_right hdvd

theorem take1_eq (q : List α) {a b : Int} (h0 : 0 ≤ a) (h1 : a ≤ b) (h2 : b ≤ q.length) :
    Awk.getitem_range_nowrap q a b = ok (selSlice (sel a b 1) q 0) := by
  unfold Awk.getitem_range_nowrap
  rw [if_pos ⟨h0, h1, h2⟩]
  congr 1
  have e : q = q.take a.toNat ++ ((q.drop a.toNat).take (b - a).toNat
      ++ (q.drop a.toNat).drop (b - a).toNat) := by
    rw [List.take_append_drop, List.take_append_drop]
  conv_rhs => rw [e]
  rw [selSlice_append, selSlice_append, selSlice_none, selSlice_all, selSlice_none]
  · simp
  · intro i hi
    simp [sel]
    intro h; simp at h hi; omega
  · intro i hi
    simp [sel]
    simp at hi; omega
  · intro i hi
    simp [sel]; simp at hi; omega

theorem dvd_small {s d : Int} (h : s ∣ d) (h2 : -s < d) (hs : 0 < s) : 0 ≤ d := by
  obtain ⟨k, rfl⟩ := h
  have : -1 < k := by
    by_contra hk
    have : s * k ≤ s * (-1) := Int.mul_le_mul_of_nonneg_left (by omega) (by omega)
    omega
  exact Int.mul_nonneg (by omega) (by omega)

theorem posLoop {p : PArr α} (hv : PartitionsOk p) {lo hi s : Int} (h0 : 0 ≤ lo) (h1 : lo ≤ hi)
    (h2 : hi ≤ (unpartitioned p).length) (hk : ((unpartitioned p).length : Int) < kSliceNone)
    (hs : 0 < s) (hs' : s < kSliceNone) :
    ∃ q, p.getitem_range_nowrap lo hi s = ok q ∧ PartitionsOk q ∧
      unpartitioned q = selSlice (sel lo hi s) (unpartitioned p) 0 := by
  -- the partition where the slice starts and the one where it stops
  obtain ⟨f, ixs, hf, hf1, hf2, hf3⟩ : ∃ (f : Nat) (ixs : Int),
      p.partitionid_index_at lo = ((f : Int), ixs) ∧ p.base f ≤ lo ∧
      (f < p.parts.length → ixs = lo - p.base f ∧ lo < p.base (f + 1)) ∧ f ≤ p.parts.length := by
    rcases partitionid_spec hv h0 with ⟨k, hk, h, h3, h4⟩ | ⟨h, h3⟩
    · exact ⟨k, _, h, h3, fun _ => ⟨rfl, h4⟩, by omega⟩
    · exact ⟨p.parts.length, 0, h, by rw [p.base_all (le_refl _)]; exact h3, by omega, le_refl _⟩
  obtain ⟨l, ixe, hl, hl1, hl2, hl3⟩ : ∃ (l : Nat) (ixe : Int),
      p.partitionid_index_at hi = ((l : Int), ixe) ∧ p.base l ≤ hi ∧
      (l < p.parts.length → ixe = hi - p.base l ∧ hi < p.base (l + 1)) ∧ l ≤ p.parts.length := by
    rcases partitionid_spec hv (by omega : 0 ≤ hi) with ⟨k, hk, h, h3, h4⟩ | ⟨h, h3⟩
    · exact ⟨k, _, h, h3, fun _ => ⟨rfl, h4⟩, by omega⟩
    · exact ⟨p.parts.length, 0, h, by rw [p.base_all (le_refl _)]; exact h3, by omega, le_refl _⟩
  have hbT : ∀ k, p.base k ≤ (unpartitioned p).length := by
    intro k
    rw [unpartitioned, ← p.base_all (le_max_right k p.parts.length)]
    exact p.base_mono (le_max_left _ _)
  unfold PArr.getitem_range_nowrap
  rw [hf, hl]
  simp only [gt_iff_lt, hs, if_true]
  -- number of iterations
  let B : Nat := min p.parts.length (l + 1)
  have hB : min p.numpartitions ((l : Int) + 1) = (B : Int) := by
    simp only [PArr.numpartitions, B]; omega
  rw [hB]
  have hfB : f ≤ B := by
    simp only [B]
    by_contra hc
    have hlf : l + 1 ≤ f := by omega
    have : l < p.parts.length := by omega
    have := (hl2 this).2
    have := p.base_mono hlf
    omega
  unfold forFrom
  have hcount : ((B : Int) - f).toNat = B - f := by omega
  rw [hcount]
  obtain ⟨st, hst, hinv, _⟩ := forN_inv (n := B - f)
    (body := fun i => PArr.posBody p f l ixs ixe s ((f : Int) + (i : Int)))
    (s := (⟨[], [], 0, 0⟩ : PArr.St α))
    (P := fun i st =>
      PArr.StOk st (selSlice (sel lo hi s) (p.parts.take (f + i)).flatten 0) ∧
      (1 ≤ i → s ≠ 1 → f + i ≤ l →
        0 ≤ st.offset ∧ st.offset < s ∧ s ∣ (p.base (f + i) + st.offset - lo)))
    (by
      refine ⟨⟨?_, rfl, rfl⟩, by omega⟩
      rw [selSlice_none]; · rfl
      intro i hi
      simp [sel]
      intro h
      have : (i : Int) < p.base f := by unfold PArr.base; simpa using hi
      omega)
    (by
      intro i hi' st ⟨hok, hoff⟩
      have hj : f + i < p.parts.length := by simp only [B] at hi'; omega
      have hjl : f + i ≤ l := by simp only [B] at hi'; omega
      set q := p.parts[f + i] with hq
      have hb1 := p.base_succ hj
      rw [← hq] at hb1
      have hbj := hbT (f + i + 1)
      have hb0 := p.base_nonneg (f + i)
      have hrd : rd p.parts ((f : Int) + (i : Int)) = ok q := by
        rw [← Int.natCast_add]; exact rd_nat_ok hj
      have hnext : selSlice (sel lo hi s) (p.parts.take (f + (i + 1))).flatten 0
          = selSlice (sel lo hi s) (p.parts.take (f + i)).flatten 0
            ++ selSlice (sel lo hi s) q (p.base (f + i)) := by
        rw [← Nat.add_assoc, List.take_succ_eq_append_getElem hj, List.flatten_append, selSlice_append]
        simp only [PArr.base, hq, List.flatten_cons, List.flatten_nil, List.append_nil, zero_add]
      rw [hnext]
      -- it suffices to find the slice of this partition and the new offset
      suffices hmain : ∃ r o, PArr.posBody p f l ixs ixe s ((f : Int) + (i : Int)) st
            = ok (({ st with offset := o } : PArr.St α).push r) ∧
          r = selSlice (sel lo hi s) q (p.base (f + i)) ∧
          (s ≠ 1 → f + (i + 1) ≤ l → 0 ≤ o ∧ o < s ∧ s ∣ (p.base (f + (i + 1)) + o - lo)) by
        obtain ⟨r, o, hr1, hr2, hr3⟩ := hmain
        refine ⟨_, hr1, ?_, ?_⟩
        · rw [← hr2]; exact (hok.offset o).push
        · intro _ hs1 hle
          rw [PArr.St.push_offset]; exact hr3 hs1 hle
      unfold PArr.posBody
      rw [hrd, bind_ok]
      have hqk : (q.length : Int) ≠ kSliceNone := by omega
      have hq0 : (0 : Int) ≤ q.length := by omega
      by_cases hi0 : i = 0
      · subst hi0
        have hff := hf2 hj
        obtain ⟨rfl, hff2⟩ := hff
        simp only [Nat.add_zero, Int.natCast_zero, add_zero] at *
        by_cases hfl : f = l
        · -- the slice starts and stops in this partition
          subst hfl
          obtain ⟨rfl, hll⟩ := hl2 hj
          rw [if_pos ⟨trivial, rfl⟩]
          refine ⟨selSlice (sel (lo - p.base f) (hi - p.base f) s) q 0, st.offset, ?_, ?_, by omega⟩
          · by_cases hs1 : s = 1
            · subst hs1
              rw [if_pos rfl, take1_eq q (by omega) (by omega) (by omega)]; rfl
            · rw [if_neg hs1, slicerange_pos q (by omega) (by omega) (by omega) (by omega) hs (by omega)]; rfl
          · apply selSlice_congr
            intro i _
            simp only [sel]
            rw [decide_eq_decide]
            have e : 0 + (i : Int) - (lo - p.base f) = p.base f + i - lo := by ring
            rw [e]
            constructor <;> (rintro ⟨h3, h4, h5⟩; exact ⟨by omega, by omega, h5⟩)
        · have hfl' : ¬ (True ∧ (f : Int) = (l : Int)) := by omega
          have hbl := p.base_mono (by omega : f + 1 ≤ l)
          rw [if_neg hfl', if_pos trivial]
          have hr : selSlice (sel (lo - p.base f) q.length s) q 0
              = selSlice (sel lo hi s) q (p.base f) := by
            apply selSlice_congr
            intro i hi2
            simp only [sel]
            rw [decide_eq_decide]
            have e : 0 + (i : Int) - (lo - p.base f) = p.base f + i - lo := by ring
            rw [e]
            constructor <;> (rintro ⟨h3, h4, h5⟩; exact ⟨by omega, by omega, h5⟩)
          by_cases hs1 : s = 1
          · subst hs1
            rw [if_pos rfl, take1_eq q (by omega) (by omega) (by omega)]
            exact ⟨_, st.offset, rfl, hr, fun h => absurd rfl h⟩
          · rw [if_neg hs1, slicerange_pos q (by omega) (by omega) (by omega) (by omega) hs (by omega)]
            refine ⟨_, _, rfl, hr, fun _ _ => ?_⟩
            rw [tmod_fix hs]
            refine ⟨Int.emod_nonneg _ (by omega), Int.emod_lt_of_pos _ hs, ?_⟩
            have e : p.base (f + (0 + 1)) + (lo - p.base f - (q.length : Int)) % s - lo
                = -((lo - p.base f - (q.length : Int)) - (lo - p.base f - (q.length : Int)) % s) := by
              rw [Nat.zero_add, hb1]; ring
            rw [e]
            exact (Int.dvd_neg).mpr (Int.dvd_self_sub_emod)
      · have hi1 : 1 ≤ i := by omega
        have hff := hf2 (by omega)
        have hbf := p.base_mono (by omega : f + 1 ≤ f + i)
        have hne1 : ¬ (((f : Int) + (i : Int)) = (f : Int) ∧ ((f : Int) + (i : Int)) = (l : Int)) := by
          omega
        have hne2 : ¬ ((f : Int) + (i : Int)) = (f : Int) := by omega
        rw [if_neg hne1, if_neg hne2]
        have hr : ∀ b : Int, s ≠ 1 → (∀ i' : Nat, i' < q.length →
              (p.base (f + i) + (i' : Int) < hi ↔ (i' : Int) < b)) →
            selSlice (sel st.offset b s) q 0 = selSlice (sel lo hi s) q (p.base (f + i)) := by
          intro b hs1 hbb
          obtain ⟨ho1, ho2, ho3⟩ := hoff hi1 hs1 hjl
          apply Eq.symm
          apply selSlice_congr
          intro i' hi2
          apply sel_mono_eq ho3
          rw [dvd_shift ho3]
          constructor
          · rintro ⟨⟨_, h4⟩, h5⟩
            have := dvd_small h5 (by omega) hs
            exact ⟨⟨by omega, (hbb i' hi2).mp h4⟩, h5⟩
          · rintro ⟨⟨_, h4⟩, h5⟩
            exact ⟨⟨by omega, (hbb i' hi2).mpr h4⟩, h5⟩
        by_cases hil : f + i = l
        · -- the last partition
          have hil' : ((f : Int) + (i : Int)) = (l : Int) := by omega
          obtain ⟨rfl, hll⟩ := hl2 (by omega)
          subst hil
          rw [if_pos hil']
          by_cases hs1 : s = 1
          · subst hs1
            rw [if_pos rfl, take1_eq q (by omega) (by omega) (by omega)]
            refine ⟨_, st.offset, rfl, ?_, by omega⟩
            apply selSlice_congr
            intro i' hi2
            simp only [sel]
            rw [decide_eq_decide]
            constructor <;> (rintro ⟨h3, h4, h5⟩; exact ⟨by omega, by omega, by omega⟩)
          · obtain ⟨ho1, ho2, ho3⟩ := hoff hi1 hs1 hjl
            rw [if_neg hs1, slicerange_pos q (by omega) (by omega) (by omega) (by omega) hs (by omega)]
            refine ⟨_, st.offset, rfl, hr _ hs1 (fun i' _ => by omega), by omega⟩
        · have hil' : ¬ ((f : Int) + (i : Int)) = (l : Int) := by omega
          have hbl := p.base_mono (by omega : f + i + 1 ≤ l)
          rw [if_neg hil']
          by_cases hs1 : s = 1
          · subst hs1
            simp only [ne_eq, not_true_eq_false, if_false]
            refine ⟨q, st.offset, rfl, ?_, fun h => h.elim⟩
            rw [selSlice_all]
            intro i' hi2
            simp [sel]; omega
          · obtain ⟨ho1, ho2, ho3⟩ := hoff hi1 hs1 hjl
            rw [if_pos hs1, slicerange_pos q (by omega) (by omega) (by omega) (by omega) hs (by omega)]
            refine ⟨_, _, rfl, hr _ hs1 (fun i' _ => by omega), fun _ _ => ?_⟩
            rw [tmod_fix hs]
            refine ⟨Int.emod_nonneg _ (by omega), Int.emod_lt_of_pos _ hs, ?_⟩
            have e : p.base (f + (i + 1)) + (st.offset - (q.length : Int)) % s - lo
                = (p.base (f + i) + st.offset - lo)
                  + -((st.offset - (q.length : Int)) - (st.offset - (q.length : Int)) % s) := by
              rw [← Nat.add_assoc, hb1]; ring
            rw [e]
            exact Int.dvd_add ho3 ((Int.dvd_neg).mpr (Int.dvd_self_sub_emod)))
  rw [hst, bind_ok]
  have hend : selSlice (sel lo hi s) (p.parts.take (f + (B - f))).flatten 0
      = selSlice (sel lo hi s) (unpartitioned p) 0 := by
    have e1 : f + (B - f) = B := by omega
    rw [e1]
    have e2 : unpartitioned p = (p.parts.take B).flatten ++ (p.parts.drop B).flatten := by
      rw [← List.flatten_append, List.take_append_drop]; rfl
    rw [e2, selSlice_append, selSlice_none (xs := (p.parts.drop B).flatten), List.append_nil]
    intro i hi'
    by_cases hBn : B = p.parts.length
    · rw [hBn] at hi'; simp at hi'
    · have : B = l + 1 := by simp only [B] at hBn ⊢; omega
      have hll := (hl2 (by omega)).2
      rw [← this] at hll
      unfold PArr.base at hll
      simp only [sel, decide_eq_false_iff_not]
      rintro ⟨_, h5, _⟩
      omega
  rw [← hend]
  exact PArr.finish_ok hinv

/-! ### Slicing with a negative step -/

theorem negLoop {p : PArr α} (hv : PartitionsOk p) {lo hi s : Int} (h0 : -1 ≤ hi) (h1 : hi ≤ lo)
    (h2 : lo < (unpartitioned p).length) (hk : ((unpartitioned p).length : Int) < kSliceNone)
    (hs : s < 0) (hs' : -s < kSliceNone) :
    ∃ q, p.getitem_range_nowrap lo hi s = ok q ∧ PartitionsOk q ∧
      unpartitioned q = selSlice (sel ((unpartitioned p).length - 1 - lo)
        ((unpartitioned p).length - 1 - hi) (-s)) (unpartitioned p).reverse 0 := by
  have hNk : kSliceNone = 9223372036854775807 := rfl
  set N : Int := ((unpartitioned p).length : Int) with hN
  have hbT : ∀ k, p.base k ≤ N := by
    intro k
    rw [hN, unpartitioned, ← p.base_all (le_max_right k p.parts.length)]
    exact p.base_mono (le_max_left _ _)
  have hsuf : ∀ k, ((p.parts.drop k).flatten.length : Int) = N - p.base k := by
    intro k
    have : (unpartitioned p).length = (p.parts.take k).flatten.length + (p.parts.drop k).flatten.length := by
      rw [← List.length_append, ← List.flatten_append, List.take_append_drop]; rfl
    unfold PArr.base; omega
  by_cases hlo : lo = -1
  · -- nothing is selected
    subst hlo
    have : hi = -1 := by omega
    subst this
    have e : p.partitionid_index_at (-1) = (-1, -1) := by simp [PArr.partitionid_index_at]
    unfold PArr.getitem_range_nowrap
    rw [e]
    have hs0 : ¬ s > 0 := by omega
    simp only [hs0, if_false, hs, if_true]
    have : (-1 - max 0 (-1) + 1 : Int) = 0 := by omega
    rw [this]
    rw [selSlice_none]
    · exact PArr.finish_ok (st := (⟨[], [], 0, 0⟩ : PArr.St α)) ⟨rfl, rfl, rfl⟩
    · intro i _; simp [sel]; omega
  obtain ⟨f, hfn, hf, hf1, hf2⟩ : ∃ (f : Nat), f < p.parts.length ∧
      p.partitionid_index_at lo = ((f : Int), lo - p.base f) ∧ p.base f ≤ lo ∧ lo < p.base (f + 1) := by
    rcases partitionid_spec hv (by omega : 0 ≤ lo) with ⟨k, hk, h, h3, h4⟩ | ⟨h, h3⟩
    · exact ⟨k, hk, h, h3, h4⟩
    · rw [hN, unpartitioned] at h2; omega
  obtain ⟨last, l, ixe, hl, hml, hl1, hl2, hl3⟩ : ∃ (last : Int) (l : Nat) (ixe : Int),
      p.partitionid_index_at hi = (last, ixe) ∧ max 0 last = (l : Int) ∧ l ≤ f ∧
      (∀ j : Nat, (j : Int) = last → ixe = hi - p.base j ∧ p.base j ≤ hi) ∧
      (∀ j : Nat, last < (j : Int) → hi < p.base j) := by
    by_cases hh : hi = -1
    · subst hh
      refine ⟨-1, 0, -1, by simp [PArr.partitionid_index_at], by simp, by omega, by omega, ?_⟩
      intro j _; have := p.base_nonneg j; omega
    · rcases partitionid_spec hv (by omega : 0 ≤ hi) with ⟨k, hk, h, h3, h4⟩ | ⟨h, h3⟩
      · refine ⟨k, k, _, h, by omega, ?_, ?_, ?_⟩
        · by_contra hc
          have := p.base_mono (by omega : f + 1 ≤ k)
          omega
        · intro j hj
          have : j = k := by omega
          subst this; exact ⟨rfl, h3⟩
        · intro j hj
          have := p.base_mono (by omega : k + 1 ≤ j)
          omega
      · rw [hN, unpartitioned] at h2; omega
  unfold PArr.getitem_range_nowrap
  rw [hf, hl]
  have hs0 : ¬ s > 0 := by omega
  simp only [hs0, if_false, hs, if_true]
  rw [hml]
  unfold forI
  have hcount : ((f : Int) - l + 1).toNat = f - l + 1 := by omega
  rw [hcount]
  obtain ⟨st, hst, hinv, _⟩ := forN_inv (n := f - l + 1)
    (body := fun i => PArr.negBody p f last (lo - p.base f) ixe s ((f : Int) - (i : Int)))
    (s := (⟨[], [], 0, 0⟩ : PArr.St α))
    (P := fun i st =>
      PArr.StOk st (selSlice (sel (N - 1 - lo) (N - 1 - hi) (-s)) (p.parts.drop (f + 1 - i)).flatten.reverse 0) ∧
      (1 ≤ i → last < (f : Int) + 1 - i →
        0 ≤ st.offset ∧ st.offset < -s ∧ -s ∣ (N - p.base (f + 1 - i) + st.offset - (N - 1 - lo))))
    (by
      refine ⟨⟨?_, rfl, rfl⟩, by omega⟩
      rw [selSlice_none]; · rfl
      intro i hi
      have h3 := hsuf (f + 1)
      simp only [Nat.sub_zero, List.length_reverse] at hi
      simp [sel]
      omega)
    (by
      intro i hi' st ⟨hok, hoff⟩
      obtain ⟨j, hj⟩ : ∃ j, f = j + i := ⟨f - i, by omega⟩
      have hjn : j < p.parts.length := by omega
      have ej1 : f + 1 - i = j + 1 := by omega
      have ej : f + 1 - (i + 1) = j := by omega
      rw [ej1] at hok hoff
      rw [ej]
      have eji : (f : Int) - (i : Int) = (j : Int) := by omega
      rw [eji]
      set q := p.parts[j] with hq
      have hb1 := p.base_succ hjn
      rw [← hq] at hb1
      have hbj := hbT (j + 1)
      have hb0 := p.base_nonneg j
      have hrd : rd p.parts (j : Int) = ok q := rd_nat_ok hjn
      have hnext : selSlice (sel (N - 1 - lo) (N - 1 - hi) (-s)) (p.parts.drop j).flatten.reverse 0
          = selSlice (sel (N - 1 - lo) (N - 1 - hi) (-s)) (p.parts.drop (j + 1)).flatten.reverse 0
            ++ selSlice (sel (N - 1 - lo) (N - 1 - hi) (-s)) q.reverse (N - p.base (j + 1)) := by
        rw [List.drop_eq_getElem_cons hjn, List.flatten_cons, List.reverse_append, selSlice_append]
        rw [List.length_reverse, hsuf (j + 1), zero_add]
      rw [hnext]
      suffices hmain : ∃ r o, PArr.negBody p f last (lo - p.base f) ixe s (j : Int) st
            = ok (({ st with offset := o } : PArr.St α).push r) ∧
          r = selSlice (sel (N - 1 - lo) (N - 1 - hi) (-s)) q.reverse (N - p.base (j + 1)) ∧
          (last < (j : Int) → 0 ≤ o ∧ o < -s ∧ -s ∣ (N - p.base j + o - (N - 1 - lo))) by
        obtain ⟨r, o, hr1, hr2, hr3⟩ := hmain
        refine ⟨_, hr1, ?_, ?_⟩
        · rw [← hr2]; exact (hok.offset o).push
        · intro _ hle
          rw [PArr.St.push_offset]; exact hr3 (by omega)
      unfold PArr.negBody
      rw [hrd, bind_ok]
      have hsp : 0 < -s := by omega
      have hlj : (last : Int) ≤ j := by omega
      by_cases hi0 : i = 0
      · have hjf : j = f := by omega
        subst hjf
        have hr : ∀ b : Int, (∀ i' : Nat, i' < q.length →
              (N - p.base (j + 1) + (i' : Int) < N - 1 - hi ↔ (i' : Int) < q.length - 1 - b)) →
            selSlice (sel (q.length - 1 - (lo - p.base j)) (q.length - 1 - b) (-s)) q.reverse 0
              = selSlice (sel (N - 1 - lo) (N - 1 - hi) (-s)) q.reverse (N - p.base (j + 1)) := by
          intro b hb
          apply selSlice_congr
          intro i' hi2
          simp only [List.length_reverse] at hi2
          have hb2 := hb i' hi2
          simp only [sel]
          rw [decide_eq_decide]
          have e : 0 + (i' : Int) - (q.length - 1 - (lo - p.base j))
              = N - p.base (j + 1) + (i' : Int) - (N - 1 - lo) := by rw [hb1]; ring
          rw [e]
          constructor <;> (rintro ⟨h3, h4, h5⟩; exact ⟨by omega, by omega, h5⟩)
        by_cases hfl : (j : Int) = last
        · obtain ⟨rfl, hll⟩ := hl2 j hfl
          simp only [hfl, and_self, if_true]
          rw [slicerange_neg q (by omega) (by omega) (by omega) hs]
          refine ⟨_, st.offset, rfl, ?_, by omega⟩
          have := hr (hi - p.base j) (by intro i' hi2; rw [hb1]; omega)
          simpa using this
        · simp only [hfl, and_false, if_false, if_true]
          rw [slicerange_neg q (by omega) (by omega) (by omega) hs]
          refine ⟨_, _, rfl, ?_, ?_⟩
          · have hl4 := hl3 j (by omega)
            exact hr _ (by intro i' hi2; rw [hb1]; omega)
          · intro _
            rw [tmod_fix hsp]
            refine ⟨Int.emod_nonneg _ (by omega), Int.emod_lt_of_pos _ hsp, ?_⟩
            have e : N - p.base j + (-1 - (lo - p.base j)) % (-s) - (N - 1 - lo)
                = -((-1 - (lo - p.base j)) - (-1 - (lo - p.base j)) % (-s)) := by ring
            rw [e]
            exact (Int.dvd_neg).mpr (Int.dvd_self_sub_emod)
      · have hi1 : 1 ≤ i := by omega
        have hjf : ¬ (j : Int) = (f : Int) := by omega
        have hbf := p.base_mono (by omega : j + 1 ≤ f)
        obtain ⟨ho1, ho2, ho3⟩ := hoff hi1 (by omega)
        have hr : ∀ b : Int, (∀ i' : Nat, i' < q.length →
              (N - p.base (j + 1) + (i' : Int) < N - 1 - hi ↔ (i' : Int) < q.length - 1 - b)) →
            selSlice (sel (q.length - 1 - (q.length - 1 - st.offset)) (q.length - 1 - b) (-s)) q.reverse 0
              = selSlice (sel (N - 1 - lo) (N - 1 - hi) (-s)) q.reverse (N - p.base (j + 1)) := by
          intro b hb
          have e : (q.length : Int) - 1 - (q.length - 1 - st.offset) = st.offset := by ring
          rw [e]
          apply Eq.symm
          apply selSlice_congr
          intro i' hi2
          simp only [List.length_reverse] at hi2
          have hb2 := hb i' hi2
          apply sel_mono_eq ho3
          rw [dvd_shift ho3]
          constructor
          · rintro ⟨⟨_, h4⟩, h5⟩
            have := dvd_small h5 (by omega) hsp
            exact ⟨⟨by omega, by omega⟩, h5⟩
          · rintro ⟨⟨_, h4⟩, h5⟩
            exact ⟨⟨by omega, by omega⟩, h5⟩
        simp only [hjf, false_and, if_false]
        by_cases hfl : (j : Int) = last
        · obtain ⟨rfl, hll⟩ := hl2 j hfl
          simp only [hfl, if_true]
          rw [slicerange_neg q (by omega) (by omega) (by omega) hs]
          refine ⟨_, st.offset, rfl, ?_, by omega⟩
          exact hr (hi - p.base j) (by intro i' hi2; rw [hb1]; omega)
        · simp only [hfl, if_false]
          rw [slicerange_neg q (by omega) (by omega) (by omega) hs]
          refine ⟨_, _, rfl, ?_, ?_⟩
          · have hl4 := hl3 j (by omega)
            exact hr _ (by intro i' hi2; rw [hb1]; omega)
          · intro _
            rw [tmod_fix hsp]
            refine ⟨Int.emod_nonneg _ (by omega), Int.emod_lt_of_pos _ hsp, ?_⟩
            have e : N - p.base j + (-1 - ((q.length : Int) - 1 - st.offset)) % (-s) - (N - 1 - lo)
                = (N - p.base (j + 1) + st.offset - (N - 1 - lo))
                  + -((-1 - ((q.length : Int) - 1 - st.offset))
                      - (-1 - ((q.length : Int) - 1 - st.offset)) % (-s)) := by rw [hb1]; ring
            rw [e]
            exact Int.dvd_add ho3 ((Int.dvd_neg).mpr (Int.dvd_self_sub_emod)))
  rw [hst, bind_ok]
  have hend : selSlice (sel (N - 1 - lo) (N - 1 - hi) (-s)) (p.parts.drop (f + 1 - (f - l + 1))).flatten.reverse 0
      = selSlice (sel (N - 1 - lo) (N - 1 - hi) (-s)) (unpartitioned p).reverse 0 := by
    have e1 : f + 1 - (f - l + 1) = l := by omega
    rw [e1]
    have e2 : (unpartitioned p).reverse = (p.parts.drop l).flatten.reverse ++ (p.parts.take l).flatten.reverse := by
      rw [← List.reverse_append, ← List.flatten_append, List.take_append_drop]; rfl
    rw [e2, selSlice_append, selSlice_none (xs := (p.parts.take l).flatten.reverse), List.append_nil]
    intro i hi'
    have hbl : ((p.parts.take l).flatten.length : Int) = p.base l := rfl
    rw [List.length_reverse] at hi'
    by_cases hl0 : l = 0
    · subst hl0; simp at hi'
    · have hll := (hl2 l (by omega)).2
      rw [List.length_reverse, hsuf l]
      simp only [sel, decide_eq_false_iff_not]
      rintro ⟨_, h5, _⟩
      omega
  rw [← hend]
  exact PArr.finish_ok hinv

end Awk
