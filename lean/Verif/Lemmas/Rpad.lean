import Verif.Lemmas.Num
import Verif.Lemmas.Flatten
/-
Padding: the kernels.
-/

namespace Awk
open R

/-- The positions of `k` items from `lo`, padded with `-1` up to `t`. -/
def padIdx (lo : Int) (k t : Nat) : List Int :=
  (List.range k).map (fun (j : Nat) => lo + (j : Int)) ++ List.replicate (t - k) (-1)

@[simp] theorem padIdx_length (lo : Int) (k t : Nat) : (padIdx lo k t).length = max k t := by
  simp [padIdx]; omega

/-- The two inner loops that write one padded list in place. -/
theorem pad_segment {o lo : Int} {k t : Nat} {done rest : List Int}
    (hd : (done.length : Int) = o) (hr : (padIdx lo k t).length ≤ rest.length) :
    (forFrom 0 (k : Int) (fun j out => wr out (o + j) (lo + j)) (done ++ rest) >>= fun out =>
      forFrom (k : Int) (t : Int) (fun j out => wr out (o + j) (-1)) out)
      = ok (done ++ padIdx lo k t ++ rest.drop (padIdx lo k t).length) := by
  rw [padIdx_length] at hr ⊢
  rw [forFrom_segment (fun j => lo + j) (fun j out => rfl) (by omega) (by omega), bind_ok]
  simp only [Int.sub_zero, Int.toNat_natCast]
  rw [forFrom_segment (fun _ => (-1 : Int)) (fun j out => rfl)
    (by simp; omega) (by simp; omega)]
  have h1 : ((t : Int) - (k : Int)).toNat = t - k := by omega
  rw [h1]
  congr 1
  simp only [padIdx, List.append_assoc, List.drop_drop]
  congr 1
  simp only [Int.zero_add]
  congr 1
  rw [show (List.range (t - k)).map (fun (_ : Nat) => (-1 : Int)) = List.replicate (t - k) (-1) by simp]
  congr 2
  omega

/-- The same with a cursor. -/
theorem pad_push {lo : Int} {k t : Nat} {done rest : List Int}
    (hr : (padIdx lo k t).length ≤ rest.length) :
    (forFrom 0 (k : Int) (fun j st => pushOpt st (some (lo + j))) (done.length, done ++ rest)
      >>= fun st => forFrom (k : Int) (t : Int) (fun _ st => pushOpt st (some (-1))) st)
      = ok ((done ++ padIdx lo k t).length,
          done ++ padIdx lo k t ++ rest.drop (padIdx lo k t).length) := by
  rw [padIdx_length] at hr ⊢
  rw [forFrom_push (fun j => lo + j) (fun j out => rfl) (by omega), bind_ok]
  simp only [Int.sub_zero, Int.toNat_natCast]
  rw [forFrom_push (fun _ => (-1 : Int)) (fun j out => rfl) (by simp; omega)]
  have h1 : ((t : Int) - (k : Int)).toNat = t - k := by omega
  rw [h1]
  simp only [padIdx, List.append_assoc, List.drop_drop, Int.zero_add]
  rw [show (List.range (t - k)).map (fun (_ : Nat) => (-1 : Int)) = List.replicate (t - k) (-1) by simp]
  rw [show k + (t - k) = max k t by omega]

/-- All lists padded, one after the other. -/
def padAll (lo : Nat → Int) (k : Nat → Nat) (t n : Nat) : List Int :=
  ((List.range n).map (fun i => padIdx (lo i) (k i) t)).flatten

theorem padAll_length (lo : Nat → Int) (k : Nat → Nat) (t n : Nat) :
    (padAll lo k t n).length = sumTo (fun i => max (k i) t) n := by
  unfold padAll
  rw [flatten_map_length]
  simp only [padIdx_length]

theorem ListOffsetArray_rpad_and_clip_axis1_ok {offsets : List Int} {n t : Nat} {m : Nat → Nat}
    (hl : offsets.length = n + 1)
    (hm : ∀ i (h : i + 1 < offsets.length), offsets[i + 1] - offsets[i] = (m i : Int)) :
    ListOffsetArray_rpad_and_clip_axis1 (alloc ((t * n : Nat) : Int)) offsets n t
      = ok (padAll (fun i => offsets[i]?.getD 0) (fun i => min t (m i)) t n) := by
  unfold ListOffsetArray_rpad_and_clip_axis1
  refine forN_segments (fun i => padIdx (offsets[i]?.getD 0) (min t (m i)) t) ?_ ?_
  · intro i hi done rest hd hr
    simp only [padIdx_length] at hd
    rw [sumTo_congr (g := fun _ => t) (fun j _ => by omega), sumTo_const] at hd
    rw [rd_nat_ok (by omega), bind_ok, rd_nat_ok (by omega), bind_ok]
    dsimp only
    rw [hm i (by omega), List.getElem?_eq_getElem (by omega), Option.getD_some]
    rw [List.getElem?_eq_getElem (by omega), Option.getD_some] at hr
    have hk : (if (t : Int) < (m i : Int) then (t : Int) else (m i : Int))
        = ((min t (m i) : Nat) : Int) := by
      split <;> omega
    rw [hk]
    exact pad_segment (by rw [hd]; push_cast; rfl) hr
  · have := padAll_length (fun i => offsets[i]?.getD 0) (fun i => min t (m i)) t n
    unfold padAll at this
    rw [alloc_length, this, sumTo_congr (g := fun _ => t) (fun j _ => by omega), sumTo_const,
      Nat.mul_comm]

theorem RegularArray_rpad_and_clip_axis1_ok {n t size : Nat} :
    RegularArray_rpad_and_clip_axis1 (alloc ((n * t : Nat) : Int)) t size n
      = ok (padAll (fun i => ((i * size : Nat) : Int)) (fun _ => min t size) t n) := by
  unfold RegularArray_rpad_and_clip_axis1
  have hk : (if (t : Int) < (size : Int) then (t : Int) else (size : Int))
      = ((min t size : Nat) : Int) := by
    split <;> omega
  dsimp only
  rw [hk]
  refine forN_segments (fun i => padIdx ((i * size : Nat) : Int) (min t size) t) ?_ ?_
  · intro i hi done rest hd hr
    simp only [padIdx_length] at hd
    rw [sumTo_congr (g := fun _ => t) (fun j _ => by omega), sumTo_const] at hd
    have := pad_segment (o := (i : Int) * (t : Int)) (lo := ((i * size : Nat) : Int))
      (k := min t size) (t := t) (done := done) (rest := rest) (by rw [hd]; push_cast; rfl) hr
    push_cast at this ⊢
    exact this
  · have := padAll_length (fun i => ((i * size : Nat) : Int)) (fun _ => min t size) t n
    unfold padAll at this
    rw [alloc_length, this, sumTo_congr (g := fun _ => t) (fun j _ => by omega), sumTo_const]

theorem ListOffsetArray_rpad_axis1_ok {offsets : List Int} {n t : Nat} {m : Nat → Nat}
    (hl : offsets.length = n + 1)
    (hm : ∀ i (h : i + 1 < offsets.length), offsets[i + 1] - offsets[i] = (m i : Int)) :
    ListOffsetArray_rpad_axis1 (alloc ((sumTo (fun i => max (m i) t) n : Nat) : Int)) offsets n t
      = ok (padAll (fun i => offsets[i]?.getD 0) m t n) := by
  unfold ListOffsetArray_rpad_axis1
  rw [forN_append0 (fun i => padIdx (offsets[i]?.getD 0) (m i) t) ?_ ?_, bind_ok]
  · rfl
  · intro i hi done rest hr
    rw [rd_nat_ok (by omega), bind_ok, rd_nat_ok (by omega), bind_ok]
    dsimp only
    rw [hm i (by omega), List.getElem?_eq_getElem (by omega), Option.getD_some]
    rw [List.getElem?_eq_getElem (by omega), Option.getD_some] at hr
    exact pad_push hr
  · have := padAll_length (fun i => offsets[i]?.getD 0) m t n
    unfold padAll at this
    rw [alloc_length, this]

theorem ListOffsetArray_rpad_length_axis1_ok {offsets : List Int} {n t : Nat} {m : Nat → Nat}
    (hl : offsets.length = n + 1)
    (hm : ∀ i (h : i + 1 < offsets.length), offsets[i + 1] - offsets[i] = (m i : Int)) :
    ListOffsetArray_rpad_length_axis1 (alloc (offsets.length : Int)) offsets n t
      = ok (offsTo (fun i => max (m i) t) n, (sumTo (fun i => max (m i) t) n : Int)) := by
  have hlong : ∀ i, (if (t : Int) < (m i : Int) then (m i : Int) else (t : Int))
      = ((max (m i) t : Nat) : Int) := by
    intro i; split <;> omega
  have hw : (wr (alloc (offsets.length : Int)) 0 0 >>= fun out =>
      forN n (fun i o => rd o (i : Int) >>= fun x =>
        wr o ((i + 1 : Nat) : Int) (x + ((max (m i) t : Nat) : Int))) out)
      = ok (offsTo (fun i => max (m i) t) n) := by
    refine wr_running (by rw [alloc_length]; omega) ?_
    intro i hi o ho h1
    rw [rd_eq_ok.mpr ⟨by omega, by simpa using h1⟩, bind_ok, wr_nat_ok (by omega)]
    simp only [sumTo_succ]
    push_cast; rfl
  have hs : ∀ k, forN k (fun i (x : Int) => ok (x + ((max (m i) t : Nat) : Int))) 0
      = ok (sumTo (fun i => max (m i) t) k : Int) := by
    intro k
    induction k with
    | zero => rfl
    | succ k ih => rw [forN_succ, ih, bind_ok, sumTo_succ]; push_cast; rfl
  unfold ListOffsetArray_rpad_length_axis1
  obtain ⟨o, h1, h2⟩ := bind_eq_ok.mp hw
  rw [h1, bind_ok]
  refine forN_pair ?_ h2 (hs n)
  intro i hi x y x' y' hx hy
  simp only [ok.injEq] at hy
  rw [rd_nat_ok (by omega), bind_ok, rd_nat_ok (by omega), bind_ok]
  dsimp only
  rw [hm i (by omega), hlong]
  obtain ⟨z, hz, hx⟩ := bind_eq_ok.mp hx
  rw [hz, bind_ok, hx, bind_ok, hy]

theorem ListArray_min_range_ok {starts stops : List Int} {n : Nat} (hn : starts.length = n + 1)
    (hl : starts.length ≤ stops.length) :
    ∃ min, ListArray_min_range starts stops starts.length = ok min ∧
      ∀ i (h : i < starts.length), min ≤ stops[i] - starts[i] := by
  unfold ListArray_min_range
  rw [rd_ok (by omega) (by omega), bind_ok, rd_ok (by omega) (by omega), bind_ok]
  unfold forFrom
  rw [show ((starts.length : Int) - 1).toNat = n by omega]
  simp only [Int.toNat_zero]
  suffices hs : ∀ k, k ≤ n → ∃ min, forN k (fun (i : Nat) (shorter : Int) =>
      rd stops (1 + (i : Int)) >>= fun stop => rd starts (1 + (i : Int)) >>= fun start =>
      let rangeval := stop - start
      ok (if shorter < rangeval then shorter else rangeval)) (stops[0] - starts[0]) = ok min ∧
      ∀ i (h : i ≤ k) (h2 : i < starts.length), min ≤ stops[i] - starts[i] by
    obtain ⟨min, h1, h2⟩ := hs n (Nat.le_refl _)
    exact ⟨min, h1, fun i h => h2 i (by omega) h⟩
  intro k
  induction k with
  | zero =>
    intro _
    refine ⟨_, rfl, fun i h h2 => ?_⟩
    have : i = 0 := by omega
    subst this; exact Int.le_refl _
  | succ k ih =>
    intro hk
    obtain ⟨min, h1, h2⟩ := ih (by omega)
    rw [forN_succ, h1, bind_ok, rd_ok (by omega) (by omega), bind_ok, rd_ok (by omega) (by omega),
      bind_ok]
    refine ⟨_, rfl, fun i h h3 => ?_⟩
    simp only [show (1 + (k : Int)).toNat = k + 1 by omega]
    by_cases he : i = k + 1
    · subst he
      split <;> omega
    · have := h2 i (by omega) h3
      split <;> omega

theorem ListArray_rpad_and_clip_length_axis1_ok {starts stops : List Int} {t : Nat} {m : Nat → Nat}
    (hl : starts.length ≤ stops.length)
    (hm : ∀ i (h : i < starts.length), stops[i] - starts[i] = (m i : Int)) :
    ListArray_rpad_and_clip_length_axis1 starts stops t starts.length
      = ok (sumTo (fun i => max (m i) t) starts.length : Int) := by
  unfold ListArray_rpad_and_clip_length_axis1
  suffices hs : ∀ k, k ≤ starts.length → forN k (fun i (length : Int) =>
      rd stops (i : Int) >>= fun stop => rd starts (i : Int) >>= fun start =>
      let rangeval := stop - start
      ok (length + (if (t : Int) > rangeval then (t : Int) else rangeval))) 0
        = ok (sumTo (fun i => max (m i) t) k : Int) from hs _ (Nat.le_refl _)
  intro k
  induction k with
  | zero => intro _; rfl
  | succ k ih =>
    intro hk
    rw [forN_succ, ih (by omega), bind_ok, rd_nat_ok (by omega), bind_ok, rd_nat_ok (by omega),
      bind_ok]
    dsimp only
    rw [hm k (by omega), sumTo_succ]
    congr 1
    split <;> omega

theorem wr_next {l rest : List α} {x : α} (h : 1 ≤ rest.length) :
    wr (l ++ rest) (l.length : Int) x = ok (l ++ [x] ++ rest.drop 1) := by
  rw [wr_nat_ok (by simp; omega), set_at_length h]

theorem ListArray_rpad_axis1_ok {starts stops : List Int} {t : Nat} {m : Nat → Nat}
    (hl : starts.length ≤ stops.length)
    (hm : ∀ i (h : i < starts.length), stops[i] - starts[i] = (m i : Int)) :
    ListArray_rpad_axis1 (alloc ((sumTo (fun i => max (m i) t) starts.length : Nat) : Int))
        starts stops (alloc starts.length) (alloc starts.length) t starts.length
      = ok (padAll (fun i => starts[i]?.getD 0) m t starts.length,
          (List.range starts.length).map (fun i => (sumTo (fun i => max (m i) t) i : Int)),
          (List.range starts.length).map (fun i => (sumTo (fun i => max (m i) t) (i + 1) : Int))) := by
  unfold ListArray_rpad_axis1
  set L := fun i => max (m i) t with hL
  set lo : Nat → Int := fun i => starts[i]?.getD 0 with hlo
  set n := starts.length with hn
  have hpl : ∀ k, (padAll lo m t k).length = sumTo L k := fun k => padAll_length lo m t k
  suffices hs : ∀ k, k ≤ n → forN k (fun i (st : Int × List Int × List Int × List Int) =>
      let offset := st.1
      wr st.2.2.1 (i : Int) offset >>= fun tostarts =>
      rd stops (i : Int) >>= fun stop => rd starts (i : Int) >>= fun start =>
      let rangeval := stop - start
      forFrom 0 rangeval (fun j toindex => wr toindex (offset + j) (start + j)) st.2.1
        >>= fun toindex =>
      forFrom rangeval t (fun j toindex => wr toindex (offset + j) (-1)) toindex
        >>= fun toindex =>
      let offset' := if (t : Int) > rangeval then offset + t else offset + rangeval
      wr st.2.2.2 (i : Int) offset' >>= fun tostops =>
      ok (offset', toindex, tostarts, tostops))
        (0, alloc ((sumTo L n : Nat) : Int), alloc n, alloc n)
      = ok ((sumTo L k : Int), padAll lo m t k ++ (alloc ((sumTo L n : Nat) : Int)).drop (sumTo L k),
          (List.range k).map (fun i => (sumTo L i : Int)) ++ (alloc (n : Int)).drop k,
          (List.range k).map (fun i => (sumTo L (i + 1) : Int)) ++ (alloc (n : Int)).drop k) by
    rw [hs n (Nat.le_refl _), bind_ok]
    rw [List.drop_eq_nil_of_le (by rw [alloc_length]), List.drop_eq_nil_of_le (by rw [alloc_length])]
    simp
  intro k
  induction k with
  | zero => intro _; simp [forN, padAll]
  | succ k ih =>
    intro hk
    have hmono := sumTo_mono (f := L) hk
    rw [sumTo_succ] at hmono
    rw [forN_succ, ih (by omega), bind_ok]
    dsimp only
    have w1 := wr_next (l := (List.range k).map (fun i => (sumTo L i : Int)))
      (rest := (alloc (n : Int)).drop k) (x := (sumTo L k : Int))
      (by rw [List.length_drop, alloc_length]; omega)
    simp only [List.length_map, List.length_range] at w1
    rw [w1, bind_ok, rd_nat_ok (by omega), bind_ok, rd_nat_ok (by omega), bind_ok, hm k (by omega)]
    have hlk : starts[k] = lo k := by simp [hlo, show k < starts.length by omega]
    have hseg := pad_segment (o := (sumTo L k : Int)) (lo := starts[k]) (k := m k) (t := t)
      (done := padAll lo m t k) (rest := (alloc ((sumTo L n : Nat) : Int)).drop (sumTo L k))
      (by rw [hpl]) (by rw [padIdx_length, List.length_drop, alloc_length]; simp only [hL] at hmono ⊢; omega)
    rw [← R.bind_assoc, hseg, bind_ok]
    have hoff : (if (t : Int) > (m k : Int) then (sumTo L k : Int) + t else (sumTo L k : Int) + (m k : Int))
        = (sumTo L (k + 1) : Int) := by
      rw [sumTo_succ]; simp only [hL]; split <;> omega
    rw [hoff]
    have w2 := wr_next (l := (List.range k).map (fun i => (sumTo L (i + 1) : Int)))
      (rest := (alloc (n : Int)).drop k) (x := (sumTo L (k + 1) : Int))
      (by rw [List.length_drop, alloc_length]; omega)
    simp only [List.length_map, List.length_range] at w2
    rw [w2, bind_ok]
    have hpad : padAll lo m t (k + 1) = padAll lo m t k ++ padIdx starts[k] (m k) t := by
      simp [padAll, List.range_succ, hlk]
    rw [hpad, padIdx_length, List.drop_drop, List.drop_drop, List.range_succ, List.map_append,
      List.map_append, sumTo_succ]
    rfl

theorem index_rpad_and_clip_axis0_ok (t n : Nat) :
    index_rpad_and_clip_axis0 (alloc (t : Int)) t n = ok (padIdx 0 (min t n) t) := by
  unfold index_rpad_and_clip_axis0
  have hk : (if (t : Int) < (n : Int) then (t : Int) else (n : Int)) = ((min t n : Nat) : Int) := by
    split <;> omega
  dsimp only
  rw [hk]
  have := pad_segment (o := 0) (lo := 0) (k := min t n) (t := t) (done := [])
    (rest := alloc (t : Int)) (by simp) (by rw [padIdx_length, alloc_length]; omega)
  simp only [Int.zero_add, List.nil_append] at this
  rw [this, List.drop_eq_nil_of_le (by rw [padIdx_length, alloc_length]; omega), List.append_nil]

theorem rpad_mask_ok {bm : List Int} {q : Nat → Option Int}
    (h : ∀ i (h : i < bm.length), bm[i] ≠ 0 ↔ q i = none) :
    IndexedOptionArray_rpad_and_clip_mask_axis1 (alloc bm.length) bm bm.length
      = ok (outIndex q bm.length) := by
  unfold IndexedOptionArray_rpad_and_clip_mask_axis1
  suffices hs : ∀ k, k ≤ bm.length → forN k (fun i (st : Int × List Int) =>
      rd bm (i : Int) >>= fun m =>
      if m ≠ 0 then wr st.2 (i : Int) (-1) >>= fun toindex => ok (st.1, toindex)
      else wr st.2 (i : Int) st.1 >>= fun toindex => ok (st.1 + 1, toindex))
      ((0 : Int), alloc bm.length)
      = ok ((cnt q k : Int), outIndex q k ++ (alloc (bm.length : Int)).drop k) by
    rw [hs _ (Nat.le_refl _), bind_ok, List.drop_eq_nil_of_le (by rw [alloc_length]), List.append_nil]
  intro k
  induction k with
  | zero => intro _; simp [forN, cnt, outIndex]
  | succ k ih =>
    intro hk
    rw [forN_succ, ih (by omega), bind_ok, rd_nat_ok (by omega), bind_ok]
    have hw : ∀ x : Int, wr (outIndex q k ++ (alloc (bm.length : Int)).drop k) (k : Int) x
        = ok (outIndex q k ++ [x] ++ (alloc (bm.length : Int)).drop (k + 1)) := by
      intro x
      have := wr_next (l := outIndex q k) (rest := (alloc (bm.length : Int)).drop k) (x := x)
        (by rw [List.length_drop, alloc_length]; omega)
      rw [outIndex_length, List.drop_drop] at this
      exact this
    by_cases hb : bm[k] ≠ 0
    · rw [if_pos hb, hw, bind_ok]
      have hq := (h k (by omega)).mp hb
      rw [outIndex_succ, cnt_succ, hq]
      simp
    · rw [if_neg hb, hw, bind_ok]
      have hq : (q k).isSome := by
        rw [Option.isSome_iff_ne_none]
        exact fun hn => hb ((h k (by omega)).mpr hn)
      rw [outIndex_succ, cnt_succ, if_pos hq, if_pos hq]
      simp

end Awk
