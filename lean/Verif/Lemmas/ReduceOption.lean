import Verif.Lemmas.ReduceTree
/-
Reducing an array with missing values: the missing elements are left out.
-/

namespace Awk
open R

/-- The selected positions. -/
def keptPos (q : Nat → Option Int) (n : Nat) : List Nat := (List.range n).filter (fun i => (q i).isSome)

theorem kept_succ (q : Nat → Option Int) (n : Nat) :
    keptPos q (n + 1) = keptPos q n ++ (if (q n).isSome then [n] else []) := by
  unfold keptPos
  rw [List.range_succ, List.filter_append]
  congr 1
  cases h : (q n).isSome <;> simp [h]

theorem kept_length (q : Nat → Option Int) (n : Nat) : (keptPos q n).length = cnt q n := by
  induction n with
  | zero => rfl
  | succ n ih =>
    rw [kept_succ, List.length_append, ih, cnt_succ]
    split <;> rfl

/-- The `j`-th selected position. -/
def keptAt (q : Nat → Option Int) (n j : Nat) : Nat := (keptPos q n)[j]?.getD 0

theorem kept_get {q : Nat → Option Int} {n j : Nat} (h : j < cnt q n) :
    keptAt q n j < n ∧ (q (keptAt q n j)).isSome = true ∧ cnt q (keptAt q n j) = j := by
  induction n with
  | zero => simp [cnt] at h
  | succ n ih =>
    unfold keptAt at ih ⊢
    rw [kept_succ]
    by_cases hj : j < cnt q n
    · rw [List.getElem?_append_left (by rw [kept_length]; exact hj)]
      obtain ⟨h1, h2, h3⟩ := ih hj
      exact ⟨by omega, h2, h3⟩
    · rw [cnt_succ] at h
      split at h
      · rename_i hs
        have : j = cnt q n := by omega
        rw [List.getElem?_append_right (by rw [kept_length]; omega), kept_length, this, if_pos hs]
        simp [hs]
      · omega

theorem keptAt_cnt {q : Nat → Option Int} {n i : Nat} (hi : i < n) (hs : (q i).isSome = true) :
    cnt q i < cnt q n ∧ keptAt q n (cnt q i) = i := by
  induction n with
  | zero => omega
  | succ n ih =>
    rw [cnt_succ]
    unfold keptAt at ih ⊢
    rw [kept_succ]
    by_cases he : i = n
    · subst he
      rw [List.getElem?_append_right (by rw [kept_length]), kept_length]
      simp [hs]
    · obtain ⟨h1, h2⟩ := ih (by omega)
      rw [List.getElem?_append_left (by rw [kept_length]; exact h1)]
      exact ⟨by omega, h2⟩

theorem map_keptAt (q : Nat → Option Int) (n : Nat) : (List.range (cnt q n)).map (keptAt q n) = keptPos q n := by
  apply List.ext_getElem (by simp [kept_length])
  intro i h1 h2
  simp [keptAt, List.getElem?_eq_getElem h2]

theorem kept_map_nats (q : Nat → Option Int) (n : Nat) (g : Nat → Nat) :
    (keptPos q n).map (fun i => (g i : Int)) = nats (fun j => g (keptAt q n j)) (cnt q n) := by
  rw [← map_keptAt, List.map_map]; rfl

theorem grp_kept (q : Nat → Option Int) (n : Nat) (g : Nat → Nat) (v : Nat → α) (p : Nat) :
    grp (fun j => g (keptAt q n j)) (fun j => v (keptAt q n j)) (cnt q n) p
      = (((List.range n).filter (fun i => decide (g i = p))).filter (fun i => (q i).isSome)).map v := by
  unfold grp
  rw [show (fun j => v (keptAt q n j)) = v ∘ keptAt q n from rfl, ← List.map_map,
    show (fun i => decide (g (keptAt q n i) = p)) = (fun i => decide (g i = p)) ∘ keptAt q n from rfl,
    ← List.filter_map, map_keptAt, keptPos, List.filter_filter, List.filter_filter]
  congr 2
  funext i
  rw [Bool.and_comm]

theorem cnt_le (q : Nat → Option Int) (i : Nat) : cnt q i ≤ i := by
  induction i with
  | zero => simp [cnt]
  | succ i ih => rw [cnt_succ]; split <;> omega

theorem wr_tail {done rest : List α} {k : Nat} {x : α} (hk : done.length = k) (h : 1 ≤ rest.length) :
    wr (done ++ rest) (k : Int) x = ok (done ++ [x] ++ rest.drop 1) := by
  rw [wr_nat_ok (by simp; omega)]
  subst hk
  rw [set_at_length h]

theorem reduce_next_kernel_ok {picked : Int → R (Option Int)} {q : Nat → Option Int} {g : Nat → Nat}
    {n : Nat} {nc np oi : List Int} (hq : ∀ i, i < n → picked (i : Int) = ok (q i))
    (h1 : nc.length = cnt q n) (h2 : np.length = cnt q n) (h3 : oi.length = n) :
    reduce_next_kernel picked nc np oi (nats g n) n
      = ok ((List.range n).filterMap q, (keptPos q n).map (fun i => (g i : Int)), outIndex q n) := by
  unfold reduce_next_kernel
  suffices hs : ∀ body : Nat → List Int × List Int × List Int × Int →
        R (List Int × List Int × List Int × Int),
      (∀ i, i < n → ∀ st, q i = none → body i st
        = (wr st.2.2.1 (i : Int) (-1) >>= fun outindex => ok (st.1, st.2.1, outindex, st.2.2.2))) →
      (∀ i x, i < n → ∀ st, q i = some x → body i st = (rd (nats g n) (i : Int) >>= fun parent =>
        wr st.1 st.2.2.2 x >>= fun nextcarry =>
        wr st.2.1 st.2.2.2 parent >>= fun nextparents =>
        wr st.2.2.1 (i : Int) st.2.2.2 >>= fun outindex =>
        ok (nextcarry, nextparents, outindex, st.2.2.2 + 1))) →
      ∀ i, i ≤ n → forN i body
      (nc, np, oi, 0) = ok ((List.range i).filterMap q ++ nc.drop (cnt q i),
        (keptPos q i).map (fun i => (g i : Int)) ++ np.drop (cnt q i), outIndex q i ++ oi.drop i,
        (cnt q i : Int)) by
    rw [hs _ ?_ ?_ n (Nat.le_refl _), bind_ok, List.drop_eq_nil_of_le (by omega),
      List.drop_eq_nil_of_le (by omega), List.drop_eq_nil_of_le (by omega)]
    · simp
    · intro i hi st h; rw [hq i hi, bind_ok, h]
    · intro i x hi st h; rw [hq i hi, bind_ok, h]
  intro body hb1 hb2
  intro i
  induction i with
  | zero => intro _; simp [cnt, keptPos, outIndex]
  | succ i ih =>
    intro hi
    have hmono := cnt_mono (q := q) hi
    rw [forN_succ, ih (by omega), bind_ok]
    rw [filterMap_range_succ, kept_succ, outIndex_succ]
    rw [cnt_succ] at hmono ⊢
    cases h : q i with
    | none =>
      rw [hb1 i (by omega) _ h]
      simp only [Option.isSome_none, Bool.false_eq_true, if_false, Option.toList_none,
        List.append_nil, Nat.add_zero]
      rw [wr_tail (by simp) (by rw [List.length_drop]; omega), bind_ok, List.drop_drop]
    | some x =>
      simp only [h, Option.isSome_some, if_true] at hmono
      simp only [Option.isSome_some, if_true, Option.toList_some, List.map_append, List.map_singleton]
      rw [hb2 i x (by omega) _ h, rd_nats (by omega), bind_ok,
        wr_tail (k := cnt q i) rfl (by rw [List.length_drop]; omega), bind_ok,
        wr_tail (by rw [List.length_map, kept_length]) (by rw [List.length_drop]; omega), bind_ok,
        wr_tail (by simp) (by rw [List.length_drop]; omega), bind_ok]
      simp only [List.drop_drop]
      congr

theorem reduce_next_nextshifts_ok {picked : Int → R (Option Int)} {q : Nat → Option Int}
    {n : Nat} {ns shifts : List Int} (hq : ∀ i, i < n → picked (i : Int) = ok (q i))
    (h1 : ns.length = cnt q n) (hs : shifts.length = 0 ∨ shifts.length = n) :
    reduce_next_nextshifts_kernel picked ns shifts n
      = ok ((keptPos q n).map (fun i => shiftAt shifts i + ((i : Int) - (cnt q i : Int)))) := by
  unfold reduce_next_nextshifts_kernel
  suffices hs : ∀ body : Nat → List Int × Int × Int → R (List Int × Int × Int),
      (∀ i, i < n → ∀ st, q i = none → body i st = ok (st.1, st.2.1 + 1, st.2.2)) →
      (∀ i x, i < n → ∀ st, q i = some x → body i st =
        ((if shifts.length = 0 then ok 0 else rd shifts (i : Int)) >>= fun s =>
        wr st.1 st.2.2 (s + st.2.1) >>= fun nextshifts => ok (nextshifts, st.2.1, st.2.2 + 1))) →
      ∀ i, i ≤ n → forN i body (ns, 0, 0)
      = ok ((keptPos q i).map (fun i => shiftAt shifts i + ((i : Int) - (cnt q i : Int)))
        ++ ns.drop (cnt q i), (i : Int) - (cnt q i : Int), (cnt q i : Int)) by
    rw [hs _ ?_ ?_ n (Nat.le_refl _), bind_ok, List.drop_eq_nil_of_le (by omega)]
    · simp
    · intro i hi st h; rw [hq i hi, bind_ok, h]
    · intro i x hi st h; rw [hq i hi, bind_ok, h]
  intro body hb1 hb2
  intro i
  induction i with
  | zero => intro _; simp [cnt, keptPos]
  | succ i ih =>
    intro hi
    have hmono := cnt_mono (q := q) hi
    rw [forN_succ, ih (by omega), bind_ok, kept_succ]
    rw [cnt_succ] at hmono ⊢
    cases h : q i with
    | none =>
      rw [hb1 i (by omega) _ h]
      simp only [Option.isSome_none, Bool.false_eq_true, if_false, List.append_nil, Nat.add_zero]
      congr 3
      push_cast; omega
    | some x =>
      simp only [h, Option.isSome_some, if_true] at hmono
      simp only [Option.isSome_some, if_true, List.map_append, List.map_singleton]
      have hsh : (if shifts.length = 0 then ok (0 : Int) else rd shifts (i : Int))
          = ok (shiftAt shifts i) := by
        unfold shiftAt
        split
        · rfl
        · rw [rd_nat_ok (by omega), List.getElem?_eq_getElem (by omega)]; rfl
      rw [hb2 i x (by omega) _ h, hsh, bind_ok, wr_tail (by rw [List.length_map, kept_length]) (by rw [List.length_drop]; omega),
        bind_ok, List.drop_drop]
      congr 3
      push_cast; omega

/-- Consecutive groups, counted after leaving out the missing elements. -/
theorem blk_kept {q : Nat → Option Int} {m : Nat → Nat} {out : Nat} :
    let m' := fun p => cnt q (sumTo m (p + 1)) - cnt q (sumTo m p)
    (∀ p, sumTo m' p = cnt q (sumTo m p)) ∧
    ∀ j, j < cnt q (sumTo m out) → blk m out (keptAt q (sumTo m out) j) = blk m' out j := by
  intro m'
  have hsum : ∀ p, sumTo m' p = cnt q (sumTo m p) := by
    intro p
    induction p with
    | zero => simp [cnt]
    | succ p ih =>
      rw [sumTo_succ, ih]
      have := cnt_mono (q := q) (sumTo_mono (f := m) (show p ≤ p + 1 by omega))
      simp only [m']; omega
  refine ⟨hsum, ?_⟩
  intro j hj
  obtain ⟨h1, h2, h3⟩ := kept_get hj
  obtain ⟨b1, b2, b3⟩ := blk_spec h1
  symm
  apply blk_eq b1
  · rw [hsum]
    have := cnt_mono (q := q) b2
    omega
  · rw [hsum]
    have := cnt_mono (q := q) b3
    rw [cnt_succ, if_pos h2] at this
    omega

namespace Content
open Spec (Nested)

variable {red : Reducer} {dt : DType} {z ix rg : Prop} {k : Nat} {mask : Bool}

/-- One step of `reduce_next` through a node with an index or a mask. -/
theorem reduceOption_step {n : Nat} {c : Content} {f : Nat} {negaxis : Nat} {starts shifts : List Int}
    {g : Nat → Nat} {out : Nat} (h : c.Good) (hn : Nested red dt z ix rg k n true c)
    (hk : (∃ p index d, c = indexed p index d) ∨ (∃ p index d, c = indexedOption p index d) ∨
      (∃ p mask vw d, c = byteMasked p mask vw d))
    (hs : shifts.length = 0 ∨ shifts.length = c.len) :
    ∃ next nextshifts, next.Good ∧ Nested red dt z ix rg k n false next ∧ next.rank + 1 ≤ c.rank ∧
      next.len = cnt c.pickI c.len ∧
      (∀ j, j < next.len → next.valD j = c.valD (keptAt c.pickI c.len j)) ∧
      (nextshifts = if c.isOption && red.returnsPositions && decide (negaxis = n) then
        (keptPos c.pickI c.len).map (fun i => shiftAt shifts i + ((i : Int) - (cnt c.pickI i : Int)))
        else []) ∧
      reduceNext red mask (f + 1) negaxis starts shifts (nats g c.len) out c
        = (reduceNext red mask f negaxis starts nextshifts
            (nats (fun j => g (keptAt c.pickI c.len j)) next.len) out next >>= fun o =>
          reduceOptionWrap (decide (negaxis = n)) starts (outIndex c.pickI c.len) o) := by
  have ho : c.isOptionOrIndexed = true := by
    rcases hk with ⟨p, i, d, rfl⟩ | ⟨p, i, d, rfl⟩ | ⟨p, m, v, d, rfl⟩ <;> rfl
  have hbd := nested_branchDepth hn
  have hpick : ∀ i, i < c.len → ∀ x, c.pickI i = some x → 0 ≤ x ∧ x < c.inner.len := by
    intro i hi x hx
    unfold pickI at hx
    rw [Option.map_eq_some_iff] at hx
    obtain ⟨y, hy, rfl⟩ := hx
    have := (val_inner_pick h ho hi).2 y hy
    omega
  have hin : InRange c.shown c.inner.len := by
    intro x hx
    rw [shown_eq, List.mem_filterMap] at hx
    obtain ⟨i, hi, hx⟩ := hx
    exact hpick i (List.mem_range.mp hi) x hx
  have hinner : Nested red dt z ix rg k n false c.inner := by
    rcases hk with ⟨p, i, d, rfl⟩ | ⟨p, i, d, rfl⟩ | ⟨p, m, v, d, rfl⟩ <;> cases hn <;> assumption
  obtain ⟨next0, e1, e2, e3, e4⟩ := carry_good (inner_good h) false hin
  have hn0 := carry_closed nested_closed (inner_good h) hin e1 (n, false) hinner
  simp only at hn0
  have hlen0 : next0.len = cnt c.pickI c.len := by rw [e4.1]; rfl
  have hval0 : ∀ j, j < next0.len → next0.valD j = c.valD (keptAt c.pickI c.len j) := by
    intro j hj
    rw [hlen0] at hj
    obtain ⟨s1, s2, s3⟩ := kept_get hj
    rw [(val_inner_pick h ho s1).1]
    obtain ⟨x, hx⟩ := Option.isSome_iff_exists.mp s2
    have hg := filterMap_range_get' s1 hx
    rw [s3] at hg
    obtain ⟨hb, he⟩ := List.getElem?_eq_some_iff.mp hg
    have hx' : (c.pick (keptAt c.pickI c.len j)).map (fun (k : Nat) => (k : Int)) = some x := hx
    rw [Option.map_eq_some_iff] at hx'
    obtain ⟨y, hy, rfl⟩ := hx'
    rw [hy, e4.valD (i := j) (by rw [shown_eq]; exact hb)]
    simp only
    congr 1
    have : c.shown[j]'(by rw [shown_eq]; exact hb) = (y : Int) := he
    rw [this]; rfl
  have hrank := inner_rank ho
  simp only [Bool.toNat_false, Nat.add_zero] at e3
  -- the conversion of a RegularArray
  have hreg : ∀ b : Bool, ∃ next, (if b then regularToOffsets next0 else ok next0) = ok next ∧
      next.Good ∧ Nested red dt z ix rg k n false next ∧ next.rank ≤ next0.rank ∧
      next.len = next0.len ∧ ∀ j, j < next.len → next.valD j = next0.valD j := by
    intro b
    cases b with
    | false => exact ⟨next0, rfl, e2, hn0, Nat.le_refl _, rfl, fun _ _ => rfl⟩
    | true =>
      simp only [if_true]
      cases hc0 : next0 with
      | regular p d size zeros =>
        rw [hc0] at e2 hn0
        obtain ⟨c', g1, g2, g3, _, g4, g5, g6⟩ := nested_parts hn0 e2 rfl
        exact ⟨c', by simpa only [regularToOffsets] using g1, g2, g5, g6, g3,
          fun j hj => g4 j (by omega)⟩
      | _ => exact ⟨_, rfl, hc0 ▸ e2, hc0 ▸ hn0, Nat.le_refl _, rfl, fun _ _ => rfl⟩
  obtain ⟨next, r1, r2, r3, r4, r5, r6⟩ := hreg c.isOption
  refine ⟨next, _, r2, r3, by omega, by omega, fun j hj => by rw [r6 j hj, hval0 j (by omega)], rfl, ?_⟩
  -- the kernels
  have key : ∀ (picked : Int → R (Option Int)) (numnull : Nat),
      (∀ i, i < c.len → picked (i : Int) = ok (c.pickI i)) →
      numnull = (List.range c.len).countP (fun i => (c.pickI i).isNone) →
      reduceOption (reduceNext red mask f) red c.isOption picked c.len numnull negaxis starts shifts
        (nats g c.len) out c.branchDepth c.inner
      = (reduceNext red mask f negaxis starts (if c.isOption && red.returnsPositions && decide (negaxis = n) then
        (keptPos c.pickI c.len).map (fun i => shiftAt shifts i + ((i : Int) - (cnt c.pickI i : Int)))
        else []) (nats (fun j => g (keptAt c.pickI c.len j)) next.len) out next >>= fun o =>
          reduceOptionWrap (decide (negaxis = n)) starts (outIndex c.pickI c.len) o) := by
    intro picked numnull hp hnn
    have hsub := cnt_sub hnn
    have hle : numnull ≤ c.len := by
      rw [hnn]; simpa using List.countP_le_length (p := fun i => (c.pickI i).isNone) (l := List.range c.len)
    have hal : (alloc ((c.len : Int) - (numnull : Int))).length = cnt c.pickI c.len := by
      rw [show (c.len : Int) - (numnull : Int) = ((c.len - numnull : Nat) : Int) by omega, alloc_length, hsub]
    unfold reduceOption
    rw [reduce_next_kernel_ok hp hal hal (alloc_length _), bind_ok, hbd]
    simp only [Bool.not_false, Bool.true_and]
    have hsh : (if (c.isOption && red.returnsPositions && decide (negaxis = n)) = true then
        reduce_next_nextshifts_kernel picked (alloc ((c.len : Int) - (numnull : Int))) shifts c.len
        else ok []) = ok (if c.isOption && red.returnsPositions && decide (negaxis = n) then
        (keptPos c.pickI c.len).map (fun i => shiftAt shifts i + ((i : Int) - (cnt c.pickI i : Int)))
        else []) := by
      split
      · rw [reduce_next_nextshifts_ok hp hal hs]
      · rfl
    rw [hsh, bind_ok, show (List.range c.len).filterMap c.pickI = c.shown from rfl, e1, bind_ok, r1,
      bind_ok, kept_map_nats, r5, hlen0]
  rcases hk with ⟨p, index, d, rfl⟩ | ⟨p, index, d, rfl⟩ | ⟨p, m, vw, d, rfl⟩
  · have h1 : IndexedArray_numnull index index.length = ok ((List.range index.length).countP
        (fun i => ((indexed p index d).pickI i).isNone)) := by
      unfold IndexedArray_numnull
      refine forN_count _ (fun i hi k => ?_)
      rw [rd_nat_ok hi, bind_ok]
      simp only [pickI, pick, List.getElem?_eq_getElem hi, Option.getD_some]
      by_cases hneg : index[i] < 0 <;> simp [hneg]
    simp only [reduceNext]
    rw [h1, bind_ok]
    exact key (pickedIndex index) _ (by
      intro i hi
      simp only [len] at hi
      unfold pickedIndex
      rw [rd_nat_ok hi, bind_ok]
      simp only [pickI, pick, List.getElem?_eq_getElem hi, Option.getD_some]
      by_cases hneg : index[i] < 0
      · simp [hneg]
      · simp only [hneg, if_false, ge_iff_le, show 0 ≤ index[i] by omega, if_true, Option.map_some]
        rw [show ((index[i].toNat : Nat) : Int) = index[i] by omega]) rfl
  · have h1 : IndexedArray_numnull index index.length = ok ((List.range index.length).countP
        (fun i => ((indexedOption p index d).pickI i).isNone)) := by
      unfold IndexedArray_numnull
      refine forN_count _ (fun i hi k => ?_)
      rw [rd_nat_ok hi, bind_ok]
      simp only [pickI, pick, List.getElem?_eq_getElem hi, Option.getD_some]
      by_cases hneg : index[i] < 0 <;> simp [hneg]
    simp only [reduceNext]
    rw [h1, bind_ok]
    exact key (pickedIndex index) _ (by
      intro i hi
      simp only [len] at hi
      unfold pickedIndex
      rw [rd_nat_ok hi, bind_ok]
      simp only [pickI, pick, List.getElem?_eq_getElem hi, Option.getD_some]
      by_cases hneg : index[i] < 0
      · simp [hneg]
      · simp only [hneg, if_false, ge_iff_le, show 0 ≤ index[i] by omega, if_true, Option.map_some]
        rw [show ((index[i].toNat : Nat) : Int) = index[i] by omega]) rfl
  · have h1 : ByteMaskedArray_numnull m m.length vw = ok ((List.range m.length).countP
        (fun i => ((byteMasked p m vw d).pickI i).isNone)) := by
      unfold ByteMaskedArray_numnull
      refine forN_count _ (fun i hi k => ?_)
      rw [rd_nat_ok hi, bind_ok]
      simp only [pickI, pick, maskOk, List.getElem?_eq_getElem hi, Option.getD_some]
      by_cases hm : decide (m[i] ≠ 0) = vw <;> simp [hm]
    simp only [reduceNext]
    rw [h1, bind_ok]
    exact key (pickedMask m vw) _ (by
      intro i hi
      simp only [len] at hi
      unfold pickedMask
      rw [rd_nat_ok hi, bind_ok]
      simp only [pickI, pick, maskOk, List.getElem?_eq_getElem hi, Option.getD_some]
      by_cases hm : decide (m[i] ≠ 0) = vw
      · simp only [hm, if_true, decide_true]; rfl
      · simp only [hm, if_false, decide_false, Bool.false_eq_true]; rfl) rfl

end Content
end Awk
