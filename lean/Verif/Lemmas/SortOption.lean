import Verif.Lemmas.SortLeaf
/-
Sorting through nodes with an index.
-/

namespace Awk
open R

/-! ### The kernel that puts missing values at the end of each group -/

/-- The items of a group that are not missing come first. -/
def comesFirst (m m' : Nat → Nat) (out i : Nat) : Bool :=
  decide (i - sumTo m (blk m out i) < m' (blk m out i))

theorem cnt_comesFirst {m m' : Nat → Nat} {out p : Nat} (hm : ∀ p, m' p ≤ m p) (hp : p ≤ out) :
    cnt (ob (comesFirst m m' out)) (sumTo m p) = sumTo m' p ∧
      (p < out → ∀ t, t ≤ m p → cnt (ob (comesFirst m m' out)) (sumTo m p + t) = sumTo m' p + min t (m' p)) := by
  have hstep : ∀ p, p < out → cnt (ob (comesFirst m m' out)) (sumTo m p) = sumTo m' p →
      ∀ t, t ≤ m p → cnt (ob (comesFirst m m' out)) (sumTo m p + t) = sumTo m' p + min t (m' p) := by
    intro p hp h0 t
    induction t with
    | zero => intro _; simpa using h0
    | succ t ih =>
      intro ht
      rw [← Nat.add_assoc, cnt_ob_succ, ih (by omega)]
      unfold comesFirst
      rw [blk_add hp (by omega), Nat.add_sub_cancel_left]
      by_cases h : t < m' p
      · simp only [h, decide_true, if_true]; omega
      · simp only [h, decide_false, Bool.false_eq_true, if_false]; omega
  have h0 : ∀ p, p ≤ out → cnt (ob (comesFirst m m' out)) (sumTo m p) = sumTo m' p := by
    intro p
    induction p with
    | zero => intro _; simp [cnt]
    | succ p ih =>
      intro hp
      rw [sumTo_succ, hstep p (by omega) (ih (by omega)) (m p) (Nat.le_refl _), sumTo_succ]
      have := hm p; omega
  exact ⟨h0 p hp, fun h => hstep p h (h0 p hp)⟩

theorem local_preparenext_ok {m m' : Nat → Nat} {out : Nat} (hm : ∀ p, m' p ≤ m p) {starts tocarry : List Int}
    (hs : out ≤ starts.length) (ht : tocarry.length = sumTo m out) :
    IndexedArray_local_preparenext tocarry starts (nats (blk m out) (sumTo m out)) (sumTo m out)
        (nats (blk m' out) (sumTo m' out)) (sumTo m' out : Nat)
      = ok (outIndex (ob (comesFirst m m' out)) (sumTo m out)) := by
  unfold IndexedArray_local_preparenext
  suffices hsuf : ∀ i, i ≤ sumTo m out → forN i (fun i (st : List Int × Int) =>
      rd (nats (blk m out) (sumTo m out)) (i : Int) >>= fun parent => rd starts parent >>= fun _ =>
      (if st.2 < ((sumTo m' out : Nat) : Int) then rd (nats (blk m' out) (sumTo m' out)) st.2 >>= fun np =>
        ok (decide (parent = np)) else ok false) >>= fun here =>
      if here then wr st.1 (i : Int) st.2 >>= fun tocarry => ok (tocarry, st.2 + 1)
      else wr st.1 (i : Int) (-1) >>= fun tocarry => ok (tocarry, st.2)) (tocarry, 0)
      = ok (outIndex (ob (comesFirst m m' out)) i ++ tocarry.drop i, (cnt (ob (comesFirst m m' out)) i : Int)) by
    rw [hsuf _ (Nat.le_refl _), bind_ok, List.drop_eq_nil_of_le (by omega), List.append_nil]
  intro i
  induction i with
  | zero => intro _; simp [outIndex, cnt]
  | succ i ih =>
    intro hi
    rw [forN_succ, ih (by omega), bind_ok, rd_nats (by omega), bind_ok]
    obtain ⟨b1, b2, b3⟩ := blk_spec (m := m) (out := out) (i := i) (by omega)
    generalize hp : blk m out i = p at b1 b2 b3
    rw [rd_nat_ok (by omega), bind_ok]
    rw [sumTo_succ] at b3
    have hc := (cnt_comesFirst hm (show p ≤ out by omega)).2 b1 (i - sumTo m p) (by omega)
    rw [show sumTo m p + (i - sumTo m p) = i by omega] at hc
    have hle := sumTo_mono (f := m') (show p + 1 ≤ out by omega)
    rw [sumTo_succ] at hle
    have hdef : comesFirst m m' out i = decide (i - sumTo m p < m' p) := by unfold comesFirst; rw [hp]
    rw [outIndex_succ, cnt_ob_succ, ob_isSome, hdef]
    simp only
    by_cases h : i - sumTo m p < m' p
    · have hlt : cnt (ob (comesFirst m m' out)) i < sumTo m' out := by omega
      rw [if_pos (by omega), rd_nats hlt, bind_ok, hc, blk_eq b1 (by omega) (by rw [sumTo_succ]; omega), bind_ok]
      simp only [decide_true, if_true, h, decide_true]
      rw [wr_tail (by simp) (by rw [List.length_drop]; omega), bind_ok, List.drop_drop]
      congr 3
    · have hno : (if ((cnt (ob (comesFirst m m' out)) i : Nat) : Int) < ((sumTo m' out : Nat) : Int) then
          rd (nats (blk m' out) (sumTo m' out)) ((cnt (ob (comesFirst m m' out)) i : Nat) : Int) >>= fun np =>
          ok (decide ((p : Int) = np)) else ok false) = ok false := by
        by_cases hlt : cnt (ob (comesFirst m m' out)) i < sumTo m' out
        · rw [if_pos (by omega), rd_nats hlt, bind_ok]
          have := blk_spec hlt
          congr 1
          simp only [decide_eq_false_iff_not]
          intro hcon
          have hcon : p = blk m' out (cnt (ob (comesFirst m m' out)) i) := by omega
          rw [← hcon, sumTo_succ] at this
          omega
        · rw [if_neg (by omega)]
      rw [hno, bind_ok]
      simp only [h, decide_false, Bool.false_eq_true, if_false]
      rw [wr_tail (by simp) (by rw [List.length_drop]; omega), bind_ok, List.drop_drop]
      congr 3

namespace Content
open Spec (Nested)

variable {dt : DType} {a : SortArgs}

/-- The arrays of numbers. -/
abbrev Nums (dt : DType) (n : Nat) (b : Bool) (c : Content) : Prop := Nested .sum dt True True True 1 n b c

/-- One step of `sort_next` through a node with an index. -/
theorem sortOption_step {n : Nat} {p : Params} {index : List Int} {d : Content} {isoption : Bool} {c : Content}
    {f : Nat} {negaxis : Nat} {starts : List Int} {g : Nat → Nat} {outlength : Nat} {keepdims : Bool}
    (hc : c = if isoption then indexedOption p index d else indexed p index d)
    (h : c.Good) (hn : Nums dt n true c) (h0 : 0 < c.len) :
    ∃ next, next.Good ∧ Nums dt n false next ∧ next.rank ≤ d.rank ∧ next.len = cnt c.pickI c.len ∧
      (∀ j, j < next.len → next.valD j = c.valD (keptAt c.pickI c.len j)) ∧
      sortNext a (f + 1) negaxis starts (nats g c.len) outlength keepdims c
        = (sortNext a f negaxis starts (nats (fun j => g (keptAt c.pickI c.len j)) next.len) outlength
            (keepdims && !(decide (next.len < c.len) && decide (negaxis ≠ n))) next >>= fun o =>
          sortOptionWrap a isoption p starts (nats g c.len) (nats (fun j => g (keptAt c.pickI c.len j)) next.len)
            (next.len : Int) (outIndex c.pickI c.len) (decide (next.len < c.len) && decide (negaxis ≠ n))
            (decide (negaxis = n)) o) := by
  have ho : c.isOptionOrIndexed = true := by rw [hc]; cases isoption <;> rfl
  have hinn : c.inner = d := by rw [hc]; cases isoption <;> rfl
  have hlen : c.len = index.length := by rw [hc]; cases isoption <;> rfl
  have hpk : ∀ i, (hi : i < index.length) → c.pickI i = if index[i] < 0 then none else some index[i] := by
    intro i hi
    rw [hc]
    cases isoption <;> simp only [if_true, Bool.false_eq_true, if_false, pickI, pick, List.getElem?_eq_getElem hi, Option.getD_some]
    all_goals
      by_cases hneg : index[i] < 0
      · simp [hneg]
      · simp only [hneg, if_false, Option.map_some]
        rw [show ((index[i].toNat : Nat) : Int) = index[i] by omega]
  have hbd := nested_branchDepth hn
  have hpick : ∀ i, i < c.len → ∀ x, c.pickI i = some x → 0 ≤ x ∧ x < c.inner.len := by
    intro i hi x hx
    unfold pickI at hx
    rw [Option.map_eq_some_iff] at hx
    obtain ⟨y, hy, rfl⟩ := hx
    have := (val_inner_pick h ho hi).2 y hy
    omega
  have hin : InRange c.shown c.inner.len := by
    intro x hx
    rw [shown_eq, List.mem_filterMap] at hx
    obtain ⟨i, hi, hx⟩ := hx
    exact hpick i (List.mem_range.mp hi) x hx
  have hinner : Nums dt n false c.inner := by
    rw [hinn]
    rw [hc] at hn
    cases isoption <;> cases hn <;> assumption
  obtain ⟨next, e1, e2, e3, e4⟩ := carry_good (inner_good h) false hin
  have hn0 := carry_closed nested_closed (inner_good h) hin e1 (n, false) hinner
  simp only at hn0
  have hlen0 : next.len = cnt c.pickI c.len := by rw [e4.1]; rfl
  have hval0 : ∀ j, j < next.len → next.valD j = c.valD (keptAt c.pickI c.len j) := by
    intro j hj
    rw [hlen0] at hj
    obtain ⟨s1, s2, s3⟩ := kept_get hj
    rw [(val_inner_pick h ho s1).1]
    obtain ⟨x, hx⟩ := Option.isSome_iff_exists.mp s2
    have hg := filterMap_range_get' s1 hx
    rw [s3] at hg
    obtain ⟨hb, he⟩ := List.getElem?_eq_some_iff.mp hg
    have hx' : (c.pick (keptAt c.pickI c.len j)).map (fun (k : Nat) => (k : Int)) = some x := hx
    rw [Option.map_eq_some_iff] at hx'
    obtain ⟨y, hy, rfl⟩ := hx'
    rw [hy, e4.valD (i := j) (by rw [shown_eq]; exact hb)]
    simp only
    congr 1
    have : c.shown[j]'(by rw [shown_eq]; exact hb) = (y : Int) := he
    rw [this]; rfl
  simp only [Bool.toNat_false, Nat.add_zero] at e3
  refine ⟨next, e2, hn0, by rw [← hinn]; exact e3, hlen0, hval0, ?_⟩
  -- the kernels
  have hnull : IndexedArray_numnull index index.length
      = ok ((List.range index.length).countP (fun i => (c.pickI i).isNone)) := by
    unfold IndexedArray_numnull
    refine forN_count _ (fun i hi k => ?_)
    rw [rd_nat_ok hi, bind_ok, hpk i hi]
    by_cases hneg : index[i] < 0 <;> simp [hneg]
  generalize hnn : (List.range index.length).countP (fun i => (c.pickI i).isNone) = numnull at hnull
  have hsub := cnt_sub hnn.symm
  have hle : numnull ≤ index.length := by
    rw [← hnn]; simpa using List.countP_le_length (p := fun i => (c.pickI i).isNone) (l := List.range index.length)
  have hal : (alloc ((index.length : Int) - (numnull : Int))).length = cnt c.pickI index.length := by
    rw [show (index.length : Int) - (numnull : Int) = ((index.length - numnull : Nat) : Int) by omega, alloc_length, hsub]
  have hkern : reduce_next_kernel (pickedIndex index) (alloc ((index.length : Int) - (numnull : Int)))
      (alloc ((index.length : Int) - (numnull : Int))) (alloc index.length) (nats g index.length) index.length
      = ok ((List.range index.length).filterMap c.pickI, (keptPos c.pickI index.length).map (fun i => (g i : Int)),
        outIndex c.pickI index.length) := by
    refine reduce_next_kernel_ok ?_ hal hal (alloc_length _)
    intro i hi
    unfold pickedIndex
    rw [rd_nat_ok hi, bind_ok, hpk i hi]
    by_cases hneg : index[i] < 0
    · simp [hneg]
    · simp [hneg, show 0 ≤ index[i] by omega]
  have hstep : sortNext a (f + 1) negaxis starts (nats g c.len) outlength keepdims c
      = sortOption (sortNext a f) a isoption p index negaxis starts (nats g c.len) outlength keepdims c.branchDepth d := by
    rw [hlen] at h0
    rw [hc]
    cases isoption <;> simp only [if_true, Bool.false_eq_true, if_false, sortNext] <;> rw [if_neg (by omega)]
  rw [hstep]
  unfold sortOption
  rw [hnull, bind_ok, hlen]
  dsimp only
  rw [hkern, bind_ok]
  have hsh : (List.range index.length).filterMap c.pickI = c.shown := by rw [shown_eq, hlen]
  have hlt : decide ((numnull : Int) > 0) = decide (next.len < index.length) := by
    rw [hlen0, hlen, ← hsub]
    apply decide_eq_decide.mpr
    omega
  have hnl : (index.length : Int) - (numnull : Int) = (next.len : Int) := by rw [hlen0, hlen]; omega
  simp only
  rw [hsh, ← hinn, e1, bind_ok, hbd, kept_map_nats, ← hlen, ← hlen0]
  simp only [Bool.not_false, Bool.and_true, Prod.mk.injEq, true_and]
  rw [hlen, hnl]
  have hlt' : decide (numnull > 0) = decide (next.len < index.length) := by
    rw [← hlt]; apply decide_eq_decide.mpr; omega
  rw [hlt']
  congr 1
  funext o
  congr 1
  apply decide_eq_decide.mpr
  exact ⟨fun h => h.symm, fun h => h.symm⟩

end Content
end Awk
