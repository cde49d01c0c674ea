import Verif.Lemmas.ReduceLift
/-
Reducers at `axis=0` of three dimensions: one group, in which two dimensions are merged.
-/

namespace Awk
open R

namespace Content
open Spec (Nested)

variable {red : Reducer} {mask : Bool} {dt : DType} {z ix rg : Prop} {k : Nat}

theorem nested_inner {n : Nat} {b : Bool} {c : Content} (h : Nested red dt z ix rg 3 n b c) (hn : n ≤ 2) :
    Nested red dt False ix rg 2 n b c := by
  induction h with
  | numpy h1 h2 => exact .numpy h1 h2
  | empty h1 h2 => exact .empty h1 h2
  | regular h1 h2 _ ih => exact .regular h1 (fun _ => h2 (by omega)) (ih (by omega))
  | listArray h1 _ ih => exact .listArray h1 (ih (by omega))
  | listOffset h1 h2 h3 _ ih => exact .listOffset h1 (fun h => h.elim) h3 (ih (by omega))
  | indexed h1 _ _ ih => exact .indexed h1 (.inr hn) (ih hn)
  | indexedOption _ _ ih => exact .indexedOption (.inr hn) (ih hn)
  | byteMasked _ _ ih => exact .byteMasked (.inr hn) (ih hn)
  | bitMasked _ _ ih => exact .bitMasked (.inr hn) (ih hn)
  | unmasked _ ih => exact .unmasked (ih hn)

/-- The condition: a single group, and the condition for its columns. -/
def Groups3 (rg : Prop) (gs : List (List Val)) : Prop :=
  gs.length = 1 ∧ ∀ vals ∈ gs, Groups2 rg (Spec.columns vals)

theorem columns_nn (vals vals' : List Val) (h : vals.filterMap nn = vals'.filterMap nn) :
    (Spec.columns vals).map (List.filterMap nn) = (Spec.columns vals').map (List.filterMap nn) := by
  unfold Spec.columns
  rw [← longest_nn vals, h, longest_nn vals', List.map_map, List.map_map]
  apply List.map_congr_left
  intro j _
  simp only [Function.comp]
  rw [← column_nn vals, h, column_nn]

theorem groups3_nn (gs gs' : List (List Val))
    (h : gs.map (List.filterMap nn) = gs'.map (List.filterMap nn)) (hC : Groups3 rg gs) : Groups3 rg gs' := by
  obtain ⟨h1, h2⟩ := hC
  have hl : gs.length = gs'.length := by
    have := congrArg List.length h
    simpa using this
  refine ⟨by omega, ?_⟩
  intro vals' hv
  have : vals'.filterMap nn ∈ gs.map (List.filterMap nn) := by
    rw [h]; exact List.mem_map_of_mem hv
  obtain ⟨vals, hv1, hv2⟩ := List.mem_map.mp this
  exact groups2_nn _ _ (columns_nn _ _ hv2) (h2 vals hv1)

theorem longest_all (c : Content) : Spec.longest (c.seg 0 c.len) = maxTo c.lens c.len := by
  have : ∀ r, r < Spec.longest (c.seg 0 c.len) ↔ r < maxTo c.lens c.len := by
    intro r
    rw [lt_longest]
    constructor
    · rintro ⟨v, h1, h2⟩
      obtain ⟨i, h3, rfl⟩ := List.mem_map.mp h1
      have h3 := List.mem_range.mp h3
      rw [Nat.zero_add] at h2
      exact Nat.lt_of_lt_of_le h2 (maxTo_le (f := c.lens) h3)
    · intro h
      obtain ⟨i, h1, h2⟩ := maxTo_lt h
      refine ⟨c.valD i, ?_, h2⟩
      unfold seg
      rw [List.mem_map]
      exact ⟨i, List.mem_range.mpr h1, by rw [Nat.zero_add]⟩
  have h1 := this (Spec.longest (c.seg 0 c.len))
  have h2 := this (maxTo c.lens c.len)
  omega

/-- The merged items with equal positions are the columns. -/
theorem cells_seg (c next : Content) {q : Nat} (hq : q < maxTo c.lens c.len)
    (hv : ∀ q i, i < c.len → q < c.lens i →
      (c.valD i).items[q]? = some (next.valD (cellAt c.lens c.len q i))) :
    (next.seg (sumTo (wid c.lens c.len) q) (wid c.lens c.len q)).filterMap nn
      = (Spec.column (c.seg 0 c.len) q).filterMap nn := by
  have htot : sumTo (wid c.lens c.len) (maxTo c.lens c.len) = sumTo c.lens c.len :=
    cells_total _ (fun i hi => maxTo_le hi)
  have h1 := grp_blk (m := wid c.lens c.len) (out := maxTo c.lens c.len) next.valD hq
  have h2 := grp_cells (g := fun _ => 0) (ℓ := c.lens) (L := c.len) (p := 0) hq next.valD
  have he : cellG (fun _ => 0) c.lens c.len = blk (wid c.lens c.len) (maxTo c.lens c.len) := by
    funext t
    simp [cellG, cellQ]
  rw [he, Nat.zero_mul, Nat.zero_add, ← htot, h1] at h2
  have hcol : Spec.column (c.seg 0 c.len) q
      = (List.range c.len).map (fun i => (c.valD i).items[q]?.getD .null) := by
    unfold Spec.column seg
    rw [List.map_map]
    apply List.map_congr_left
    intro i _
    simp only [Function.comp, Nat.zero_add]
  have hs : next.seg (sumTo (wid c.lens c.len) q) (wid c.lens c.len q)
      = ((List.range c.len).filter (fun i => decide (0 = 0) && decide (q < c.lens i))).map
          (fun i => next.valD (cellAt c.lens c.len q i)) := h2
  rw [hs, hcol, List.filterMap_map, List.filterMap_map, List.filterMap_filter]
  apply List.filterMap_congr
  intro i hi
  have hi := List.mem_range.mp hi
  by_cases hqi : q < c.lens i
  · simp only [hqi, decide_true, Bool.and_self, if_true, Function.comp, hv q i hi hqi, Option.getD_some]
  · have : (c.valD i).items[q]? = none := List.getElem?_eq_none (by simpa [lens] using hqi)
    simp [hqi, Function.comp, this, nn]

theorem blk_one {m : Nat → Nat} : blk m 1 = fun _ => 0 := by
  funext i
  simp [blk]

/-- Reducing across two dimensions of a single group. -/
theorem base_three (hid : red.identityOk dt) (hr : red.returnsPositions = false) :
    BaseOk red mask dt z ix rg 3 (Groups3 rg) (Spec.reduceAcross red mask dt 2) := by
  refine lift_ok ?_ (across_items 1) ?_ groups3_nn (reduceAcross_nn hr 2) hr (by omega)
  · intro fuel p offsets d b m out starts h hn hf hl hC
    obtain ⟨hC1, hC2⟩ := hC
    obtain rfl : out = 1 := by simpa [segs] using hC1
    obtain ⟨next, ns, S, T, n1, n2, n3, n4, n5, n6, n7⟩ := nonlocal_step (n := 2)
      (rec := reduceNext red mask fuel) (starts := starts) hr h hn hl (by simp [segs, Spec.Ordered])
    have hbd := nested_branchDepth hn
    have hC2 : Groups2 rg (Spec.columns ((listOffset p offsets d).seg 0 (listOffset p offsets d).len)) := by
      apply hC2
      simp [segs, hl, sumTo]
    generalize hc : listOffset p offsets d = c at *
    have hm : c.len = m 0 := by rw [hl]; simp [sumTo]
    rw [blk_one] at n7 n6
    generalize hout : maxTo (cellG (fun _ => 0) c.lens c.len) next.len + 1 = out at n7
    have hN : next.len = sumTo c.lens c.len := n4
    have htot : sumTo (wid c.lens c.len) (maxTo c.lens c.len) = sumTo c.lens c.len :=
      cells_total _ (fun i hi => maxTo_le hi)
    have hG : ∀ t, cellG (fun _ => 0) c.lens c.len t = cellQ c.lens c.len t := by
      intro t; simp [cellG]
    have hM : maxTo c.lens c.len ≤ out := by
      by_contra hlt
      obtain ⟨i, hi, hq⟩ := maxTo_lt (f := c.lens) (n := c.len) (q := maxTo c.lens c.len - 1) (by omega)
      obtain ⟨c1, c2, c3⟩ := cell_at hi hq
      have := maxTo_le (f := cellG (fun _ => 0) c.lens c.len) (n := next.len)
        (i := cellAt c.lens c.len (maxTo c.lens c.len - 1) i) (by omega)
      rw [hG, c1] at this
      omega
    have hM1 : out ≤ max (maxTo c.lens c.len) 1 := by
      have := maxTo_le_of (f := cellG (fun _ => 0) c.lens c.len) (n := next.len)
        (b := maxTo c.lens c.len - 1) (fun t ht => by
          obtain ⟨a1, _⟩ := at_cell (ℓ := c.lens) (L := c.len) (t := t) (by omega)
          rw [hG]; omega)
      omega
    have hsum : sumTo (wid c.lens c.len) out = sumTo c.lens c.len :=
      cells_total _ (fun i hi => Nat.le_trans (maxTo_le hi) hM)
    have hblk : nats (cellG (fun _ => 0) c.lens c.len) next.len
        = nats (blk (wid c.lens c.len) out) next.len := by
      unfold nats
      apply List.map_congr_left
      intro t ht
      have ht := List.mem_range.mp ht
      obtain ⟨g1, g2, g3⟩ := blk_spec (m := wid c.lens c.len) (out := maxTo c.lens c.len) (i := t) (by omega)
      rw [hG, blk_eq (p := cellQ c.lens c.len t) (Nat.lt_of_lt_of_le g1 hM) g2 g3]
    have hCn : Groups2 rg (next.segs (wid c.lens c.len) out) := by
      by_cases h0 : maxTo c.lens c.len = 0
      · obtain rfl : out = 1 := by omega
        simp [Groups2, segs, Spec.Ordered, Spec.SameLength]
      · obtain rfl : out = maxTo c.lens c.len := by omega
        refine groups2_nn _ _ ?_ hC2
        unfold Spec.columns segs
        rw [List.map_map, List.map_map, longest_all]
        apply List.map_congr_left
        intro q hq
        simp only [Function.comp]
        exact (cells_seg c next (List.mem_range.mp hq) n5).symm
    obtain ⟨oc, o1, o2⟩ := base_two (mask := mask) hid hr fuel next true (wid c.lens c.len) out ns
      n1 (nested_inner n2 (Nat.le_refl 2)) (by omega) (by omega) (fun h => h.elim) hCn
    rw [hblk, o1] at n7
    refine ⟨_, _, oc, ?_, ?_, ?_, merge_reduced (F := fun P => Spec.reduceAcross red mask dt 1
      (next.seg (sumTo (wid c.lens c.len) P) (wid c.lens c.len P))) hl (by rw [blk_one]; exact n6)
      (by rw [blk_one, ← hN, hout]; exact o2) ?_⟩
    · rw [← hc]
      simp only [reduceNext]
      rw [hc, hbd, if_pos rfl, blk_one, n7, bind_ok]
    · rw [o2.len]; omega
    · intro i hi
      refine .inr (.inr ⟨_, o2.val i (by rw [← o2.len]; exact hi)⟩)
    · intro p' q hp' hq
      obtain rfl : p' = 0 := by omega
      rw [Nat.zero_mul, Nat.zero_add]
      refine reduceAcross_nn hr 1 _ _ ?_
      rw [cells_seg c next hq n5, hm]
      rfl
  · intro gs _ hC a ha b hb
    obtain ⟨hC1, _⟩ := hC
    obtain ⟨x, rfl⟩ := List.length_eq_one_iff.mp hC1
    rw [List.mem_singleton.mp ha, List.mem_singleton.mp hb]

end Content
end Awk
