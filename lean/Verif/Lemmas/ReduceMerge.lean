import Verif.Lemmas.ReduceNonlocal
import Verif.Lemmas.ReduceTop
/-
Merging a dimension: the lists of every group are laid over each other.
-/

namespace Awk
open R

section Cells
variable {ℓ g : Nat → Nat} {L : Nat}

/-- The group of the item at place `t`. -/
def cellG (g ℓ : Nat → Nat) (L t : Nat) : Nat := g (cellI ℓ L t) * maxTo ℓ L + cellQ ℓ L t

theorem cellG_at {q i : Nat} (hi : i < L) (hq : q < ℓ i) :
    cellG g ℓ L (cellAt ℓ L q i) = g i * maxTo ℓ L + q := by
  obtain ⟨h1, h2, _⟩ := cell_at hi hq
  unfold cellG
  rw [h1, h2]

theorem pair_inj {M p p' q q' : Nat} (hq : q < M) (hq' : q' < M) (h : p * M + q = p' * M + q') :
    p = p' ∧ q = q' := by
  have h1 : (p * M + q) / M = p := by
    rw [Nat.mul_comm, Nat.mul_add_div (by omega), Nat.div_eq_of_lt hq]; rfl
  have h2 : (p' * M + q') / M = p' := by
    rw [Nat.mul_comm, Nat.mul_add_div (by omega), Nat.div_eq_of_lt hq']; rfl
  have h3 : p = p' := by rw [← h1, h, h2]
  subst h3
  exact ⟨rfl, by omega⟩

/-- The items of group `p`, position `q`, in order. -/
theorem grp_cells_at {p q : Nat} (hq : q < maxTo ℓ L) (v : Nat → α) (Q : Nat) (hQ : Q ≤ maxTo ℓ L) :
    grp (cellG g ℓ L) v (sumTo (wid ℓ L) Q) (p * maxTo ℓ L + q)
      = if q < Q then ((List.range L).filter (fun i => decide (g i = p) && decide (q < ℓ i))).map
          (fun i => v (cellAt ℓ L q i)) else [] := by
  induction Q with
  | zero => simp [grp]
  | succ Q ih =>
    have step : ∀ i, i ≤ L → grp (cellG g ℓ L) v (cellAt ℓ L Q i) (p * maxTo ℓ L + q)
        = if q < Q then ((List.range L).filter (fun i => decide (g i = p) && decide (q < ℓ i))).map
            (fun i => v (cellAt ℓ L q i))
          else if q = Q then ((List.range i).filter (fun i => decide (g i = p) && decide (q < ℓ i))).map
            (fun i => v (cellAt ℓ L q i)) else [] := by
      intro i
      induction i with
      | zero =>
        intro _
        rw [cellAt_zero, ih (by omega)]
        simp
      | succ i ihi =>
        intro hi
        rw [cellAt_succ]
        by_cases hl : Q < ℓ i
        · rw [if_pos hl, grp_succ, ihi (by omega), cellG_at (by omega) hl, List.range_succ, List.filter_append,
            List.map_append]
          by_cases h1 : q < Q
          · rw [if_pos h1, if_pos h1, if_neg, List.append_nil]
            intro he
            have := (pair_inj (by omega) hq he).2
            omega
          · rw [if_neg h1, if_neg h1]
            by_cases h2 : q = Q
            · subst h2
              rw [if_pos rfl, if_pos rfl]
              congr 1
              by_cases h3 : g i = p
              · rw [if_pos (by rw [h3])]
                simp [h3, hl]
              · rw [if_neg]
                · simp [h3]
                · intro he
                  exact h3 (pair_inj hq hq he).1
            · rw [if_neg h2, if_neg h2, if_neg, List.append_nil]
              intro he
              exact h2 (pair_inj (by omega) hq he).2.symm
        · rw [if_neg hl, Nat.add_zero, ihi (by omega), List.range_succ, List.filter_append, List.map_append]
          by_cases h1 : q < Q
          · rw [if_pos h1, if_pos h1]
          · rw [if_neg h1, if_neg h1]
            by_cases h2 : q = Q
            · subst h2
              simp [hl]
            · rw [if_neg h2, if_neg h2]
    rw [← cellAt_last, step L (Nat.le_refl _)]
    by_cases h1 : q < Q
    · rw [if_pos h1, if_pos (by omega)]
    · rw [if_neg h1]
      by_cases h2 : q = Q
      · rw [if_pos h2, if_pos (by omega)]
      · rw [if_neg h2, if_neg (by omega)]

theorem grp_cells {p q : Nat} (hq : q < maxTo ℓ L) (v : Nat → α) :
    grp (cellG g ℓ L) v (sumTo ℓ L) (p * maxTo ℓ L + q)
      = ((List.range L).filter (fun i => decide (g i = p) && decide (q < ℓ i))).map
          (fun i => v (cellAt ℓ L q i)) := by
  have htot : sumTo (wid ℓ L) (maxTo ℓ L) = sumTo ℓ L := cells_total _ (fun i hi => maxTo_le hi)
  rw [← htot, grp_cells_at hq v _ (Nat.le_refl _), if_pos hq]

theorem keptAt_mono {q : Nat → Option Int} {n j j' : Nat} (h : j ≤ j') (h' : j' < cnt q n) :
    keptAt q n j ≤ keptAt q n j' := by
  obtain ⟨_, _, a3⟩ := kept_get (q := q) (n := n) (j := j) (by omega)
  obtain ⟨_, _, b3⟩ := kept_get h'
  by_contra hc
  have := cnt_mono (q := q) (show keptAt q n j' + 1 ≤ keptAt q n j by omega)
  have hs := (kept_get h').2.1
  rw [cnt_succ, if_pos hs] at this
  omega

/-- The places of a group are adjacent. -/
theorem cellG_adjacent (hs : ∀ i j, i ≤ j → j < L → g i ≤ g j) {t t' : Nat} (h' : t' < sumTo ℓ L)
    (hlt : t < t') (he : cellG g ℓ L t = cellG g ℓ L t') : cellG g ℓ L (t' - 1) = cellG g ℓ L t' := by
  have htot : sumTo (wid ℓ L) (maxTo ℓ L) = sumTo ℓ L := cells_total _ (fun i hi => maxTo_le hi)
  rw [← htot] at h'
  obtain ⟨a1, a2, a3, a4⟩ := at_cell (ℓ := ℓ) (L := L) (t := t) (by omega)
  obtain ⟨b1, b2, b3, b4⟩ := at_cell (ℓ := ℓ) (L := L) (t := t') h'
  obtain ⟨c1, c2, c3, c4⟩ := at_cell (ℓ := ℓ) (L := L) (t := t' - 1) (by omega)
  obtain ⟨e1, e2⟩ := pair_inj a1 b1 he
  have hQ : cellQ ℓ L (t' - 1) = cellQ ℓ L t' := by
    obtain ⟨x1, x2, x3⟩ := blk_spec (m := wid ℓ L) (out := maxTo ℓ L) (i := t) (by omega)
    obtain ⟨y1, y2, y3⟩ := blk_spec (m := wid ℓ L) (out := maxTo ℓ L) (i := t') h'
    refine blk_eq b1 ?_ ?_
    · have : sumTo (wid ℓ L) (cellQ ℓ L t) ≤ t := x2
      rw [e2] at this
      omega
    · have : t' < sumTo (wid ℓ L) (cellQ ℓ L t' + 1) := y3
      omega
  have hI : ∀ {s s'}, s ≤ s' → s' < sumTo (wid ℓ L) (maxTo ℓ L) → cellQ ℓ L s = cellQ ℓ L s' →
      cellI ℓ L s ≤ cellI ℓ L s' := by
    intro s s' h1 h2 h3
    unfold cellI
    rw [h3]
    apply keptAt_mono (by omega)
    obtain ⟨y1, y2, y3⟩ := blk_spec (m := wid ℓ L) (out := maxTo ℓ L) (i := s') h2
    have y2' : sumTo (wid ℓ L) (cellQ ℓ L s') ≤ s' := y2
    have y3' : s' < sumTo (wid ℓ L) (cellQ ℓ L s' + 1) := y3
    rw [sumTo_succ] at y3'
    have : wid ℓ L (cellQ ℓ L s') = cnt (longer ℓ (cellQ ℓ L s')) L := rfl
    omega
  have i1 := hI (s := t) (s' := t' - 1) (by omega) (by omega) (by rw [hQ, e2])
  have i2 := hI (s := t' - 1) (s' := t') (by omega) h' hQ
  have g1 := hs _ _ i1 c2
  have g2 := hs _ _ i2 b2
  unfold cellG
  rw [hQ, show g (cellI ℓ L (t' - 1)) = g (cellI ℓ L t') by omega]

end Cells

theorem blk_sorted {m : Nat → Nat} {out i j : Nat} (h : i ≤ j) (hj : j < sumTo m out) :
    blk m out i ≤ blk m out j := by
  obtain ⟨a1, a2, a3⟩ := blk_spec (m := m) (out := out) (i := i) (by omega)
  obtain ⟨b1, b2, b3⟩ := blk_spec hj
  by_contra hc
  have := sumTo_mono (f := m) (show blk m out j + 1 ≤ blk m out i by omega)
  omega

theorem lt_longest {vals : List Val} {r : Nat} : r < Spec.longest vals ↔ ∃ v ∈ vals, r < v.items.length := by
  unfold Spec.longest
  induction vals with
  | nil => simp
  | cons v vals ih =>
    simp only [List.map_cons, List.foldr_cons, List.mem_cons, exists_eq_or_imp, ← ih]
    omega

namespace Content
open Spec (Nested Ordered)

variable {red : Reducer} {dt : DType} {z ix rg : Prop} {k : Nat} {mask : Bool}

/-- The groups, in terms of the elements of an array. -/
theorem has_seg (c : Content) {m : Nat → Nat} {out p r : Nat} (hl : c.len = sumTo m out) (hp : p < out) :
    has (blk m out) c.lens r c.len p = true ↔ ∃ v ∈ c.seg (sumTo m p) (m p), r < v.items.length := by
  rw [has_iff]
  constructor
  · rintro ⟨i, h1, h2, h3⟩
    obtain ⟨b1, b2, b3⟩ := blk_spec (m := m) (out := out) (i := i) (by omega)
    rw [h2] at b2 b3
    rw [sumTo_succ] at b3
    refine ⟨c.valD i, ?_, h3⟩
    unfold seg
    exact List.mem_map.mpr ⟨i - sumTo m p, List.mem_range.mpr (by omega), by congr 1; omega⟩
  · rintro ⟨v, hv, hr⟩
    unfold seg at hv
    obtain ⟨j, hj, rfl⟩ := List.mem_map.mp hv
    have hj := List.mem_range.mp hj
    have := sumTo_mono (f := m) (show p + 1 ≤ out by omega)
    rw [sumTo_succ] at this
    exact ⟨sumTo m p + j, by omega, blk_add hp hj, hr⟩

theorem longest_seg (c : Content) {m : Nat → Nat} {out p : Nat} (hl : c.len = sumTo m out) (hp : p < out) :
    longestIn (blk m out) c.lens c.len p = Spec.longest (c.seg (sumTo m p) (m p)) := by
  have : ∀ r, r < longestIn (blk m out) c.lens c.len p ↔ r < Spec.longest (c.seg (sumTo m p) (m p)) := by
    intro r
    rw [← has_longest, has_seg c hl hp, lt_longest]
  have h1 := this (longestIn (blk m out) c.lens c.len p)
  have h2 := this (Spec.longest (c.seg (sumTo m p) (m p)))
  omega

/-- Merging the dimension of a ListOffsetArray: what the recursive call gets. -/
theorem nonlocal_step {rec : ReduceRec} {p : Params} {offsets : List Int} {d : Content} {n : Nat} {b : Bool}
    {m : Nat → Nat} {out : Nat} {starts : List Int} (hr : red.returnsPositions = false)
    (h : (listOffset p offsets d).Good) (hn : Nested red dt z ix rg k (n + 1) b (listOffset p offsets d))
    (hl : (listOffset p offsets d).len = sumTo m out)
    (hC : Ordered ((listOffset p offsets d).segs m out)) :
    ∃ next nextstarts, ∃ S T : Nat → Int, next.Good ∧ Nested red dt z ix rg k n true next ∧
      next.rank ≤ d.rank ∧
      next.len = sumTo (listOffset p offsets d).lens (listOffset p offsets d).len ∧
      (∀ q i, i < (listOffset p offsets d).len → q < (listOffset p offsets d).lens i →
        ((listOffset p offsets d).valD i).items[q]?
          = some (next.valD (cellAt (listOffset p offsets d).lens (listOffset p offsets d).len q i))) ∧
      (∀ p', p' < out → SpanOk (blk m out) (listOffset p offsets d).lens (listOffset p offsets d).len p'
        (S p') (T p')) ∧
      reduceNonlocal rec red (n + 1) starts (nats (blk m out) (listOffset p offsets d).len) out offsets d
        = (rec n nextstarts []
            (nats (cellG (blk m out) (listOffset p offsets d).lens (listOffset p offsets d).len) next.len)
            (maxTo (cellG (blk m out) (listOffset p offsets d).lens (listOffset p offsets d).len) next.len + 1)
            next >>= fun oc => ok (listArray {} ((List.range out).map S) ((List.range out).map T) oc)) := by
  obtain ⟨hl1, hd, hpair⟩ := good_listOffset.mp h
  cases hn with
  | listOffset hp hz hoff hn =>
  generalize hc : listOffset p offsets d = c at *
  have hlen : c.len = offsets.length - 1 := by rw [← hc]; rfl
  have hlens : ∀ i (hi : i + 1 < offsets.length), c.lens i = (offsets[i + 1] - offsets[i]).toNat := by
    intro i hi
    rw [← hc]
    simp only [lens, valD_listOffset (hc ▸ h) hi, items_wrapList, seg_length]
  have hval : ∀ i (hi : i + 1 < offsets.length), c.valD i = .list (d.seg offsets[i].toNat (c.lens i)) := by
    intro i hi
    rw [hlens i hi, ← hc, valD_listOffset (hc ▸ h) hi, wrapList_plain hp]
  have hsum : ∀ i (hi : i < offsets.length), offsets[i] = offsets[0] + (sumTo c.lens i : Nat) := by
    intro i
    induction i with
    | zero => intro _; simp
    | succ i ihi =>
      intro hi
      have h1 := ihi (by omega)
      have h2 := hlens i hi
      have h3 := (hpair i hi).le
      rw [sumTo_succ]; push_cast; omega
  have h0 := hoff _ (List.getElem_mem (show 0 < offsets.length by omega))
  have hN := hoff _ (List.getElem_mem (show c.len < offsets.length by omega))
  rw [hsum c.len (by omega)] at hN
  set a : Nat := offsets[0].toNat with ha
  have ha' : offsets[0] = (a : Int) := by omega
  have hoffs : offsets = offsFrom a c.lens c.len := by
    unfold offsFrom
    apply List.ext_getElem (by simp; omega)
    intro i h1 h2
    rw [hsum i h1, ha']
    simp
  set g := blk m out with hg
  set ℓ := c.lens with hℓ
  set L := c.len with hL
  have hsorted : ∀ i j, i ≤ j → j < L → g i ≤ g j := fun i j h1 h2 => blk_sorted h1 (by omega)
  have hgo : ∀ i, i < L → g i < out := fun i hi => (blk_spec (by omega)).1
  have htot : sumTo (wid ℓ L) (maxTo ℓ L) = sumTo ℓ L := cells_total _ (fun i hi => maxTo_le hi)
  -- the items
  have hbound : ∀ t, t < sumTo ℓ L → a + sumTo ℓ (cellI ℓ L t) + cellQ ℓ L t < d.len := by
    intro t ht
    obtain ⟨a1, a2, a3, a4⟩ := at_cell (ℓ := ℓ) (L := L) (t := t) (by omega)
    have := sumTo_mono (f := ℓ) (show cellI ℓ L t + 1 ≤ L by omega)
    rw [sumTo_succ] at this
    omega
  obtain ⟨next, x1, x2, x3, x4⟩ := carry_good hd false
    (idx := (List.range (sumTo ℓ L)).map (fun t => ((a + sumTo ℓ (cellI ℓ L t) + cellQ ℓ L t : Nat) : Int)))
    (by
      intro x hx
      obtain ⟨t, ht, rfl⟩ := List.mem_map.mp hx
      have := hbound t (List.mem_range.mp ht)
      omega)
  have hnl : next.len = sumTo ℓ L := by rw [x4.1]; simp
  have hnv : ∀ t, t < sumTo ℓ L → next.valD t = d.valD (a + sumTo ℓ (cellI ℓ L t) + cellQ ℓ L t) := by
    intro t ht
    have := x4.valD (i := t) (by simpa using ht)
    rw [this]
    congr 1
    simp only [List.getElem_map, List.getElem_range]
    omega
  obtain ⟨nx1, _⟩ := nested_gathered hn hd (.inr ⟨false, _, by
      intro x hx
      obtain ⟨t, ht, rfl⟩ := List.mem_map.mp hx
      have := hbound t (List.mem_range.mp ht)
      omega, x1⟩ : Gathered next d)
  -- the condition
  have hCond : ∀ p p', p < p' → p' < out → has g ℓ 0 L p' = true → pres g L p = true →
      has g ℓ 0 L p = true := by
    intro p1 p2 hlt hp2 hh hpr
    have hex : ∀ p', p' < out → (has g ℓ 0 L p' = true ↔ ∃ v ∈ c.seg (sumTo m p') (m p'), v.items ≠ []) := by
      intro p' hp'
      rw [hg, hℓ, hL, has_seg c hl hp']
      simp only [← List.length_pos_iff]
    have hpw := (List.pairwise_iff_getElem.mp hC) p1 p2 (by simp [segs]; omega) (by simp [segs]; omega) hlt
    simp only [segs, List.getElem_map, List.getElem_range] at hpw
    refine (hex p1 (by omega)).mpr (hpw ((hex p2 hp2).mp hh) ?_)
    obtain ⟨i, i1, i2, _⟩ := has_iff.mp hpr
    obtain ⟨b1, b2, b3⟩ := blk_spec (m := m) (out := out) (i := i) (by omega)
    rw [show blk m out i = p1 from i2] at b2 b3
    rw [sumTo_succ] at b3
    refine ⟨c.valD i, ?_, ?_⟩
    · unfold seg
      exact List.mem_map.mpr ⟨i - sumTo m p1, List.mem_range.mpr (by omega), by congr 1; omega⟩
    · rw [hval i (by omega)]; simp
  set G := cellG g ℓ L with hGdef
  obtain ⟨gaps, y1, y2, y3⟩ := findgaps_ok (g := g) (L := L) (out := out) (gp := alloc out) hsorted hgo
    (by rw [alloc_length])
  obtain ⟨S, T, w1, w2⟩ := outstartsstops_ok (g := g) (ℓ := ℓ) (L := L) (out := out) (os := alloc out)
    (op := alloc out) (by rw [alloc_length]) (by rw [alloc_length]) rfl y3 hCond
  obtain ⟨ns, v1, v2, v3⟩ := nextstarts_ok (G := G) (N := sumTo ℓ L)
    (ns := alloc ((maxTo G (sumTo ℓ L) : Int) + 1)) (by
      intro t ht
      have : (alloc ((maxTo G (sumTo ℓ L) : Int) + 1)).length = maxTo G (sumTo ℓ L) + 1 := by
        rw [show ((maxTo G (sumTo ℓ L) : Nat) : Int) + 1 = ((maxTo G (sumTo ℓ L) + 1 : Nat) : Int) by omega,
          alloc_length]
      rw [this]
      have := maxTo_le (f := G) ht
      omega)
    (fun t t' h1 h2 h3 => cellG_adjacent hsorted h1 h2 h3)
  refine ⟨next, ns, S, T, x2, nx1, by simpa using x3, hnl, ?_, w2, ?_⟩
  · intro q i hi hq
    obtain ⟨c1, c2, c3⟩ := cell_at hi hq
    rw [hval i (by omega), hnv _ (by omega), c1, c2]
    simp only [Val.items]
    rw [seg_getElem?, if_pos hq, hsum i (by omega), ha']
    congr 3
  · have hprep := preparenext_ok (ℓ := ℓ) (g := g) (L := L) (out := out) (b := a) hsorted hgo
      (nc := alloc (sumTo ℓ L : Nat)) (np := alloc (sumTo ℓ L : Nat))
      (di := alloc ((maxTo ℓ L : Int) * (out : Int))) (alloc_length _) (alloc_length _) (by
        rw [← Nat.cast_mul, alloc_length])
    have hlast : cellAt ℓ L (maxTo ℓ L) 0 = sumTo ℓ L := by rw [cellAt_zero, htot]
    unfold reduceNonlocal
    rw [nats_length, ← hlen, if_neg (by omega)]
    simp only
    have e0 : rd offsets 0 = ok ((a : Nat) : Int) := by
      have := rd_offsFrom (b := a) (ℓ := ℓ) (L := L) (i := 0) (by omega)
      rw [← hoffs] at this
      simpa using this
    have eL : rd offsets (L : Int) = ok ((a + sumTo ℓ L : Nat) : Int) := by
      have := rd_offsFrom (b := a) (ℓ := ℓ) (L := L) (i := L) (by omega)
      rwa [← hoffs] at this
    rw [e0, bind_ok, eL, bind_ok]
    rw [show ((a + sumTo ℓ L : Nat) : Int) - ((a : Nat) : Int) = ((sumTo ℓ L : Nat) : Int) by omega]
    have hmc := maxcount_offsetscopy_ok (b := a) (ℓ := ℓ) (L := L) (oc := alloc offsets.length)
      (by rw [alloc_length]; omega)
    rw [← hoffs] at hmc hprep
    rw [hmc, bind_ok]
    simp only
    rw [hprep, bind_ok]
    have hpn : (prepAt g ℓ L out a (alloc (sumTo ℓ L : Nat)) (alloc (sumTo ℓ L : Nat)) (maxTo ℓ L) 0).nextparents
        = nats G (sumTo ℓ L) := by
      simp only [prepAt, hlast]
      rw [mix_all (by rw [alloc_length]), alloc_length]
      rfl
    have hpc : (prepAt g ℓ L out a (alloc (sumTo ℓ L : Nat)) (alloc (sumTo ℓ L : Nat)) (maxTo ℓ L) 0).nextcarry
        = (List.range (sumTo ℓ L)).map (fun t => ((a + sumTo ℓ (cellI ℓ L t) + cellQ ℓ L t : Nat) : Int)) := by
      simp only [prepAt, hlast]
      rw [mix_all (by rw [alloc_length]), alloc_length]
    have hpm : (prepAt g ℓ L out a (alloc (sumTo ℓ L : Nat)) (alloc (sumTo ℓ L : Nat)) (maxTo ℓ L) 0).maxnextparents
        = ((maxTo G (sumTo ℓ L) : Nat) : Int) := by
      simp only [prepAt, hlast]
      rfl
    have hpd : (prepAt g ℓ L out a (alloc (sumTo ℓ L : Nat)) (alloc (sumTo ℓ L : Nat)) (maxTo ℓ L) 0).distincts
        = (List.range (maxTo ℓ L * out)).map (dist g ℓ L (maxTo ℓ L) 0) := rfl
    rw [hpn, hpc, hpm, hpd, v1, bind_ok, y1, bind_ok, w1, bind_ok, hr]
    simp only [Bool.false_eq_true, if_false, bind_ok]
    rw [x1, bind_ok, hnl, Nat.add_sub_cancel]
    congr 1

theorem ipresent_map (f : Nat → Val) (n : Nat) :
    ((List.range n).map (fun k => (k, f k))).filterMap atomAt = ipresent ((List.range n).map f) := by
  unfold ipresent
  rw [List.filterMap_map, List.length_map, List.length_range]
  apply List.filterMap_congr
  intro i hi
  have := List.mem_range.mp hi
  rw [List.getElem?_map, List.getElem?_range this]
  simp only [Function.comp, atomAt, Option.map_some]
  cases f i <;> rfl

/-- The items at position `q` of the lists of group `p`. -/
theorem cells_column (c next : Content) {m : Nat → Nat} {out p q : Nat} (hl : c.len = sumTo m out)
    (hp : p < out) (hq : q < maxTo c.lens c.len)
    (hv : ∀ q i, i < c.len → q < c.lens i →
      (c.valD i).items[q]? = some (next.valD (cellAt c.lens c.len q i))) :
    (grp (cellG (blk m out) c.lens c.len)
      (fun t => (cellI c.lens c.len t - sumTo m (blk m out (cellI c.lens c.len t)), next.valD t))
      (sumTo c.lens c.len) (p * maxTo c.lens c.len + q)).filterMap atomAt
      = ipresent (Spec.column (c.seg (sumTo m p) (m p)) q) := by
  rw [grp_cells hq, List.filterMap_map, List.filterMap_filter]
  have hcol : Spec.column (c.seg (sumTo m p) (m p)) q
      = (List.range (m p)).map (fun j => (c.valD (sumTo m p + j)).items[q]?.getD .null) := by
    unfold Spec.column seg
    rw [List.map_map]; rfl
  rw [hcol, ← ipresent_map]
  have hb := grp_blk (m := m) (out := out)
    (fun i => (i - sumTo m p, (c.valD i).items[q]?.getD .null)) hp
  simp only [Nat.add_sub_cancel_left] at hb
  rw [← hb]
  unfold grp
  rw [List.filterMap_map, List.filterMap_filter, ← hl]
  apply List.filterMap_congr
  intro i hi
  have hi := List.mem_range.mp hi
  by_cases hg : blk m out i = p
  · by_cases hqi : q < c.lens i
    · obtain ⟨c1, c2, c3⟩ := cell_at hi hqi
      simp only [hg, hqi, decide_true, Bool.and_self, if_true, Function.comp, c2, hv q i hi hqi, Option.getD_some]
    · have : (c.valD i).items[q]? = none := List.getElem?_eq_none (by simpa [lens] using hqi)
      simp [hqi, Function.comp, this, atomAt]
  · simp [hg]

/-- The result of merging, from the result for the items. -/
theorem merge_reduced {c oc : Content} {m : Nat → Nat} {out D : Nat} {F : Nat → Val}
    {S T : Nat → Int} (hl : c.len = sumTo m out)
    (hst : ∀ p', p' < out → SpanOk (blk m out) c.lens c.len p' (S p') (T p'))
    (ho : Reduced oc (maxTo (cellG (blk m out) c.lens c.len) (sumTo c.lens c.len) + 1) F)
    (hF : ∀ p q, p < out → q < maxTo c.lens c.len →
      F (p * maxTo c.lens c.len + q) = Spec.reduceAcross red mask dt D (Spec.column (c.seg (sumTo m p) (m p)) q)) :
    Reduced (listArray {} ((List.range out).map S) ((List.range out).map T) oc) out
      (fun p => Spec.reduceAcross red mask dt (D + 1) (c.seg (sumTo m p) (m p))) := by
  have htop : ∀ p, p < out → has (blk m out) c.lens 0 c.len p = true →
      maxTo c.lens c.len * p + longestIn (blk m out) c.lens c.len p ≤ oc.len := by
    intro p hp hh
    rw [has_longest] at hh
    obtain ⟨i, h1, h2, h3⟩ := has_iff.mp (has_longest (g := blk m out) (ℓ := c.lens) (L := c.len) (p := p)
      (r := longestIn (blk m out) c.lens c.len p - 1) |>.mpr (by omega))
    obtain ⟨c1, c2, c3⟩ := cell_at h1 h3
    have htot : sumTo (wid c.lens c.len) (maxTo c.lens c.len) = sumTo c.lens c.len :=
      cells_total _ (fun i hi => maxTo_le hi)
    have := maxTo_le (f := cellG (blk m out) c.lens c.len) (n := sumTo c.lens c.len) (i := _) (by
      rw [← htot]; exact c3)
    rw [cellG_at h1 h3, h2, Nat.mul_comm] at this
    rw [ho.len]
    omega
  have hgood : (listArray {} ((List.range out).map S) ((List.range out).map T) oc).Good := by
    refine good_listArray.mpr ⟨by simp, ho.good, ?_⟩
    intro p hp
    simp only [List.length_map, List.length_range] at hp
    simp only [List.getElem_map, List.getElem_range]
    have := hst p hp
    unfold SpanOk at this
    by_cases hh : has (blk m out) c.lens 0 c.len p = true
    · rw [if_pos hh] at this
      obtain ⟨e1, e2⟩ := this
      have := htop p hp hh
      exact .inr ⟨by omega, by omega, by omega⟩
    · rw [if_neg hh] at this
      exact .inl this
  refine ⟨by simp [Content.len], hgood, rfl, ?_, trivial, ho.params⟩
  intro p hp
  rw [valD_listArray hgood (by simpa using hp) (by simpa using hp), wrapList_default]
  simp only [Spec.reduceAcross, List.getElem_map, List.getElem_range]
  rw [← longest_seg c hl hp]
  have := hst p hp
  unfold SpanOk at this
  by_cases hh : has (blk m out) c.lens 0 c.len p = true
  · rw [if_pos hh] at this
    obtain ⟨e1, e2⟩ := this
    have htp := htop p hp hh
    rw [e1, e2, Int.toNat_natCast,
      show (((maxTo c.lens c.len * p + longestIn (blk m out) c.lens c.len p : Nat) : Int)
        - ((maxTo c.lens c.len * p : Nat) : Int)).toNat = longestIn (blk m out) c.lens c.len p by omega]
    congr 1
    unfold seg
    apply map_range_congr
    intro q hq
    have hqM : q < maxTo c.lens c.len := Nat.lt_of_lt_of_le hq (longest_le p)
    rw [ho.val _ (by have := ho.len; omega), Nat.mul_comm (maxTo c.lens c.len) p, hF p q hp hqM]
    rfl
  · rw [if_neg hh] at this
    have h0 : longestIn (blk m out) c.lens c.len p = 0 := by
      rw [has_longest] at hh; omega
    rw [this, h0]
    simp [seg]

/-- Merging the second innermost dimension of a ListOffsetArray. -/
theorem base_two_offset (hid : red.identityOk dt) (hr : red.returnsPositions = false) {p : Params}
    {offsets : List Int} {d : Content} {b : Bool} {fuel : Nat} {m : Nat → Nat} {out : Nat} {starts : List Int}
    (h : (listOffset p offsets d).Good) (hn : Nested red dt z ix rg k 2 b (listOffset p offsets d))
    (hf : d.rank ≤ fuel) (hl : (listOffset p offsets d).len = sumTo m out)
    (hC : Ordered ((listOffset p offsets d).segs m out)) :
    ∃ S T oc, reduceNext red mask (fuel + 1) 2 starts [] (nats (blk m out) (listOffset p offsets d).len) out
        (listOffset p offsets d) = ok (listArray {} S T oc) ∧ 1 ≤ oc.len ∧
      (∀ i, i < oc.len → ∃ vals, oc.valD i = Spec.reduceList red mask dt vals) ∧
      Reduced (listArray {} S T oc) out (fun p' => Spec.reduceAcross red mask dt 1
        ((listOffset p offsets d).seg (sumTo m p') (m p'))) := by
  obtain ⟨next, ns, S, T, n1, n2, n3, n4, n5, n6, n7⟩ := nonlocal_step (rec := reduceNext red mask fuel)
    (starts := starts) hr h hn hl hC
  have hbd := nested_branchDepth hn
  generalize hc : listOffset p offsets d = c at *
  have hN : next.len = sumTo c.lens c.len := n4
  obtain ⟨oc, o1, o2⟩ := base_inner (mask := mask) (fuel := fuel)
    (g := cellG (blk m out) c.lens c.len)
    (pos := fun t => cellI c.lens c.len t - sumTo m (blk m out (cellI c.lens c.len t)))
    (V := fun P => if maxTo c.lens c.len = 0 then [] else
      Spec.column (c.seg (sumTo m (P / maxTo c.lens c.len)) (m (P / maxTo c.lens c.len))) (P % maxTo c.lens c.len))
    (out := maxTo (cellG (blk m out) c.lens c.len) next.len + 1) (starts := ns) (shifts := [])
    n1 n2 (by omega) hid (by
      intro t ht
      have := maxTo_le (f := cellG (blk m out) c.lens c.len) ht
      omega) (by
      intro P hP
      by_cases hM : maxTo c.lens c.len = 0
      · rw [if_pos hM]
        have htot : sumTo (wid c.lens c.len) (maxTo c.lens c.len) = sumTo c.lens c.len :=
          cells_total _ (fun i hi => maxTo_le hi)
        rw [hM] at htot
        simp only [sumTo_zero] at htot
        rw [hN, ← htot]
        rfl
      · rw [if_neg hM]
        have hq : P % maxTo c.lens c.len < maxTo c.lens c.len := Nat.mod_lt _ (by omega)
        have hsplit : P = P / maxTo c.lens c.len * maxTo c.lens c.len + P % maxTo c.lens c.len := by
          rw [Nat.mul_comm]; exact (Nat.div_add_mod P _).symm
        have hout : P / maxTo c.lens c.len < out := by
          rw [Nat.div_lt_iff_lt_mul (by omega)]
          obtain ⟨i, hi, hli⟩ := maxTo_lt (f := c.lens) (n := c.len) (q := 0) (by omega)
          have hmono : ∀ t, t < next.len → cellG (blk m out) c.lens c.len t < out * maxTo c.lens c.len := by
            intro t ht
            have htot : sumTo (wid c.lens c.len) (maxTo c.lens c.len) = sumTo c.lens c.len :=
              cells_total _ (fun i hi => maxTo_le hi)
            obtain ⟨a1, a2, a3, a4⟩ := at_cell (ℓ := c.lens) (L := c.len) (t := t) (by omega)
            have hb := (blk_spec (m := m) (out := out) (i := cellI c.lens c.len t) (by omega)).1
            have := Nat.mul_le_mul_right (maxTo c.lens c.len) (show blk m out (cellI c.lens c.len t) + 1 ≤ out by omega)
            rw [Nat.add_mul] at this
            unfold cellG
            omega
          have hpos : 0 < out * maxTo c.lens c.len := by
            have := (blk_spec (m := m) (out := out) (i := i) (by omega)).1
            exact Nat.mul_pos (by omega) (by omega)
          have := maxTo_le_of (f := cellG (blk m out) c.lens c.len) (n := next.len)
            (b := out * maxTo c.lens c.len - 1) (fun t ht => by have := hmono t ht; omega)
          omega
        have := cells_column c next (q := P % maxTo c.lens c.len) hl hout hq n5
        rw [← hsplit, ← hN] at this
        exact this) (.inl rfl) (by intro h'; rw [hr] at h'; simp at h')
  refine ⟨_, _, oc, ?_, ?_, ?_, merge_reduced (F := fun P => Spec.reduceList red mask dt
    (if maxTo c.lens c.len = 0 then [] else Spec.column (c.seg (sumTo m (P / maxTo c.lens c.len))
      (m (P / maxTo c.lens c.len))) (P % maxTo c.lens c.len))) hl n6 (by rw [← hN]; exact o2) ?_⟩
  · rw [← hc]
    simp only [reduceNext]
    rw [hc, hbd, if_pos rfl, n7, o1, bind_ok]
  · rw [o2.len]; omega
  · intro i hi
    exact ⟨_, o2.val i (by rw [← o2.len]; exact hi)⟩
  · intro p' q hp' hq
    have h1 : (p' * maxTo c.lens c.len + q) / maxTo c.lens c.len = p' := by
      rw [Nat.mul_comm, Nat.mul_add_div (by omega), Nat.div_eq_of_lt hq]; rfl
    have h2 : (p' * maxTo c.lens c.len + q) % maxTo c.lens c.len = q := by
      rw [Nat.mul_comm, Nat.mul_add_mod, Nat.mod_eq_of_lt hq]
    simp only [h1, h2]
    rw [if_neg (by omega)]
    rfl

end Content
end Awk
