import Verif.Lemmas.ReduceLocal
import Verif.Lemmas.GetitemTop
/-
`Content::reduce`: the whole array is one group.
-/

namespace Awk
open R

namespace Content
open Spec (Nested)

variable {red : Reducer} {dt : DType} {z ix rg : Prop} {k : Nat} {mask : Bool}
  {C : List (List Val) → Prop} {base : List Val → Val}

theorem ipresent_seg (c : Content) (a n : Nat) :
    ((List.range n).map (fun k => (k, c.valD (a + k)))).filterMap atomAt = ipresent (c.seg a n) := by
  unfold ipresent
  rw [List.filterMap_map, seg_length]
  apply List.filterMap_congr
  intro i hi
  have := List.mem_range.mp hi
  rw [seg_getElem?, if_pos this]
  simp only [Function.comp, atomAt]
  cases c.valD (a + i) <;> rfl

/-- Reducing the innermost dimension. -/
theorem base_one (hid : red.identityOk dt) (hz : red.returnsPositions = true → z) :
    BaseOk red mask dt z ix rg 1 (fun _ => True) (Spec.reduceList red mask dt) := by
  intro fuel c b m out starts h hn hf hl hs _
  have hsl : c.slack = 0 := by
    cases hn <;> first | rfl | (rename_i hh; have := nested_pos hh; omega)
  refine base_inner (pos := fun j => j - sumTo m (blk m out j)) h hn (by omega) hid ?_ ?_ (.inl rfl) ?_
  · intro i hi
    exact (blk_spec (by omega)).1
  · intro p hp
    rw [hl, grp_blk _ hp, ← ipresent_seg]
    congr 1
    apply map_range_congr
    intro i hi
    rw [blk_add hp hi]
    simp
  · intro hr
    have hst := hs (hz hr)
    refine ⟨fun _ => rfl, by rw [hst]; simp, fun j hj => ?_⟩
    obtain ⟨b1, b2, b3⟩ := blk_spec (m := m) (out := out) (i := j) (by omega)
    rw [hst]
    simp only [shiftAt, List.length_nil, if_true, List.getElem?_map, List.getElem?_range b1, Option.map_some,
      Option.getD_some]
    omega

theorem list_item_plain {c : Content} (hc : c.Good) (hp : c.params = {}) {s t : Nat} (hst : s ≤ t)
    (ht : t ≤ c.len) :
    ∃ c', c.range s t = ok c' ∧ Item.toVal (.array c') = ok (.list (c.seg s (t - s))) := by
  obtain ⟨c', h1, h2, _, h3, h4⟩ := range_good hc hst ht
  have hl : c'.toList = ok (c.seg s (t - s)) := by
    rw [h2.toList, h3.1]
    congr 1
    apply List.map_congr_left
    intro i hi
    exact h3.valD (List.mem_range.mp hi)
  refine ⟨c', h1, ?_⟩
  simp only [Item.toVal, hl, bind_ok, h4, hp]

theorem list_pair_plain {c : Content} (hc : c.Good) (hpar : c.params = {}) {s t : Int}
    (hp : GoodPair s t c.len) :
    ∃ it, (checkStartStop s t c.len >>= fun (start, stop) =>
      c.range start stop >>= fun c' => ok (Item.array c')) = ok it ∧
      it.toVal = ok (.list (c.seg s.toNat (t - s).toNat)) := by
  by_cases he : s = t
  · subst he
    obtain ⟨c', h1, h2⟩ := list_item_plain hc hpar (s := 0) (t := 0) (Nat.le_refl 0) (by omega)
    refine ⟨.array c', ?_, by simpa [seg] using h2⟩
    simp only [Nat.cast_zero] at h1
    have hn : ¬ ((c.len : Int) < 0) := by omega
    simp [checkStartStop, hn, h1]
  · rcases hp with h | ⟨h0, h1, h2⟩
    · exact absurd h he
    · obtain ⟨s, rfl⟩ := Int.eq_ofNat_of_zero_le h0
      obtain ⟨t, rfl⟩ := Int.eq_ofNat_of_zero_le (h0.trans h1)
      obtain ⟨c', g1, g2⟩ := list_item_plain hc hpar (s := s) (t := t) (by omega) (by omega)
      refine ⟨.array c', ?_, ?_⟩
      · rw [checkStartStop, if_neg he]
        simp only
        rw [if_neg (by omega), if_neg (by omega), if_neg (by omega), bind_ok]
        simp only [g1, bind_ok]
      · simpa [show ((t : Int) - s).toNat = t - s by omega] using g2

/-- The object for one element of a result. -/
theorem Reduced.item {o : Content} {out : Nat} {F : Nat → Val} (h : Reduced o out F) {p : Nat}
    (hp : p < out) : ∃ it, o.getitemAtNowrap p = ok it ∧ it.toVal = ok (F p) := by
  obtain ⟨h1, h2, h3, h4, _, h6⟩ := h
  have hi : p < o.len := by omega
  rw [← h4 p hp]
  have hother : (o.valD p).isList = false →
      ∃ it, o.getitemAtNowrap p = ok it ∧ it.toVal = ok (o.valD p) := by
    intro hv
    obtain ⟨it, v, g1, g2, g3⟩ := getitemAtNowrap_good h2 (i := p) hi
    rcases g3 with rfl | ⟨_, h', _⟩
    · exact ⟨it, g1, g2⟩
    · rw [hv] at h'; simp at h'
  cases o with
  | regular q c size zeros =>
    have h3 : q = {} := h3
    subst h3
    have hc := good_regular.mp h2
    have hb := regular_bound hi
    obtain ⟨c', g1, g2⟩ := list_item_plain hc h6 (s := p * size) (t := (p + 1) * size)
      (Nat.mul_le_mul_right _ (by omega)) (by rw [Nat.add_mul]; omega)
    refine ⟨.array c', ?_, ?_⟩
    · simp only [getitemAtNowrap]
      push_cast at g1
      rw [g1, bind_ok]
    · rw [valD_regular hc hi, g2, show (p + 1) * size - p * size = size by rw [Nat.add_mul]; omega]
      rfl
  | listArray q starts stops c =>
    have h3 : q = {} := h3
    subst h3
    obtain ⟨hl, hc, hpr⟩ := good_listArray.mp h2
    simp only [Content.len] at hi
    simp only [getitemAtNowrap]
    rw [rd_nat_ok hi, bind_ok, rd_nat_ok (by omega), bind_ok, valD_listArray h2 hi (by omega)]
    exact list_pair_plain hc h6 (hpr p hi)
  | listOffset q offsets c =>
    have h3 : q = {} := h3
    subst h3
    obtain ⟨hl, hc, hpr⟩ := good_listOffset.mp h2
    simp only [Content.len] at hi
    simp only [getitemAtNowrap]
    rw [rd_nat_ok (by omega), bind_ok, rd_nat_ok (by omega), bind_ok, valD_listOffset h2 (by omega)]
    exact list_pair_plain hc h6 (hpr p (by omega))
  | _ => exact hother (h6 p hi)

/-- `Content::reduce`. -/
theorem reduce_ok (hb : BaseOk red mask dt z ix rg k C base) (hk1 : 1 ≤ k) {c : Content} {n : Nat}
    {b : Bool} (h : c.Good) (hn : Nested red dt z ix rg k n b c) (hk : k ≤ n) {axis : Int}
    (ha : axis = -(k : Int) ∨ axis = (n : Int) - k)
    (hC : C (Spec.groupsAt (n - k) (c.seg 0 c.len))) :
    ∃ it, c.reduce red axis mask = ok it ∧
      it.toVal = ok (Spec.atDepth base (n - k) (c.seg 0 c.len)) := by
  have hneg : negativeAxis axis c.branchDepth = ok k := by
    rw [nested_branchDepth hn]
    unfold negativeAxis
    simp only [Bool.false_eq_true, if_false]
    rcases ha with rfl | rfl
    · rw [if_neg (show ¬ (- -(k : Int) ≤ 0) by omega), if_pos (by omega)]
      congr 1; omega
    · rw [if_pos (show -((n : Int) - k) ≤ 0 by omega), if_pos (by omega)]
      congr 1; omega
  have hsum : sumTo (fun _ => c.len) 1 = c.len := by simp [sumTo]
  have hpar : nats (fun _ => 0) c.len = nats (blk (fun _ => c.len) 1) c.len := by
    apply nats_congr
    intro i hi
    exact (blk_eq (by omega) (by simp) (by simpa [sumTo] using hi)).symm
  obtain ⟨o, o1, o2, _⟩ := local_ok (mask := mask) hb hk1 c.rank c n b (fun _ => c.len) 1 [0] hk h hn
    (by omega) hsum.symm (fun _ _ => by simp) (by
      simpa [segs] using hC)
  unfold reduce
  rw [hneg, bind_ok, zeroparents_ok (by rw [alloc_length]), bind_ok, hpar, o1, bind_ok]
  obtain ⟨it, g1, g2⟩ := o2.item (p := 0) (by omega)
  exact ⟨it, g1, by simpa using g2⟩

end Content
end Awk
