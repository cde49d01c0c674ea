import Verif.Lemmas.SortOption
/-
Sorting the innermost dimension of an array: the dimensions outside it stay as they are.
-/

namespace Awk
open R
namespace Content
open Spec (Nested)

variable {dt : DType} {a : SortArgs}

theorem present_le (xs : List Val) : (Spec.present xs).length ≤ xs.length := List.length_filterMap_le _ _

/-- Missing values come last. -/
theorem leafRel_nulls {xs ys xs' : List Val} (h : LeafRel a xs ys) (hp : Spec.present xs' = Spec.present xs)
    (hl : xs.length ≤ xs'.length) : LeafRel a xs' (ys ++ List.replicate (xs'.length - xs.length) .null) := by
  have hpl := present_le xs
  have hrep : ∀ zs : List Val, zs ++ List.replicate (xs.length - (Spec.present xs).length) Val.null
        ++ List.replicate (xs'.length - xs.length) Val.null
      = zs ++ List.replicate (xs'.length - (Spec.present xs).length) Val.null := by
    intro zs
    rw [List.append_assoc, List.replicate_append_replicate]
    congr 2; omega
  unfold LeafRel at h ⊢
  cases ha : a.arg with
  | true =>
    rw [ha, if_pos rfl] at h
    rw [if_pos rfl]
    obtain ⟨is, h1, h2, rfl⟩ := h
    exact ⟨is, by rw [hp]; exact h1, by rw [hp]; exact h2, by rw [hrep, hp]⟩
  | false =>
    rw [ha, if_neg (by simp)] at h
    rw [if_neg (by simp)]
    obtain ⟨zs, h1, h2, rfl⟩ := h
    exact ⟨zs, by rw [hp]; exact h1, h2, by rw [hrep, hp]⟩

theorem leafRel_nil : LeafRel a [] [] := by
  unfold LeafRel
  cases a.arg
  · exact ⟨[], List.Perm.refl _, List.Pairwise.nil, rfl⟩
  · exact ⟨[], List.Perm.refl _, List.Pairwise.nil, rfl⟩

theorem atDepth_nil (d : Nat) : Spec.AtDepth (LeafRel a) d [] [] := by
  cases d with
  | zero => exact leafRel_nil
  | succ d => exact List.Forall₂.nil

/-- The items that are not missing, in order. -/
theorem present_kept {c next : Content} (hq : ∀ i, i < c.len → c.pickI i = none → c.valD i = .null)
    (hv : ∀ j, j < next.len → next.valD j = c.valD (keptAt c.pickI c.len j)) (hl : next.len = cnt c.pickI c.len)
    {s t : Nat} (h : s + t ≤ c.len) :
    Spec.present (c.seg s t) = Spec.present (next.seg (cnt c.pickI s) (cnt c.pickI (s + t) - cnt c.pickI s)) := by
  induction t with
  | zero => simp
  | succ t ih =>
    have ih := ih (by omega)
    have hsucc : ∀ (d : Content) s t, d.seg s (t + 1) = d.seg s t ++ [d.valD (s + t)] := by
      intro d s t
      simp only [seg, List.range_succ, List.map_append, List.map_cons, List.map_nil]
    have hmono := cnt_mono (q := c.pickI) (show s ≤ s + t by omega)
    rw [hsucc, ← Nat.add_assoc, cnt_succ]
    unfold Spec.present at ih ⊢
    rw [List.filterMap_append, ih]
    cases hp : c.pickI (s + t) with
    | none =>
      rw [hq _ (by omega) hp]
      simp
    | some x =>
      have hs : (c.pickI (s + t)).isSome = true := by rw [hp]; rfl
      obtain ⟨k1, k2⟩ := keptAt_cnt (n := c.len) (by omega) hs
      simp only [Option.isSome_some, if_true]
      rw [show cnt c.pickI (s + t) + 1 - cnt c.pickI s = (cnt c.pickI (s + t) - cnt c.pickI s) + 1 by omega, hsucc,
        List.filterMap_append, show cnt c.pickI s + (cnt c.pickI (s + t) - cnt c.pickI s) = cnt c.pickI (s + t) by omega,
        hv _ (by omega), k2]

/-- The result with the missing values at the end of each group. -/
theorem wrapped_ok {no : Content} {m m' : Nat → Nat} {out : Nat} {isoption : Bool} {p' : Params}
    (hg : no.Good) (hl : no.len = sumTo m' out) (ho : no.isOptionOrIndexed = false) (hm : ∀ p, m' p ≤ m p)
    (hi : isoption = false → ∀ p, p < out → m' p = m p) :
    ∃ w, w = (if isoption then indexedOption p' (outIndex (ob (comesFirst m m' out)) (sumTo m out)) no
        else indexed p' (outIndex (ob (comesFirst m m' out)) (sumTo m out)) no) ∧
      indexedSimplify isoption p' (outIndex (ob (comesFirst m m' out)) (sumTo m out)) no = ok w ∧
      w.Good ∧ w.len = sumTo m out ∧
      ∀ p, p < out → w.seg (sumTo m p) (m p) = no.seg (sumTo m' p) (m' p) ++ List.replicate (m p - m' p) .null := by
  have hnone : no.innerIndex = ok none := by
    cases no <;> first | rfl | simp [isOptionOrIndexed] at ho
  have hlt : ∀ i (h : i < (outIndex (ob (comesFirst m m' out)) (sumTo m out)).length),
      (outIndex (ob (comesFirst m m' out)) (sumTo m out))[i]
        = if i - sumTo m (blk m out i) < m' (blk m out i) then
            ((sumTo m' (blk m out i) + (i - sumTo m (blk m out i)) : Nat) : Int) else -1 := by
    intro i h
    rw [outIndex_length] at h
    rw [outIndex_getElem, ob_isSome]
    obtain ⟨b1, b2, b3⟩ := blk_spec h
    rw [sumTo_succ] at b3
    have hc := (cnt_comesFirst hm (show blk m out i ≤ out by omega)).2 b1 (i - sumTo m (blk m out i)) (by omega)
    rw [show sumTo m (blk m out i) + (i - sumTo m (blk m out i)) = i by omega] at hc
    unfold comesFirst at hc ⊢
    by_cases h' : i - sumTo m (blk m out i) < m' (blk m out i)
    · rw [if_pos (by simpa using h'), if_pos h', hc]
      congr 2; omega
    · rw [if_neg (by simpa using h'), if_neg h']
  have hb : ∀ i, i < sumTo m out → i - sumTo m (blk m out i) < m' (blk m out i) →
      sumTo m' (blk m out i) + (i - sumTo m (blk m out i)) < no.len := by
    intro i hi h
    obtain ⟨b1, b2, b3⟩ := blk_spec hi
    have := sumTo_mono (f := m') (show blk m out i + 1 ≤ out by omega)
    rw [sumTo_succ] at this; omega
  have hseg : ∀ w : Content, (∀ i, i < sumTo m out → w.valD i = if i - sumTo m (blk m out i) < m' (blk m out i) then
        no.valD (sumTo m' (blk m out i) + (i - sumTo m (blk m out i))) else .null) →
      ∀ p, p < out → w.seg (sumTo m p) (m p) = no.seg (sumTo m' p) (m' p) ++ List.replicate (m p - m' p) .null := by
    intro w hw p hp
    have hmp := hm p
    apply List.ext_getElem?
    intro t
    rw [seg_getElem?, List.getElem?_append, seg_length, seg_getElem?]
    have := sumTo_mono (f := m) (show p + 1 ≤ out by omega)
    rw [sumTo_succ] at this
    by_cases ht : t < m p
    · rw [if_pos ht, hw _ (by omega), blk_add hp ht, Nat.add_sub_cancel_left]
      by_cases ht' : t < m' p
      · simp [ht']
      · simp only [ht', if_false]
        rw [List.getElem?_replicate, if_pos (by omega)]
    · rw [if_neg ht, if_neg (by omega), List.getElem?_eq_none (by simp; omega)]
  refine ⟨_, rfl, by unfold indexedSimplify; rw [hnone, bind_ok], ?_⟩
  cases isoption with
  | true =>
    simp only [if_true]
    have hgood : (indexedOption p' (outIndex (ob (comesFirst m m' out)) (sumTo m out)) no).Good := by
      refine good_indexedOption.mpr ⟨hg, fun i h => ?_⟩
      rw [hlt i h]
      rw [outIndex_length] at h
      split
      · rename_i h'; have := hb i h h'; omega
      · omega
    refine ⟨hgood, by simp [len], hseg _ ?_⟩
    intro i h
    rw [valD_indexedOption hgood (by simpa using h), hlt i (by simpa using h)]
    by_cases h' : i - sumTo m (blk m out i) < m' (blk m out i)
    · simp only [h', if_true]
      rw [if_neg (by omega), Int.toNat_natCast]
    · simp only [h', if_false]; rfl
  | false =>
    simp only [Bool.false_eq_true, if_false]
    have hall : ∀ i, i < sumTo m out → i - sumTo m (blk m out i) < m' (blk m out i) := by
      intro i h
      obtain ⟨b1, b2, b3⟩ := blk_spec h
      rw [sumTo_succ] at b3
      rw [hi rfl _ b1]; omega
    have hgood : (indexed p' (outIndex (ob (comesFirst m m' out)) (sumTo m out)) no).Good := by
      refine good_indexed.mpr ⟨hg, fun i h => ?_⟩
      rw [hlt i h]
      rw [outIndex_length] at h
      rw [if_pos (hall i h)]
      have := hb i h (hall i h); omega
    refine ⟨hgood, by simp [len], hseg _ ?_⟩
    intro i h
    rw [valD_indexed hgood (by simpa using h), hlt i (by simpa using h), if_pos (hall i h), if_pos (hall i h), Int.toNat_natCast]

/-- These classes need one step less. -/
def sortSlack : Content → Nat
  | listOffset .. | indexedOption .. => 1
  | _ => 0

/-- The main statement, for one content: each group is sorted at its innermost dimension. -/
def SortOk (a : SortArgs) (dt : DType) (fuel : Nat) : Prop :=
  ∀ (c : Content) (n : Nat) (b : Bool) (m : Nat → Nat) (out : Nat) (starts : List Int) (outlength : Nat),
    c.Good → Nums dt n b c → c.rank ≤ fuel + c.sortSlack → c.len = sumTo m out → out ≤ starts.length →
    (∀ p, p < out → Spec.Sortable a.stable (n - 1) (c.seg (sumTo m p) (m p))) →
    ∃ o, sortNext a fuel 1 starts (nats (blk m out) c.len) outlength false c = ok o ∧ o.Good ∧ o.len = c.len ∧
      (∀ p, p < out → Spec.AtDepth (LeafRel a) (n - 1) (c.seg (sumTo m p) (m p)) (o.seg (sumTo m p) (m p))) ∧
      (c.isOptionOrIndexed = false → (n = 1 → ∃ q dt' ys, o = numpy q dt' ys) ∧
        (2 ≤ n → 0 < c.len → ∃ q offs d, o = listOffset q offs d) ∧ o.isOptionOrIndexed = false)

theorem seg_congr {c c' : Content} {s n N : Nat} (hb : s + n ≤ N) (h : ∀ i, i < N → c.valD i = c'.valD i) :
    c.seg s n = c'.seg s n := by
  unfold seg
  apply map_range_congr
  intro i hi
  exact h _ (by omega)

theorem group_bound {m : Nat → Nat} {out p : Nat} (hp : p < out) : sumTo m p + m p ≤ sumTo m out := by
  have := sumTo_mono (f := m) (show p + 1 ≤ out by omega)
  rwa [sumTo_succ] at this

theorem group_empty {m : Nat → Nat} {out : Nat} (h : 0 = sumTo m out) {p : Nat} (hp : p < out) : m p = 0 := by
  have := group_bound (m := m) hp; omega

theorem sort_leaf {fuel : Nat} {c : Content} {m : Nat → Nat} {out : Nat} {starts : List Int} {negaxis outlength : Nat}
    (hn : Nums dt 1 false c) (hl : c.len = sumTo m out)
    (hs : ∀ p, p < out → Spec.Sortable a.stable 0 (c.seg (sumTo m p) (m p))) (keepdims : Bool) :
    ∃ q dt' ys, sortNext a (fuel + 1) negaxis starts (nats (blk m out) c.len) outlength keepdims c
        = ok (if keepdims ∧ ¬ (c.len = 0 ∧ a.arg = false) then
            regular {} (numpy q dt' ys) (c.len / starts.length) c.len else numpy q dt' ys) ∧
      ys.length = c.len ∧
      ∀ p, p < out → LeafRel a (c.seg (sumTo m p) (m p)) ((numpy q dt' ys).seg (sumTo m p) (m p)) := by
  have hs' : ∀ p, p < out → a.stable = true ∨ m p < 2 ^ 48 := by
    intro p hp
    have := hs p hp
    simpa [Spec.Sortable] using this
  cases hn with
  | numpy h1 h2 => exact sortLeaf_ok h1 h2 hl hs' keepdims
  | empty h1 h2 =>
    rename_i p
    obtain ⟨q, dt', ys, e1, e2, e3⟩ := sortLeaf_ok (a := a) (starts := starts) (p := {}) (data := [])
      (dt := if a.arg then .int64 else .float64) (m := m) (out := out)
      (by cases a.arg <;> rfl) (by simp) hl hs' keepdims
    refine ⟨q, dt', ys, e1, e2, ?_⟩
    intro g hg
    have := e3 g hg
    rw [group_empty hl hg] at this ⊢
    exact this
  | regular _ _ hh => have := nested_pos hh; omega
  | listArray _ hh => have := nested_pos hh; omega
  | listOffset _ _ _ hh => have := nested_pos hh; omega

theorem sort_listOffset {fuel : Nat} (ih : SortOk a dt fuel) {p : Params} {offsets : List Int} {d : Content} {n : Nat}
    {b : Bool} {m : Nat → Nat} {out : Nat} {starts parents : List Int} {outlength : Nat} (keepdims : Bool)
    (h : (listOffset p offsets d).Good) (hn : Nums dt (n + 1) b (listOffset p offsets d)) (hf : d.rank ≤ fuel)
    (h0 : 0 < (listOffset p offsets d).len) (hl : (listOffset p offsets d).len = sumTo m out)
    (hs : ∀ g, g < out → Spec.Sortable a.stable n ((listOffset p offsets d).seg (sumTo m g) (m g))) :
    ∃ q x, sortNext a (fuel + 1) 1 starts parents outlength keepdims (listOffset p offsets d)
        = ok (if keepdims then regular {} (listOffset q offsets x) (offsets.length - 1) (offsets.length - 1)
          else listOffset q offsets x) ∧
      (listOffset q offsets x).Good ∧ ¬ (q.arr = .string ∨ q.arr = .bytestring) ∧
      (∀ y ∈ offsets, 0 ≤ y ∧ y ≤ (x.len : Int)) ∧
      ∀ g, g < out → Spec.AtDepth (LeafRel a) n ((listOffset p offsets d).seg (sumTo m g) (m g))
        ((listOffset q offsets x).seg (sumTo m g) (m g)) := by
  have hbd := nested_branchDepth hn
  obtain ⟨hl1, hd, hpair⟩ := good_listOffset.mp h
  cases hn with
  | listOffset hp hz hoff hn =>
  generalize hc : listOffset p offsets d = c at *
  have hlen : c.len = offsets.length - 1 := by rw [← hc]; rfl
  have hn1 := nested_pos hn
  have hlens : ∀ i (hi : i + 1 < offsets.length), c.lens i = (offsets[i + 1] - offsets[i]).toNat := by
    intro i hi
    rw [← hc]
    simp only [lens, valD_listOffset (hc ▸ h) hi, items_wrapList, seg_length]
  have hval : ∀ i (hi : i + 1 < offsets.length), c.valD i = .list (d.seg offsets[i].toNat (c.lens i)) := by
    intro i hi
    rw [hlens i hi, ← hc, valD_listOffset (hc ▸ h) hi, wrapList_plain hp]
  have hzero : offsets[0] = 0 := by
    have := hz trivial
    rw [List.getElem?_eq_getElem (by omega)] at this
    injection this
  have hsum : ∀ i (hi : i < offsets.length), offsets[i] = (sumTo c.lens i : Nat) := by
    intro i
    induction i with
    | zero => intro _; simpa using hzero
    | succ i ihi =>
      intro hi
      have h1 := ihi (by omega)
      have h2 := hlens i hi
      have h3 := (hpair i hi).le
      rw [sumTo_succ]; push_cast; omega
  have hrd : ∀ i, i ≤ c.len → rd offsets (i : Int) = ok ((sumTo c.lens i : Nat) : Int) := by
    intro i hi
    rw [rd_nat_ok (by omega), hsum i (by omega)]
  have hN := hoff _ (List.getElem_mem (show c.len < offsets.length by omega))
  rw [hsum c.len (by omega)] at hN
  obtain ⟨t, t1, t2, t3, t4, t5⟩ := range_good hd (a := 0) (b := sumTo c.lens c.len) (by omega) (by omega)
  have htl : t.len = sumTo c.lens c.len := by rw [t4.1]; omega
  have htv : ∀ i, i < t.len → t.valD i = d.valD i := fun i hi => by
    rw [t4.valD (by omega), Nat.zero_add]
  have htn : Nums dt n true t := nested_range hn hd (fun _ => rfl) (by omega) (by omega) t1
  have htseg : ∀ i, i < c.len → t.seg (sumTo c.lens i) (c.lens i) = (c.valD i).items := by
    intro i hi
    rw [hval i (by omega), hsum i (by omega)]
    simp only [Val.items, Int.toNat_natCast]
    exact seg_congr (htl ▸ group_bound hi) htv
  have hsort : ∀ i, i < c.len → Spec.Sortable a.stable (n - 1) (c.valD i).items := by
    intro i hi
    rw [hl] at hi
    obtain ⟨b1, b2, b3⟩ := blk_spec hi
    rw [sumTo_succ] at b3
    have := hs _ b1
    rw [show n = (n - 1) + 1 by omega] at this
    refine (this (c.valD i) ?_).2
    refine List.mem_iff_getElem.mpr ⟨i - sumTo m (blk m out i), by simp; omega, ?_⟩
    rw [seg_getElem]; congr 1; omega
  obtain ⟨o, o1, o2, o3, o4, _⟩ := ih t n true c.lens c.len (makeStarts offsets) (offsets.length - 1) t2 htn
    (by omega) htl (by simp [makeStarts]; omega) (by
      intro i hi
      rw [htseg i hi]; exact hsort i hi)
  have hq : ¬ ((if a.arg then ({} : Params) else p).arr = .string ∨ (if a.arg then ({} : Params) else p).arr = .bytestring) := by
    cases a.arg
    · exact hp
    · simp only [if_true]; rintro (h | h) <;> exact absurd h (by decide)
  have hoff' : ∀ y ∈ offsets, 0 ≤ y ∧ y ≤ (o.len : Int) := by
    intro y hy
    obtain ⟨i, hi, rfl⟩ := List.mem_iff_getElem.mp hy
    rw [hsum i hi, o3, htl]
    have := sumTo_mono (f := c.lens) (show i ≤ c.len by omega)
    omega
  have hgood : (listOffset (if a.arg then {} else p) offsets o).Good := by
    refine good_listOffset.mpr ⟨hl1, o2, ?_⟩
    intro i hi
    have h1 := hoff' _ (List.getElem_mem (show i < offsets.length by omega))
    have h2 := hoff' _ (List.getElem_mem hi)
    have h3 := (hpair i hi).le
    exact .inr ⟨h1.1, h3, h2.2⟩
  refine ⟨if a.arg then {} else p, o, ?_, hgood, hq, hoff', ?_⟩
  · rw [← hc]
    simp only [sortNext]
    rw [hc, if_neg (by omega), if_neg hp, hbd, if_neg (by simp; omega)]
    unfold sortLocal
    have e0 := hrd 0 (by omega)
    simp only [sumTo_zero, Nat.cast_zero] at e0
    dsimp only
    rw [e0, bind_ok, ← hlen, hrd c.len (Nat.le_refl _), bind_ok, Int.sub_zero]
    rw [local_nextparents_ok (o := 0) (by intro i hi; rw [hrd i hi]; simp), bind_ok,
      show (0 : Int) = ((0 : Nat) : Int) by rfl, t1, bind_ok, ← htl]
    rw [← hlen] at o1
    rw [o1, bind_ok, hlen]
    rfl
  · intro g hg
    rw [show n = (n - 1) + 1 by omega]
    have hbnd := group_bound (m := m) hg
    refine List.forall₂_iff_get.mpr ⟨by simp, ?_⟩
    intro i h1 h2
    have h3 : i < m g := by simpa using h1
    refine .inr ⟨(c.valD (sumTo m g + i)).items, o.seg (sumTo c.lens (sumTo m g + i)) (c.lens (sumTo m g + i)), ?_, ?_, ?_⟩
    · rw [List.get_eq_getElem, seg_getElem, hval (sumTo m g + i) (by omega)]; rfl
    · rw [List.get_eq_getElem, seg_getElem, valD_listOffset hgood (i := sumTo m g + i) (by omega), wrapList_plain hq,
        hlens (sumTo m g + i) (by omega),
        hsum (sumTo m g + i) (by omega), Int.toNat_natCast]
    · rw [← htseg (sumTo m g + i) (by omega)]
      exact o4 _ (by omega)

/-- The groups of the items that are not missing. -/
theorem kept_groups {c next : Content} {m : Nat → Nat} {out : Nat} (h : c.Good) (ho : c.isOptionOrIndexed = true)
    (hl : c.len = sumTo m out) (hnl : next.len = cnt c.pickI c.len)
    (hv : ∀ j, j < next.len → next.valD j = c.valD (keptAt c.pickI c.len j)) :
    ∃ m' : Nat → Nat, (∀ p, m' p ≤ m p) ∧ next.len = sumTo m' out ∧
      nats (fun j => blk m out (keptAt c.pickI c.len j)) next.len = nats (blk m' out) next.len ∧
      (∀ p, p < out → Spec.present (c.seg (sumTo m p) (m p)) = Spec.present (next.seg (sumTo m' p) (m' p))) ∧
      ((∀ i, i < c.len → c.valD i ≠ .null) → next.len = c.len ∧ (∀ p, p < out → m' p = m p) ∧
        (∀ i, i < c.len → next.valD i = c.valD i)) := by
  obtain ⟨b1, b2⟩ := blk_kept (q := c.pickI) (m := m) (out := out)
  set m' : Nat → Nat := fun p => cnt c.pickI (sumTo m (p + 1)) - cnt c.pickI (sumTo m p) with hm'
  have hnull : ∀ i, i < c.len → c.pickI i = none → c.valD i = .null := by
    intro i hi hq
    have := (val_inner_pick h ho hi).1
    have hq' : c.pick i = none := by simpa [pickI] using hq
    rw [hq'] at this
    exact this
  have hle : ∀ s t, cnt c.pickI (s + t) ≤ cnt c.pickI s + t := by
    intro s t
    induction t with
    | zero => simp
    | succ t ih => rw [← Nat.add_assoc, cnt_succ]; split <;> omega
  refine ⟨m', ?_, by rw [b1, hnl, hl], ?_, ?_, ?_⟩
  · intro p
    have := hle (sumTo m p) (m p)
    simp only [hm', sumTo_succ]; omega
  · apply nats_congr
    intro j hj
    rw [hl]
    exact b2 j (by rw [← hl]; omega)
  · intro p hp
    rw [present_kept hnull hv hnl (hl ▸ group_bound hp), b1]
    simp only [hm', sumTo_succ]
  · intro hno
    obtain ⟨k1, k2⟩ := keptAt_all (q := c.pickI) (n := c.len) (by
      intro i hi
      cases hq : c.pickI i with
      | none => exact absurd (hnull i hi hq) (hno i hi)
      | some x => rfl)
    have hci : ∀ i, i ≤ c.len → cnt c.pickI i = i := by
      intro i hi
      have h1 := hle i (c.len - i)
      rw [show i + (c.len - i) = c.len by omega, k1] at h1
      have := cnt_le c.pickI i
      omega
    refine ⟨by rw [hnl, k1], ?_, fun i hi => by rw [hv i (by omega), k2 i hi]⟩
    intro p hp
    have := group_bound (m := m) hp
    simp only [hm', sumTo_succ]
    rw [hci _ (by omega), hci _ (by omega)]
    omega

theorem sortable_notNull {c : Content} {m : Nat → Nat} {out d : Nat} {stable : Bool} (hl : c.len = sumTo m out)
    (hs : ∀ p, p < out → Spec.Sortable stable (d + 1) (c.seg (sumTo m p) (m p))) :
    ∀ i, i < c.len → c.valD i ≠ .null := by
  intro i hi
  rw [hl] at hi
  obtain ⟨b1, b2, b3⟩ := blk_spec hi
  rw [sumTo_succ] at b3
  refine (hs _ b1 (c.valD i) ?_).1
  refine List.mem_iff_getElem.mpr ⟨i - sumTo m (blk m out i), by simp; omega, ?_⟩
  rw [seg_getElem]; congr 1; omega

theorem indexed_kept {p : Params} {index : List Int} {d : Content} (h : (indexed p index d).Good) :
    cnt (indexed p index d).pickI (indexed p index d).len = (indexed p index d).len := by
  refine (keptAt_all ?_).1
  intro i hi
  have hi : i < index.length := hi
  have := ((good_indexed.mp h).2 i hi).1
  simp [pickI, pick, hi, this]

theorem sort_option {fuel : Nat} (ih : SortOk a dt fuel) {p : Params} {index : List Int} {d c : Content} {n : Nat}
    {isoption : Bool} {m : Nat → Nat} {out : Nat} {starts : List Int} {outlength : Nat}
    (hc : c = if isoption then indexedOption p index d else indexed p index d)
    (h : c.Good) (hn : Nums dt n true c) (hf : d.rank ≤ fuel) (h0 : 0 < c.len) (hl : c.len = sumTo m out)
    (hst : out ≤ starts.length)
    (hs : ∀ g, g < out → Spec.Sortable a.stable (n - 1) (c.seg (sumTo m g) (m g))) :
    ∃ o, sortNext a (fuel + 1) 1 starts (nats (blk m out) c.len) outlength false c = ok o ∧ o.Good ∧ o.len = c.len ∧
      (∀ g, g < out → Spec.AtDepth (LeafRel a) (n - 1) (c.seg (sumTo m g) (m g)) (o.seg (sumTo m g) (m g))) := by
  obtain ⟨next, n1, n2, n3, n4, n5, n6⟩ := sortOption_step (a := a) (f := fuel) (negaxis := 1) (starts := starts)
    (g := blk m out) (outlength := outlength) (keepdims := false) hc h hn h0
  have ho : c.isOptionOrIndexed = true := by rw [hc]; cases isoption <;> rfl
  obtain ⟨m', g1, g2, g3, g4, g5⟩ := kept_groups (next := next) h ho hl n4 n5
  have hpos := nested_pos hn
  have hnl : next.isOptionOrIndexed = false := by cases n2 <;> rfl
  rw [Bool.false_and] at n6
  have hall : isoption = false → ∀ p, p < out → m' p = m p := by
    intro hiso
    have hlen : sumTo m' out = sumTo m out := by
      rw [← g2, n4, ← hl, hc, hiso]
      simp only [Bool.false_eq_true, if_false]
      rw [hc, hiso] at h
      exact indexed_kept h
    clear * - hlen g1
    induction out with
    | zero => intro p hp; omega
    | succ out ih =>
      rw [sumTo_succ, sumTo_succ] at hlen
      have h1 : sumTo m' out ≤ sumTo m out := by
        clear * - g1
        induction out with
        | zero => simp
        | succ out ih => rw [sumTo_succ, sumTo_succ]; have := g1 out; omega
      have h2 := g1 out
      intro p hp
      by_cases hpo : p = out
      · rw [hpo]; omega
      · exact ih (by omega) p (by omega)
  obtain ⟨o, o1, o2, o3, o4, o5⟩ := ih next n false m' out starts outlength n1 n2 (by omega) g2 hst (by
    intro g hg
    by_cases hn1 : n = 1
    · subst hn1
      have h1 := hs g hg
      have h2 := g1 g
      simp only [Nat.sub_self, Spec.Sortable, seg_length] at h1 ⊢
      exact h1.imp id (fun h => by omega)
    · obtain ⟨d', hd'⟩ : ∃ d', n - 1 = d' + 1 := ⟨n - 2, by omega⟩
      have hnn := sortable_notNull (d := d') hl (by rw [← hd']; exact hs)
      obtain ⟨k1, k2, k3⟩ := g5 hnn
      have hsum : ∀ p, p ≤ out → sumTo m' p = sumTo m p := fun p hp => sumTo_congr (fun q hq => k2 q (by omega))
      rw [k2 g hg, hsum g (by omega), seg_congr (c' := c) (hl ▸ group_bound hg) k3]
      exact hs g hg)
  have hno : o.isOptionOrIndexed = false := by
    by_cases hn1 : n = 1
    · obtain ⟨q, dt', ys, rfl⟩ := (o5 hnl).1 hn1; rfl
    · obtain ⟨d', hd'⟩ : ∃ d', n - 1 = d' + 1 := ⟨n - 2, by omega⟩
      have hnn := sortable_notNull (d := d') hl (by rw [← hd']; exact hs)
      obtain ⟨q, offs, x, rfl⟩ := (o5 hnl).2.1 (by omega) (by rw [(g5 hnn).1]; exact h0)
      rfl
  obtain ⟨w, w0, w1, w2, w3, w4⟩ := wrapped_ok (p' := if a.arg then {} else p) o2 (by rw [o3, g2]) hno g1 hall
  refine ⟨w, ?_, w2, by rw [w3, hl], ?_⟩
  · rw [n6, g3, o1, bind_ok]
    unfold sortOptionWrap
    rw [nats_length, hl, g2, local_preparenext_ok g1 hst (alloc_length _), bind_ok]
    dsimp only
    rw [w1, bind_ok]
    by_cases hn1 : n = 1
    · rw [if_pos (by simp [hn1])]
    · rw [if_neg (by simp; omega)]
      obtain ⟨d', hd'⟩ : ∃ d', n - 1 = d' + 1 := ⟨n - 2, by omega⟩
      have hnn := sortable_notNull (d := d') hl (by rw [← hd']; exact hs)
      have hlt : ¬ sumTo m' out < sumTo m out := by
        have := (g5 hnn).1
        omega
      simp only [hlt, decide_false, Bool.false_and, Bool.false_eq_true, if_false]
      rw [w0]
      cases isoption <;> simp [regularToOffsets]
  · intro g hg
    rw [w4 g hg]
    by_cases hn1 : n = 1
    · subst hn1
      have := o4 g hg
      have hr := leafRel_nulls this (xs' := c.seg (sumTo m g) (m g)) (g4 g hg) (by simpa using g1 g)
      simp only [seg_length] at hr
      exact hr
    · obtain ⟨d', hd'⟩ : ∃ d', n - 1 = d' + 1 := ⟨n - 2, by omega⟩
      have hnn := sortable_notNull (d := d') hl (by rw [← hd']; exact hs)
      obtain ⟨k1, k2, k3⟩ := g5 hnn
      have hsum : ∀ p, p ≤ out → sumTo m' p = sumTo m p := fun p hp => sumTo_congr (fun q hq => k2 q (by omega))
      have := o4 g hg
      rw [k2 g hg, hsum g (by omega), seg_congr (c' := c) (hl ▸ group_bound hg) k3] at this
      rw [k2 g hg, hsum g (by omega), Nat.sub_self, List.replicate_zero, List.append_nil]
      exact this

theorem nothing_ok {c : Content} {m : Nat → Nat} {out : Nat} {d : Nat} (h : c.Good) (h0 : c.len = 0)
    (hl : c.len = sumTo m out) (x : Content) (hx : x = c ∨ x = numpy {} .int64 []) :
    x.Good ∧ x.len = c.len ∧
      ∀ p, p < out → Spec.AtDepth (LeafRel a) d (c.seg (sumTo m p) (m p)) (x.seg (sumTo m p) (m p)) := by
  refine ⟨?_, ?_, ?_⟩
  · rcases hx with rfl | rfl
    · exact h
    · exact good_numpy _ _ _
  · rcases hx with rfl | rfl
    · rfl
    · rw [h0]; rfl
  · intro p hp
    rw [group_empty (m := m) (by rw [← hl, h0]) hp]
    exact atDepth_nil d

theorem nothing_eq {c : Content} : (if a.arg then numpy {} .int64 [] else c) = c ∨
    (if a.arg then numpy {} .int64 [] else c) = numpy {} .int64 [] := by
  cases a.arg <;> simp

theorem toIndexedOption_byte {p : Params} {mask : List Int} {vw : Bool} {d : Content}
    (h : (byteMasked p mask vw d).Good) :
    ∃ index, (byteMasked p mask vw d).toIndexedOption = ok (indexedOption p index d) ∧
      (indexedOption p index d).Good ∧ index.length = mask.length ∧
      ∀ i, i < mask.length → (indexedOption p index d).valD i = (byteMasked p mask vw d).valD i := by
  obtain ⟨hl, hd⟩ := good_byteMasked.mp h
  refine ⟨(List.range mask.length).map (fun i => if maskOk mask vw i then (i : Int) else -1), ?_, ?_⟩
  · simp only [toIndexedOption, byteMaskedIndex]
    rw [ByteMaskedArray_toIndexedOptionArray_ok, bind_ok]
  · have hg : (indexedOption p ((List.range mask.length).map (fun i => if maskOk mask vw i then (i : Int) else -1)) d).Good := by
      refine good_indexedOption.mpr ⟨hd, ?_⟩
      intro i hi
      simp only [List.length_map, List.length_range] at hi
      rw [List.getElem_map, List.getElem_range]
      split <;> omega
    refine ⟨hg, by simp, ?_⟩
    intro i hi
    rw [valD_indexedOption hg (by simpa using hi), valD_byteMasked h hi, List.getElem_map, List.getElem_range]
    by_cases hm : maskOk mask vw i = true
    · simp only [hm, if_true]; rw [if_neg (by omega)]; rfl
    · simp [hm]

theorem sortRegular_id {o : Content} (h : ∀ p c size zeros, o ≠ regular p c size zeros) : sortRegular o = ok o := by
  cases o <;> first | rfl | exact absurd rfl (h _ _ _ _)

theorem sort_ok (fuel : Nat) : SortOk a dt fuel := by
  induction fuel with
  | zero =>
    intro c n b m out starts outlength h hn hf hl hst hs
    exfalso
    have : 1 ≤ c.rank - c.sortSlack := by
      cases hn <;> simp [rank, sortSlack]
    omega
  | succ fuel ih =>
    intro c n b m out starts outlength h hn hf hl hst hs
    have conv : ∀ (o : Bool), Nums dt n o c → c.isListNode = true → c.rank ≤ fuel + 1 → 2 ≤ n → 
          ∃ e, c.toListOffset = ok e ∧ (∃ p offs d, e = listOffset p offs d) ∧
          ∃ o, sortNext a fuel 1 starts (nats (blk m out) c.len) outlength false e = ok o ∧ o.Good ∧ o.len = c.len ∧
          (∀ p, p < out → Spec.AtDepth (LeafRel a) (n - 1) (c.seg (sumTo m p) (m p)) (o.seg (sumTo m p) (m p))) ∧
          (0 < c.len → ∃ q offs d, o = listOffset q offs d) ∧ o.isOptionOrIndexed = false := by
      intro o hn hl' hr h2
      obtain ⟨e, e1, e2, e3, ⟨p, offs, x, rfl⟩, e5, e6, e7⟩ := nested_parts hn h hl'
      refine ⟨_, e1, ⟨_, _, _, rfl⟩, ?_⟩
      have hseg : ∀ g, g < out → (listOffset p offs x).seg (sumTo m g) (m g) = c.seg (sumTo m g) (m g) := fun g hg =>
        seg_congr (hl ▸ group_bound hg) e5
      obtain ⟨o', o1, o2, o3, o4, o5⟩ := ih (listOffset p offs x) n o m out starts outlength e2 e6
        (by simp only [sortSlack]; omega) (by omega) hst (by
          intro g hg
          rw [hseg g hg]; exact hs g hg)
      rw [e3] at o1 o3 o5
      exact ⟨o', o1, o2, o3, fun g hg => by rw [← hseg g hg]; exact o4 g hg, (o5 rfl).2.1 h2, (o5 rfl).2.2⟩
    cases hn with
    | numpy h1 h2 =>
      obtain ⟨q, dt', ys, e1, e2, e3⟩ := sort_leaf (a := a) (fuel := fuel) (starts := starts) (negaxis := 1)
        (outlength := outlength) (.numpy h1 h2) hl hs false
      rw [if_neg (by simp)] at e1
      exact ⟨_, e1, good_numpy _ _ _, e2, e3, fun _ => ⟨fun _ => ⟨_, _, _, rfl⟩, fun h => by omega, rfl⟩⟩
    | empty h1 h2 =>
      obtain ⟨q, dt', ys, e1, e2, e3⟩ := sort_leaf (a := a) (fuel := fuel) (starts := starts) (negaxis := 1)
        (outlength := outlength) (.empty h1 h2) hl hs false
      rw [if_neg (by simp)] at e1
      exact ⟨_, e1, good_numpy _ _ _, e2, e3, fun _ => ⟨fun _ => ⟨_, _, _, rfl⟩, fun h => by omega, rfl⟩⟩
    | listOffset h1 h2 h3 h4 =>
      rename_i n p offsets d
      have hp := nested_pos h4
      by_cases h0 : (listOffset p offsets d).len = 0
      · obtain ⟨k1, k2, k3⟩ := nothing_ok (a := a) (d := n + 1 - 1) h h0 hl _ (.inl rfl)
        exact ⟨_, by simp only [sortNext]; rw [if_pos h0], k1, k2, k3, fun _ => ⟨fun h => by omega, fun _ h => by omega, rfl⟩⟩
      · simp only [rank, sortSlack] at hf
        obtain ⟨q, x, e1, e2, _, _, e3⟩ := sort_listOffset ih (starts := starts)
          (parents := nats (blk m out) (listOffset p offsets d).len) (outlength := outlength) false h
          (.listOffset (o := b) h1 h2 h3 h4) (by omega) (by omega) hl hs
        exact ⟨_, e1, e2, rfl, e3, fun _ => ⟨fun h => by omega, fun _ _ => ⟨_, _, _, rfl⟩, rfl⟩⟩
    | listArray h1 h2 =>
      have hp := nested_pos h2
      simp only [sortSlack, Nat.add_zero] at hf
      obtain ⟨e, e1, _, o, o1, o2, o3, o4, o5⟩ := conv b (.listArray h1 h2) rfl hf (by omega)
      refine ⟨o, ?_, o2, o3, o4, fun _ => ⟨fun h => by omega, fun _ h => o5.1 h, o5.2⟩⟩
      simp only [sortNext]
      rw [e1, bind_ok, o1]
    | regular h1 h2 h3 =>
      rename_i n p d size zeros
      have hp := nested_pos h3
      simp only [sortSlack, Nat.add_zero] at hf
      by_cases h0 : (regular p d size zeros).len = 0
      · obtain ⟨k1, k2, k3⟩ := nothing_ok (a := a) (d := n + 1 - 1) h h0 hl _ (nothing_eq (a := a))
        exact ⟨_, by simp only [sortNext]; rw [if_pos h0], k1, k2, k3, fun _ => ⟨fun h => by omega, fun _ h => by omega, by cases a.arg <;> rfl⟩⟩
      · obtain ⟨e, e1, _, o, o1, o2, o3, o4, o5⟩ := conv b (.regular h1 h2 h3) rfl hf (by omega)
        obtain ⟨q, offs, x, rfl⟩ := o5.1 (by omega)
        refine ⟨_, ?_, o2, o3, o4, fun _ => ⟨fun h => by omega, fun _ _ => ⟨_, _, _, rfl⟩, rfl⟩⟩
        simp only [sortNext]
        rw [if_neg h0, e1, bind_ok, o1, bind_ok]
        rfl
    | indexed h1 h2 h3 =>
      rename_i p index d
      simp only [rank, sortSlack] at hf
      by_cases h0 : index.length = 0
      · obtain ⟨k1, k2, k3⟩ := nothing_ok (a := a) (d := n - 1) h h0 hl _ (nothing_eq (a := a))
        exact ⟨_, by simp only [sortNext]; rw [if_pos h0], k1, k2, k3, fun h => by simp [isOptionOrIndexed] at h⟩
      · obtain ⟨o, o1, o2, o3, o4⟩ := sort_option ih (isoption := false) (starts := starts) (outlength := outlength)
          rfl h (.indexed h1 h2 h3) (by omega) (by simp [len]; omega) hl hst hs
        exact ⟨o, o1, o2, o3, o4, fun h => by simp [isOptionOrIndexed] at h⟩
    | indexedOption h1 h2 =>
      rename_i p index d
      simp only [rank, sortSlack] at hf
      by_cases h0 : index.length = 0
      · obtain ⟨k1, k2, k3⟩ := nothing_ok (a := a) (d := n - 1) h h0 hl _ (nothing_eq (a := a))
        exact ⟨_, by simp only [sortNext]; rw [if_pos h0], k1, k2, k3, fun h => by simp [isOptionOrIndexed] at h⟩
      · obtain ⟨o, o1, o2, o3, o4⟩ := sort_option ih (isoption := true) (starts := starts) (outlength := outlength)
          rfl h (.indexedOption h1 h2) (by omega) (by simp [len]; omega) hl hst hs
        exact ⟨o, o1, o2, o3, o4, fun h => by simp [isOptionOrIndexed] at h⟩
    | byteMasked h1 h2 =>
      rename_i p mask vw d
      simp only [rank, sortSlack] at hf
      obtain ⟨index, e1, e2, e3, e4⟩ := toIndexedOption_byte h
      have hlb : (indexedOption p index d).len = (byteMasked p mask vw d).len := e3
      have hseg : ∀ g, g < out → (indexedOption p index d).seg (sumTo m g) (m g) = (byteMasked p mask vw d).seg (sumTo m g) (m g) :=
        fun g hg => seg_congr (N := sumTo m out) (group_bound hg) (fun i hi => e4 i (by rw [← hl] at hi; exact hi))
      obtain ⟨o', o1, o2, o3, o4, _⟩ := ih (indexedOption p index d) n true m out starts outlength e2
        (.indexedOption h1 h2) (by simp only [sortSlack, rank]; omega) (by rw [hlb]; exact hl) hst
        (fun g hg => by rw [hseg g hg]; exact hs g hg)
      rw [hlb] at o1 o3
      refine ⟨o', ?_, o2, o3, fun g hg => by rw [← hseg g hg]; exact o4 g hg, fun h => by simp [isOptionOrIndexed] at h⟩
      simp only [sortNext]
      rw [e1, bind_ok]; exact o1
    | bitMasked h1 h2 =>
      rename_i p mk vw length lsb d
      simp only [rank, sortSlack] at hf
      obtain ⟨bm, e1, e2, e3, e4⟩ := toByteMasked_bit h
      have hlb : (byteMasked p bm vw d).len = (bitMasked p mk vw length lsb d).len := e2
      have hseg : ∀ g, g < out → (byteMasked p bm vw d).seg (sumTo m g) (m g)
          = (bitMasked p mk vw length lsb d).seg (sumTo m g) (m g) :=
        fun g hg => seg_congr (N := sumTo m out) (group_bound hg) (fun i hi => e4 i (by rw [← hl] at hi; exact hi))
      obtain ⟨o', o1, o2, o3, o4, _⟩ := ih (byteMasked p bm vw d) n true m out starts outlength e3
        (.byteMasked h1 h2) (by simp only [sortSlack, rank]; omega) (by rw [hlb]; exact hl) hst
        (fun g hg => by rw [hseg g hg]; exact hs g hg)
      rw [hlb] at o1 o3
      refine ⟨o', ?_, o2, o3, fun g hg => by rw [← hseg g hg]; exact o4 g hg, fun h => by simp [isOptionOrIndexed] at h⟩
      simp only [sortNext]
      rw [e1, bind_ok]; exact o1
    | unmasked h1 =>
      rename_i p d
      simp only [rank, sortSlack] at hf
      have hd : d.Good := h.child (by simp [children])
      by_cases h0 : (unmasked p d).len = 0
      · obtain ⟨k1, k2, k3⟩ := nothing_ok (a := a) (d := n - 1) h h0 hl _ (nothing_eq (a := a))
        exact ⟨_, by simp only [sortNext]; rw [if_pos h0], k1, k2, k3, fun h => by simp [isOptionOrIndexed] at h⟩
      · have hseg : ∀ s n, (unmasked p d).seg s n = d.seg s n := fun _ _ => rfl
        obtain ⟨o, o1, o2, o3, o4, o5⟩ := ih d n false m out starts outlength hd h1 (by omega) hl hst hs
        have hp := nested_pos h1
        refine ⟨o, ?_, o2, o3, o4, fun h => by simp [isOptionOrIndexed] at h⟩
        simp only [sortNext]
        have hnl : d.isOptionOrIndexed = false := by cases h1 <;> rfl
        have hlen : (unmasked p d).len = d.len := rfl
        rw [if_neg h0, hlen, o1, bind_ok]
        by_cases hn1 : n = 1
        · obtain ⟨q, dt', ys, rfl⟩ := (o5 hnl).1 hn1; rfl
        · obtain ⟨q, offs, x, rfl⟩ := (o5 hnl).2.1 (by omega) (by omega); rfl

end Content
end Awk
