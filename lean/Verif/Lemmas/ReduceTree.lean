import Verif.Lemmas.ReduceTotal
import Verif.Lemmas.Closed
import Verif.Lemmas.Regular
/-
The arrays on which reducers are specified, and how their nodes are split into groups.
-/

namespace Awk
open R

/-! ### Consecutive groups -/

/-- The group of position `i`, when the first `out` groups have `m 0, m 1, …` members. -/
def blk (m : Nat → Nat) : Nat → Nat → Nat
  | 0, _ => 0
  | out + 1, i => if i < sumTo m out then blk m out i else out

theorem blk_spec {m : Nat → Nat} {out i : Nat} (h : i < sumTo m out) :
    blk m out i < out ∧ sumTo m (blk m out i) ≤ i ∧ i < sumTo m (blk m out i + 1) := by
  induction out with
  | zero => simp at h
  | succ out ih =>
    unfold blk
    split
    · rename_i hi
      have := ih hi
      omega
    · refine ⟨by omega, by omega, h⟩

theorem blk_eq {m : Nat → Nat} {out i p : Nat} (hp : p < out) (h1 : sumTo m p ≤ i)
    (h2 : i < sumTo m (p + 1)) : blk m out i = p := by
  have hi : i < sumTo m out := Nat.lt_of_lt_of_le h2 (sumTo_mono (by omega))
  obtain ⟨g1, g2, g3⟩ := blk_spec hi
  by_contra hne
  rcases Nat.lt_or_gt_of_ne hne with h | h
  · have := sumTo_mono (f := m) (show blk m out i + 1 ≤ p by omega); omega
  · have := sumTo_mono (f := m) (show p + 1 ≤ blk m out i by omega); omega

theorem blk_add {m : Nat → Nat} {out p k : Nat} (hp : p < out) (hk : k < m p) :
    blk m out (sumTo m p + k) = p := by
  apply blk_eq hp (by omega)
  rw [sumTo_succ]; omega

theorem grp_add (g : Nat → Nat) (v : Nat → α) (a b p : Nat) :
    grp g v (a + b) p = grp g v a p ++ grp (fun i => g (a + i)) (fun i => v (a + i)) b p := by
  induction b with
  | zero => simp [grp]
  | succ b ih =>
    rw [← Nat.add_assoc, grp_succ, ih, grp_succ, List.append_assoc]

theorem grp_all {g : Nat → Nat} {v : Nat → α} {n p : Nat} (h : ∀ i, i < n → g i = p) :
    grp g v n p = (List.range n).map v := by
  unfold grp
  rw [List.filter_eq_self.mpr]
  intro i hi
  simpa using h i (List.mem_range.mp hi)

theorem grp_none {g : Nat → Nat} {v : Nat → α} {n p : Nat} (h : ∀ i, i < n → g i ≠ p) :
    grp g v n p = [] := by
  unfold grp
  rw [List.filter_eq_nil_iff.mpr]
  · rfl
  intro i hi
  simpa using h i (List.mem_range.mp hi)

theorem grp_blk {m : Nat → Nat} {out p : Nat} (v : Nat → α) (hp : p < out) :
    grp (blk m out) v (sumTo m out) p = (List.range (m p)).map (fun k => v (sumTo m p + k)) := by
  have h1 : sumTo m out = sumTo m p + (m p + (sumTo m out - sumTo m (p + 1))) := by
    have := sumTo_mono (f := m) (show p + 1 ≤ out by omega)
    rw [sumTo_succ] at this ⊢; omega
  rw [h1, grp_add, grp_add, grp_none, grp_all, grp_none]
  · simp
  · intro i hi he
    have := blk_spec (m := m) (out := out) (i := sumTo m p + (m p + i)) (by omega)
    rw [he, sumTo_succ] at this; omega
  · intro i hi
    exact blk_add hp hi
  · intro i hi he
    have := blk_spec (m := m) (out := out) (i := i) (by omega)
    rw [he] at this; omega

theorem nats_congr {g g' : Nat → Nat} {n : Nat} (h : ∀ i, i < n → g i = g' i) : nats g n = nats g' n :=
  map_range_congr (fun i hi => by rw [h i hi])

theorem nats_blk (m : Nat → Nat) (out : Nat) : nats (blk m out) (sumTo m out)
    = ((List.range out).map (fun p => List.replicate (m p) (p : Int))).flatten := by
  induction out with
  | zero => rfl
  | succ out ih =>
    rw [List.range_succ, List.map_append, List.flatten_append, ← ih, sumTo_succ]
    unfold nats
    rw [List.range_add, List.map_append]
    congr 1
    · apply map_range_congr
      intro i hi
      simp [blk, hi]
    · simp only [List.map_map, List.map_singleton, List.flatten_singleton]
      apply List.ext_getElem (by simp)
      intro i h1 h2
      simp [blk]

/-! ### The two kernels for a dimension that stays -/

theorem local_nextparents_ok {offsets : List Int} {m : Nat → Nat} {n : Nat} {o : Int}
    (h : ∀ i, i ≤ n → rd offsets (i : Int) = ok (o + (sumTo m i : Nat))) :
    ListOffsetArray_reduce_local_nextparents (alloc (sumTo m n : Nat)) offsets n
      = ok (nats (blk m n) (sumTo m n)) := by
  unfold ListOffsetArray_reduce_local_nextparents
  have h0 := h 0 (by omega)
  simp only [sumTo_zero, Nat.cast_zero, Int.add_zero] at h0
  rw [h0, bind_ok, nats_blk]
  apply forN_segments
  · intro i hi done rest hd hr
    simp only [List.length_replicate] at hd hr
    change done.length = sumTo m i at hd
    rw [h i (by omega), bind_ok, h (i + 1) (by omega), bind_ok,
      forFrom_segment (o := 0) (fun _ => (i : Int)) (by intro j out; simp) (by rw [hd]; omega)
        (by rw [sumTo_succ]; push_cast; omega)]
    congr 1
    have : ((o + ((sumTo m (i + 1) : Nat) : Int) - o - (o + ((sumTo m i : Nat) : Int) - o))).toNat = m i := by
      rw [sumTo_succ]; push_cast; omega
    rw [this]
    congr 1
    · congr 1
      apply List.ext_getElem (by simp)
      intro k h1 h2; simp
    · simp
  · rw [alloc_length, flatten_map_length]
    simp

/-- The first `k` slots hold running totals; the rest is untouched. -/
def filled (m : Nat → Nat) (k : Nat) (o : List Int) : List Int :=
  (List.range k).map (fun i => (sumTo m i : Int)) ++ o.drop k

theorem filled_length {m : Nat → Nat} {k : Nat} {o : List Int} (h : k ≤ o.length) :
    (filled m k o).length = o.length := by simp [filled]; omega

theorem wr_filled {m : Nat → Nat} {k : Nat} {o : List Int} {x : Int} (hk : k < o.length)
    (hx : x = (sumTo m k : Nat)) : wr (filled m k o) (k : Int) x = ok (filled m (k + 1) o) := by
  rw [wr_nat_ok (by rw [filled_length (by omega)]; exact hk)]
  congr 1
  unfold filled
  have := set_at_length (l := (List.range k).map (fun i => (sumTo m i : Int))) (rest := o.drop k)
    (x := x) (by rw [List.length_drop]; omega)
  rw [List.length_map, List.length_range] at this
  rw [this, List.drop_drop, List.range_succ, List.map_append, hx]
  simp

theorem while_fill {m : Nat → Nat} {o : List Int} {x t : Nat} (ht : t < o.length) :
    ∀ fuel k, k ≤ t + 1 → t + 1 - k ≤ fuel → (∀ q, k ≤ q → q ≤ t → sumTo m q = x) →
    whileF fuel (fun st : List Int × Int × Int => decide (st.2.2 < (t : Int)))
      (fun st => wr st.1 st.2.1 (x : Int) >>= fun o => ok (o, st.2.1 + 1, st.2.2 + 1))
      (filled m k o, (k : Int), (k : Int) - 1)
      = ok (filled m (t + 1) o, ((t + 1 : Nat) : Int), (t : Int)) := by
  intro fuel
  induction fuel with
  | zero =>
    intro k h1 h2 _
    have : k = t + 1 := by omega
    subst this
    unfold whileF
    rw [if_neg (by simp)]
    simp
  | succ fuel ih =>
    intro k h1 h2 hq
    unfold whileF
    by_cases hk : k = t + 1
    · subst hk
      rw [if_neg (by simp)]
      simp
    · rw [if_pos (by simp; omega)]
      simp only
      rw [wr_filled (by omega) (by rw [hq k (Nat.le_refl _) (by omega)]), bind_ok, bind_ok]
      have := ih (k + 1) (by omega) (by omega) (fun q h1 h2 => hq q (by omega) h2)
      rw [show ((k + 1 : Nat) : Int) - 1 = (k : Int) - 1 + 1 by omega] at this
      rw [show (k : Int) + 1 = ((k + 1 : Nat) : Int) by omega]
      exact this

theorem while_fill' {m : Nat → Nat} {o : List Int} {x t : Nat} (ht : t < o.length) :
    ∀ fuel k, k ≤ t + 1 → t + 1 - k ≤ fuel → (∀ q, k ≤ q → q ≤ t → sumTo m q = x) →
    whileF fuel (fun st : List Int × Int => decide (st.2 ≤ (t : Int)))
      (fun st => wr st.1 st.2 (x : Int) >>= fun o => ok (o, st.2 + 1))
      (filled m k o, (k : Int))
      = ok (filled m (t + 1) o, ((t + 1 : Nat) : Int)) := by
  intro fuel
  induction fuel with
  | zero =>
    intro k h1 h2 _
    have : k = t + 1 := by omega
    subst this
    unfold whileF
    rw [if_neg (by simp)]
  | succ fuel ih =>
    intro k h1 h2 hq
    unfold whileF
    by_cases hk : k = t + 1
    · subst hk
      rw [if_neg (by simp)]
    · rw [if_pos (by simp; omega)]
      simp only
      rw [wr_filled (by omega) (by rw [hq k (Nat.le_refl _) (by omega)]), bind_ok, bind_ok]
      rw [show (k : Int) + 1 = ((k + 1 : Nat) : Int) by omega]
      exact ih (k + 1) (by omega) (by omega) (fun q h1 h2 => hq q (by omega) h2)

theorem local_outoffsets_ok {m : Nat → Nat} {out : Nat} :
    ListOffsetArray_reduce_local_outoffsets (alloc ((out : Int) + 1)) (nats (blk m out) (sumTo m out))
      (sumTo m out) out = ok (offsTo m out) := by
  unfold ListOffsetArray_reduce_local_outoffsets
  have hal : (alloc ((out : Int) + 1)).length = out + 1 := by
    rw [show (out : Int) + 1 = ((out + 1 : Nat) : Int) by omega, alloc_length]
  generalize alloc ((out : Int) + 1) = o at hal
  -- how many slots are filled after `i` steps
  let K : Nat → Nat := fun i => if i = 0 then 0 else blk m out (i - 1) + 1
  have hK : ∀ i, i ≤ sumTo m out → K i ≤ out := by
    intro i hi
    simp only [K]
    split
    · omega
    · have := blk_spec (m := m) (out := out) (i := i - 1) (by omega); omega
  suffices hs : ∀ i, i ≤ sumTo m out → forN i (fun i (st : List Int × Int × Int) =>
      rd (nats (blk m out) (sumTo m out)) (i : Int) >>= fun parent =>
      whileF (out + 2) (fun st : List Int × Int × Int => decide (st.2.2 < parent))
        (fun st => wr st.1 st.2.1 (i : Int) >>= fun o => ok (o, st.2.1 + 1, st.2.2 + 1)) st)
      (o, 0, -1) = ok (filled m (K i) o, (K i : Int), (K i : Int) - 1) by
    rw [hs _ (Nat.le_refl _), bind_ok]
    simp only
    rw [while_fill' (x := sumTo m out) (t := out) (by omega) (out + 2) _
      (by have := hK _ (Nat.le_refl _); omega) (by omega), bind_ok]
    · simp only [filled, offsTo]
      rw [List.drop_eq_nil_of_le (by omega), List.append_nil]
    · intro q h1 h2
      apply Nat.le_antisymm (sumTo_mono h2)
      by_cases h0 : sumTo m out = 0
      · omega
      · have hb := blk_spec (m := m) (out := out) (i := sumTo m out - 1) (by omega)
        simp only [K, h0, if_false] at h1
        have := sumTo_mono (f := m) h1
        omega
  intro i
  induction i with
  | zero => intro _; simp [K, filled]
  | succ i ih =>
    intro hi
    obtain ⟨b1, b2, b3⟩ := blk_spec (m := m) (out := out) (i := i) (by omega)
    rw [forN_succ, ih (by omega), bind_ok, rd_nats (by omega), bind_ok]
    have hmono : K i ≤ blk m out i + 1 := by
      simp only [K]
      split
      · omega
      · have hb := blk_spec (m := m) (out := out) (i := i - 1) (by omega)
        by_contra hc
        have := sumTo_mono (f := m) (show blk m out i + 1 ≤ blk m out (i - 1) by omega)
        omega
    rw [while_fill (x := i) (t := blk m out i) (by omega) (out + 2) _ hmono (by omega)]
    · simp [K]
    · intro q h1 h2
      have h3 := sumTo_mono (f := m) h2
      apply Nat.le_antisymm (by omega)
      by_cases h0 : i = 0
      · omega
      · have hb := blk_spec (m := m) (out := out) (i := i - 1) (by omega)
        simp only [K, h0, if_false] at h1
        have := sumTo_mono (f := m) h1
        omega

namespace Content
open Spec (Nested)

variable {red : Reducer} {dt : DType} {z ix rg : Prop} {k : Nat}

theorem nested_branchDepth {n : Nat} {o : Bool} {c : Content} (h : Nested red dt z ix rg k n o c) :
    c.branchDepth = (false, n) := by
  induction h with
  | numpy | empty => rfl
  | regular hp _ _ ih | listArray hp _ ih | listOffset hp _ _ _ ih =>
    simp only [branchDepth]; rw [if_neg hp, ih]
  | indexed _ _ _ ih | indexedOption _ _ ih | byteMasked _ _ ih | bitMasked _ _ ih | unmasked _ ih =>
    simpa only [branchDepth] using ih

theorem nested_closed : ClosedG z (fun (a : Nat × Bool) c => Nested red dt z ix rg k a.1 a.2 c) where
  lazy := by
    rintro ⟨n, o⟩ idx c hc h
    cases h <;> simp [cls] at hc
  node := by
    rintro c' c hcls hloc hd ⟨n, o⟩ h
    have hpar := hloc.params
    cases h <;> cases c' <;> simp only [cls, Nat.reduceEqDiff, reduceCtorEq] at hcls
    all_goals try simp only [children, List.mem_singleton, forall_eq, exists_eq_left] at hd
    all_goals try simp only [params] at hpar
    case numpy.numpy h1 h2 p dt' data =>
      obtain ⟨p', data', he, hs⟩ := hloc.leaf _ _ _ rfl
      cases he
      exact .numpy h1 (fun x hx => h2 x (hs x hx))
    case empty.empty h1 h2 p => exact .empty h1 h2
    case regular.regular h1 h2 h3 p c size zeros =>
      obtain ⟨_, _, _, he⟩ := hloc.reg _ _ _ _ rfl
      cases he
      exact .regular (by rw [hpar]; exact h1) h2 (hd (_, _) h3)
    case regular.listArray h1 h2 h3 p starts stops c =>
      exact .listArray (by rw [hpar]; exact h1) (hd (_, _) h3)
    case regular.listOffset =>
      obtain ⟨_, _, he, _⟩ := hloc.first _ _ _ rfl
      cases he
    case listArray.regular =>
      obtain ⟨_, _, _, he⟩ := hloc.reg _ _ _ _ rfl
      cases he
    case listArray.listArray h1 h3 p starts stops c =>
      exact .listArray (by rw [hpar]; exact h1) (hd (_, _) h3)
    case listArray.listOffset =>
      obtain ⟨_, _, he, _⟩ := hloc.first _ _ _ rfl
      cases he
    case listOffset.regular =>
      obtain ⟨_, _, _, he⟩ := hloc.reg _ _ _ _ rfl
      cases he
    case listOffset.listArray h1 h2 h3 h4 p starts stops c =>
      exact .listArray (by rw [hpar]; exact h1) (hd (_, _) h4)
    case listOffset.listOffset h1 h2 h3 h4 p offs c =>
      obtain ⟨_, _, he, hz, hs⟩ := hloc.first _ _ _ rfl
      cases he
      exact .listOffset (by rw [hpar]; exact h1) (fun hz' => by rw [hz hz', h2 hz'])
        (fun x hx => h3 x (hs x hx)) h4
    case indexed.indexed h1 h2 h3 p index c => exact .indexed h1 h2 (hd (n, false) h3)
    case unmasked.unmasked h1 p c => exact .unmasked (hd (n, false) h1)
    all_goals
      have h1 : z ∨ n ≤ k := by assumption
      have h2 := hd (n, false) (by assumption)
      first
        | exact .indexedOption h1 h2
        | exact .byteMasked h1 h2
        | exact .bitMasked h1 h2

/-- Without records, carrying lazily makes no difference. -/
theorem nested_carry_lazy {n : Nat} {o : Bool} {c : Content} (h : Nested red dt z ix rg k n o c)
    (lazy : Bool) (idx : List Int) : c.carry lazy idx = c.carry false idx := by
  induction h generalizing idx <;> simp only [carry, byteMaskedCarry, *]

theorem nested_gathered {n : Nat} {o : Bool} {c c' : Content} (h : Nested red dt z ix rg k n o c)
    (hc : c.Good) (hg : Gathered c' c) : Nested red dt z ix rg k n o c' ∧ c'.rank ≤ c.rank := by
  refine ⟨hg.closed nested_closed hc (n, o) h, ?_⟩
  rcases hg with rfl | ⟨lazy, idx, hi, h1⟩
  · exact Nat.le_refl _
  · rw [nested_carry_lazy h] at h1
    obtain ⟨c'', g1, _, g2, _⟩ := carry_good hc false hi
    rw [g1, ok.injEq] at h1; subst h1
    simpa using g2

theorem nested_range {n : Nat} {o : Bool} {c c' : Content} (h : Nested red dt z ix rg k n o c)
    (hc : c.Good) {a b : Nat} (hz : z → a = 0) (hab : a ≤ b) (hb : b ≤ c.len)
    (h1 : c.range a b = ok c') : Nested red dt z ix rg k n o c' :=
  range_closedG nested_closed hc hz hab hb h1 (n, o) h

theorem nested_weaken {n : Nat} {o : Bool} {c : Content} (h : Nested red dt z ix rg k n false c) :
    Nested red dt z ix rg k n o c := by
  cases h with
  | numpy h1 h2 => exact .numpy h1 h2
  | empty h1 h2 => exact .empty h1 h2
  | regular h1 h2 h3 => exact .regular h1 h2 h3
  | listArray h1 h2 => exact .listArray h1 h2
  | listOffset h1 h2 h3 h4 => exact .listOffset h1 h2 h3 h4

theorem nested_pos {n : Nat} {o : Bool} {c : Content} (h : Nested red dt z ix rg k n o c) : 1 ≤ n := by
  induction h <;> omega

theorem nested_list {n : Nat} {c : Content} (h : Nested red dt z ix rg k n false c) (hn : 2 ≤ n) :
    c.isListNode = true := by
  cases h <;> first | rfl | omega

/-- The list node that `toListOffsetArray64(true)` makes. -/
theorem nested_parts {n : Nat} {o : Bool} {c : Content} (h : Nested red dt z ix rg k n o c)
    (hc : c.Good) (hl : c.isListNode = true) :
    ∃ c', c.toListOffset = ok c' ∧ c'.Good ∧ c'.len = c.len ∧ (∃ p offs d, c' = listOffset p offs d) ∧
      (∀ i, i < c.len → c'.valD i = c.valD i) ∧ Nested red dt z ix rg k n o c' ∧ c'.rank ≤ c.rank := by
  obtain ⟨offs, d, e1, h2, e3⟩ := listParts_ok hc hl
  refine ⟨listOffset c.params offs d, by unfold toListOffset; rw [e1, bind_ok], ?_, ?_,
    ⟨_, _, _, rfl⟩, ?_, ?_⟩
  · rw [h2.offs_eq]; exact good_offsTo h2.good h2.bound
  · rw [h2.offs_eq]; simp [len]
  · intro i hi
    rw [h2.offs_eq, valD_offsTo h2.good h2.bound hi, ← h2.vals i hi]
  · obtain ⟨e, he, hg⟩ := h2.src
    have hoff : ∀ x ∈ offs, 0 ≤ x ∧ x ≤ (d.len : Int) := by
      rw [h2.offs_eq]
      intro x hx
      obtain ⟨i, hi, rfl⟩ := List.mem_iff_getElem.mp hx
      rw [offsTo_getElem]
      have := h2.bound
      have := sumTo_mono (f := c.lens) (show i ≤ c.len by simp at hi; omega)
      omega
    have hz0 : offs[0]? = some 0 := by rw [h2.offs_eq]; simp [offsTo]
    cases h <;> simp only [isListNode, Bool.false_eq_true] at hl
    all_goals
      simp only [children, List.mem_singleton] at he
      subst he
      simp only [params, rank]
    case regular h1 _ h3 =>
      obtain ⟨g1, g2⟩ := nested_gathered h3 (hc.child (by simp [children])) hg
      exact ⟨.listOffset h1 (fun _ => hz0) hoff g1, by omega⟩
    case listArray h1 h3 =>
      obtain ⟨g1, g2⟩ := nested_gathered h3 (hc.child (by simp [children])) hg
      exact ⟨.listOffset h1 (fun _ => hz0) hoff g1, by omega⟩
    case listOffset h1 _ _ h3 =>
      obtain ⟨g1, g2⟩ := nested_gathered h3 (hc.child (by simp [children])) hg
      exact ⟨.listOffset h1 (fun _ => hz0) hoff g1, by omega⟩

end Content
end Awk
