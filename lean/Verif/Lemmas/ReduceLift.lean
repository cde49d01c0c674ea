import Verif.Lemmas.ReduceMerge
/-
Merging a dimension, for every kind of node.
-/

namespace Awk
open R

/-- A list, if it is not missing. -/
def nn : Val → Option Val
  | .null => none
  | v => some v

theorem mem_nn {vals : List Val} {v : Val} : v ∈ vals.filterMap nn ↔ v ∈ vals ∧ v ≠ .null := by
  rw [List.mem_filterMap]
  constructor
  · rintro ⟨w, h1, h2⟩
    cases w <;> simp only [nn, Option.some.injEq, reduceCtorEq] at h2 <;> subst h2 <;> exact ⟨h1, by simp⟩
  · rintro ⟨h1, h2⟩
    exact ⟨v, h1, by cases v <;> first | rfl | exact absurd rfl h2⟩

theorem longest_nn (vals : List Val) : Spec.longest (vals.filterMap nn) = Spec.longest vals := by
  have : ∀ r, r < Spec.longest (vals.filterMap nn) ↔ r < Spec.longest vals := by
    intro r
    rw [lt_longest, lt_longest]
    constructor
    · rintro ⟨v, h1, h2⟩; exact ⟨v, (mem_nn.mp h1).1, h2⟩
    · rintro ⟨v, h1, h2⟩
      refine ⟨v, mem_nn.mpr ⟨h1, ?_⟩, h2⟩
      rintro rfl
      simp [Val.items] at h2
  have h1 := this (Spec.longest (vals.filterMap nn))
  have h2 := this (Spec.longest vals)
  omega

theorem column_nn (vals : List Val) (j : Nat) :
    (Spec.column (vals.filterMap nn) j).filterMap nn = (Spec.column vals j).filterMap nn := by
  unfold Spec.column
  rw [List.filterMap_map, List.filterMap_map, List.filterMap_filterMap]
  apply List.filterMap_congr
  intro v _
  cases v <;> simp [nn, Function.comp, Val.items]

theorem present_nn (vals : List Val) : Spec.present (vals.filterMap nn) = Spec.present vals := by
  unfold Spec.present
  rw [List.filterMap_filterMap]
  apply List.filterMap_congr
  intro v _
  cases v <;> rfl

/-- Missing lists and items do not matter. -/
theorem reduceAcross_nn {red : Reducer} {mask : Bool} {dt : DType} (hr : red.returnsPositions = false)
    (d : Nat) : ∀ vals vals' : List Val, vals.filterMap nn = vals'.filterMap nn →
      Spec.reduceAcross red mask dt d vals = Spec.reduceAcross red mask dt d vals' := by
  induction d with
  | zero =>
    intro vals vals' h
    have hp : Spec.present vals = Spec.present vals' := by rw [← present_nn, h, present_nn]
    simp only [Spec.reduceAcross, Spec.reduceList]
    cases red <;> simp only [Reducer.returnsPositions, Bool.true_eq_false] at hr <;> simp only [hp]
  | succ d ih =>
    intro vals vals' h
    simp only [Spec.reduceAcross]
    have hl : Spec.longest vals = Spec.longest vals' := by rw [← longest_nn, h, longest_nn]
    rw [hl]
    congr 1
    apply map_range_congr
    intro j _
    apply ih
    rw [← column_nn, h, column_nn]

namespace Content
open Spec (Nested)

variable {red : Reducer} {dt : DType} {z ix rg : Prop} {k : Nat} {mask : Bool}
  {C : List (List Val) → Prop} {base : List Val → Val}

/-- Merging the dimension of a ListOffsetArray. -/
def OffsetOk (red : Reducer) (mask : Bool) (dt : DType) (z ix rg : Prop) (k : Nat)
    (C : List (List Val) → Prop) (base : List Val → Val) : Prop :=
  ∀ (fuel : Nat) (p : Params) (offsets : List Int) (d : Content) (b : Bool) (m : Nat → Nat) (out : Nat)
    (starts : List Int), (listOffset p offsets d).Good →
    Nested red dt z ix rg k k b (listOffset p offsets d) → d.rank ≤ fuel →
    (listOffset p offsets d).len = sumTo m out → C ((listOffset p offsets d).segs m out) →
    ∃ S T oc, reduceNext red mask (fuel + 1) k starts [] (nats (blk m out) (listOffset p offsets d).len) out
        (listOffset p offsets d) = ok (listArray {} S T oc) ∧ 1 ≤ oc.len ∧
      (∀ i, i < oc.len → oc.valD i = .null ∨ (∃ a, oc.valD i = .atom a) ∨ ∃ vs, oc.valD i = .list vs) ∧
      Reduced (listArray {} S T oc) out (fun p' => base ((listOffset p offsets d).seg (sumTo m p') (m p')))

theorem range_params {c c' : Content} {a b : Int} (h : c.range a b = ok c') : c'.params = c.params := by
  cases c with
  | empty p => simp only [range, ok.injEq] at h; subst h; rfl
  | numpy p dt data =>
    simp only [range, numpyRange] at h
    repeat' split at h
    all_goals first
      | (simp only [ok.injEq] at h; subst h; rfl)
      | simp only [reduceCtorEq] at h
      | (obtain ⟨x, _, h⟩ := bind_eq_ok.mp h
         simp only [ok.injEq] at h; subst h; rfl)
  | record p keys cs length =>
    simp only [range] at h
    split at h
    · simp only [ok.injEq] at h; subst h; rfl
    · split at h
      · simp only [ok.injEq] at h; subst h; rfl
      · obtain ⟨x, _, h⟩ := bind_eq_ok.mp h
        simp only [ok.injEq] at h; subst h; rfl
  | listArray p s t c | byteMasked p s t c | union p s t c =>
    simp only [range] at h
    obtain ⟨x, _, h⟩ := bind_eq_ok.mp h
    obtain ⟨y, _, h⟩ := bind_eq_ok.mp h
    simp only [ok.injEq] at h; subst h; rfl
  | bitMasked p s t l o c =>
    simp only [range] at h
    obtain ⟨x, _, h⟩ := bind_eq_ok.mp h
    obtain ⟨y, _, h⟩ := bind_eq_ok.mp h
    obtain ⟨w, _, h⟩ := bind_eq_ok.mp h
    simp only [ok.injEq] at h; subst h; rfl
  | _ =>
    simp only [range] at h
    obtain ⟨x, _, h⟩ := bind_eq_ok.mp h
    simp only [ok.injEq] at h; subst h; rfl

theorem plain_closed : ClosedG False (fun (_ : Unit) c => c.cls ≠ 4 ∧ c.params = {}) where
  lazy := by
    rintro _ idx c hc ⟨h, _⟩
    exact absurd hc h
  node := by
    rintro c' c hcls hloc _ _ ⟨h1, h2⟩
    exact ⟨by rw [hcls]; exact h1, by rw [hloc.params]; exact h2⟩

theorem toRegular_params {p : Params} {S T : List Int} {c r : Content} (h : (listArray p S T c).Good)
    (hc : c.cls ≠ 4) (hp : c.params = {}) (he : (listArray p S T c).toRegular = ok r) :
    PlainItems r := by
  obtain ⟨offs, d, e1, h2, _⟩ := listParts_ok h rfl
  simp only [toRegular] at he
  rw [e1, bind_ok] at he
  obtain ⟨d', hd', hg⟩ := h2.src
  simp only [children, List.mem_singleton] at hd'
  subst hd'
  have hdp := (hg.closed plain_closed (h.child (by simp [children])) () ⟨hc, hp⟩).2
  unfold listOffsetToRegular at he
  obtain ⟨start, _, he⟩ := bind_eq_ok.mp he
  obtain ⟨stop, _, he⟩ := bind_eq_ok.mp he
  obtain ⟨c', hc', he⟩ := bind_eq_ok.mp he
  obtain ⟨size, _, he⟩ := bind_eq_ok.mp he
  simp only [ok.injEq] at he
  subst he
  show c'.params = {}
  rw [range_params hc', hdp]

theorem cls_of_val {c : Content} (h : c.Good) (hl : 1 ≤ c.len)
    (hv : ∀ i, i < c.len → c.valD i = .null ∨ (∃ a, c.valD i = .atom a) ∨ ∃ vs, c.valD i = .list vs) :
    c.cls ≠ 4 := by
  intro hc
  cases c <;> simp only [cls, Nat.reduceEqDiff, reduceCtorEq] at hc
  have := hv 0 hl
  rw [valD_record h hl] at this
  unfold mkRecord at this
  split at this <;> simp at this

/-- The result for a list node. -/
theorem lift_list (hoff : OffsetOk red mask dt z ix rg k C base)
    (hlen : ∀ vals, (base vals).items.length = Spec.longest vals)
    (hCrg : ∀ gs, rg → C gs → ∀ a ∈ gs, ∀ b ∈ gs, Spec.longest a = Spec.longest b)
    (hk : 2 ≤ k) {fuel : Nat} {c : Content} {b : Bool} {m : Nat → Nat} {out : Nat} {starts : List Int}
    (h : c.Good) (hn : Nested red dt z ix rg k k b c) (hlist : c.isListNode = true)
    (hf : c.rank ≤ fuel + c.slack) (hl : c.len = sumTo m out) (hC : C (c.segs m out)) :
    ∃ o, reduceNext red mask fuel k starts [] (nats (blk m out) c.len) out c = ok o ∧
      Reduced o out (fun p => base (c.seg (sumTo m p) (m p))) := by
  have segc : ∀ (e : Content), (∀ i, i < c.len → e.valD i = c.valD i) → ∀ p, p < out →
      e.seg (sumTo m p) (m p) = c.seg (sumTo m p) (m p) := by
    intro e he p hp
    unfold seg
    apply map_range_congr
    intro i hi
    have := sumTo_mono (f := m) (show p + 1 ≤ out by omega)
    rw [sumTo_succ] at this
    exact he _ (by omega)
  -- the conversion to a ListOffsetArray
  have conv : ∀ f, c.rank ≤ f + 1 → ∃ e, c.toListOffset = ok e ∧ ∃ S T oc,
      reduceNext red mask f k starts [] (nats (blk m out) c.len) out e = ok (listArray {} S T oc) ∧
      1 ≤ oc.len ∧
      (∀ i, i < oc.len → oc.valD i = .null ∨ (∃ a, oc.valD i = .atom a) ∨ ∃ vs, oc.valD i = .list vs) ∧
      Reduced (listArray {} S T oc) out (fun p => base (c.seg (sumTo m p) (m p))) := by
    intro f hf
    obtain ⟨e, e1, e2, e3, ⟨p, offs, x, rfl⟩, e5, e6, e7⟩ := nested_parts hn h hlist
    refine ⟨_, e1, ?_⟩
    obtain ⟨f', rfl⟩ : ∃ f', f = f' + 1 := ⟨f - 1, by
      have : 1 ≤ x.rank := by cases x <;> simp [rank]
      simp only [rank] at e7; omega⟩
    obtain ⟨S, T, oc, o1, o2, o3, o4⟩ := hoff f' p offs x b m out starts e2 e6
      (by simp only [rank] at e7; omega) (by omega) (by
        rw [segs_congr (c' := c) (by omega) (fun i hi => e5 i (by omega))]
        exact hC)
    rw [e3] at o1
    refine ⟨S, T, oc, o1, o2, o3, ⟨o4.len, o4.good, o4.params, ?_, o4.offs, o4.plain⟩⟩
    intro p' hp'
    rw [o4.val p' hp', segc _ e5 p' hp']
  cases hn with
  | numpy => omega
  | empty => omega
  | listOffset h1 h2 h3 h4 =>
    rename_i n p offsets d
    simp only [rank, slack] at hf
    obtain ⟨f, rfl⟩ : ∃ f, fuel = f + 1 := ⟨fuel - 1, by
      have : 1 ≤ d.rank := by cases d <;> simp [rank]
      omega⟩
    obtain ⟨S, T, oc, o1, _, _, o4⟩ := hoff f p offsets d b m out starts h (.listOffset h1 h2 h3 h4)
      (by omega) hl hC
    exact ⟨_, o1, o4⟩
  | listArray h1 h2 =>
    simp only [slack, Nat.add_zero] at hf
    obtain ⟨f, rfl⟩ : ∃ f, fuel = f + 1 := ⟨fuel - 1, by simp only [rank] at hf; omega⟩
    obtain ⟨e, e1, S, T, oc, e2, _, _, e3⟩ := conv f hf
    refine ⟨_, ?_, e3⟩
    simp only [reduceNext]
    rw [e1, bind_ok, e2]
  | regular h1 h2 h3 =>
    rename_i n p d size zeros
    simp only [slack, Nat.add_zero] at hf
    obtain ⟨f, rfl⟩ : ∃ f, fuel = f + 1 := ⟨fuel - 1, by simp only [rank] at hf; omega⟩
    obtain ⟨e, e1, S, T, oc, e2, e4, e5, e3⟩ := conv f hf
    have hbd := nested_branchDepth (Nested.regular (o := b) (size := size) (zeros := zeros) h1 h2 h3)
    simp only [reduceNext]
    rw [e1, bind_ok, e2, bind_ok, hbd]
    unfold reduceRegular
    cases hd : d.dimensionOption with
    | true => exact ⟨_, rfl, e3⟩
    | false =>
      rw [if_neg (by simp), if_neg (by simp), if_pos rfl]
      have hlens : ∀ i, i < out → (listArray {} S T oc).lens i
          = Spec.longest ((regular p d size zeros).seg (sumTo m i) (m i)) := by
        intro i hi
        unfold lens
        rw [e3.val i hi, hlen]
      obtain ⟨k1, _⟩ := toRegular_ok e3.good rfl e3.offs
      obtain ⟨r, r1, r2, r3, r4, d', s', z', r5⟩ := k1 (by
        intro i hi
        rw [e3.len] at hi
        rw [hlens i hi, hlens 0 (by omega)]
        apply hCrg _ (h2 (Nat.le_refl _)) hC
        · exact List.mem_map.mpr ⟨i, List.mem_range.mpr hi, rfl⟩
        · exact List.mem_map.mpr ⟨0, List.mem_range.mpr (by omega), rfl⟩)
      have hoc : oc.Good := e3.good.child (by simp [children])
      refine ⟨r, r1, ⟨by rw [r3, e3.len], r2, by rw [r5]; exact e3.params, ?_, by rw [r5]; trivial,
        toRegular_params e3.good (cls_of_val hoc e4 e5) e3.plain r1⟩⟩
      intro i hi
      rw [r4 i (by rw [e3.len]; exact hi), e3.val i hi]
  | indexed | indexedOption | byteMasked | bitMasked | unmasked => simp [isListNode] at hlist

/-- The result for an option node. -/
theorem lift_option (hoff : OffsetOk red mask dt z ix rg k C base)
    (hlen : ∀ vals, (base vals).items.length = Spec.longest vals)
    (hCrg : ∀ gs, rg → C gs → ∀ a ∈ gs, ∀ b ∈ gs, Spec.longest a = Spec.longest b)
    (hCn : ∀ gs gs', gs.map (List.filterMap nn) = gs'.map (List.filterMap nn) → C gs → C gs')
    (hbn : ∀ vals vals', vals.filterMap nn = vals'.filterMap nn → base vals = base vals')
    (hr : red.returnsPositions = false)
    (hk : 2 ≤ k) {fuel : Nat} {c : Content} {m : Nat → Nat} {out : Nat} {starts : List Int}
    (h : c.Good) (hn : Nested red dt z ix rg k k true c)
    (hk3 : (∃ p index d, c = indexed p index d) ∨ (∃ p index d, c = indexedOption p index d) ∨
      (∃ p mask vw d, c = byteMasked p mask vw d))
    (hf : c.rank ≤ fuel) (hl : c.len = sumTo m out) (hC : C (c.segs m out)) :
    ∃ o, reduceNext red mask fuel k starts [] (nats (blk m out) c.len) out c = ok o ∧
      Reduced o out (fun p => base (c.seg (sumTo m p) (m p))) := by
  have ho : c.isOptionOrIndexed = true := by
    rcases hk3 with ⟨p, i, d, rfl⟩ | ⟨p, i, d, rfl⟩ | ⟨p, m, v, d, rfl⟩ <;> rfl
  obtain ⟨f, rfl⟩ : ∃ f, fuel = f + 1 := ⟨fuel - 1, by cases c <;> simp only [rank] at hf <;> omega⟩
  obtain ⟨next, nsh, n1, n2, n3, n4, n5, n6, n7⟩ := reduceOption_step (mask := mask) (f := f) (negaxis := k)
    (starts := starts) (shifts := []) (g := blk m out) (out := out) h hn hk3 (.inl rfl)
  simp only [hr, Bool.and_false, Bool.false_and, Bool.false_eq_true, if_false] at n6
  subst n6
  obtain ⟨b1, b2⟩ := blk_kept (q := c.pickI) (m := m) (out := out)
  set m' : Nat → Nat := fun p => cnt c.pickI (sumTo m (p + 1)) - cnt c.pickI (sumTo m p) with hm'
  have hpar : nats (fun j => blk m out (keptAt c.pickI c.len j)) next.len = nats (blk m' out) next.len := by
    apply nats_congr
    intro j hj
    rw [hl]
    exact b2 j (by rw [← hl]; omega)
  have hnl : next.len = sumTo m' out := by rw [b1, n4, hl]
  -- the groups without the missing lists
  have hseg : ∀ p, p < out → (next.seg (sumTo m' p) (m' p)).filterMap nn
      = (c.seg (sumTo m p) (m p)).filterMap nn := by
    intro p hp
    have e1 := grp_blk (m := m) (out := out) c.valD hp
    have e2 := grp_blk (m := m') (out := out) next.valD hp
    unfold seg
    rw [← e1, ← e2, ← hnl, ← hl, n4,
      ← grp_filterMap_kept (q := c.pickI) (g := blk m out) (v := c.valD)]
    · congr 1
      apply grp_congr
      · intro j hj
        rw [hl]
        exact (b2 j (by rw [← hl]; omega)).symm
      · intro j hj
        exact n5 j (by omega)
    · intro i hi hq
      have := (val_inner_pick h ho hi).1
      have hq' : c.pick i = none := by simpa [pickI] using hq
      rw [hq'] at this
      rw [this]; rfl
  obtain ⟨o, o1, o2⟩ := lift_list hoff hlen hCrg hk (fuel := f) (starts := starts) n1 n2
    (nested_list n2 hk) (by omega) hnl (by
      refine hCn _ _ ?_ hC
      unfold segs
      rw [List.map_map, List.map_map]
      apply map_range_congr
      intro p hp
      exact (hseg p hp).symm)
  refine ⟨o, ?_, ⟨o2.len, o2.good, o2.params, ?_, o2.offs, o2.plain⟩⟩
  · rw [n7, hpar, o1, bind_ok]
    simp [reduceOptionWrap]
  · intro p hp
    rw [o2.val p hp]
    exact hbn _ _ (hseg p hp)

theorem lift_ok (hoff : OffsetOk red mask dt z ix rg k C base)
    (hlen : ∀ vals, (base vals).items.length = Spec.longest vals)
    (hCrg : ∀ gs, rg → C gs → ∀ a ∈ gs, ∀ b ∈ gs, Spec.longest a = Spec.longest b)
    (hCn : ∀ gs gs', gs.map (List.filterMap nn) = gs'.map (List.filterMap nn) → C gs → C gs')
    (hbn : ∀ vals vals', vals.filterMap nn = vals'.filterMap nn → base vals = base vals')
    (hr : red.returnsPositions = false) (hk : 2 ≤ k) : BaseOk red mask dt z ix rg k C base := by
  intro fuel c b m out starts h hn hf hl _ hC
  have hopt := @lift_option red dt z ix rg k mask C base hoff hlen hCrg hCn hbn hr hk
  have hlist := @lift_list red dt z ix rg k mask C base hoff hlen hCrg hk
  cases hn with
  | numpy => omega
  | empty => omega
  | listOffset h1 h2 h3 h4 => exact hlist (b := b) h (.listOffset h1 h2 h3 h4) rfl hf hl hC
  | listArray h1 h2 => exact hlist (b := b) h (.listArray h1 h2) rfl hf hl hC
  | regular h1 h2 h3 => exact hlist (b := b) h (.regular h1 h2 h3) rfl hf hl hC
  | indexed h1 h2 h3 => exact hopt h (.indexed h1 h2 h3) (.inl ⟨_, _, _, rfl⟩) hf hl hC
  | indexedOption h1 h2 => exact hopt h (.indexedOption h1 h2) (.inr (.inl ⟨_, _, _, rfl⟩)) hf hl hC
  | byteMasked h1 h2 => exact hopt h (.byteMasked h1 h2) (.inr (.inr ⟨_, _, _, _, rfl⟩)) hf hl hC
  | bitMasked h1 h2 =>
    rename_i p mk vw length lsb d
    simp only [slack, Nat.add_zero, rank] at hf
    obtain ⟨bm, e1, e2, e3, e4⟩ := toByteMasked_bit h
    have hlb : (byteMasked p bm vw d).len = (bitMasked p mk vw length lsb d).len := e2
    obtain ⟨f, rfl⟩ : ∃ f, fuel = f + 1 := ⟨fuel - 1, by omega⟩
    obtain ⟨o, o1, o2⟩ := hopt (fuel := f) (m := m) (out := out) (starts := starts) e3 (.byteMasked h1 h2)
      (.inr (.inr ⟨_, _, _, _, rfl⟩)) (by simp only [rank]; omega) (by rw [hlb]; exact hl) (by
        rw [segs_congr (c' := bitMasked p mk vw length lsb d) (by rw [hlb]; exact hl)
          (fun i hi => e4 i (by rw [hlb] at hi; exact hi))]
        exact hC)
    refine ⟨o, ?_, ⟨o2.len, o2.good, o2.params, ?_, o2.offs, o2.plain⟩⟩
    · simp only [reduceNext]
      rw [e1, bind_ok, ← hlb]; exact o1
    · intro p' hp'
      rw [o2.val p' hp']
      congr 1
      unfold seg
      apply map_range_congr
      intro i hi
      have := sumTo_mono (f := m) (show p' + 1 ≤ out by omega)
      rw [sumTo_succ] at this
      exact e4 _ (by have := hl; simp only [Content.len] at this ⊢; omega)
  | unmasked h1 =>
    rename_i p d
    simp only [slack, Nat.add_zero, rank] at hf
    have hd : d.Good := h.child (by simp [children])
    have hln := nested_list h1 hk
    obtain ⟨f, rfl⟩ : ∃ f, fuel = f + 1 := ⟨fuel - 1, by omega⟩
    simp only [reduceNext]
    by_cases hreg : ∃ p' d' size zeros, d = regular p' d' size zeros
    · obtain ⟨e, e1, e2, e3, ⟨p', offs, x, rfl⟩, e5, e6, e7⟩ := nested_parts h1 hd hln
      obtain ⟨o, o1, o2⟩ := hlist (fuel := f) (m := m) (out := out) (starts := starts) e2 e6 rfl (by omega)
        (by rw [e3]; exact hl) (by
          rw [segs_congr (c' := unmasked p d) (by rw [e3]; exact hl) (fun i hi => e5 i (by omega))]
          exact hC)
      obtain ⟨p'', d', size, zeros, rfl⟩ := hreg
      refine ⟨o, ?_, ⟨o2.len, o2.good, o2.params, ?_, o2.offs, o2.plain⟩⟩
      · simp only [regularToOffsets]
        rw [e1, bind_ok, ← o1, e3]; rfl
      · intro q hq
        rw [o2.val q hq]
        congr 1
        unfold seg
        apply map_range_congr
        intro i hi
        have := sumTo_mono (f := m) (show q + 1 ≤ out by omega)
        rw [sumTo_succ] at this
        exact e5 _ (by have := hl; simp only [Content.len] at this ⊢; omega)
    · have hrt : regularToOffsets d = ok d := by
        cases d <;> first | rfl | exact absurd ⟨_, _, _, _, rfl⟩ hreg
      rw [hrt, bind_ok]
      exact hlist (fuel := f) hd h1 hln (by omega) hl hC

/-- The condition on the groups. -/
def Groups2 (rg : Prop) (gs : List (List Val)) : Prop := Spec.Ordered gs ∧ (rg → Spec.SameLength gs)

theorem ordered_nn (gs : List (List Val)) : Spec.Ordered (gs.map (List.filterMap nn)) ↔ Spec.Ordered gs := by
  unfold Spec.Ordered
  rw [List.pairwise_map]
  have h1 : ∀ a : List Val, (∃ v ∈ a.filterMap nn, v.items ≠ []) ↔ ∃ v ∈ a, v.items ≠ [] := by
    intro a
    constructor
    · rintro ⟨v, h1, h2⟩; exact ⟨v, (mem_nn.mp h1).1, h2⟩
    · rintro ⟨v, h1, h2⟩
      refine ⟨v, mem_nn.mpr ⟨h1, ?_⟩, h2⟩
      rintro rfl
      simp [Val.items] at h2
  have h2 : ∀ a : List Val, (∃ v ∈ a.filterMap nn, v ≠ .null) ↔ ∃ v ∈ a, v ≠ .null := by
    intro a
    constructor
    · rintro ⟨v, h1, h2⟩; exact ⟨v, (mem_nn.mp h1).1, h2⟩
    · rintro ⟨v, h1, h2⟩; exact ⟨v, mem_nn.mpr ⟨h1, h2⟩, h2⟩
  simp only [h1, h2]

theorem sameLength_nn (gs : List (List Val)) :
    Spec.SameLength (gs.map (List.filterMap nn)) ↔ Spec.SameLength gs := by
  unfold Spec.SameLength
  simp [longest_nn]

theorem groups2_nn (gs gs' : List (List Val))
    (h : gs.map (List.filterMap nn) = gs'.map (List.filterMap nn)) (hC : Groups2 rg gs) : Groups2 rg gs' :=
  ⟨(ordered_nn _).mp (h ▸ (ordered_nn _).mpr hC.1),
    fun hr => (sameLength_nn _).mp (h ▸ (sameLength_nn _).mpr (hC.2 hr))⟩

theorem across_items (d : Nat) (vals : List Val) :
    (Spec.reduceAcross red mask dt (d + 1) vals).items.length = Spec.longest vals := by
  simp [Spec.reduceAcross, Val.items]

theorem reduceList_val (vals : List Val) : Spec.reduceList red mask dt vals = .null ∨
    ∃ a, Spec.reduceList red mask dt vals = .atom a := by
  unfold Spec.reduceList
  cases red <;> simp only <;> split <;> first | (simp; done) | (split <;> simp; done) | (cases mask <;> simp)

/-- Reducing the second innermost dimension. -/
theorem base_two (hid : red.identityOk dt) (hr : red.returnsPositions = false) :
    BaseOk red mask dt z ix rg 2 (Groups2 rg) (Spec.reduceAcross red mask dt 1) := by
  refine lift_ok ?_ (across_items 0) (fun gs hrg hC => hC.2 hrg) groups2_nn
    (reduceAcross_nn hr 1) hr (Nat.le_refl 2)
  intro fuel p offsets d b m out starts h hn hf hl hC
  obtain ⟨S, T, oc, o1, o2, o3, o4⟩ := base_two_offset (mask := mask) (starts := starts) hid hr h hn hf hl hC.1
  refine ⟨S, T, oc, o1, o2, ?_, o4⟩
  intro i hi
  obtain ⟨vals, hv⟩ := o3 i hi
  rw [hv]
  rcases reduceList_val (red := red) (mask := mask) (dt := dt) vals with h | h
  · exact .inl h
  · exact .inr (.inl h)

end Content
end Awk
