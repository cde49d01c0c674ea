import Verif.Lemmas.ReduceBase
/-
Dimensions outside the reduced one stay as they are.
-/

namespace Awk
open R

/-- A missing list stays missing. -/
def stay (F : List Val → Val) (v : Val) : Val := match v with
  | .null => .null
  | v => F v.items

theorem atDepth_succ (f : List Val → Val) (d : Nat) (vals : List Val) :
    Spec.atDepth f (d + 1) vals = .list (vals.map (stay (Spec.atDepth f d))) := rfl

/-- The lists below one element. -/
def below (d : Nat) (v : Val) : List (List Val) := match v with
  | .null => []
  | v => Spec.groupsAt d v.items

theorem groupsAt_succ (d : Nat) (vals : List Val) :
    Spec.groupsAt (d + 1) vals = vals.flatMap (below d) := rfl

namespace Content
open Spec (Nested)

variable {red : Reducer} {dt : DType} {z ix rg : Prop} {k : Nat} {mask : Bool}
  {C : List (List Val) → Prop} {base : List Val → Val}

/-- The groups of elements. -/
def segs (c : Content) (m : Nat → Nat) (out : Nat) : List (List Val) :=
  (List.range out).map (fun p => c.seg (sumTo m p) (m p))

theorem segs_flatten (c : Content) (m : Nat → Nat) (out : Nat) :
    (c.segs m out).flatten = (List.range (sumTo m out)).map c.valD := by
  unfold segs
  induction out with
  | zero => rfl
  | succ out ih =>
    rw [List.range_succ, List.map_append, List.flatten_append, ih, sumTo_succ, List.range_add,
      List.map_append]
    simp [seg]

theorem segs_groups (c : Content) (m : Nat → Nat) (out d : Nat) :
    (c.segs m out).flatMap (Spec.groupsAt (d + 1))
      = (List.range (sumTo m out)).flatMap (fun i => below d (c.valD i)) := by
  have h1 : (List.range (sumTo m out)).flatMap (fun i => below d (c.valD i))
      = ((List.range (sumTo m out)).map c.valD).flatMap (below d) := (List.flatMap_map ..).symm
  have h2 : ∀ L : List (List Val), L.flatMap (Spec.groupsAt (d + 1)) = L.flatten.flatMap (below d) := by
    intro L
    induction L with
    | nil => rfl
    | cons l L ih =>
      rw [List.flatMap_cons, ih, List.flatten_cons, List.flatMap_append, groupsAt_succ]
  rw [h1, ← segs_flatten, h2]

/-- A ListOffsetArray needs one step less. -/
def slack : Content → Nat
  | listOffset .. => 1
  | _ => 0

/-- What is assumed about the reduced dimension. -/
def BaseOk (red : Reducer) (mask : Bool) (dt : DType) (z ix rg : Prop) (k : Nat)
    (C : List (List Val) → Prop) (base : List Val → Val) : Prop :=
  ∀ (fuel : Nat) (c : Content) (b : Bool) (m : Nat → Nat) (out : Nat) (starts : List Int),
    c.Good → Nested red dt z ix rg k k b c → c.rank ≤ fuel + c.slack → c.len = sumTo m out →
    (z → starts = (List.range out).map (fun p => (sumTo m p : Int))) → C (c.segs m out) →
    ∃ o, reduceNext red mask fuel k starts [] (nats (blk m out) c.len) out c = ok o ∧
      Reduced o out (fun p => base (c.seg (sumTo m p) (m p)))

/-- The items of the result, when this dimension stays. -/
structure Raw (c raw : Content) (F : List Val → Val) : Prop where
  len : raw.len = c.len
  good : raw.Good
  params : raw.params = {}
  val : ∀ i, i < c.len → raw.valD i = stay F (c.valD i)
  offs : OffsetsInRange raw

theorem offsTo_inRange {p : Params} {f : Nat → Nat} {n : Nat} {c : Content} (h : sumTo f n ≤ c.len) :
    OffsetsInRange (listOffset p (offsTo f n) c) := by
  intro x hx
  obtain ⟨i, hi, rfl⟩ := List.mem_iff_getElem.mp hx
  rw [offsTo_getElem]
  have := sumTo_mono (f := f) (show i ≤ n by simp at hi; omega)
  omega

theorem Raw.reduced {c raw : Content} {d : Nat} {m : Nat → Nat} {out : Nat}
    (h : Raw c raw (Spec.atDepth base d)) (hl : c.len = sumTo m out) :
    Reduced (listOffset {} (offsTo m out) raw) out
      (fun p => Spec.atDepth base (d + 1) (c.seg (sumTo m p) (m p))) := by
  have hb : sumTo m out ≤ raw.len := by rw [h.len, hl]
  refine ⟨by simp [Content.len], good_offsTo h.good hb, rfl, ?_, offsTo_inRange hb, h.params⟩
  intro p hp
  rw [valD_offsTo h.good hb hp, atDepth_succ, wrapList_default]
  congr 1
  apply List.ext_getElem (by simp)
  intro i h1 h2
  simp only [seg_length] at h1
  rw [seg_getElem, List.getElem_map, seg_getElem, h.val]
  have := sumTo_mono (f := m) (show p + 1 ≤ out by omega)
  rw [sumTo_succ] at this; omega

theorem wrapList_plain {p : Params} (h : ¬ (p.arr = .string ∨ p.arr = .bytestring)) (vs : List Val) :
    wrapList p vs = .list vs := by
  unfold wrapList
  cases hp : p.arr <;> simp_all

/-- The main statement, for one content. -/
def LocalOk (red : Reducer) (mask : Bool) (dt : DType) (z ix rg : Prop) (k : Nat)
    (C : List (List Val) → Prop) (base : List Val → Val) (fuel : Nat) : Prop :=
  ∀ (c : Content) (n : Nat) (b : Bool) (m : Nat → Nat) (out : Nat) (starts : List Int), k ≤ n →
    c.Good → Nested red dt z ix rg k n b c → c.rank ≤ fuel + c.slack → c.len = sumTo m out →
    ((n = k ∨ c.isListNode = false) → z →
      starts = (List.range out).map (fun p => (sumTo m p : Int))) →
    C ((c.segs m out).flatMap (Spec.groupsAt (n - k))) →
    ∃ o, reduceNext red mask fuel k starts [] (nats (blk m out) c.len) out c = ok o ∧
      Reduced o out (fun p => Spec.atDepth base (n - k) (c.seg (sumTo m p) (m p))) ∧
      (k < n → ∃ raw, o = listOffset {} (offsTo m out) raw ∧
        Raw c raw (Spec.atDepth base (n - k - 1)))

theorem local_listOffset {fuel : Nat} (ih : LocalOk red mask dt z ix rg k C base fuel) {p : Params}
    {offsets : List Int} {d : Content} {n : Nat} {b : Bool} {m : Nat → Nat} {out : Nat}
    {starts : List Int} (hk : k ≤ n) (h : (listOffset p offsets d).Good)
    (hn : Nested red dt z ix rg k (n + 1) b (listOffset p offsets d)) (hf : d.rank ≤ fuel)
    (hl : (listOffset p offsets d).len = sumTo m out)
    (hC : C (((listOffset p offsets d).segs m out).flatMap (Spec.groupsAt (n + 1 - k)))) :
    ∃ raw, reduceNext red mask (fuel + 1) k starts [] (nats (blk m out) (listOffset p offsets d).len) out
        (listOffset p offsets d) = ok (listOffset {} (offsTo m out) raw) ∧
      Raw (listOffset p offsets d) raw (Spec.atDepth base (n - k)) := by
  have hbd := nested_branchDepth hn
  obtain ⟨hl1, hd, hpair⟩ := good_listOffset.mp h
  cases hn with
  | listOffset hp hz hoff hn =>
  generalize hc : listOffset p offsets d = c at *
  have hlen : c.len = offsets.length - 1 := by rw [← hc]; rfl
  have hlens : ∀ i (hi : i + 1 < offsets.length), c.lens i = (offsets[i + 1] - offsets[i]).toNat := by
    intro i hi
    rw [← hc]
    simp only [lens, valD_listOffset (hc ▸ h) hi, items_wrapList, seg_length]
  have hval : ∀ i (hi : i + 1 < offsets.length), c.valD i = .list (d.seg offsets[i].toNat (c.lens i)) := by
    intro i hi
    rw [hlens i hi, ← hc, valD_listOffset (hc ▸ h) hi, wrapList_plain hp]
  have hsum : ∀ i (hi : i < offsets.length), offsets[i] = offsets[0] + (sumTo c.lens i : Nat) := by
    intro i
    induction i with
    | zero => intro _; simp
    | succ i ihi =>
      intro hi
      have h1 := ihi (by omega)
      have h2 := hlens i hi
      have h3 := (hpair i hi).le
      rw [sumTo_succ]; push_cast; omega
  have hrd : ∀ i, i ≤ c.len → rd offsets (i : Int) = ok (offsets[0] + (sumTo c.lens i : Nat)) := by
    intro i hi
    rw [rd_nat_ok (by omega), hsum i (by omega)]
  have h0 := hoff _ (List.getElem_mem (show 0 < offsets.length by omega))
  have hN := hoff _ (List.getElem_mem (show c.len < offsets.length by omega))
  rw [hsum c.len (by omega)] at hN
  set a : Nat := offsets[0].toNat with ha
  have ha' : offsets[0] = (a : Int) := by omega
  obtain ⟨t, t1, t2, t3, t4, t5⟩ := range_good hd (a := a) (b := a + sumTo c.lens c.len) (by omega) (by omega)
  have htl : t.len = sumTo c.lens c.len := by rw [t4.1]; omega
  have htv : ∀ i, i < t.len → t.valD i = d.valD (a + i) := fun i hi => t4.valD (by omega)
  have hzero : z → a = 0 := by
    intro hz'
    have := hz hz'
    rw [List.getElem?_eq_getElem (by omega)] at this
    injection this with this
    omega
  have htn : Nested red dt z ix rg k n true t := nested_range hn hd hzero (by omega) (by omega) t1
  have htseg : ∀ i, i < c.len → t.seg (sumTo c.lens i) (c.lens i) = (c.valD i).items := by
    intro i hi
    rw [hval i (by omega)]
    simp only [Val.items]
    apply List.ext_getElem (by simp)
    intro q h1 h2
    rw [seg_getElem, seg_getElem, htv]
    · congr 1
      have := hsum i (by omega)
      omega
    · have := sumTo_mono (f := c.lens) (show i + 1 ≤ c.len by omega)
      rw [sumTo_succ] at this
      simp only [seg_length] at h1
      omega
  obtain ⟨o, o1, o2, _⟩ := ih t n true c.lens c.len (makeStarts offsets) hk t2 htn
    (by have : t.slack ≤ 1 := by cases t <;> simp [slack]
        omega) htl (by
      intro _ hz'
      have hz0 := hzero hz'
      apply List.ext_getElem?
      intro i
      by_cases hi : i < c.len
      · rw [makeStarts_getElem? (by omega), List.getElem?_eq_getElem (by omega), hsum i (by omega), ha', hz0]
        simp [hi]
      · rw [List.getElem?_eq_none (by simp [makeStarts]; omega), List.getElem?_eq_none (by simp; omega)]) (by
      have he : (c.segs m out).flatMap (Spec.groupsAt (n + 1 - k))
          = (t.segs c.lens c.len).flatMap (Spec.groupsAt (n - k)) := by
        rw [show n + 1 - k = (n - k) + 1 by omega, segs_groups, ← hl]
        unfold segs
        rw [List.flatMap_map]
        rw [List.flatMap_def, List.flatMap_def]
        congr 1
        apply map_range_congr
        intro i hi
        rw [htseg i hi, hval i (by omega)]
        rfl
      rw [← he]; exact hC)
  refine ⟨o, ?_, ?_⟩
  · rw [← hc]
    simp only [reduceNext]
    rw [hc, hbd, if_neg (by simp; omega)]
    unfold reduceLocal
    rw [← hlen]
    have e0 := hrd 0 (by omega)
    simp only [sumTo_zero, Nat.cast_zero, Int.add_zero] at e0
    rw [e0, bind_ok, hrd c.len (Nat.le_refl _), bind_ok]
    rw [show offsets[0] + ((sumTo c.lens c.len : Nat) : Int) - offsets[0] = ((sumTo c.lens c.len : Nat) : Int) by omega,
      local_nextparents_ok hrd, bind_ok, ha',
      show (a : Int) + ((sumTo c.lens c.len : Nat) : Int) = ((a + sumTo c.lens c.len : Nat) : Int) by omega,
      t1, bind_ok, ← htl, o1, bind_ok, nats_length, hl, local_outoffsets_ok, bind_ok]
  · refine ⟨o2.len, o2.good, o2.params, ?_, o2.offs⟩
    intro i hi
    rw [o2.val i hi, htseg i hi, hval i (by omega)]
    rfl

theorem fix_offsets_ok {m : Nat → Nat} {out : Nat} :
    IndexedArray_reduce_next_fix_offsets (alloc ((out : Int) + 1))
      ((List.range out).map (fun p => (sumTo m p : Int))) out (sumTo m out) = ok (offsTo m out) := by
  unfold IndexedArray_reduce_next_fix_offsets
  have hal : (alloc ((out : Int) + 1)).length = out + 1 := by
    rw [show (out : Int) + 1 = ((out + 1 : Nat) : Int) by omega, alloc_length]
  generalize alloc ((out : Int) + 1) = o at hal
  rw [forN_fill0 (fun i => rd ((List.range out).map (fun p => (sumTo m p : Int))) (i : Int)) o (by omega),
    mapN_ok' (fun p => (sumTo m p : Int))
      (fun i hi => rd_map_range (f := fun p => (sumTo m p : Int)) hi), bind_ok, bind_ok,
    wr_tail (by simp) (by simp; omega)]
  rw [List.drop_drop, List.drop_eq_nil_of_le (by omega)]
  simp [offsTo, List.range_succ]

theorem local_option {fuel : Nat} (ih : LocalOk red mask dt z ix rg k C base fuel) (hk1 : 1 ≤ k)
    {c : Content} {n : Nat} {m : Nat → Nat} {out : Nat} {starts : List Int} (hk : k ≤ n) (h : c.Good)
    (hn : Nested red dt z ix rg k (n + 1) true c)
    (hk3 : (∃ p index d, c = indexed p index d) ∨ (∃ p index d, c = indexedOption p index d) ∨
      (∃ p mask vw d, c = byteMasked p mask vw d)) (hf : c.rank ≤ fuel + 1)
    (hl : c.len = sumTo m out)
    (hs : z → starts = (List.range out).map (fun p => (sumTo m p : Int)))
    (hC : C ((c.segs m out).flatMap (Spec.groupsAt (n + 1 - k)))) :
    ∃ raw, reduceNext red mask (fuel + 1) k starts [] (nats (blk m out) c.len) out c
        = ok (listOffset {} (offsTo m out) raw) ∧
      Raw c raw (Spec.atDepth base (n - k)) := by
  have ho : c.isOptionOrIndexed = true := by
    rcases hk3 with ⟨p, i, d, rfl⟩ | ⟨p, i, d, rfl⟩ | ⟨p, m, v, d, rfl⟩ <;> rfl
  have hz : z := by
    rcases hk3 with ⟨p, i, d, rfl⟩ | ⟨p, i, d, rfl⟩ | ⟨p, m, v, d, rfl⟩
    · cases hn with | indexed _ h2 _ => exact h2.resolve_right (by omega)
    · cases hn with | indexedOption h2 _ => exact h2.resolve_right (by omega)
    · cases hn with | byteMasked h2 _ => exact h2.resolve_right (by omega)
  have hst := hs hz
  obtain ⟨next, nsh, n1, n2, n3, n4, n5, n6, n7⟩ := reduceOption_step (mask := mask) (f := fuel) (negaxis := k)
    (starts := starts) (shifts := []) (g := blk m out) (out := out) h hn hk3 (.inl rfl)
  have hdec : decide (k = n + 1) = false := by simp; omega
  rw [hdec] at n6 n7
  simp only [Bool.and_false, Bool.false_eq_true, if_false] at n6
  subst n6
  obtain ⟨b1, b2⟩ := blk_kept (q := c.pickI) (m := m) (out := out)
  set m' : Nat → Nat := fun p => cnt c.pickI (sumTo m (p + 1)) - cnt c.pickI (sumTo m p) with hm'
  have hpar : nats (fun j => blk m out (keptAt c.pickI c.len j)) next.len = nats (blk m' out) next.len := by
    apply nats_congr
    intro j hj
    rw [hl]
    exact b2 j (by rw [← hl]; omega)
  have hnull : ∀ i, i < c.len → c.pickI i = none → c.valD i = .null := by
    intro i hi hq
    have := (val_inner_pick h ho hi).1
    have hq' : c.pick i = none := by simpa [pickI] using hq
    rw [hq'] at this
    exact this
  have hnl : next.len = sumTo m' out := by rw [b1, n4, hl]
  obtain ⟨o, o1, _, o3⟩ := ih next (n + 1) false m' out starts (by omega) n1 n2
    (by omega) hnl (by
      rintro (h' | h')
      · omega
      · rw [nested_list n2 (by omega)] at h'; simp at h') (by
      have he : (c.segs m out).flatMap (Spec.groupsAt (n + 1 - k))
          = (next.segs m' out).flatMap (Spec.groupsAt (n + 1 - k)) := by
        rw [show n + 1 - k = (n - k) + 1 by omega, segs_groups, segs_groups, ← hl, ← hnl, n4]
        have e1 : (List.range (cnt c.pickI c.len)).flatMap (fun j => below (n - k) (next.valD j))
            = (keptPos c.pickI c.len).flatMap (fun i => below (n - k) (c.valD i)) := by
          rw [← map_keptAt, List.flatMap_map, List.flatMap_def, List.flatMap_def]
          congr 1
          apply map_range_congr
          intro j hj
          rw [n5 j (by omega)]
        rw [e1]
        unfold keptPos
        generalize hL : List.range c.len = L
        have hm : ∀ i ∈ L, i < c.len := by intro i hi; rw [← hL] at hi; exact List.mem_range.mp hi
        clear hL
        induction L with
        | nil => rfl
        | cons i L ihL =>
          rw [List.flatMap_cons, List.filter_cons, ihL (fun j hj => hm j (List.mem_cons_of_mem _ hj))]
          cases hq : c.pickI i with
          | none => rw [hnull i (hm i List.mem_cons_self) hq]; simp [below]
          | some x => simp
      rw [← he]; exact hC)
  obtain ⟨raw, rfl, r⟩ := o3 (by omega)
  have hcb : ∀ i, i < c.len → (c.pickI i).isSome = true → cnt c.pickI i < next.len := by
    intro i hi hs
    rw [n4]; exact (keptAt_cnt hi hs).1
  have hgood : (indexedOption {} (outIndex c.pickI c.len) raw).Good := by
    refine good_indexedOption.mpr ⟨r.good, ?_⟩
    intro i hi
    rw [outIndex_getElem]
    have := r.len
    split
    · rename_i hs
      have := hcb i (by simpa using hi) hs; omega
    · omega
  refine ⟨indexedOption {} (outIndex c.pickI c.len) raw, ?_, ⟨by simp [Content.len], hgood, rfl, ?_, trivial⟩⟩
  · rw [n7, hpar, o1, bind_ok]
    unfold reduceOptionWrap
    rw [if_neg (by simp)]
    simp only [regularToOffsets, bind_ok]
    rw [if_neg, outIndex_length]
    · have hsl : starts.length = out := by rw [hst]; simp
      rw [hsl, hst, hl, fix_offsets_ok, bind_ok]
    · rintro ⟨h1, h2⟩
      rw [hst] at h1 h2
      simp only [List.length_map, List.length_range] at h1
      simp [h1] at h2
  · intro i hi
    rw [valD_indexedOption hgood (by simpa using hi), outIndex_getElem]
    cases hq : c.pickI i with
    | none => rw [hnull i hi hq]; simp [stay]
    | some x =>
      have hs : (c.pickI i).isSome = true := by rw [hq]; rfl
      have hlt := hcb i hi hs
      simp only [Option.isSome_some, if_true]
      rw [if_neg (by omega), show ((cnt c.pickI i : Nat) : Int).toNat = cnt c.pickI i by omega,
        r.val _ hlt, n5 _ hlt, (keptAt_cnt hi hs).2, show n + 1 - k - 1 = n - k by omega]

theorem Raw.congr {c c' raw : Content} {F : List Val → Val} (h : Raw c raw F) (hl : c.len = c'.len)
    (hv : ∀ i, i < c.len → c.valD i = c'.valD i) : Raw c' raw F :=
  ⟨by rw [h.len, hl], h.good, h.params, fun i hi => by rw [h.val i (by omega), hv i (by omega)], h.offs⟩

theorem segs_congr {c c' : Content} {m : Nat → Nat} {out : Nat} (hl : c.len = sumTo m out)
    (hv : ∀ i, i < c.len → c.valD i = c'.valD i) : c.segs m out = c'.segs m out := by
  unfold segs
  apply map_range_congr
  intro p hp
  have := sumTo_mono (f := m) (show p + 1 ≤ out by omega)
  rw [sumTo_succ] at this
  unfold seg
  apply map_range_congr
  intro i hi
  exact hv _ (by omega)

/-- The result of a RegularArray becomes regular again. -/
theorem reduceRegular_ok {p : Params} {d raw : Content} {size zeros n : Nat} {m : Nat → Nat} {out : Nat}
    {b : Bool} (h : (regular p d size zeros).Good) (hp : ¬ (p.arr = .string ∨ p.arr = .bytestring))
    (hk : k ≤ n) (r : Raw (regular p d size zeros) raw (Spec.atDepth base (n - k))) :
    ∃ raw', reduceRegular k (n + 1) b (listOffset {} (offsTo m out) raw)
        = ok (listOffset {} (offsTo m out) raw') ∧
      Raw (regular p d size zeros) raw' (Spec.atDepth base (n - k)) := by
  unfold reduceRegular
  cases b with
  | true => exact ⟨raw, rfl, r⟩
  | false =>
    rw [if_neg (by simp)]
    by_cases h2 : k + 2 = n + 1
    · rw [if_pos h2]
      have hconv : raw.isListNode = true → ∃ r', raw.toRegular = ok r' ∧
          Raw (regular p d size zeros) r' (Spec.atDepth base (n - k)) := by
        intro hl
        obtain ⟨k1, _⟩ := toRegular_ok r.good hl r.offs
        have hlens : ∀ i, i < raw.len → raw.lens i = size := by
          intro i hi
          unfold lens
          rw [r.val i (by rw [← r.len]; exact hi), valD_regular (good_regular.mp h) (by rw [← r.len]; exact hi),
            wrapList_plain hp, show n - k = 0 + 1 by omega]
          simp only [stay, Val.items, atDepth_succ, List.length_map, seg_length]
        obtain ⟨r', e1, e2, e3, e4, d', s', z', e5⟩ := k1 (fun i hi => by
          rw [hlens i hi, hlens 0 (by omega)])
        refine ⟨r', e1, ⟨by rw [e3, r.len], e2, by rw [e5]; exact r.params, ?_, by rw [e5]; trivial⟩⟩
        intro i hi
        rw [e4 i (by rw [r.len]; exact hi), r.val i hi]
      cases hraw : raw with
      | listOffset p' o' c' =>
        obtain ⟨r', e1, e2⟩ := hconv (by rw [hraw]; rfl)
        rw [hraw] at e1
        exact ⟨r', by simp only [e1, bind_ok], e2⟩
      | listArray p' s' t' c' =>
        obtain ⟨r', e1, e2⟩ := hconv (by rw [hraw]; rfl)
        rw [hraw] at e1
        exact ⟨r', by simp only [e1, bind_ok], e2⟩
      | _ => exact ⟨_, rfl, hraw ▸ r⟩
    · rw [if_neg h2, if_neg (by omega)]
      exact ⟨raw, rfl, r⟩

theorem local_ok (hb : BaseOk red mask dt z ix rg k C base) (hk1 : 1 ≤ k) (fuel : Nat) :
    LocalOk red mask dt z ix rg k C base fuel := by
  induction fuel with
  | zero =>
    intro c n b m out starts hk h hn hf hl hs hC
    exfalso
    have : ∀ d : Content, Nested red dt z ix rg k n b c → 1 ≤ c.rank - c.slack := by
      intro _ hn
      cases hn <;> simp [rank, slack]
    have := this c hn
    omega
  | succ fuel ih =>
    intro c n b m out starts hk h hn hf hl hs hC
    by_cases hnk : n = k
    · subst hnk
      simp only [Nat.sub_self] at hC ⊢
      have he : (c.segs m out).flatMap (Spec.groupsAt 0) = c.segs m out := by
        have : Spec.groupsAt 0 = fun x => [x] := by funext x; rfl
        rw [this]; simp
      rw [he] at hC
      obtain ⟨o, o1, o2⟩ := hb (fuel + 1) c b m out starts h hn hf hl (hs (.inl rfl)) hC
      exact ⟨o, o1, o2, fun h => absurd h (Nat.lt_irrefl _)⟩
    · obtain ⟨n', rfl⟩ : ∃ n', n = n' + 1 := ⟨n - 1, by omega⟩
      have hk' : k ≤ n' := by omega
      suffices hgoal : ∃ raw, reduceNext red mask (fuel + 1) k starts [] (nats (blk m out) c.len) out c
          = ok (listOffset {} (offsTo m out) raw) ∧ Raw c raw (Spec.atDepth base (n' - k)) by
        obtain ⟨raw, g1, g2⟩ := hgoal
        refine ⟨_, g1, ?_, fun _ => ⟨raw, rfl, ?_⟩⟩
        · rw [show n' + 1 - k = (n' - k) + 1 by omega]
          exact g2.reduced hl
        · rw [show n' + 1 - k - 1 = n' - k by omega]; exact g2
      -- the conversion to a ListOffsetArray
      have conv : ∀ (d : Content) (o : Bool), d.Good → Nested red dt z ix rg k (n' + 1) o d →
          d.isListNode = true → d.rank ≤ fuel + 1 → d.len = c.len → (∀ i, i < c.len → d.valD i = c.valD i) →
          ∃ e, d.toListOffset = ok e ∧ ∃ raw, reduceNext red mask fuel k starts []
            (nats (blk m out) c.len) out e = ok (listOffset {} (offsTo m out) raw) ∧
            Raw c raw (Spec.atDepth base (n' - k)) := by
        intro d o hd hn hl' hr hdl hdv
        obtain ⟨e, e1, e2, e3, ⟨p, offs, x, rfl⟩, e5, e6, e7⟩ := nested_parts hn hd hl'
        refine ⟨_, e1, ?_⟩
        obtain ⟨o', o1, _, o3⟩ := ih (listOffset p offs x) (n' + 1) o m out starts hk e2 e6
          (by simp only [slack]; omega) (by omega) (by
            rintro (h' | h')
            · omega
            · simp [isListNode] at h') (by
            rw [segs_congr (c' := c) (by omega) (fun i hi => by rw [e5 i (by omega), hdv i (by omega)])]
            exact hC)
        obtain ⟨raw, rfl, r⟩ := o3 (by omega)
        rw [e3, hdl] at o1
        exact ⟨raw, o1, by
          rw [show n' + 1 - k - 1 = n' - k by omega] at r
          exact r.congr (by omega) (fun i hi => by rw [e5 i (by omega), hdv i (by omega)])⟩
      cases hn with
      | numpy => omega
      | empty => omega
      | listOffset h1 h2 h3 h4 =>
        simp only [rank, slack] at hf
        exact local_listOffset ih hk' h (.listOffset (o := b) h1 h2 h3 h4) (by omega) hl hC
      | listArray h1 h2 =>
        simp only [slack, Nat.add_zero] at hf
        obtain ⟨e, e1, raw, e2, e3⟩ := conv _ b h (.listArray h1 h2) rfl hf rfl (fun _ _ => rfl)
        refine ⟨raw, ?_, e3⟩
        simp only [reduceNext]
        rw [e1, bind_ok, e2]
      | regular h1 h2 h3 =>
        simp only [slack, Nat.add_zero] at hf
        obtain ⟨e, e1, raw, e2, e3⟩ := conv _ b h (.regular h1 h2 h3) rfl hf rfl (fun _ _ => rfl)
        rename_i p d size zeros
        obtain ⟨raw', g1, g2⟩ := reduceRegular_ok (m := m) (out := out) (b := d.dimensionOption) h h1 hk' e3
        refine ⟨raw', ?_, g2⟩
        have hbd := nested_branchDepth (Nested.regular (o := b) (size := size) (zeros := zeros) h1 h2 h3)
        simp only [reduceNext]
        rw [e1, bind_ok, e2, bind_ok, hbd]
        exact g1
      | indexed h1 h2 h3 =>
        simp only [slack, Nat.add_zero] at hf
        exact local_option ih hk1 hk' h (.indexed h1 h2 h3) (.inl ⟨_, _, _, rfl⟩) hf hl (hs (.inr rfl)) hC
      | indexedOption h1 h2 =>
        simp only [slack, Nat.add_zero] at hf
        exact local_option ih hk1 hk' h (.indexedOption h1 h2) (.inr (.inl ⟨_, _, _, rfl⟩)) hf hl (hs (.inr rfl)) hC
      | byteMasked h1 h2 =>
        simp only [slack, Nat.add_zero] at hf
        exact local_option ih hk1 hk' h (.byteMasked h1 h2) (.inr (.inr ⟨_, _, _, _, rfl⟩)) hf hl (hs (.inr rfl)) hC
      | bitMasked h1 h2 =>
        rename_i p mk vw length lsb d
        simp only [slack, Nat.add_zero, rank] at hf
        obtain ⟨bm, e1, e2, e3, e4⟩ := toByteMasked_bit h
        have hlb : (byteMasked p bm vw d).len = (bitMasked p mk vw length lsb d).len := e2
        obtain ⟨o', o1, _, o3⟩ := ih (byteMasked p bm vw d) (n' + 1) true m out starts hk e3
          (.byteMasked h1 h2) (by simp only [slack, rank]; omega) (by rw [hlb]; exact hl)
          (fun _ => hs (.inr rfl)) (by
            rw [segs_congr (c' := bitMasked p mk vw length lsb d) (by rw [hlb]; exact hl)
              (fun i hi => e4 i (by rw [hlb] at hi; exact hi))]
            exact hC)
        obtain ⟨raw, rfl, r⟩ := o3 (by omega)
        refine ⟨raw, ?_, ?_⟩
        · simp only [reduceNext]
          rw [e1, bind_ok, ← hlb]; exact o1
        · rw [show n' + 1 - k - 1 = n' - k by omega] at r
          exact r.congr hlb (fun i hi => e4 i (by rw [hlb] at hi; exact hi))
      | unmasked h1 =>
        rename_i p d
        simp only [slack, Nat.add_zero, rank] at hf
        have hd : d.Good := h.child (by simp [children])
        have hlist := nested_list h1 (by omega)
        simp only [reduceNext]
        by_cases hreg : ∃ p' d' size zeros, d = regular p' d' size zeros
        · obtain ⟨e, e1, raw, e2, e3⟩ := conv d false hd h1 hlist (by omega) rfl (fun _ _ => rfl)
          obtain ⟨p', d', size, zeros, rfl⟩ := hreg
          refine ⟨raw, ?_, e3⟩
          simp only [regularToOffsets]
          rw [e1, bind_ok, e2]
        · have hr : regularToOffsets d = ok d := by
            cases d <;> first | rfl | exact absurd ⟨_, _, _, _, rfl⟩ hreg
          rw [hr, bind_ok]
          obtain ⟨o', o1, _, o3⟩ := ih d (n' + 1) false m out starts hk hd h1 (by omega) hl (by
            rintro (h' | h')
            · omega
            · rw [hlist] at h'; simp at h') hC
          obtain ⟨raw, rfl, r⟩ := o3 (by omega)
          refine ⟨raw, o1, ?_⟩
          rw [show n' + 1 - k - 1 = n' - k by omega] at r
          exact r.congr rfl (fun _ _ => rfl)

end Content
end Awk
