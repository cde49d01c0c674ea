import Verif.Lemmas.SortStrings
/-
Sorting strings in lists.
-/

namespace Awk
open R
namespace Content
open Spec (Strings Chars Lawful)

variable {a : SortArgs}

/-! ### Arrays of strings -/

/-- Strings, and their characters. -/
def TextFamily : Nat ⊕ ArrKind → Content → Prop
  | .inl n, c => Strings n c
  | .inr k, c => ∃ q data, c = numpy q .uint8 data ∧ q.arr = k

theorem chars_of {p p' : Params} {d d' : Content} (h : Chars p d) (hp : p'.arr = p.arr)
    (hd : ∀ a, TextFamily a d → TextFamily a d') : Chars p' d' := by
  obtain ⟨q, data, rfl, h⟩ := h
  obtain ⟨q', data', rfl, hk⟩ := hd (.inr q.arr) ⟨q, data, rfl, rfl⟩
  refine ⟨q', data', rfl, ?_⟩
  rw [hp, hk]; exact h

theorem strings_closed : ClosedG True TextFamily where
  lazy := by
    rintro (n | k) idx c hc h
    · cases h <;> simp [cls] at hc
    · obtain ⟨q, data, rfl, _⟩ := h; simp [cls] at hc
  node := by
    rintro c' c hcls hloc hd (n | k) h
    · have hpar := hloc.params
      cases h <;> cases c' <;> simp only [cls, Nat.reduceEqDiff, reduceCtorEq] at hcls
      all_goals try simp only [children, List.mem_singleton, forall_eq, exists_eq_left] at hd
      all_goals try simp only [params] at hpar
      case regularText.regular h1 p c size zeros =>
        exact .regularText (chars_of h1 (by rw [hpar]) hd)
      case regularText.listArray h1 _ _ _ _ => exact .listArrayText (chars_of h1 (by rw [hpar]) hd)
      case regularText.listOffset h1 _ _ _ => exact .listOffsetText (chars_of h1 (by rw [hpar]) hd)
      case listArrayText.regular h1 p c size zeros =>
        exact .regularText (chars_of h1 (by rw [hpar]) hd)
      case listArrayText.listArray h1 _ _ _ _ => exact .listArrayText (chars_of h1 (by rw [hpar]) hd)
      case listArrayText.listOffset h1 _ _ _ => exact .listOffsetText (chars_of h1 (by rw [hpar]) hd)
      case listOffsetText.regular h1 p c size zeros =>
        exact .regularText (chars_of h1 (by rw [hpar]) hd)
      case listOffsetText.listArray h1 _ _ _ _ => exact .listArrayText (chars_of h1 (by rw [hpar]) hd)
      case listOffsetText.listOffset h1 _ _ _ => exact .listOffsetText (chars_of h1 (by rw [hpar]) hd)
      case regular.regular h1 h3 p c size zeros =>
        exact .regular (by rw [hpar]; exact h1) (hd (.inl _) h3)
      case regular.listArray h1 h3 p starts stops c =>
        exact .listArray (by rw [hpar]; exact h1) (hd (.inl _) h3)
      case regular.listOffset =>
        obtain ⟨_, _, he, _⟩ := hloc.first _ _ _ rfl
        cases he
      case listArray.regular =>
        obtain ⟨_, _, _, he⟩ := hloc.reg _ _ _ _ rfl
        cases he
      case listArray.listArray h1 h3 p starts stops c =>
        exact .listArray (by rw [hpar]; exact h1) (hd (.inl _) h3)
      case listArray.listOffset =>
        obtain ⟨_, _, he, _⟩ := hloc.first _ _ _ rfl
        cases he
      case listOffset.regular =>
        obtain ⟨_, _, _, he⟩ := hloc.reg _ _ _ _ rfl
        cases he
      case listOffset.listArray h1 h2 h3 h4 p starts stops c =>
        exact .listArray (by rw [hpar]; exact h1) (hd (.inl _) h4)
      case listOffset.listOffset h1 h2 h3 h4 p offs c =>
        obtain ⟨_, _, he, hz, hs⟩ := hloc.first _ _ _ rfl
        cases he
        exact .listOffset (by rw [hpar]; exact h1) (by rw [hz trivial, h2])
          (fun x hx => h3 x (hs x hx)) h4
    · obtain ⟨q, data, rfl, hk⟩ := h
      have hpar := hloc.params
      cases c' <;> simp only [cls, Nat.reduceEqDiff, reduceCtorEq] at hcls
      obtain ⟨p', data', he, _⟩ := hloc.leaf _ _ _ rfl
      cases he
      simp only [params] at hpar
      exact ⟨_, _, rfl, by rw [hpar]; exact hk⟩

theorem strings_pos {n : Nat} {c : Content} (h : Strings n c) : 1 ≤ n := by
  cases h <;> omega

theorem strings_list {n : Nat} {c : Content} (h : Strings n c) : c.isListNode = true := by
  cases h <;> rfl

theorem chars_string {p : Params} {d : Content} (h : Chars p d) : p.arr = .string ∨ p.arr = .bytestring := by
  obtain ⟨q, data, _, h⟩ := h
  rcases h with ⟨h, _⟩ | ⟨h, _⟩
  · exact .inl h
  · exact .inr h

theorem strings_branchDepth {n : Nat} {c : Content} (h : Strings n c) : c.branchDepth = (false, n) := by
  induction h with
  | regularText h | listArrayText h | listOffsetText h =>
    simp only [branchDepth]; rw [if_pos (chars_string h)]
  | regular hp _ ih | listArray hp _ ih | listOffset hp _ _ _ ih =>
    simp only [branchDepth]; rw [if_neg hp, ih]

theorem strings_carry_lazy {n : Nat} {c : Content} (h : Strings n c)
    (lazy : Bool) (idx : List Int) : c.carry lazy idx = c.carry false idx := by
  induction h generalizing idx with
  | regularText h => obtain ⟨q, data, rfl, _⟩ := h; simp only [carry]
  | listArrayText h | listOffsetText h => simp only [carry]
  | regular _ _ ih => simp only [carry, ih]
  | listArray | listOffset => simp only [carry]

theorem family_gathered {c c' : Content} {k : Nat ⊕ ArrKind} (h : TextFamily k c)
    (hc : c.Good) (hg : Gathered c' c) : TextFamily k c' ∧ c'.rank ≤ c.rank := by
  refine ⟨hg.closed strings_closed hc k h, ?_⟩
  rcases hg with rfl | ⟨lazy, idx, hi, h1⟩
  · exact Nat.le_refl _
  · have hlz : c.carry lazy idx = c.carry false idx := by
      rcases k with n | k
      · exact strings_carry_lazy h _ _
      · obtain ⟨q, data, rfl, _⟩ := h; simp only [carry]
    rw [hlz] at h1
    obtain ⟨c'', g1, _, g2, _⟩ := carry_good hc false hi
    rw [g1, ok.injEq] at h1; subst h1
    simpa using g2

/-- A list node as a ListOffsetArray. -/
theorem strings_parts {n : Nat} {c : Content} (h : Strings n c) (hc : c.Good) :
    ∃ p offs d, c.toListOffset = ok (listOffset p offs d) ∧ (listOffset p offs d).Good ∧
      (listOffset p offs d).len = c.len ∧ (∀ x ∈ offs, 0 ≤ x ∧ x ≤ (d.len : Int)) ∧
      (∀ i, i < c.len → (listOffset p offs d).valD i = c.valD i) ∧ Strings n (listOffset p offs d) ∧
      (listOffset p offs d).rank ≤ c.rank := by
  obtain ⟨offs, d, e1, h2, e3⟩ := listParts_ok hc (strings_list h)
  have hoff : ∀ x ∈ offs, 0 ≤ x ∧ x ≤ (d.len : Int) := by
    rw [h2.offs_eq]
    intro x hx
    obtain ⟨i, hi, rfl⟩ := List.mem_iff_getElem.mp hx
    rw [offsTo_getElem]
    have := h2.bound
    have := sumTo_mono (f := c.lens) (show i ≤ c.len by simp at hi; omega)
    omega
  refine ⟨c.params, offs, d, by unfold toListOffset; rw [e1, bind_ok], ?_, ?_, hoff, ?_, ?_⟩
  · rw [h2.offs_eq]; exact good_offsTo h2.good h2.bound
  · rw [h2.offs_eq]; simp [len]
  · intro i hi
    rw [h2.offs_eq, valD_offsTo h2.good h2.bound hi, ← h2.vals i hi]
  · obtain ⟨e, he, hg⟩ := h2.src
    have hz0 : offs[0]? = some 0 := by rw [h2.offs_eq]; simp [offsTo]
    have text : ∀ {p : Params}, Chars p e → e.Good → Chars p d ∧ d.rank ≤ e.rank := by
      intro p hch hge
      obtain ⟨q, data, rfl, hk⟩ := hch
      obtain ⟨g1, g2⟩ := family_gathered (k := .inr q.arr) ⟨q, data, rfl, rfl⟩ hge hg
      obtain ⟨q', data', rfl, hk'⟩ := g1
      exact ⟨⟨q', data', rfl, by rw [hk']; exact hk⟩, g2⟩
    cases h
    all_goals
      simp only [children, List.mem_singleton] at he
      subst he
      simp only [params, rank]
    case regularText h1 =>
      obtain ⟨g1, g2⟩ := text h1 (hc.child (by simp [children]))
      exact ⟨.listOffsetText g1, by omega⟩
    case listArrayText h1 =>
      obtain ⟨g1, g2⟩ := text h1 (hc.child (by simp [children]))
      exact ⟨.listOffsetText g1, by omega⟩
    case listOffsetText h1 =>
      obtain ⟨g1, g2⟩ := text h1 (hc.child (by simp [children]))
      exact ⟨.listOffsetText g1, by omega⟩
    case regular h1 h3 =>
      obtain ⟨g1, g2⟩ := family_gathered (k := .inl _) h3 (hc.child (by simp [children])) hg
      exact ⟨.listOffset h1 hz0 hoff g1, by omega⟩
    case listArray h1 h3 =>
      obtain ⟨g1, g2⟩ := family_gathered (k := .inl _) h3 (hc.child (by simp [children])) hg
      exact ⟨.listOffset h1 hz0 hoff g1, by omega⟩
    case listOffset h1 _ _ h3 =>
      obtain ⟨g1, g2⟩ := family_gathered (k := .inl _) h3 (hc.child (by simp [children])) hg
      exact ⟨.listOffset h1 hz0 hoff g1, by omega⟩

/-! ### The recursion -/

/-- Each group of strings is sorted. -/
def StrOk (a : SortArgs) (fuel : Nat) : Prop :=
  ∀ (c : Content) (n : Nat) (m : Nat → Nat) (out : Nat) (starts : List Int) (outlength : Nat),
    c.Good → Strings n c → c.rank ≤ fuel + c.sortSlack → c.len = sumTo m out →
    ∃ o, sortNext a fuel 1 starts (nats (blk m out) c.len) outlength false c = ok o ∧ o.Good ∧ o.len = c.len ∧
      (∀ p, p < out → Spec.AtDepth (TextRel a) (n - 1) (c.seg (sumTo m p) (m p)) (o.seg (sumTo m p) (m p))) ∧
      ((∃ p offs d, c = listOffset p offs d) → ∀ q x s z, o ≠ regular q x s z)

theorem str_listOffset {fuel : Nat} (ih : StrOk a fuel) {p : Params} {offsets : List Int} {d : Content} {n : Nat}
    {m : Nat → Nat} {out : Nat} {starts parents : List Int} {outlength : Nat} (keepdims : Bool)
    (h : (listOffset p offsets d).Good) (hp : ¬ (p.arr = .string ∨ p.arr = .bytestring)) (hz : offsets[0]? = some 0)
    (hoff : ∀ x ∈ offsets, 0 ≤ x ∧ x ≤ (d.len : Int)) (hn : Strings n d) (hf : d.rank ≤ fuel)
    (h0 : 0 < (listOffset p offsets d).len) (hl : (listOffset p offsets d).len = sumTo m out) :
    ∃ q x, sortNext a (fuel + 1) 1 starts parents outlength keepdims (listOffset p offsets d)
        = ok (if keepdims then regular {} (listOffset q offsets x) (offsets.length - 1) (offsets.length - 1)
          else listOffset q offsets x) ∧
      (listOffset q offsets x).Good ∧
      (∀ y ∈ offsets, 0 ≤ y ∧ y ≤ (x.len : Int)) ∧
      ∀ g, g < out → Spec.AtDepth (TextRel a) n ((listOffset p offsets d).seg (sumTo m g) (m g))
        ((listOffset q offsets x).seg (sumTo m g) (m g)) := by
  have hbd := strings_branchDepth (.listOffset hp hz hoff hn)
  obtain ⟨hl1, hd, hpair⟩ := good_listOffset.mp h
  generalize hc : listOffset p offsets d = c at *
  have hlen : c.len = offsets.length - 1 := by rw [← hc]; rfl
  have hn1 := strings_pos hn
  have hlens : ∀ i (hi : i + 1 < offsets.length), c.lens i = (offsets[i + 1] - offsets[i]).toNat := by
    intro i hi
    rw [← hc]
    simp only [lens, valD_listOffset (hc ▸ h) hi, items_wrapList, seg_length]
  have hval : ∀ i (hi : i + 1 < offsets.length), c.valD i = .list (d.seg offsets[i].toNat (c.lens i)) := by
    intro i hi
    rw [hlens i hi, ← hc, valD_listOffset (hc ▸ h) hi, wrapList_plain hp]
  have hzero : offsets[0] = 0 := by
    have := hz
    rw [List.getElem?_eq_getElem (by omega)] at this
    injection this
  have hsum : ∀ i (hi : i < offsets.length), offsets[i] = (sumTo c.lens i : Nat) := by
    intro i
    induction i with
    | zero => intro _; simpa using hzero
    | succ i ihi =>
      intro hi
      have h1 := ihi (by omega)
      have h2 := hlens i hi
      have h3 := (hpair i hi).le
      rw [sumTo_succ]; push_cast; omega
  have hrd : ∀ i, i ≤ c.len → rd offsets (i : Int) = ok ((sumTo c.lens i : Nat) : Int) := by
    intro i hi
    rw [rd_nat_ok (by omega), hsum i (by omega)]
  have hN := hoff _ (List.getElem_mem (show c.len < offsets.length by omega))
  rw [hsum c.len (by omega)] at hN
  obtain ⟨t, t1, t2, t3, t4, t5⟩ := range_good hd (a := 0) (b := sumTo c.lens c.len) (by omega) (by omega)
  have htl : t.len = sumTo c.lens c.len := by rw [t4.1]; omega
  have htv : ∀ i, i < t.len → t.valD i = d.valD i := fun i hi => by
    rw [t4.valD (by omega), Nat.zero_add]
  have htn : Strings n t := range_closedG strings_closed hd (fun _ => rfl) (by omega) (by omega) t1 (.inl n) hn
  have htseg : ∀ i, i < c.len → t.seg (sumTo c.lens i) (c.lens i) = (c.valD i).items := by
    intro i hi
    rw [hval i (by omega), hsum i (by omega)]
    simp only [Val.items, Int.toNat_natCast]
    exact seg_congr (htl ▸ group_bound hi) htv
  obtain ⟨o, o1, o2, o3, o4, _⟩ := ih t n c.lens c.len (makeStarts offsets) (offsets.length - 1) t2 htn
    (by omega) htl
  have hq : ¬ ((if a.arg then ({} : Params) else p).arr = .string ∨ (if a.arg then ({} : Params) else p).arr = .bytestring) := by
    cases a.arg
    · exact hp
    · simp only [if_true]; rintro (h | h) <;> exact absurd h (by decide)
  have hoff' : ∀ y ∈ offsets, 0 ≤ y ∧ y ≤ (o.len : Int) := by
    intro y hy
    obtain ⟨i, hi, rfl⟩ := List.mem_iff_getElem.mp hy
    rw [hsum i hi, o3, htl]
    have := sumTo_mono (f := c.lens) (show i ≤ c.len by omega)
    omega
  have hgood : (listOffset (if a.arg then {} else p) offsets o).Good := by
    refine good_listOffset.mpr ⟨hl1, o2, ?_⟩
    intro i hi
    have h1 := hoff' _ (List.getElem_mem (show i < offsets.length by omega))
    have h2 := hoff' _ (List.getElem_mem hi)
    have h3 := (hpair i hi).le
    exact .inr ⟨h1.1, h3, h2.2⟩
  refine ⟨if a.arg then {} else p, o, ?_, hgood, hoff', ?_⟩
  · rw [← hc]
    simp only [sortNext]
    rw [hc, if_neg (by omega), if_neg hp, hbd, if_neg (by simp; omega)]
    unfold sortLocal
    have e0 := hrd 0 (by omega)
    simp only [sumTo_zero, Nat.cast_zero] at e0
    dsimp only
    rw [e0, bind_ok, ← hlen, hrd c.len (Nat.le_refl _), bind_ok, Int.sub_zero]
    rw [local_nextparents_ok (o := 0) (by intro i hi; rw [hrd i hi]; simp), bind_ok,
      show (0 : Int) = ((0 : Nat) : Int) by rfl, t1, bind_ok, ← htl]
    rw [← hlen] at o1
    rw [o1, bind_ok, hlen]
    rfl
  · intro g hg
    rw [show n = (n - 1) + 1 by omega]
    have hbnd := group_bound (m := m) hg
    refine List.forall₂_iff_get.mpr ⟨by simp, ?_⟩
    intro i h1 h2
    have h3 : i < m g := by simpa using h1
    refine .inr ⟨(c.valD (sumTo m g + i)).items, o.seg (sumTo c.lens (sumTo m g + i)) (c.lens (sumTo m g + i)), ?_, ?_, ?_⟩
    · rw [List.get_eq_getElem, seg_getElem, hval (sumTo m g + i) (by omega)]; rfl
    · rw [List.get_eq_getElem, seg_getElem, valD_listOffset hgood (i := sumTo m g + i) (by omega), wrapList_plain hq,
        hlens (sumTo m g + i) (by omega),
        hsum (sumTo m g + i) (by omega), Int.toNat_natCast]
    · rw [← htseg (sumTo m g + i) (by omega)]
      exact o4 _ (by omega)

theorem text_nothing {c : Content} {m : Nat → Nat} {out : Nat} {d : Nat} (h : c.Good) (h0 : c.len = 0)
    (hl : c.len = sumTo m out) (x : Content) (hx : x = c ∨ x = numpy {} .int64 []) :
    x.Good ∧ x.len = c.len ∧
      ∀ p, p < out → Spec.AtDepth (TextRel a) d (c.seg (sumTo m p) (m p)) (x.seg (sumTo m p) (m p)) := by
  refine ⟨?_, ?_, ?_⟩
  · rcases hx with rfl | rfl
    · exact h
    · exact good_numpy _ _ _
  · rcases hx with rfl | rfl
    · rfl
    · rw [h0]; rfl
  · intro p hp
    rw [group_empty (m := m) (by rw [← hl, h0]) hp]
    exact textDepth_nil d

theorem str_ok (hasc : a.ascending = true) (hstd : a.stable = true ∨ Lawful a.std) (fuel : Nat) : StrOk a fuel := by
  induction fuel with
  | zero =>
    intro c n m out starts outlength h hn hf hl
    exfalso
    have : 1 ≤ c.rank - c.sortSlack := by
      cases hn <;> simp [rank, sortSlack]
    omega
  | succ fuel ih =>
    intro c n m out starts outlength h hn hf hl
    have conv : (∀ p offs d, c ≠ listOffset p offs d) → ∃ e, c.toListOffset = ok e ∧
          ∃ o, sortNext a fuel 1 starts (nats (blk m out) c.len) outlength false e = ok o ∧ o.Good ∧ o.len = c.len ∧
          (∀ p, p < out → Spec.AtDepth (TextRel a) (n - 1) (c.seg (sumTo m p) (m p)) (o.seg (sumTo m p) (m p))) ∧
          ∀ q x s z, o ≠ regular q x s z := by
      intro hne
      have hslack : c.sortSlack = 0 := by
        cases hn <;> first | rfl | exact absurd rfl (hne _ _ _)
      obtain ⟨p, offs, x, e1, e2, e3, _, e5, e6, e7⟩ := strings_parts hn h
      refine ⟨_, e1, ?_⟩
      have hseg : ∀ g, g < out → (listOffset p offs x).seg (sumTo m g) (m g) = c.seg (sumTo m g) (m g) := fun g hg =>
        seg_congr (hl ▸ group_bound hg) e5
      obtain ⟨o', o1, o2, o3, o4, o5⟩ := ih (listOffset p offs x) n m out starts outlength e2 e6
        (by simp only [sortSlack]; omega) (by omega)
      rw [e3] at o1 o3
      exact ⟨o', o1, o2, o3, fun g hg => by rw [← hseg g hg]; exact o4 g hg, o5 ⟨_, _, _, rfl⟩⟩
    have hlistArray : (∃ p s e d, c = listArray p s e d) → ∃ o, sortNext a (fuel + 1) 1 starts (nats (blk m out) c.len) outlength false c = ok o ∧ o.Good ∧ o.len = c.len ∧
      (∀ p, p < out → Spec.AtDepth (TextRel a) (n - 1) (c.seg (sumTo m p) (m p)) (o.seg (sumTo m p) (m p))) ∧
      ((∃ p offs d, c = listOffset p offs d) → ∀ q x s z, o ≠ regular q x s z) := by
      rintro ⟨p, s, e, d, rfl⟩
      obtain ⟨e, e1, o, o1, o2, o3, o4, o5⟩ := conv (by simp)
      refine ⟨o, ?_, o2, o3, o4, fun _ => o5⟩
      simp only [sortNext]
      rw [e1, bind_ok, o1]
    have hregular : (∃ p d s z, c = regular p d s z) → ∃ o, sortNext a (fuel + 1) 1 starts (nats (blk m out) c.len) outlength false c = ok o ∧ o.Good ∧ o.len = c.len ∧
      (∀ p, p < out → Spec.AtDepth (TextRel a) (n - 1) (c.seg (sumTo m p) (m p)) (o.seg (sumTo m p) (m p))) ∧
      ((∃ p offs d, c = listOffset p offs d) → ∀ q x s z, o ≠ regular q x s z) := by
      rintro ⟨p, d, s, z, rfl⟩
      by_cases h0 : (regular p d s z).len = 0
      · obtain ⟨k1, k2, k3⟩ := text_nothing (a := a) (d := n - 1) h h0 hl _ (nothing_eq (a := a))
        exact ⟨_, by simp only [sortNext]; rw [if_pos h0], k1, k2, k3, fun ⟨_, _, _, h⟩ => by cases h⟩
      · obtain ⟨e, e1, o, o1, o2, o3, o4, o5⟩ := conv (by simp)
        refine ⟨o, ?_, o2, o3, o4, fun _ => o5⟩
        simp only [sortNext]
        rw [if_neg h0, e1, bind_ok, o1, bind_ok]
        cases o <;> first | rfl | exact absurd rfl (o5 _ _ _ _)
    have hzero : ∀ {p offs d}, c = listOffset p offs d → c.len = 0 → ∃ o, sortNext a (fuel + 1) 1 starts (nats (blk m out) c.len) outlength false c = ok o ∧ o.Good ∧ o.len = c.len ∧
      (∀ p, p < out → Spec.AtDepth (TextRel a) (n - 1) (c.seg (sumTo m p) (m p)) (o.seg (sumTo m p) (m p))) ∧
      ((∃ p offs d, c = listOffset p offs d) → ∀ q x s z, o ≠ regular q x s z) := by
      rintro p offs d rfl h0
      obtain ⟨k1, k2, k3⟩ := text_nothing (a := a) (d := n - 1) h h0 hl _ (.inl rfl)
      exact ⟨_, by simp only [sortNext]; rw [if_pos h0], k1, k2, k3, fun _ => by simp⟩
    cases hn with
    | regularText | regular => exact hregular ⟨_, _, _, _, rfl⟩
    | listArrayText | listArray => exact hlistArray ⟨_, _, _, _, rfl⟩
    | listOffsetText h1 =>
      rename_i p offsets d
      by_cases h0 : (listOffset p offsets d).len = 0
      · exact hzero rfl h0
      · obtain ⟨o, o1, o2, o3, o4, o5, _⟩ := sort_text (a := a) (fuel := fuel) (starts := starts) (outlength := outlength)
          false hasc hstd h h1 (by omega) hl
        exact ⟨o, o1, o2, o3, o4, fun _ => o5⟩
    | listOffset h1 h2 h3 h4 =>
      rename_i n p offsets d
      by_cases h0 : (listOffset p offsets d).len = 0
      · exact hzero rfl h0
      · simp only [rank, sortSlack] at hf
        obtain ⟨q, x, e1, e2, _, e3⟩ := str_listOffset ih (starts := starts)
          (parents := nats (blk m out) (listOffset p offsets d).len) (outlength := outlength) false h h1 h2 h3 h4
          (by omega) (by omega) hl
        exact ⟨_, e1, e2, rfl, e3, fun _ => by simp⟩

/-! ### The top level -/

/-- The result in a RegularArray of one element. -/
def TextBoxed (a : SortArgs) (d : Nat) (c o : Content) : Prop :=
  (c.len = 0 → o.len = 0 ∧ ∃ x, o.nothingOf = ok x ∧ x.toList = ok []) ∧
  (0 < c.len → ∃ x zeros, o = regular {} x c.len zeros ∧ x.Good ∧ x.len = c.len ∧
    Spec.AtDepth (TextRel a) d (c.seg 0 c.len) (x.seg 0 c.len))

theorem text_boxed_listOffset (hasc : a.ascending = true) (hstd : a.stable = true ∨ Lawful a.std) {fuel : Nat}
    {p : Params} {offsets : List Int} {d : Content} {n : Nat}
    (h : (listOffset p offsets d).Good) (hn : Strings n (listOffset p offsets d)) (hf : d.rank ≤ fuel) :
    ∃ o, sortNext a (fuel + 1) 1 [0] (nats (fun _ => 0) (listOffset p offsets d).len) 1 true (listOffset p offsets d) = ok o ∧
      TextBoxed a (n - 1) (listOffset p offsets d) o ∧
      ∀ q offs e s z, o = regular {} (listOffset q offs e) s z →
        (n = 1 → e = d ∧ ∀ x ∈ offs, x ∈ offsets) ∧ (2 ≤ n → offs = offsets ∧ ∀ y ∈ offs, 0 ≤ y ∧ y ≤ (e.len : Int)) := by
  by_cases h0 : (listOffset p offsets d).len = 0
  · refine ⟨_, by simp only [sortNext]; rw [if_pos h0], ⟨fun _ => ⟨h0, ?_⟩, fun h => by omega⟩, by simp⟩
    exact range_none (h.child (by simp [children]))
  · cases hn with
    | listOffsetText h1 =>
      obtain ⟨o, o1, o2, o3, o4, o5, o6⟩ := sort_text (a := a) (fuel := fuel) (starts := [0]) (outlength := 1)
        (m := fun _ => (listOffset p offsets d).len) (out := 1) true hasc hstd h h1 (by omega) (by rw [sumTo_one])
      rw [blk_one, if_pos rfl] at o1
      refine ⟨_, o1, ⟨fun h => absurd h h0, fun _ => ⟨o, 0, by rw [o3], o2, o3, o4 0 (by omega)⟩⟩, ?_⟩
      intro q offs e s z he
      refine ⟨fun _ => ?_, fun h => by omega⟩
      injection he with _ he
      exact o6 _ _ _ he
    | listOffset h1 h2 h3 h4 =>
      obtain ⟨q, x, e1, e2, e3, e5⟩ := str_listOffset (str_ok hasc hstd fuel) (a := a)
        (m := fun _ => (listOffset p offsets d).len) (out := 1) (starts := [0])
        (parents := nats (fun _ => 0) (listOffset p offsets d).len) (outlength := 1) true h h1 h2 h3 h4 hf
        (by omega) (by rw [sumTo_one])
      rw [if_pos rfl] at e1
      refine ⟨_, e1, ⟨fun h => absurd h h0, fun _ => ⟨_, _, rfl, e2, rfl, ?_⟩⟩, ?_⟩
      · exact e5 0 (by omega)
      · intro q' offs e s z he
        have := strings_pos h4
        refine ⟨fun _ => by omega, fun _ => ?_⟩
        injection he with _ he
        cases he
        exact ⟨rfl, e3⟩

/-- The result of a RegularArray becomes regular again. -/
theorem regular_again {y : Content} {n z : Nat} (hg : y.Good) (hl : y.len = n) (hn : 0 < n)
    (hr : ∀ p offs d, y = listOffset p offs d → ∀ x ∈ offs, 0 ≤ x ∧ x ≤ (d.len : Int))
    (heq : (∃ p offs d, y = listOffset p offs d) → ∀ i, i < n → y.lens i = y.lens 0) :
    ∃ y' z', sortRegular (regular {} y n z) = ok (regular {} y' n z') ∧ y'.Good ∧ y'.len = n ∧
      ∀ i, i < n → y'.valD i = y.valD i := by
  by_cases hy : ∃ p offs d, y = listOffset p offs d
  · have heq := heq hy
    obtain ⟨p, offs, d, rfl⟩ := hy
    obtain ⟨k1, _⟩ := toRegular_ok hg rfl (hr _ _ _ rfl)
    obtain ⟨r, r1, r2, r3, r4, _⟩ := k1 (fun i hi => heq i (by omega))
    refine ⟨r, (regular {} (listOffset p offs d) n z).len, ?_, r2, by omega, fun i hi => r4 i (by omega)⟩
    simp only [sortRegular]
    rw [r1, bind_ok]
  · refine ⟨y, z, ?_, hg, hl, fun _ _ => rfl⟩
    cases y <;> first | rfl | exact absurd ⟨_, _, _, rfl⟩ hy

theorem sortNext_regular {f negaxis outlength : Nat} {starts parents : List Int} {keepdims : Bool} {p : Params}
    {d : Content} {s z : Nat} : sortNext a (f + 1) negaxis starts parents outlength keepdims (regular p d s z)
      = if (regular p d s z).len = 0 then ok (if a.arg then numpy {} .int64 [] else regular p d s z) else
        (regular p d s z).toListOffset >>= fun next =>
        sortNext a f negaxis starts parents outlength keepdims next >>= sortRegular := rfl

theorem text_boxed (hasc : a.ascending = true) (hstd : a.stable = true ∨ Lawful a.std) {fuel : Nat}
    {c : Content} {n : Nat} (h : c.Good) (hn : Strings n c) (hf : c.rank ≤ fuel) :
    ∃ o, sortNext a fuel 1 [0] (nats (fun _ => 0) c.len) 1 true c = ok o ∧ TextBoxed a (n - 1) c o := by
  have hpos := strings_pos hn
  obtain ⟨f, rfl⟩ : ∃ f, fuel = f + 1 := ⟨fuel - 1, by cases hn <;> simp only [rank] at hf <;> omega⟩
  by_cases hlo : ∃ p offs d, c = listOffset p offs d
  · obtain ⟨p, offs, d, rfl⟩ := hlo
    simp only [rank] at hf
    obtain ⟨o, o1, o2, _⟩ := text_boxed_listOffset (a := a) hasc hstd (fuel := f) h hn (by omega)
    exact ⟨o, o1, o2⟩
  · obtain ⟨p, offs, x, e1, e2, e3, e4, e5, e6, e7⟩ := strings_parts hn h
    simp only [rank] at e7
    obtain ⟨f', rfl⟩ : ∃ f', f = f' + 1 := ⟨f - 1, by omega⟩
    have hseg : (listOffset p offs x).seg 0 c.len = c.seg 0 c.len := seg_congr (N := c.len) (by omega) e5
    obtain ⟨o, o1, o2, o3⟩ := text_boxed_listOffset (a := a) hasc hstd (fuel := f') e2 e6 (by omega)
    rw [e3] at o1
    unfold TextBoxed at o2
    rw [e3, hseg] at o2
    have hlistArray : (∃ p s e d, c = listArray p s e d) →
        ∃ o, sortNext a (f' + 1 + 1) 1 [0] (nats (fun _ => 0) c.len) 1 true c = ok o ∧ TextBoxed a (n - 1) c o := by
      rintro ⟨p, s, e, d, rfl⟩
      refine ⟨o, ?_, o2⟩
      rw [show sortNext a (f' + 1 + 1) 1 [0] (nats (fun _ => 0) (listArray p s e d).len) 1 true (listArray p s e d)
        = (listArray p s e d).toListOffset >>= fun next => sortNext a (f' + 1) 1 [0] (nats (fun _ => 0) (listArray p s e d).len) 1 true next from rfl]
      rw [e1, bind_ok, o1]
    have hregular : (∃ p d s z, c = regular p d s z) →
        ∃ o, sortNext a (f' + 1 + 1) 1 [0] (nats (fun _ => 0) c.len) 1 true c = ok o ∧ TextBoxed a (n - 1) c o := by
      rintro ⟨p', d, s, z, rfl⟩
      by_cases h0 : (regular p' d s z).len = 0
      · refine ⟨_, by rw [sortNext_regular, if_pos h0], fun _ => ?_, fun h => by omega⟩
        cases a.arg with
        | true => exact ⟨rfl, _, rfl, rfl⟩
        | false => exact ⟨h0, range_none (h.child (by simp [children]))⟩
      · have hpos : 0 < (regular p' d s z).len := by omega
        obtain ⟨y, z', rfl, g2, g3, g4⟩ := o2.2 hpos
        clear o2
        have hd := good_regular.mp h
        -- the lists have the size of the RegularArray
        have hclen : ∀ i, i < (regular p' d s z).len → (regular p' d s z).lens i = s := by
          intro i hi
          unfold lens
          rw [valD_regular hd hi, items_wrapList, seg_length]
        have helen : ∀ i, i < (regular p' d s z).len → (listOffset p offs x).lens i = s := by
          intro i hi
          rw [← hclen i hi]
          unfold lens
          rw [e5 i hi]
        have hylen : (∃ q ofs w, y = listOffset q ofs w) → ∀ i, i < (regular p' d s z).len → y.lens i = s := by
          rintro ⟨q, ofs, w, rfl⟩ i hi
          obtain ⟨b1, b2⟩ := o3 q ofs w _ _ rfl
          by_cases hn1 : n = 1
          · subst hn1
            have hrel : TextRel a ((regular p' d s z).seg 0 (regular p' d s z).len) ((listOffset q ofs w).seg 0 (regular p' d s z).len) := g4
            unfold TextRel at hrel
            have hmem : (listOffset q ofs w).valD i ∈ (listOffset q ofs w).seg 0 (regular p' d s z).len :=
              mem_seg.mpr ⟨i, hi, by rw [Nat.zero_add]⟩
            cases ha : a.arg with
            | true =>
              exfalso
              rw [ha, if_pos rfl] at hrel
              obtain ⟨is, _, his, _⟩ := hrel
              rw [his] at hmem
              obtain ⟨j, _, hj⟩ := List.mem_map.mp hmem
              have hw := valD_listOffset g2 (i := i) (by simp only [len] at g3 hi ⊢; omega)
              rw [← hj] at hw
              unfold wrapList at hw
              split at hw <;> cases hw
            | false =>
              rw [ha, if_neg (by simp)] at hrel
              obtain ⟨j, hj, hj'⟩ := mem_seg.mp (hrel.1.mem_iff.mp hmem)
              unfold lens
              rw [hj', Nat.zero_add]
              exact hclen j hj
          · obtain ⟨rfl, _⟩ := b2 (by omega)
            rw [← helen i hi]
            have hi' : i + 1 < ofs.length := by simp only [len] at e3 hi; omega
            unfold lens
            rw [valD_listOffset g2 hi', valD_listOffset e2 hi', items_wrapList, items_wrapList, seg_length, seg_length]
        obtain ⟨y', z'', k1, k2, k3, k4⟩ := regular_again (y := y) (z := z') g2 g3 (by omega) (by
          rintro q ofs w rfl
          obtain ⟨b1, b2⟩ := o3 q ofs w _ _ rfl
          by_cases hn1 : n = 1
          · obtain ⟨rfl, b3⟩ := b1 hn1
            exact fun v hv => e4 v (b3 v hv)
          · exact (b2 (by omega)).2) (fun hy i hi => by rw [hylen hy i hi, hylen hy 0 (by omega)])
        refine ⟨_, ?_, fun h => absurd h h0, fun _ => ⟨y', z'', rfl, k2, k3, ?_⟩⟩
        · rw [sortNext_regular, if_neg h0, e1, bind_ok, o1, bind_ok, k1]
        · rw [seg_congr (c' := y) (N := (regular p' d s z).len) (by omega) k4]
          exact g4
    cases hn with
    | regularText | regular => exact hregular ⟨_, _, _, _, rfl⟩
    | listArrayText | listArray => exact hlistArray ⟨_, _, _, _, rfl⟩
    | listOffsetText | listOffset => exact absurd ⟨_, _, _, rfl⟩ hlo

theorem sortTop_text (hasc : a.ascending = true) (hstd : a.stable = true ∨ Lawful a.std) {c : Content} {n : Nat}
    (h : c.Good) (hn : Strings n c) {axis : Int} (ha : axis = -1 ∨ axis = (n : Int) - 1) :
    ∃ x ys, c.sortTop a axis = ok (.array x) ∧ x.toList = ok ys ∧
      Spec.AtDepth (TextRel a) (n - 1) (c.seg 0 c.len) ys := by
  have hp := strings_pos hn
  have hneg : negativeAxis axis c.branchDepth = ok 1 := by
    rw [strings_branchDepth hn]
    unfold negativeAxis
    simp only [Bool.false_eq_true, if_false]
    rcases ha with rfl | rfl
    · rw [if_neg (show ¬ (- -(1 : Int) ≤ 0) by omega), if_pos (by omega)]; rfl
    · rw [if_pos (show -((n : Int) - 1) ≤ 0 by omega), if_pos (by omega)]
      congr 1; omega
  obtain ⟨o, o1, o2⟩ := text_boxed (a := a) hasc hstd (fuel := c.rank + 1) h hn (by omega)
  unfold sortTop
  rw [hneg, bind_ok, zeroparents_ok (alloc_length _), bind_ok, o1, bind_ok]
  by_cases h0 : c.len = 0
  · obtain ⟨h1, x, h2, h3⟩ := o2.1 h0
    refine ⟨x, [], ?_, h3, ?_⟩
    · rw [if_pos h1, h2, bind_ok]
    · rw [h0]; exact textDepth_nil _
  · obtain ⟨x, zeros, rfl, h2, h3, h4⟩ := o2.2 (by omega)
    obtain ⟨k1, y, k2, k3⟩ := regular_one (p := {}) (zeros := zeros) h2 (show 0 < c.len by omega) h3
    refine ⟨y, _, ?_, k3, h4⟩
    rw [if_neg (by omega), k2]

end Content
end Awk
