import Verif.Lemmas.RunLengths
import Verif.Lemmas.OptionNext
/-
`run_lengths` of arrays.
-/

namespace Awk
open R Spec
namespace Content

/-- Numbers, or an index of numbers. -/
inductive Numbers : Content → Prop
  | numpy {p : Params} {dt : DType} {data : List Atom} : Numbers (numpy p dt data)
  | empty {p : Params} : Numbers (empty p)
  | indexed {p p' : Params} {index : List Int} {dt : DType} {data : List Atom} :
      Numbers (indexed p index (.numpy p' dt data))

theorem Leaf.cases' {c : Content} (h : Leaf c) : Numbers c ∨ c.isString = true := by
  cases h with
  | numpy => exact .inl .numpy
  | empty => exact .inl .empty
  | indexed => exact .inl .indexed
  | string h1 h2 => exact .inr (by rcases h2 with h2 | h2 <;> simp [isString, h2])

theorem Numbers.range {c d : Content} {a b : Int} (h : Numbers c) (hr : c.range a b = ok d) :
    Numbers d := by
  cases h with
  | numpy =>
    simp only [Content.range, numpyRange, bind_eq_ok, ok.injEq] at hr
    obtain ⟨_, _, rfl⟩ := hr
    exact .numpy
  | empty =>
    simp only [Content.range, ok.injEq] at hr
    subst hr
    exact .empty
  | indexed =>
    simp only [Content.range, bind_eq_ok, ok.injEq] at hr
    obtain ⟨_, _, rfl⟩ := hr
    exact .indexed

theorem Numbers.carry {c d : Content} {lazy : Bool} {idx : List Int} (h : Numbers c)
    (hr : c.carry lazy idx = ok d) : Numbers d := by
  cases h with
  | numpy =>
    simp only [Content.carry] at hr
    split at hr
    · split at hr
      · cases hr; exact .numpy
      · exact Numbers.range .numpy hr
    · simp only [bind_eq_ok, ok.injEq] at hr
      obtain ⟨_, _, rfl⟩ := hr
      exact .numpy
  | empty =>
    simp only [Content.carry] at hr
    split at hr
    · cases hr; exact .empty
    · cases hr
  | indexed =>
    simp only [Content.carry] at hr
    split at hr
    · split at hr
      · cases hr; exact .indexed
      · exact Numbers.range .indexed hr
    · simp only [bind_eq_ok, ok.injEq] at hr
      obtain ⟨_, _, rfl⟩ := hr
      exact .indexed

theorem Numbers.gathered {c d : Content} (h : Numbers c) (hg : Gathered d c) : Numbers d := by
  rcases hg with rfl | ⟨lazy, idx, _, hr⟩
  · exact h
  · exact h.carry hr

/-- A list node whose content is numbers or has the given strings parameter. -/
def OverNumbers (c : Content) : Prop :=
  c.isListNode = true ∧ c.params.arr ≠ .string ∧ c.params.arr ≠ .bytestring ∧
    ∀ d ∈ c.children, Numbers d ∨ (d.isListNode = true ∧ d.isString = true)

theorem list_range_node {c d : Content} {a b : Int} (hl : c.isListNode = true) (hr : c.range a b = ok d) :
    d.isListNode = true ∧ d.params = c.params ∧
      ∀ e ∈ d.children, ∃ l ∈ c.children, e = l ∨ ∃ a b, l.range a b = ok e := by
  cases c <;> simp only [isListNode, Bool.false_eq_true] at hl <;>
    simp only [Content.range, bind_eq_ok, ok.injEq] at hr
  · rename_i p c size zeros
    obtain ⟨c', h1, rfl⟩ := hr
    refine ⟨rfl, rfl, fun e he => ?_⟩
    cases List.mem_singleton.mp he
    exact ⟨c, List.mem_singleton_self c, .inr ⟨_, _, h1⟩⟩
  · rename_i p starts stops c
    obtain ⟨_, _, _, _, rfl⟩ := hr
    refine ⟨rfl, rfl, fun e he => ?_⟩
    cases List.mem_singleton.mp he
    exact ⟨c, List.mem_singleton_self c, .inl rfl⟩
  · rename_i p offsets c
    obtain ⟨_, _, rfl⟩ := hr
    refine ⟨rfl, rfl, fun e he => ?_⟩
    cases List.mem_singleton.mp he
    exact ⟨c, List.mem_singleton_self c, .inl rfl⟩

theorem list_carry {c d : Content} {lazy : Bool} {idx : List Int} (hl : c.isListNode = true)
    (hr : c.carry lazy idx = ok d) :
    d.isListNode = true ∧ d.params = c.params ∧
      ∀ e ∈ d.children, ∃ l ∈ c.children, e = l ∨ (∃ a b, l.range a b = ok e) ∨
        ∃ idx, l.carry lazy idx = ok e := by
  have rng : ∀ {c : Content} {a b : Int}, c.isListNode = true → c.range a b = ok d →
      d.isListNode = true ∧ d.params = c.params ∧
      ∀ e ∈ d.children, ∃ l ∈ c.children, e = l ∨ (∃ a b, l.range a b = ok e) ∨
        ∃ idx, l.carry lazy idx = ok e := by
    intro c a b hl hr
    obtain ⟨h1, h2, h3⟩ := list_range_node hl hr
    refine ⟨h1, h2, fun e he => ?_⟩
    obtain ⟨l, hm, h⟩ := h3 e he
    exact ⟨l, hm, h.imp_right .inl⟩
  have same : ∀ {c : Content}, c.isListNode = true → c = d →
      d.isListNode = true ∧ d.params = c.params ∧
      ∀ e ∈ d.children, ∃ l ∈ c.children, e = l ∨ (∃ a b, l.range a b = ok e) ∨
        ∃ idx, l.carry lazy idx = ok e := by
    rintro c hl rfl
    exact ⟨hl, rfl, fun e he => ⟨e, he, .inl rfl⟩⟩
  cases c <;> simp only [isListNode, Bool.false_eq_true] at hl <;>
    simp only [Content.carry] at hr
  · rename_i p c size zeros
    split at hr
    · split at hr
      · exact same rfl (ok.inj hr)
      · exact rng rfl hr
    · simp only [bind_eq_ok, ok.injEq] at hr
      obtain ⟨_, _, c', h1, rfl⟩ := hr
      refine ⟨rfl, rfl, fun e he => ?_⟩
      cases List.mem_singleton.mp he
      exact ⟨c, List.mem_singleton_self c, .inr (.inr ⟨_, h1⟩)⟩
  · rename_i p starts stops c
    split at hr
    · split at hr
      · exact same rfl (ok.inj hr)
      · exact rng rfl hr
    split at hr
    · cases hr
    · simp only [bind_eq_ok, ok.injEq] at hr
      obtain ⟨_, _, rfl⟩ := hr
      refine ⟨rfl, rfl, fun e he => ?_⟩
      cases List.mem_singleton.mp he
      exact ⟨c, List.mem_singleton_self c, .inl rfl⟩
  · rename_i p offsets c
    split at hr
    · split at hr
      · exact same rfl (ok.inj hr)
      · exact rng rfl hr
    · simp only [bind_eq_ok, ok.injEq] at hr
      obtain ⟨_, _, rfl⟩ := hr
      refine ⟨rfl, rfl, fun e he => ?_⟩
      cases List.mem_singleton.mp he
      exact ⟨c, List.mem_singleton_self c, .inl rfl⟩

theorem isString_params {c d : Content} (h : d.params = c.params) (hs : c.isString = true) :
    d.isString = true := by
  unfold isString at *; rw [h]; exact hs

theorem OverNumbers.gathered {c d : Content} (h : OverNumbers c) (hg : Gathered d c) : OverNumbers d := by
  obtain ⟨h1, h2, h3, h4⟩ := h
  rcases hg with rfl | ⟨lazy, idx, _, hr⟩
  · exact ⟨h1, h2, h3, h4⟩
  · obtain ⟨g1, g2, g3⟩ := list_carry h1 hr
    refine ⟨g1, by rw [g2]; exact h2, by rw [g2]; exact h3, fun e he => ?_⟩
    obtain ⟨l, hm, hl⟩ := g3 e he
    rcases h4 l hm with hn | ⟨hn1, hn2⟩
    · refine .inl ?_
      rcases hl with rfl | ⟨a, b, hl⟩ | ⟨idx, hl⟩
      · exact hn
      · exact hn.range hl
      · exact hn.carry hl
    · refine .inr ?_
      rcases hl with rfl | ⟨a, b, hl⟩ | ⟨idx, hl⟩
      · exact ⟨hn1, hn2⟩
      · obtain ⟨e1, e2, _⟩ := list_range_node hn1 hl
        exact ⟨e1, isString_params e2 hn2⟩
      · obtain ⟨e1, e2, _⟩ := list_carry hn1 hl
        exact ⟨e1, isString_params e2 hn2⟩

theorem over_of_leaf {c : Content} (h1 : c.isListNode = true) (h2 : c.params.arr ≠ .string)
    (h3 : c.params.arr ≠ .bytestring) (h4 : ∀ d ∈ c.children, Leaf d) : OverNumbers c := by
  refine ⟨h1, h2, h3, fun d hd => ?_⟩
  cases h4 d hd with
  | numpy => exact .inl .numpy
  | empty => exact .inl .empty
  | indexed => exact .inl .indexed
  | string g1 g2 => exact .inr ⟨g1, by rcases g2 with g2 | g2 <;> simp [isString, g2]⟩

/-! ### The lists from the first to the last -/

theorem between_nat {c : Content} {a b : Nat} (hab : a ≤ b) (hb : b ≤ c.len) :
    c.between a b = c.range a b := by
  unfold between regularize_rangeslice
  simp only [Bool.not_true, Bool.false_eq_true, if_false, if_true]
  rw [if_neg (show ¬ ((a : Int) < 0) by omega), if_neg (show ¬ ((a : Int) < 0) by omega),
    if_neg (show ¬ ((a : Int) > c.len) by omega), if_neg (show ¬ ((b : Int) < 0) by omega),
    if_neg (show ¬ ((b : Int) < 0) by omega), if_neg (show ¬ ((b : Int) > c.len) by omega),
    if_neg (show ¬ ((b : Int) < a) by omega)]

theorem between_same (c : Content) (x : Int) :
    ∃ s : Nat, s ≤ c.len ∧ c.between x x = c.range s s := by
  unfold between regularize_rangeslice
  simp only [Bool.not_true, Bool.false_eq_true, if_false, if_true]
  generalize hy : (if x < 0 then x + (c.len : Int) else x) = y
  generalize hz : (if y < 0 then 0 else y) = z
  generalize hw : (if z > (c.len : Int) then (c.len : Int) else z) = w
  have h1 : 0 ≤ w ∧ w ≤ c.len := by
    split at hz <;> split at hw <;> omega
  rw [if_neg (show ¬ (w < w) by omega)]
  exact ⟨w.toNat, by omega, by rw [show ((w.toNat : Nat) : Int) = w by omega]⟩

theorem npGet_first {xs : List Int} (h : 0 < xs.length) : npGet xs 0 = ok xs[0] := by
  unfold npGet
  rw [if_neg (by omega), show (0 : Int).toNat = 0 by rfl, List.getElem?_eq_getElem h]
  dsimp only
  rw [if_neg (by omega)]

theorem npGet_last {xs : List Int} (h : 0 < xs.length) : npGet xs (-1) = ok xs[xs.length - 1] := by
  unfold npGet
  rw [if_pos (by omega), show ((-1 : Int) + xs.length).toNat = xs.length - 1 by omega,
    List.getElem?_eq_getElem (by omega)]
  dsimp only
  rw [if_neg (by omega)]

/-- The lists, with their items from the first list to the last. -/
structure FromFirst (c : Content) (offs : List Int) (d : Content) (first last : Int) (e : Content) :
    Prop where
  parts : c.listPartsFrom = ok (offs, d)
  first_eq : npGet offs 0 = ok first
  last_eq : npGet offs (-1) = ok last
  items : d.between first last = ok e
  offs_eq : offs.map (· - first) = offsTo c.lens c.len
  good : e.Good
  len_eq : e.len = sumTo c.lens c.len
  vals : ∀ i, i < c.len → c.valD i = wrapList c.params (e.seg (sumTo c.lens i) (c.lens i))
  numbers : ∀ l ∈ c.children, Numbers l → Numbers e

theorem fromFirst_of_parts {c : Content} {offs : List Int} {d : Content}
    (hp : c.listPartsFrom = ok (offs, d)) (h : Parts c offs d) (hc : ∃ l, c.children = [l]) :
    ∃ first last e, FromFirst c offs d first last e := by
  have ho := h.offs_eq
  obtain ⟨e, e1, e2, _, e3, _⟩ := range_good h.good (Nat.zero_le _) h.bound
  have hl : 0 < offs.length := by rw [ho]; simp
  refine ⟨offs[0], offs[offs.length - 1], e, hp, npGet_first hl, npGet_last hl, ?_, ?_, e2, ?_, ?_, ?_⟩
  · have a1 : offs[0] = ((0 : Nat) : Int) := by subst ho; rw [offsTo_getElem]; rfl
    have a2 : offs[offs.length - 1] = (sumTo c.lens c.len : Nat) := by
      subst ho; rw [offsTo_getElem]; simp
    rw [a1, a2, between_nat (Nat.zero_le _) h.bound]
    exact e1
  · have a1 : offs[0] = 0 := by subst ho; rw [offsTo_getElem]; rfl
    rw [a1, ← ho]
    simp
  · rw [e3.1]; omega
  · intro i hi
    rw [h.vals i hi]
    congr 1
    have := sumTo_mono (f := c.lens) (show i + 1 ≤ c.len by omega)
    rw [sumTo_succ] at this
    simp only [seg]
    apply List.map_congr_left
    intro k hk
    have := List.mem_range.mp hk
    rw [e3.valD (by omega)]
    congr 1; omega
  · intro l hl hn
    obtain ⟨l', hm, hg⟩ := h.src
    obtain ⟨l'', hc⟩ := hc
    rw [hc] at hl hm
    cases List.mem_singleton.mp hl
    cases List.mem_singleton.mp hm
    exact (hn.gathered hg).range e1

theorem fromFirst_ok {c : Content} (h : c.Good) (hl : c.isListNode = true) :
    ∃ offs d first last e, FromFirst c offs d first last e := by
  cases c <;> simp only [isListNode, Bool.false_eq_true] at hl
  case regular p c size zeros =>
    obtain ⟨offs, d, h1, h2, _⟩ := listParts_ok h rfl
    exact ⟨offs, d, fromFirst_of_parts h1 h2 ⟨_, rfl⟩⟩
  case listArray p starts stops c =>
    obtain ⟨offs, d, h1, h2, _⟩ := listParts_ok h rfl
    exact ⟨offs, d, fromFirst_of_parts h1 h2 ⟨_, rfl⟩⟩
  case listOffset p offsets c =>
    obtain ⟨hlen, hc, hp⟩ := good_listOffset.mp h
    have hcl : (listOffset p offsets c).len = offsets.length - 1 := by simp only [len]
    have hlens : ∀ i (hi : i + 1 < offsets.length),
        (listOffset p offsets c).lens i = (offsets[i + 1] - offsets[i]).toNat := fun i hi => by
      rw [lens_eq (valD_listOffset h hi), seg_length]
    have hoff : ∀ i (hi : i < offsets.length),
        offsets[i] = offsets[0] + (sumTo (listOffset p offsets c).lens i : Int) := by
      intro i hi
      induction i with
      | zero => simp
      | succ i ih =>
        have := hp i hi
        have ih := ih (by omega)
        rw [sumTo_succ, hlens i hi]
        rcases this with hh | ⟨_, hh, _⟩ <;> omega
    have hoffs : offsets.map (· - offsets[0])
        = offsTo (listOffset p offsets c).lens (listOffset p offsets c).len := by
      apply List.ext_getElem
      · simp [hcl]; omega
      · intro i h1 h2
        simp only [List.length_map] at h1
        rw [List.getElem_map, offsTo_getElem, hoff i h1]
        omega
    have hlast : offsets[offsets.length - 1]
        = offsets[0] + (sumTo (listOffset p offsets c).lens (listOffset p offsets c).len : Int) := by
      rw [hcl]; exact hoff _ (by omega)
    have hex : ∃ s t : Nat, s ≤ t ∧ t ≤ c.len ∧
        t - s = sumTo (listOffset p offsets c).lens (listOffset p offsets c).len ∧
        c.between offsets[0] offsets[offsets.length - 1] = c.range s t ∧
        (s < t → (s : Int) = offsets[0]) := by
      by_cases h0 : sumTo (listOffset p offsets c).lens (listOffset p offsets c).len = 0
      · rw [h0] at hlast
        simp only [Int.ofNat_zero, Int.add_zero, Int.natCast_zero] at hlast
        rw [hlast]
        obtain ⟨s, h1, h2⟩ := between_same c offsets[0]
        exact ⟨s, s, Nat.le_refl _, h1, by rw [h0]; omega, h2, by omega⟩
      · obtain ⟨i, k, hi, hk, _⟩ := sumTo_locate (f := (listOffset p offsets c).lens)
          (n := (listOffset p offsets c).len) (j := 0) (by omega)
        have hi1 : i + 1 < offsets.length := by omega
        rw [hlens i hi1] at hk
        have hpi := hp i hi1
        have hdown : ∀ j (hj : j ≤ i), 0 ≤ offsets[i - j] := by
          intro j hj
          induction j with
          | zero =>
            simp only [Nat.sub_zero]
            rcases hpi with hh | ⟨hh, _, _⟩ <;> omega
          | succ j ih =>
            have ih := ih (by omega)
            have := hp (i - (j + 1)) (by omega)
            have e : i - (j + 1) + 1 = i - j := by omega
            simp only [e] at this
            rcases this with hh | ⟨hh, _, _⟩ <;> omega
        have hup : ∀ j (hj : i + 1 + j < offsets.length), offsets[i + 1 + j] ≤ c.len := by
          intro j hj
          induction j with
          | zero => rcases hpi with hh | ⟨_, _, hh⟩ <;> simp only [Nat.add_zero] <;> omega
          | succ j ih =>
            have ih := ih (by omega)
            have := hp (i + 1 + j) (by omega)
            rcases this with hh | ⟨_, _, hh⟩
            · simp only [← Nat.add_assoc]; omega
            · simp only [← Nat.add_assoc]; omega
        have h00 := hdown i (Nat.le_refl _)
        simp only [Nat.sub_self] at h00
        have hll := hup (offsets.length - 1 - (i + 1)) (by omega)
        simp only [show i + 1 + (offsets.length - 1 - (i + 1)) = offsets.length - 1 by omega] at hll
        refine ⟨offsets[0].toNat, offsets[offsets.length - 1].toNat, by omega, by omega, by omega, ?_,
          by omega⟩
        rw [← between_nat (by omega) (by omega)]
        congr 1 <;> omega
    obtain ⟨s, t, h1, h2, h3, h4, h5⟩ := hex
    obtain ⟨e, e1, e2, _, e3, _⟩ := range_good hc h1 h2
    refine ⟨offsets, c, offsets[0], offsets[offsets.length - 1], e, rfl, npGet_first (by omega),
      npGet_last (by omega), by rw [h4]; exact e1, hoffs, e2, by rw [e3.1, h3], ?_, ?_⟩
    · intro i hi
      have hi1 : i + 1 < offsets.length := by omega
      rw [valD_listOffset h hi1, ← hlens i hi1]
      congr 1
      have hm := sumTo_mono (f := (listOffset p offsets c).lens) (show i + 1 ≤ (listOffset p offsets c).len by omega)
      rw [sumTo_succ] at hm
      simp only [seg]
      apply List.map_congr_left
      intro k hk
      have hk := List.mem_range.mp hk
      rw [e3.valD (by omega)]
      congr 1
      have := hoff i (by omega)
      omega
    · intro l hl hn
      cases List.mem_singleton.mp hl
      exact hn.range e1

/-! ### Runs of lists -/

theorem projectIndexed_ok {c : Content} (h : c.Good) :
    ∃ d, c.projectIndexed = ok d ∧ d.Good ∧ d.len = c.len ∧ (∀ i, i < c.len → d.valD i = c.valD i) ∧
      (Numbers c → d.isFlatNode = true) ∧ ∀ p index l, c = indexed p index l → Gathered d l := by
  cases c
  case indexed p index l =>
    obtain ⟨d, h1, h2, _, h3, h4, h5⟩ := project_indexed h
    refine ⟨d, h1, h2, h3, h4, ?_, ?_⟩
    · intro hn
      cases hn with
      | indexed =>
        have : Numbers d := Numbers.numpy.gathered h5
        cases this with
        | numpy => rfl
        | empty => rfl
        | indexed =>
          exfalso
          rcases h5 with h5 | ⟨lazy, idx, _, hr⟩
          · cases h5
          · simp only [Content.carry] at hr
            split at hr
            · split at hr
              · cases hr
              · simp only [Content.range, numpyRange, bind_eq_ok, ok.injEq] at hr
                obtain ⟨_, _, hr⟩ := hr
                cases hr
            · simp only [bind_eq_ok, ok.injEq] at hr
              obtain ⟨_, _, hr⟩ := hr
              cases hr
    · rintro p' index' l' e
      cases e
      exact h5
  all_goals
    refine ⟨_, rfl, h, rfl, fun _ _ => rfl, ?_, ?_⟩
    · intro hn; cases hn <;> rfl
    · intro p' index' l' e; cases e

/-- The ends of the lists, in terms of lengths. -/
theorem EndsFull.lens {c : Content} (h : c.EndsFull) (hg : c.Good) :
    sumTo c.lens c.len = 0 ∨ c.len ≤ 1 ∨ (0 < c.lens 0 ∧ 0 < c.lens (c.len - 1)) := by
  rcases h _ hg.toList with h | h | ⟨h1, h2⟩
  · exact .inr (.inl (by simpa using h))
  · refine .inl ?_
    rw [sumTo_congr (g := fun _ => 0), sumTo_const_zero]
    intro i hi
    have := h (c.valD i) (List.mem_map_of_mem (List.mem_range.mpr hi))
    simp [Content.lens, this]
  · by_cases hn : c.len ≤ 1
    · exact .inr (.inl hn)
    · refine .inr (.inr ⟨?_, ?_⟩)
      · have := h1 (c.valD 0) (by simp [List.head?_range]; omega)
        exact List.length_pos_iff.mpr this
      · have := h2 (c.valD (c.len - 1)) (by simp [List.getLast?_range]; omega)
        exact List.length_pos_iff.mpr this

theorem runsLists_ok {c l : Content} (h : c.Good) (ho : OverNumbers c) (hl : c.children = [l])
    (he : sumTo c.lens c.len = 0 ∨ c.len ≤ 1 ∨ (0 < c.lens 0 ∧ 0 < c.lens (c.len - 1))) :
    ∃ e, runsLists c l = ok e ∧ MapsG True c e Val.runs := by
  obtain ⟨o1, o2, o3, o4⟩ := ho
  obtain ⟨offs, d, first, last, e, F⟩ := fromFirst_ok h o1
  obtain ⟨e', p1, p2, p3, p4, p5, _⟩ := projectIndexed_ok F.good
  have hlm : l ∈ c.children := by rw [hl]; exact List.mem_singleton_self l
  have hcond : (l.isString || e'.isFlatNode) = true := by
    rcases o4 l hlm with hn | ⟨_, hs⟩
    · rw [p5 (F.numbers l hlm hn), Bool.or_true]
    · rw [hs, Bool.true_or]
  have hD : ((List.range e'.len).map e'.valD).length = sumTo c.lens c.len := by
    rw [List.length_map, List.length_range, p3, F.len_eq]
  have hcut : ∀ i, i < c.len → c.valD i
      = wrapList c.params (cut ((List.range e'.len).map e'.valD) c.lens i) := by
    intro i hi
    rw [F.vals i hi]
    congr 1
    have hm := sumTo_mono (f := c.lens) (show i + 1 ≤ c.len by omega)
    rw [sumTo_succ] at hm
    have hel := F.len_eq
    apply List.ext_getElem
    · rw [seg_length, cut_length hD hi]
    · intro k k1 k2
      rw [seg_length] at k1
      simp only [cut, List.getElem_take, List.getElem_drop, List.getElem_map, List.getElem_range]
      rw [seg_getElem, p4 _ (by omega)]
  have hrun := lengthsOf_ok hD he
  refine ⟨listOffset {} (offsTo (fun i => (runs (cut ((List.range e'.len).map e'.valD) c.lens i)).length)
    c.len) (intArray ((runsTo ((List.range e'.len).map e'.valD) c.lens c.len).map
      (fun (x : Nat) => (x : Int)))), ?_, ?_⟩
  · unfold runsLists
    rw [F.parts, bind_ok]
    dsimp only
    rw [F.first_eq, bind_ok, F.last_eq, bind_ok, F.items, bind_ok, p1, bind_ok, if_pos hcond,
      p2.toList, bind_ok, F.offs_eq, hrun, bind_ok]
  · have hg : (intArray ((runsTo ((List.range e'.len).map e'.valD) c.lens c.len).map
        (fun (x : Nat) => (x : Int)))).Good := good_numpy _ _ _
    have hb : sumTo (fun i => (runs (cut ((List.range e'.len).map e'.valD) c.lens i)).length) c.len
        ≤ (intArray ((runsTo ((List.range e'.len).map e'.valD) c.lens c.len).map
          (fun (x : Nat) => (x : Int)))).len := by
      rw [len_intArray, List.length_map, runsTo_length]
    have hll : (listOffset {} (offsTo (fun i => (runs (cut ((List.range e'.len).map e'.valD) c.lens i)).length) c.len)
        (intArray ((runsTo ((List.range e'.len).map e'.valD) c.lens c.len).map
          (fun (x : Nat) => (x : Int))))).len = c.len := by simp [len]
    refine ⟨⟨good_offsTo hg hb, by omega, ?_⟩, fun _ => hll⟩
    intro i hi
    rw [valD_offsTo hg hb hi, hcut i hi]
    rw [Val.runs, items_wrapList]
    show Val.list _ = Val.list _
    congr 1
    have hm := sumTo_mono (f := fun i => (runs (cut ((List.range e'.len).map e'.valD) c.lens i)).length)
      (show i + 1 ≤ c.len by omega)
    rw [sumTo_succ, ← runsTo_length (m := c.len)] at hm
    apply List.ext_getElem
    · simp
    · intro k k1 k2
      rw [seg_length] at k1
      rw [seg_getElem, valD_intArray (by simp; omega)]
      simp only [List.getElem_map]
      congr 3
      have hget := flatten_map_get (n := c.len)
        (fun i => runs (cut ((List.range e'.len).map e'.valD) c.lens i)) hi k1
      rw [List.getElem?_eq_getElem k1] at hget
      exact (List.getElem?_eq_some_iff.mp hget).2

theorem npMark_length {ds es : List Bool} {i : Int} (h : npMark ds i = ok es) : es.length = ds.length := by
  unfold npMark at h
  generalize (if i < 0 then i + (ds.length : Int) else i) = j at h
  dsimp only at h
  split at h
  · cases h
  · rw [ok.injEq] at h; rw [← h, List.length_set]

/-- A boundary at the end of the data cannot be marked. -/
theorem markBounds_end (ds : List Bool) (os : List Int) (h : ((ds.length : Int) + 1) ∈ os) :
    IsErr (markBounds ds os) := by
  unfold markBounds
  induction os generalizing ds with
  | nil => cases h
  | cons o os ih =>
    simp only [foldR]
    cases hm : npMark ds (o - 1) with
    | err e => exact ⟨e, rfl⟩
    | ub =>
      unfold npMark at hm
      generalize (if o - 1 < 0 then o - 1 + (ds.length : Int) else o - 1) = j at hm
      dsimp only at hm
      split at hm <;> cases hm
    | ok es =>
      rw [bind_ok]
      rcases List.mem_cons.mp h with h | h
      · subst h
        unfold npMark at hm
        rw [if_neg (show ¬ ((ds.length : Int) + 1 - 1 < 0) by omega)] at hm
        dsimp only at hm
        rw [if_pos (by omega)] at hm
        cases hm
      · exact ih es (by rw [npMark_length hm]; exact h)

theorem neighbours_length (D : List Val) : (neighbours D).length = D.length - 1 := by
  induction D with
  | nil => rfl
  | cons x D ih =>
    cases D with
    | nil => rfl
    | cons y D => simp only [neighbours, List.length_cons, ih]; omega

theorem lengthsOf_last_empty {D : List Val} {f : Nat → Nat} {n : Nat} (hn : D.length = sumTo f n)
    (h2 : 2 ≤ n) (h0 : f (n - 1) = 0) (hp : 0 < sumTo f n) : IsErr (lengthsOf D (offsTo f n)) := by
  unfold lengthsOf
  rw [if_neg (by omega), offsTo_inner]
  obtain ⟨e, he⟩ := markBounds_end (neighbours D)
    ((List.range (n - 1)).map (fun i => (sumTo f (i + 1) : Int))) (by
      refine List.mem_map.mpr ⟨n - 2, List.mem_range.mpr (by omega), ?_⟩
      rw [neighbours_length, hn]
      have : sumTo f n = sumTo f (n - 1) + f (n - 1) := by
        rw [← sumTo_succ, show n - 1 + 1 = n by omega]
      rw [show n - 2 + 1 = n - 1 by omega]
      omega)
  exact ⟨e, by rw [he]; rfl⟩

theorem runsLists_last_empty {c : Content} (h : c.Good) (ho : OverNumbers c)
    (h2 : 2 ≤ c.len) (h0 : c.lens (c.len - 1) = 0) (hp : 0 < sumTo c.lens c.len) :
    ∀ l, c.children = [l] → IsErr (runsLists c l) := by
  intro l hl
  obtain ⟨o1, o2, o3, o4⟩ := ho
  obtain ⟨offs, d, first, last, e, F⟩ := fromFirst_ok h o1
  obtain ⟨e', p1, p2, p3, p4, p5, _⟩ := projectIndexed_ok F.good
  have hlm : l ∈ c.children := by rw [hl]; exact List.mem_singleton_self l
  have hcond : (l.isString || e'.isFlatNode) = true := by
    rcases o4 l hlm with hn | ⟨_, hs⟩
    · rw [p5 (F.numbers l hlm hn), Bool.or_true]
    · rw [hs, Bool.true_or]
  have hD : ((List.range e'.len).map e'.valD).length = sumTo c.lens c.len := by
    rw [List.length_map, List.length_range, p3, F.len_eq]
  obtain ⟨m, hm⟩ := lengthsOf_last_empty hD h2 h0 hp
  refine ⟨m, ?_⟩
  unfold runsLists
  rw [F.parts, bind_ok]
  dsimp only
  rw [F.first_eq, bind_ok, F.last_eq, bind_ok, F.items, bind_ok, p1, bind_ok, if_pos hcond,
    p2.toList, bind_ok, F.offs_eq, hm]
  rfl

/-! ### Depths -/

theorem Leaf.branchLoop {c : Content} (h : Leaf c) : c.branchLoop = (false, 1) := by
  cases h with
  | numpy => rfl
  | empty => rfl
  | indexed => rfl
  | string h1 h2 =>
    cases c <;> simp only [isListNode, Bool.false_eq_true] at h1 <;> simp only [params] at h2 <;>
      simp only [Content.branchLoop, if_pos h2]

theorem branchLoop_list {c : Content} {b : Bool} {k : Int} (h1 : c.isListNode = true)
    (h2 : c.params.arr ≠ .string) (h3 : c.params.arr ≠ .bytestring)
    (h4 : ∀ d ∈ c.children, d.branchLoop = (b, k)) : c.branchLoop = (b, k + 1) := by
  have hn : ¬ (c.params.arr = .string ∨ c.params.arr = .bytestring) := fun h => h.elim h2 h3
  cases c <;> simp only [isListNode, Bool.false_eq_true] at h1 <;> simp only [params] at hn <;>
    simp only [children, List.mem_singleton, forall_eq] at h4 <;>
    simp only [Content.branchLoop, if_neg hn, h4]

theorem branchLoops_const {cs : List Content} {k : Int} (h : ∀ d ∈ cs, d.branchLoop = (false, k)) :
    branchLoops false k cs = (false, k) := by
  induction cs with
  | nil => rfl
  | cons c cs ih =>
    have hc := h c List.mem_cons_self
    simp only [branchLoops, hc, ite_self, bne_self_eq_false, Bool.or_false]
    exact ih (fun d hd => h d (List.mem_cons_of_mem _ hd))

theorem branchLoops_ok {cs : List Content} {k : Int} (hne : cs ≠ [])
    (h : ∀ d ∈ cs, d.branchLoop = (false, k)) : branchLoops false (-1) cs = (false, k) := by
  cases cs with
  | nil => exact absurd rfl hne
  | cons c cs =>
    have hc := h c List.mem_cons_self
    simp only [branchLoops, hc, if_true, bne_self_eq_false, Bool.or_false]
    rw [if_neg (show ¬ (k > k) by omega)]
    exact branchLoops_const (fun d hd => h d (List.mem_cons_of_mem _ hd))

theorem InnerLists.branchLoop {c : Content} {a : Nat} (h : InnerLists a c) :
    c.branchLoop = (false, (a : Int) + 2) := by
  induction h with
  | here h1 h2 h3 h4 _ => exact branchLoop_list h1 h2 h3 fun d hd => (h4 d hd).branchLoop
  | indexed h1 h2 h3 h4 _ => exact branchLoop_list h1 h2 h3 fun d hd => (h4 d hd).branchLoop
  | list h1 h2 h3 _ ih =>
    rw [branchLoop_list h1 h2 h3 ih]; congr 1
  | @thru c a ht hne _ ih =>
    cases c <;> simp only [isThru, Bool.false_eq_true] at ht
    case record p keys cs length =>
      simp only [Content.branchLoop]
      rw [if_neg (by simpa [children] using hne)]
      exact branchLoops_ok hne ih
    case union p tags index cs =>
      simp only [Content.branchLoop]
      exact branchLoops_ok hne ih
    all_goals
      simp only [children, List.mem_singleton, forall_eq] at ih
      simpa only [Content.branchLoop] using ih

/-- A list node of depth two, or an index of one. -/
theorem runsNested_ok {c : Content} (h : c.Good) (hn : c.InnerLists 0) :
    ∃ e, c.runsNested = ok e ∧ MapsG True c e Val.runs := by
  have key : ∀ {d : Content}, d.Good → OverNumbers d →
      (sumTo d.lens d.len = 0 ∨ d.len ≤ 1 ∨ (0 < d.lens 0 ∧ 0 < d.lens (d.len - 1))) →
      ∃ e, d.runsListNode = ok e ∧ MapsG True d e Val.runs := by
    intro d hd ho he
    have hl := ho.1
    cases d <;> simp only [isListNode, Bool.false_eq_true] at hl
    all_goals exact runsLists_ok hd ho rfl he
  cases hn with
  | here h1 h2 h3 h4 h5 =>
    obtain ⟨e, e1, e2⟩ := key h (over_of_leaf h1 h2 h3 h4) (h5.lens h)
    refine ⟨e, ?_, e2⟩
    unfold runsNested
    rw [show c.projectIndexed = ok c by (cases c <;> first | rfl | cases h1), bind_ok]
    exact e1
  | @indexed p index l h1 h2 h3 h4 h5 =>
    obtain ⟨d, p1, p2, p3, p4, _, p6⟩ := projectIndexed_ok h
    have hlens : ∀ i, i < (Content.indexed p index l).len → d.lens i = (Content.indexed p index l).lens i :=
      fun i hi => by simp only [Content.lens, p4 i hi]
    have he : sumTo d.lens d.len = 0 ∨ d.len ≤ 1 ∨ (0 < d.lens 0 ∧ 0 < d.lens (d.len - 1)) := by
      rw [p3]
      rcases h5.lens h with g | g | ⟨g1, g2⟩
      · exact .inl (by rw [sumTo_congr hlens]; exact g)
      · exact .inr (.inl g)
      · by_cases hl : (Content.indexed p index l).len ≤ 1
        · exact .inr (.inl hl)
        · exact .inr (.inr ⟨by rw [hlens _ (by omega)]; exact g1, by rw [hlens _ (by omega)]; exact g2⟩)
    obtain ⟨e, e1, e2⟩ := key p2 ((over_of_leaf h1 h2 h3 h4).gathered (p6 _ _ _ rfl)) he
    refine ⟨e, ?_, e2.of_eq p3 p4⟩
    unfold runsNested
    rw [p1, bind_ok]
    exact e1

theorem runLengths_applies {c : Content} {a k d : Nat} (h : InnerLists k c) (hg : c.Good)
    (hd : d + k = a + 1) :
    Applies runLengthsGet (fun d => Val.mapDepth Val.runs (a + 1 - d)) d () c := by
  induction h generalizing d with
  | here h1 h2 h3 h4 h5 =>
    obtain ⟨e, e1, e2⟩ := runsNested_ok hg (.here h1 h2 h3 h4 h5)
    have hb := (InnerLists.here h1 h2 h3 h4 h5).branchLoop
    refine .stop (e := e) ?_ ?_
    · unfold runLengthsGet
      rw [hb, if_neg (by decide), if_pos (by decide), e1, bind_ok]
    · rw [show a + 1 - d = 0 by omega, mapDepth_zero]; exact e2
  | indexed h1 h2 h3 h4 h5 =>
    obtain ⟨e, e1, e2⟩ := runsNested_ok hg (.indexed h1 h2 h3 h4 h5)
    have hb := (InnerLists.indexed h1 h2 h3 h4 h5).branchLoop
    refine .stop (e := e) ?_ ?_
    · unfold runLengthsGet
      rw [hb, if_neg (by decide), if_pos (by decide), e1, bind_ok]
    · rw [show a + 1 - d = 0 by omega, mapDepth_zero]; exact e2
  | @list c k h1 h2 h3 h4 ih =>
    have hb := (InnerLists.list h1 h2 h3 h4).branchLoop
    refine .pass (u' := ()) ?_ ?_ ?_
    · unfold runLengthsGet
      rw [hb, if_neg (by rw [Prod.mk.injEq]; omega), if_neg (by rw [Prod.mk.injEq]; omega)]
    · have hdp : c.deeper d = d + 1 := by simp only [deeper, h1, if_true]
      rw [hdp, show a + 1 - d = (a + 1 - (d + 1)) + 1 by omega]
      cases c <;> simp only [isListNode, Bool.false_eq_true] at h1 <;>
        exact fun vs => mapDepth_wrapList _ _ _ _
    · intro e he
      have hdp : c.deeper d = d + 1 := by simp only [deeper, h1, if_true]
      rw [hdp]
      exact ih e he (hg.child he) (by omega)
  | @thru c k ht hne h4 ih =>
    have hb := (InnerLists.thru ht hne h4).branchLoop
    have hdp : c.deeper d = d := by
      cases c <;> simp only [isThru, Bool.false_eq_true] at ht <;> rfl
    refine .pass (u' := ()) ?_ ?_ ?_
    · unfold runLengthsGet
      rw [hb, if_neg (by rw [Prod.mk.injEq]; omega), if_neg (by rw [Prod.mk.injEq]; omega)]
    · rw [hdp, show a + 1 - d = (a - d) + 1 by omega]
      cases c <;> simp only [isThru, Bool.false_eq_true] at ht
      case record => exact ⟨mapDepth_mkRecord _ _, rfl⟩
      case indexed => exact rfl
      case union => exact rfl
      all_goals exact ⟨by simp only [Val.mapDepth], rfl⟩
    · intro e he
      rw [hdp]
      exact ih e he (hg.child he) hd

theorem runLengths_ok {c : Content} {a : Nat} (h : InnerLists a c) (hg : c.Good) :
    ∃ e, c.runLengths = ok e ∧ MapsG True c e (Val.mapDepth Val.runs a) := by
  have := apply_maps (runLengths_applies (a := a) (d := 1) h hg (by omega)) hg
  simpa [runLengths] using this

theorem runLengths_flat {c : Content} (h : FlatArray c) (hg : c.Good) :
    c.runLengths = ok (intArray ((runs ((List.range c.len).map c.valD)).map (fun (n : Nat) => (n : Int)))) := by
  have hb : c.branchLoop = (false, 1) := by
    cases h with
    | leaf h => exact h.branchLoop
    | strings h1 h2 => exact (Leaf.string h1 h2).branchLoop
  obtain ⟨d, p1, p2, p3, p4, p5, p6⟩ := projectIndexed_ok hg
  have hcond : (d.isString || d.isFlatNode) = true := by
    cases h with
    | leaf h =>
      rcases h.cases' with hn | hs
      · rw [p5 hn, Bool.or_true]
      · cases h with
        | numpy => rw [p5 .numpy, Bool.or_true]
        | empty => rw [p5 .empty, Bool.or_true]
        | indexed => rw [p5 .indexed, Bool.or_true]
        | string h1 h2 =>
          have : c.projectIndexed = ok c := by cases c <;> first | rfl | cases h1
          rw [this, ok.injEq] at p1
          rw [← p1, hs, Bool.true_or]
    | @strings p index l h1 h2 =>
      have hs : l.isString = true := by rcases h2 with h2 | h2 <;> simp [isString, h2]
      rcases p6 _ _ _ rfl with rfl | ⟨lazy, idx, _, hr⟩
      · rw [hs, Bool.true_or]
      · rw [isString_params (list_carry h1 hr).2.1 hs, Bool.true_or]
  obtain ⟨offs, hl⟩ := lengthsOf_flat ((List.range c.len).map c.valD)
  have hD : (List.range d.len).map d.valD = (List.range c.len).map c.valD := by
    rw [p3]
    exact List.map_congr_left fun i hi => p4 i (List.mem_range.mp hi)
  have hget : runLengthsGet 1 () c
      = ok (.inl (intArray ((runs ((List.range c.len).map c.valD)).map (fun (n : Nat) => (n : Int))))) := by
    unfold runLengthsGet
    rw [hb, if_pos rfl, runsFlat, p1, bind_ok, if_pos hcond, p2.toList, bind_ok, hD, hl, bind_ok, bind_ok]
  unfold runLengths
  cases c <;> simp only [apply, hget, bind_ok, custom]

end Content
end Awk
