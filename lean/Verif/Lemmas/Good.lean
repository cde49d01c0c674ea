import Verif.Lemmas.Option
import Verif.Model.List
import Verif.Spec.List
/-
Arrays that can be read at every level (`Good`), and a measure of their depth (`rank`).
`range` and `carry` keep the first and do not increase the second.
-/

namespace Awk
open R

namespace Content

/-- Every element of the node can be read. -/
def Readable (c : Content) : Prop := ∀ i, i < c.len → IsOk (c.val i)

/-- Every element of the node and of every node below it can be read. -/
inductive Good : Content → Prop
  | mk {c : Content} (wf : c.WF) (rd : c.Readable) (ch : ∀ d ∈ c.children, Good d) : Good c

theorem Good.wf {c : Content} (h : c.Good) : c.WF := by cases h; assumption
theorem Good.rd {c : Content} (h : c.Good) : c.Readable := by cases h; assumption
theorem Good.child {c d : Content} (h : c.Good) (hd : d ∈ c.children) : d.Good := by
  cases h with
  | mk _ _ ch => exact ch d hd

/-- A valid array is good. -/
theorem good_of_validity {c : Content} (h : c.validity = ok ()) : c.Good := by
  have str : ∀ {p : Params} {c : Content}, (c.validity = ok () → c.Good) →
      paramsOkList p c = ok () →
      (if p.arr = .string ∨ p.arr = .bytestring then ok () else c.validity) = ok () → c.Good := by
    intro p c ih h1 h2
    rcases paramsOkList_content h1 h2 with ⟨_, p', data, rfl, _⟩ | ⟨_, h2⟩
    · exact ⟨trivial, fun i hi => ⟨_, numpy_val_ok hi⟩, by simp [children]⟩
    · exact ih h2
  induction c using induct with
  | empty p => exact ⟨(valid_readable h).1, (valid_readable h).2, by simp [children]⟩
  | numpy p dt data => exact ⟨(valid_readable h).1, (valid_readable h).2, by simp [children]⟩
  | regular p c size zeros ih =>
    refine ⟨(valid_readable h).1, (valid_readable h).2, ?_⟩
    simp only [validity, bind_eq_ok] at h
    obtain ⟨_, h1, h2⟩ := h
    simpa [children] using str ih h1 h2
  | listArray p starts stops c ih =>
    refine ⟨(valid_readable h).1, (valid_readable h).2, ?_⟩
    simp only [validity, bind_eq_ok] at h
    obtain ⟨_, h1, h2⟩ := h
    split at h2
    · simp at h2
    · obtain ⟨_, _, h3⟩ := bind_eq_ok.mp h2
      simpa [children] using str ih h1 h3
  | listOffset p offsets c ih =>
    refine ⟨(valid_readable h).1, (valid_readable h).2, ?_⟩
    simp only [validity, bind_eq_ok] at h
    obtain ⟨_, h1, h2⟩ := h
    split at h2
    · simp at h2
    · obtain ⟨_, _, h3⟩ := bind_eq_ok.mp h2
      simpa [children] using str ih h1 h3
  | indexed p index c ih =>
    refine ⟨(valid_readable h).1, (valid_readable h).2, ?_⟩
    simp only [validity, bind_eq_ok] at h
    obtain ⟨_, _, _, _, _, _, h4⟩ := h
    simpa [children] using ih h4
  | indexedOption p index c ih =>
    refine ⟨(valid_readable h).1, (valid_readable h).2, ?_⟩
    simp only [validity, bind_eq_ok] at h
    obtain ⟨_, _, _, _, _, _, h4⟩ := h
    simpa [children] using ih h4
  | byteMasked p mask vw c ih =>
    refine ⟨(valid_readable h).1, (valid_readable h).2, ?_⟩
    simp only [validity, bind_eq_ok] at h
    obtain ⟨_, _, h⟩ := h
    split at h
    · simp at h
    · obtain ⟨_, _, h4⟩ := bind_eq_ok.mp h
      simpa [children] using ih h4
  | bitMasked p mask vw length lsb c ih =>
    refine ⟨(valid_readable h).1, (valid_readable h).2, ?_⟩
    simp only [validity, bind_eq_ok] at h
    obtain ⟨_, _, h⟩ := h
    split at h
    · simp at h
    split at h
    · simp at h
    · obtain ⟨_, _, h4⟩ := bind_eq_ok.mp h
      simpa [children] using ih h4
  | unmasked p c ih =>
    refine ⟨(valid_readable h).1, (valid_readable h).2, ?_⟩
    simp only [validity, bind_eq_ok] at h
    obtain ⟨_, _, _, _, h4⟩ := h
    simpa [children] using ih h4
  | record p keys cs length ih =>
    refine ⟨(valid_readable h).1, (valid_readable h).2, ?_⟩
    simp only [validity, bind_eq_ok] at h
    obtain ⟨_, _, h⟩ := h
    split at h
    · simp at h
    · rw [validityAll_ok] at h
      intro d hd
      exact ih d hd (h d hd)
  | union p tags index cs ih =>
    refine ⟨(valid_readable h).1, (valid_readable h).2, ?_⟩
    simp only [validity, bind_eq_ok] at h
    obtain ⟨_, _, h⟩ := h
    split at h
    · simp at h
    split at h
    · simp at h
    · obtain ⟨_, _, h⟩ := bind_eq_ok.mp h
      rw [validityAll_ok] at h
      intro d hd
      exact ih d hd (h d hd)

theorem rank_le_rankAll {cs : List Content} {c : Content} (h : c ∈ cs) : c.rank ≤ rankAll cs := by
  induction cs with
  | nil => cases h
  | cons d ds ih =>
    simp only [rankAll]
    cases h with
    | head => exact Nat.le_max_left _ _
    | tail _ h => exact Nat.le_trans (ih h) (Nat.le_max_right _ _)

theorem rankAll_le {cs : List Content} {n : Nat} : rankAll cs ≤ n ↔ ∀ c ∈ cs, c.rank ≤ n := by
  induction cs with
  | nil => simp [rankAll]
  | cons d ds ih => simp [rankAll, ih]

theorem child_rank {c d : Content} (h : d ∈ c.children) : d.rank < c.rank := by
  cases c <;> simp only [children, List.mem_singleton, List.not_mem_nil] at h <;>
    simp only [rank]
  case record => have := rank_le_rankAll h; omega
  case union => have := rank_le_rankAll h; omega
  all_goals subst h; omega

theorem IsView.readable {c' c : Content} {n : Nat} {f : Nat → Nat} (h : IsView c' c n f)
    (hc : c.Readable) (hf : ∀ i, i < n → f i < c.len) : c'.Readable := by
  intro i hi
  rw [h.1] at hi
  rw [h.2 i hi]
  exact hc _ (hf i hi)

theorem Picks.readable {c' c : Content} {idx : List Int} (h : Picks c' c idx)
    (hc : c.Readable) (hf : InRange idx c.len) : c'.Readable := by
  intro i hi
  rw [h.1] at hi
  rw [h.2 i hi]
  obtain ⟨k, hk, he⟩ := hf.get hi
  rw [he]
  exact hc _ (by simpa using hk)

/-- `range` of a good array is good, and not deeper. -/
theorem range_good {c : Content} (h : c.Good) {a b : Nat} (hab : a ≤ b) (hb : b ≤ c.len) :
    ∃ c', c.range a b = ok c' ∧ c'.Good ∧ c'.rank ≤ c.rank ∧
      IsView c' c (b - a) (fun i => a + i) ∧ c'.params = c.params := by
  obtain ⟨c', h1, h2, h3, h4⟩ := range_ok h.wf hab hb
  suffices hs : (∀ d ∈ c'.children, d.Good) ∧ c'.rank ≤ c.rank by
    exact ⟨c', h1, ⟨h2, h3.readable h.rd (fun i hi => by omega), hs.1⟩, hs.2, h3, h4⟩
  clear h2 h3 h4
  induction c using induct generalizing a b c' with
  | empty p => simp only [range, ok.injEq] at h1; subst h1; simp [children]
  | numpy p dt data =>
    simp only [range, numpyRange, bind_eq_ok] at h1
    obtain ⟨d, _, h1⟩ := h1
    simp only [ok.injEq] at h1; subst h1
    simp [children, rank]
  | regular p c size zeros ih =>
    have hc : c.Good := h.child (by simp [children])
    simp only [len] at hb
    have hb' : b * size ≤ c.len := by
      by_cases hs : size = 0
      · simp [hs]
      · rw [if_pos hs] at hb
        exact (Nat.le_div_iff_mul_le (by omega)).mp hb
    have hab' : a * size ≤ b * size := Nat.mul_le_mul_right _ hab
    obtain ⟨d, g1, g2, g3, g4⟩ := range_ok hc.wf hab' hb'
    obtain ⟨k1, k2⟩ := ih hc hab' hb' d g1
    simp only [range] at h1
    push_cast at g1
    rw [g1, bind_ok, ok.injEq] at h1; subst h1
    have : d.Good := ⟨g2, g3.readable hc.rd (fun i hi => by omega), k1⟩
    simpa [children, rank, this] using k2
  | listArray p starts stops c ih =>
    have hc : c.Good := h.child (by simp [children])
    simp only [range, bind_eq_ok] at h1
    obtain ⟨d, _, _, _, h1⟩ := h1
    simp only [ok.injEq] at h1; subst h1
    simp [children, rank, hc]
  | listOffset p offsets c ih =>
    have hc : c.Good := h.child (by simp [children])
    simp only [range, bind_eq_ok] at h1
    obtain ⟨d, _, h1⟩ := h1
    simp only [ok.injEq] at h1; subst h1
    simp [children, rank, hc]
  | indexed p index c ih =>
    have hc : c.Good := h.child (by simp [children])
    simp only [range, bind_eq_ok] at h1
    obtain ⟨d, _, h1⟩ := h1
    simp only [ok.injEq] at h1; subst h1
    simp [children, rank, hc]
  | indexedOption p index c ih =>
    have hc : c.Good := h.child (by simp [children])
    simp only [range, bind_eq_ok] at h1
    obtain ⟨d, _, h1⟩ := h1
    simp only [ok.injEq] at h1; subst h1
    simp [children, rank, hc]
  | byteMasked p mask vw c ih =>
    have hc : c.Good := h.child (by simp [children])
    have hw := h.wf
    simp only [WF] at hw
    simp only [len] at hb
    obtain ⟨d, g1, g2, g3, g4⟩ := range_ok hc.wf hab (by omega)
    obtain ⟨k1, k2⟩ := ih hc hab (by omega) d g1
    simp only [range, bind_eq_ok] at h1
    obtain ⟨_, _, d', h1', h1⟩ := h1
    rw [g1, ok.injEq] at h1'; subst h1'
    simp only [ok.injEq] at h1; subst h1
    have : d.Good := ⟨g2, g3.readable hc.rd (fun i hi => by omega), k1⟩
    simpa [children, rank, this] using k2
  | bitMasked p mask vw length lsb c ih =>
    have hc : c.Good := h.child (by simp [children])
    have hw := h.wf
    simp only [WF] at hw
    simp only [len] at hb
    obtain ⟨d, g1, g2, g3, g4⟩ := range_ok hc.wf hab (by omega)
    obtain ⟨k1, k2⟩ := ih hc hab (by omega) d g1
    simp only [range, bind_eq_ok] at h1
    obtain ⟨_, _, _, _, d', h1', h1⟩ := h1
    rw [g1, ok.injEq] at h1'; subst h1'
    simp only [ok.injEq] at h1; subst h1
    have : d.Good := ⟨g2, g3.readable hc.rd (fun i hi => by omega), k1⟩
    refine ⟨by simpa [children] using this, by simp only [rank]; omega⟩
  | unmasked p c ih =>
    have hc : c.Good := h.child (by simp [children])
    simp only [len] at hb
    obtain ⟨d, g1, g2, g3, g4⟩ := range_ok hc.wf hab (by omega)
    obtain ⟨k1, k2⟩ := ih hc hab (by omega) d g1
    simp only [range, bind_eq_ok] at h1
    obtain ⟨d', h1', h1⟩ := h1
    rw [g1, ok.injEq] at h1'; subst h1'
    simp only [ok.injEq] at h1; subst h1
    have : d.Good := ⟨g2, g3.readable hc.rd (fun i hi => by omega), k1⟩
    simpa [children, rank, this] using k2
  | record p keys cs length ih =>
    have hcs : ∀ d ∈ cs, d.Good := fun d hd => h.child (by simpa [children] using hd)
    have hw := h.wf
    simp only [WF] at hw
    simp only [len] at hb
    simp only [range] at h1
    split at h1
    · simp only [ok.injEq] at h1; subst h1
      exact ⟨by simpa [children] using hcs, by simp [rank]⟩
    split at h1
    · simp only [ok.injEq] at h1; subst h1
      exact ⟨by simpa [children] using hcs, by simp [rank]⟩
    obtain ⟨cs', h2, h1⟩ := bind_eq_ok.mp h1
    simp only [ok.injEq] at h1; subst h1
    have key : ∀ ds ds' : List Content, (∀ d ∈ ds, d ∈ cs) → rangeFields ds a b = ok ds' →
        (∀ d ∈ ds', d.Good) ∧ rankAll ds' ≤ rankAll ds := by
      intro ds
      induction ds with
      | nil =>
        intro ds' _ hr
        simp only [rangeFields, ok.injEq] at hr; subst hr; simp [rankAll]
      | cons d ds ihd =>
        intro ds' hm hr
        simp only [rangeFields, bind_eq_ok] at hr
        obtain ⟨d', hd', es, hes, hr⟩ := hr
        simp only [ok.injEq] at hr; subst hr
        have hd := hm d List.mem_cons_self
        obtain ⟨d'', g1, g2, g3, g4⟩ := range_ok (hcs d hd).wf hab (by have := hw.1 d hd; omega)
        rw [g1, ok.injEq] at hd'; subst hd'
        obtain ⟨k1, k2⟩ := ih d hd (hcs d hd) hab (by have := hw.1 d hd; omega) d'' g1
        obtain ⟨m1, m2⟩ := ihd es (fun e he => hm e (List.mem_cons_of_mem _ he)) hes
        refine ⟨?_, by simp only [rankAll]; omega⟩
        intro e he
        cases he with
        | head =>
          exact ⟨g2, g3.readable (hcs d hd).rd (fun i hi => by have := hw.1 d hd; omega), k1⟩
        | tail _ he => exact m1 e he
    obtain ⟨k1, k2⟩ := key cs cs' (fun _ h => h) h2
    exact ⟨by simpa [children] using k1, by simp only [rank]; omega⟩
  | union p tags index cs ih =>
    have hcs : ∀ d ∈ cs, d.Good := fun d hd => h.child (by simpa [children] using hd)
    simp only [range, bind_eq_ok] at h1
    obtain ⟨_, _, _, _, h1⟩ := h1
    simp only [ok.injEq] at h1; subst h1
    exact ⟨by simpa [children] using hcs, by simp [rank]⟩

/-- `carry` of a good array is good, and at most one level deeper (when a record array is
carried lazily). -/
theorem carry_good {c : Content} (h : c.Good) (lazy : Bool) {idx : List Int}
    (hi : InRange idx c.len) :
    ∃ c', c.carry lazy idx = ok c' ∧ c'.Good ∧ c'.rank ≤ c.rank + lazy.toNat ∧
      Picks c' c idx := by
  obtain ⟨c', h1, h2, h3⟩ := carry_ok h.wf lazy hi
  suffices hs : (∀ d ∈ c'.children, d.Good) ∧ c'.rank ≤ c.rank + lazy.toNat by
    exact ⟨c', h1, ⟨h2, h3.readable h.rd hi, hs.1⟩, hs.2, h3⟩
  clear h2 h3
  -- the contiguous shortcut
  have cont : ∀ (c c' : Content) (idx : List Int), c.Good → InRange idx c.len →
      isContiguous idx = true →
      (if idx.length = c.len then ok c else c.range 0 idx.length) = ok c' →
      (∀ d ∈ c'.children, d.Good) ∧ c'.rank ≤ c.rank + lazy.toNat := by
    intro c c' idx h hi hc h1
    split at h1
    · simp only [ok.injEq] at h1; subst h1
      exact ⟨fun d hd => h.child hd, by omega⟩
    · have hle : idx.length ≤ c.len := by
        rw [isContiguous_iff] at hc
        by_contra hlt
        have hl : c.len < idx.length := by omega
        have := (hi _ (List.getElem_mem hl)).2
        rw [hc _ hl] at this
        omega
      obtain ⟨c'', g1, g2, g3, _⟩ := range_good h (a := 0) (b := idx.length) (by omega) hle
      rw [show ((0 : Nat) : Int) = 0 from rfl] at g1
      rw [g1, ok.injEq] at h1; subst h1
      exact ⟨fun d hd => g2.child hd, by omega⟩
  induction c using induct generalizing idx c' with
  | empty p =>
    simp only [carry] at h1
    split at h1
    · simp only [ok.injEq] at h1; subst h1; simp [children]
    · simp at h1
  | numpy p dt data =>
    simp only [carry] at h1
    split at h1
    · rename_i hc; exact cont _ _ _ h hi hc h1
    · obtain ⟨d, _, h1⟩ := bind_eq_ok.mp h1
      simp only [ok.injEq] at h1; subst h1
      simp [children, rank]
  | regular p c size zeros ih =>
    have hc : c.Good := h.child (by simp [children])
    simp only [carry] at h1
    split at h1
    · rename_i hc; exact cont _ _ _ h hi hc h1
    · have hal : (alloc ((idx.length : Int) * size)).length = idx.length * size := by
        rw [show ((idx.length : Int) * size) = ((idx.length * size : Nat) : Int) by push_cast; rfl,
          alloc_length]
      obtain ⟨xs, e1, e2, e3⟩ := RegularArray_getitem_carry_ok hal
      have hin : InRange xs c.len := by
        intro x hx
        obtain ⟨k, hk, rfl⟩ := List.getElem_of_mem hx
        have hsz : 0 < size := by
          rcases Nat.eq_zero_or_pos size with h0 | h0
          · rw [e2, h0] at hk; omega
          · exact h0
        have hkd : k / size < idx.length := by
          rw [Nat.div_lt_iff_lt_mul hsz]; omega
        have hkm := Nat.mod_lt k hsz
        have := e3 (k / size) hkd (k % size) hkm
        rw [Nat.div_add_mod' k size, List.getElem?_eq_getElem hk] at this
        injection this with this
        rw [this]
        obtain ⟨q, hq, he⟩ := hi.get hkd
        rw [he]
        simp only [len] at hq
        rw [if_pos (by omega)] at hq
        have hq' : (q + 1) * size ≤ c.len := (Nat.le_div_iff_mul_le hsz).mp hq
        have : q * size + k % size < c.len := by
          calc q * size + k % size < q * size + size := by omega
            _ = (q + 1) * size := by ring
            _ ≤ _ := hq'
        constructor
        · positivity
        · exact_mod_cast this
      rw [e1, bind_ok] at h1
      obtain ⟨d, g1, g2, g3⟩ := carry_ok hc.wf lazy hin
      obtain ⟨k1, k2⟩ := ih hc hin d g1
      rw [g1, bind_ok, ok.injEq] at h1; subst h1
      have : d.Good := ⟨g2, g3.readable hc.rd hin, k1⟩
      exact ⟨by simpa [children] using this, by simp only [rank]; omega⟩
  | listArray p starts stops c ih =>
    have hc : c.Good := h.child (by simp [children])
    simp only [carry] at h1
    split at h1
    · rename_i hc; exact cont _ _ _ h hi hc h1
    split at h1
    · simp at h1
    · obtain ⟨d, _, h1⟩ := bind_eq_ok.mp h1
      simp only [ok.injEq] at h1; subst h1
      simp [children, rank, hc]
  | listOffset p offsets c ih =>
    have hc : c.Good := h.child (by simp [children])
    simp only [carry] at h1
    split at h1
    · rename_i hc; exact cont _ _ _ h hi hc h1
    · obtain ⟨d, _, h1⟩ := bind_eq_ok.mp h1
      simp only [ok.injEq] at h1; subst h1
      simp [children, rank, hc]
  | indexed p index c ih =>
    have hc : c.Good := h.child (by simp [children])
    simp only [carry] at h1
    split at h1
    · rename_i hc; exact cont _ _ _ h hi hc h1
    · obtain ⟨d, _, h1⟩ := bind_eq_ok.mp h1
      simp only [ok.injEq] at h1; subst h1
      simp [children, rank, hc]
  | indexedOption p index c ih =>
    have hc : c.Good := h.child (by simp [children])
    simp only [carry] at h1
    split at h1
    · rename_i hc; exact cont _ _ _ h hi hc h1
    · obtain ⟨d, _, h1⟩ := bind_eq_ok.mp h1
      simp only [ok.injEq] at h1; subst h1
      simp [children, rank, hc]
  | byteMasked p mask vw c ih =>
    have hc : c.Good := h.child (by simp [children])
    have hw := h.wf
    simp only [WF] at hw
    simp only [carry] at h1
    split at h1
    · rename_i hc; exact cont _ _ _ h hi hc h1
    · simp only [byteMaskedCarry, bind_eq_ok] at h1
      obtain ⟨_, _, d', h1', h1⟩ := h1
      simp only [ok.injEq] at h1; subst h1
      have hin : InRange idx c.len :=
        fun j hj => ⟨(hi j hj).1, by have := (hi j hj).2; simp only [len] at this; omega⟩
      obtain ⟨d, g1, g2, g3⟩ := carry_ok hc.wf lazy hin
      obtain ⟨k1, k2⟩ := ih hc hin d g1
      rw [g1, ok.injEq] at h1'; subst h1'
      have : d.Good := ⟨g2, g3.readable hc.rd hin, k1⟩
      exact ⟨by simpa [children] using this, by simp only [rank]; omega⟩
  | bitMasked p mask vw length lsb c ih =>
    have hc : c.Good := h.child (by simp [children])
    have hw := h.wf
    simp only [WF] at hw
    simp only [carry] at h1
    split at h1
    · rename_i hc; exact cont _ _ _ h hi hc h1
    · simp only [byteMaskedCarry, bind_eq_ok] at h1
      obtain ⟨_, _, _, _, d', h1', h1⟩ := h1
      simp only [ok.injEq] at h1; subst h1
      have hin : InRange idx c.len :=
        fun j hj => ⟨(hi j hj).1, by have := (hi j hj).2; simp only [len] at this; omega⟩
      obtain ⟨d, g1, g2, g3⟩ := carry_ok hc.wf lazy hin
      obtain ⟨k1, k2⟩ := ih hc hin d g1
      rw [g1, ok.injEq] at h1'; subst h1'
      have : d.Good := ⟨g2, g3.readable hc.rd hin, k1⟩
      exact ⟨by simpa [children] using this, by simp only [rank]; omega⟩
  | unmasked p c ih =>
    have hc : c.Good := h.child (by simp [children])
    simp only [carry] at h1
    split at h1
    · rename_i hc; exact cont _ _ _ h hi hc h1
    · obtain ⟨d', h1', h1⟩ := bind_eq_ok.mp h1
      simp only [ok.injEq] at h1; subst h1
      simp only [len] at hi
      obtain ⟨d, g1, g2, g3⟩ := carry_ok hc.wf lazy hi
      obtain ⟨k1, k2⟩ := ih hc hi d g1
      rw [g1, ok.injEq] at h1'; subst h1'
      have : d.Good := ⟨g2, g3.readable hc.rd hi, k1⟩
      exact ⟨by simpa [children] using this, by simp only [rank]; omega⟩
  | record p keys cs length ih =>
    have hcs : ∀ d ∈ cs, d.Good := fun d hd => h.child (by simpa [children] using hd)
    have hw := h.wf
    simp only [WF] at hw
    simp only [carry] at h1
    split at h1
    · rename_i hc; exact cont _ _ _ h hi hc.2 h1
    split at h1
    · rename_i hl
      simp only [ok.injEq] at h1; subst h1
      exact ⟨by simpa [children] using h, by simp [rank, hl]⟩
    obtain ⟨cs', h2, h1⟩ := bind_eq_ok.mp h1
    simp only [ok.injEq] at h1; subst h1
    simp only [len] at hi
    have key : ∀ ds ds' : List Content, (∀ d ∈ ds, d ∈ cs) → carryFields lazy ds idx = ok ds' →
        (∀ d ∈ ds', d.Good) ∧ rankAll ds' ≤ rankAll ds + lazy.toNat := by
      intro ds
      induction ds with
      | nil =>
        intro ds' _ hr
        simp only [carryFields, ok.injEq] at hr; subst hr; simp [rankAll]
      | cons d ds ihd =>
        intro ds' hm hr
        simp only [carryFields, bind_eq_ok] at hr
        obtain ⟨d', hd', es, hes, hr⟩ := hr
        simp only [ok.injEq] at hr; subst hr
        have hd := hm d List.mem_cons_self
        have hin : InRange idx d.len :=
          fun j hj => ⟨(hi j hj).1, by have := (hi j hj).2; have := hw.1 d hd; omega⟩
        obtain ⟨d'', g1, g2, g3⟩ := carry_ok (hcs d hd).wf lazy hin
        rw [g1, ok.injEq] at hd'; subst hd'
        obtain ⟨k1, k2⟩ := ih d hd (hcs d hd) hin d'' g1
        obtain ⟨m1, m2⟩ := ihd es (fun e he => hm e (List.mem_cons_of_mem _ he)) hes
        refine ⟨?_, by simp only [rankAll]; omega⟩
        intro e he
        cases he with
        | head => exact ⟨g2, g3.readable (hcs d hd).rd hin, k1⟩
        | tail _ he => exact m1 e he
    obtain ⟨k1, k2⟩ := key cs cs' (fun _ h => h) h2
    exact ⟨by simpa [children] using k1, by simp only [rank]; omega⟩
  | union p tags index cs ih =>
    have hcs : ∀ d ∈ cs, d.Good := fun d hd => h.child (by simpa [children] using hd)
    simp only [carry] at h1
    split at h1
    · rename_i hc; exact cont _ _ _ h hi hc h1
    split at h1
    · simp at h1
    · obtain ⟨_, _, h1⟩ := bind_eq_ok.mp h1
      obtain ⟨_, _, h1⟩ := bind_eq_ok.mp h1
      simp only [ok.injEq] at h1; subst h1
      exact ⟨by simpa [children] using hcs, by simp [rank]⟩

end Content
end Awk
