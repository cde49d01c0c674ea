import Verif.Lemmas.OptionNext
import Verif.Lemmas.List
/-
Predicates on the shape of an array that gathering elements (`carry`, and `range` from the
beginning) preserves.
-/

namespace Awk
open R

namespace Content

/-- The kind of node: leaf, empty, list, indexed, record, union, option, unmasked. -/
def cls : Content → Nat
  | numpy .. => 0
  | empty .. => 1
  | regular .. | listArray .. | listOffset .. => 2
  | indexed .. => 3
  | record .. => 4
  | union .. => 5
  | indexedOption .. | byteMasked .. | bitMasked .. => 6
  | unmasked .. => 7

/-- What gathering guarantees about the buffers of the new node; when `z` holds, elements are
gathered from the beginning. -/
structure Local (z : Prop) (c' c : Content) : Prop where
  trim : ∀ p k cs n, c' = record p k cs n → ∀ d ∈ cs, d.len = n
  first : ∀ p offs d, c' = listOffset p offs d →
    ∃ p' offs', c = listOffset p' offs' d ∧ (z → offs[0]? = offs'[0]?) ∧ ∀ o ∈ offs, o ∈ offs'
  alts : ∀ p t i cs, c' = union p t i cs → ∃ p' t' i', c = union p' t' i' cs
  reg : ∀ p d s z, c' = regular p d s z → ∃ p' d' z', c = regular p' d' s z'
  width : c'.children.length = c.children.length
  keys : ∀ p k cs n, c' = record p k cs n → ∃ p' cs' n', c = record p' k cs' n'
  params : c'.params = c.params
  leaf : ∀ p dt data, c' = numpy p dt data →
    ∃ p' data', c = numpy p' dt data' ∧ ∀ x ∈ data, x ∈ data'

/-- The family is preserved when a node is rebuilt from gathered children, or (only records) wrapped
by a lazy carry. -/
structure ClosedG (z : Prop) {ι : Type} (P : ι → Content → Prop) : Prop where
  lazy : ∀ {a idx c}, c.cls = 4 → P a c → P a (indexed {} idx c)
  node : ∀ {c' c : Content}, c'.cls = c.cls → Local z c' c →
    (∀ d' ∈ c'.children, ∃ d ∈ c.children, ∀ a, P a d → P a d') → ∀ a, P a c → P a c'

/-- The same for elements gathered from the beginning. -/
abbrev Closed {ι : Type} (P : ι → Content → Prop) : Prop := ClosedG True P

theorem Local.other {z : Prop} {c' c : Content} (h1 : ∀ p k cs n, c' ≠ record p k cs n)
    (h2 : ∀ p offs d, c' ≠ listOffset p offs d) (h3 : ∀ p t i cs, c' ≠ union p t i cs)
    (h4 : ∀ p d s z, c' = regular p d s z → ∃ p' d' z', c = regular p' d' s z' := by simp_all)
    (h5 : c'.children.length = c.children.length := by simp [children])
    (h6 : c'.params = c.params := by rfl)
    (h7 : ∀ p dt data, c' = numpy p dt data →
      ∃ p' data', c = numpy p' dt data' ∧ ∀ x ∈ data, x ∈ data' := by simp) : Local z c' c :=
  ⟨fun _ _ _ _ h => absurd h (h1 _ _ _ _), fun _ _ _ h => absurd h (h2 _ _ _),
    fun _ _ _ _ h => absurd h (h3 _ _ _ _), h4, h5, fun _ _ _ _ h => absurd h (h1 _ _ _ _), h6, h7⟩

theorem rangeFields_length {cs cs' : List Content} {a b : Int} (h : rangeFields cs a b = ok cs') :
    cs'.length = cs.length := by
  induction cs generalizing cs' with
  | nil => simp only [rangeFields, ok.injEq] at h; subst h; rfl
  | cons c cs ih =>
    simp only [rangeFields, bind_eq_ok] at h
    obtain ⟨d, _, ds, h2, h⟩ := h
    simp only [ok.injEq] at h; subst h
    simp [ih h2]

theorem carryFields_length {cs cs' : List Content} {lazy : Bool} {idx : List Int}
    (h : carryFields lazy cs idx = ok cs') : cs'.length = cs.length := by
  induction cs generalizing cs' with
  | nil => simp only [carryFields, ok.injEq] at h; subst h; rfl
  | cons c cs ih =>
    simp only [carryFields, bind_eq_ok] at h
    obtain ⟨d, _, ds, h2, h⟩ := h
    simp only [ok.injEq] at h; subst h
    simp [ih h2]

theorem range_closedG {z : Prop} {ι : Type} {P : ι → Content → Prop} (hP : ClosedG z P) {c : Content}
    (h : c.Good) {a b : Nat} (hz : z → a = 0) (hab : a ≤ b) (hb : b ≤ c.len) {c' : Content}
    (h1 : c.range a b = ok c') : ∀ x, P x c → P x c' := by
  induction c using induct generalizing a b c' with
  | empty p => simp only [range, ok.injEq] at h1; subst h1; exact fun _ h => h
  | numpy p dt data =>
    simp only [range, numpyRange, bind_eq_ok] at h1
    obtain ⟨d, hd, h1⟩ := h1
    simp only [ok.injEq] at h1; subst h1
    refine hP.node rfl (.other (by simp) (by simp) (by simp) (h7 := ?_)) (by simp [children])
    rintro _ _ _ ⟨⟩
    refine ⟨_, _, rfl, ?_⟩
    unfold getitem_range_nowrap at hd
    split at hd
    · simp only [ok.injEq] at hd; subst hd
      exact fun x hx => List.mem_of_mem_drop (List.mem_of_mem_take hx)
    · simp at hd
  | regular p c size zeros ih =>
    have hc : c.Good := h.child (by simp [children])
    simp only [len] at hb
    have hb' : b * size ≤ c.len := by
      by_cases hs : size = 0
      · simp [hs]
      · rw [if_pos hs] at hb
        exact (Nat.le_div_iff_mul_le (by omega)).mp hb
    simp only [range, bind_eq_ok] at h1
    obtain ⟨d, h2, h1⟩ := h1
    simp only [ok.injEq] at h1; subst h1
    rw [show (a : Int) * size = ((a * size : Nat) : Int) by push_cast; rfl,
      show (b : Int) * size = ((b * size : Nat) : Int) by push_cast; rfl] at h2
    exact hP.node rfl (.other (by simp) (by simp) (by simp))
      (by simpa [children] using ih hc (fun hz' => by rw [hz hz']; simp) (Nat.mul_le_mul_right _ hab) hb' h2)
  | listArray p starts stops c ih =>
    simp only [range, bind_eq_ok] at h1
    obtain ⟨d, _, _, _, h1⟩ := h1
    simp only [ok.injEq] at h1; subst h1
    exact hP.node rfl (.other (by simp) (by simp) (by simp)) (by simp [children])
  | listOffset p offsets c ih =>
    have hw := (good_listOffset.mp h).1
    simp only [len] at hb
    simp only [range] at h1
    rw [show ((b : Nat) : Int) + 1 = ((b + 1 : Nat) : Int) by push_cast; rfl,
      idxRange_ok (by omega) (by omega), bind_ok] at h1
    simp only [ok.injEq] at h1; subst h1
    refine hP.node rfl ⟨by simp, ?_, by simp, by simp, by simp [children], by simp, rfl, by simp⟩
      (by simp [children])
    intro p' offs d h
    simp only [listOffset.injEq] at h
    obtain ⟨rfl, rfl, rfl⟩ := h
    refine ⟨_, _, rfl, fun hz' => ?_, fun x hx => List.mem_of_mem_drop (List.mem_of_mem_take hx)⟩
    rw [hz hz']
    simp [List.getElem?_take]
  | indexed p index c ih =>
    simp only [range, bind_eq_ok] at h1
    obtain ⟨d, _, h1⟩ := h1
    simp only [ok.injEq] at h1; subst h1
    exact hP.node rfl (.other (by simp) (by simp) (by simp)) (by simp [children])
  | indexedOption p index c ih =>
    simp only [range, bind_eq_ok] at h1
    obtain ⟨d, _, h1⟩ := h1
    simp only [ok.injEq] at h1; subst h1
    exact hP.node rfl (.other (by simp) (by simp) (by simp)) (by simp [children])
  | byteMasked p mask vw c ih =>
    obtain ⟨hl, hc⟩ := good_byteMasked.mp h
    simp only [len] at hb
    simp only [range, bind_eq_ok] at h1
    obtain ⟨_, _, d', h1', h1⟩ := h1
    simp only [ok.injEq] at h1; subst h1
    exact hP.node rfl (.other (by simp) (by simp) (by simp))
      (by simpa [children] using ih hc hz hab (by omega) h1')
  | bitMasked p mask vw length lsb c ih =>
    obtain ⟨_, hl, hc⟩ := good_bitMasked.mp h
    simp only [len] at hb
    simp only [range, bind_eq_ok] at h1
    obtain ⟨_, _, _, _, d', h1', h1⟩ := h1
    simp only [ok.injEq] at h1; subst h1
    exact hP.node rfl (.other (by simp) (by simp) (by simp))
      (by simpa [children] using ih hc hz hab (by omega) h1')
  | unmasked p c ih =>
    have hc : c.Good := h.child (by simp [children])
    simp only [len] at hb
    simp only [range, bind_eq_ok] at h1
    obtain ⟨d', h1', h1⟩ := h1
    simp only [ok.injEq] at h1; subst h1
    exact hP.node rfl (.other (by simp) (by simp) (by simp))
      (by simpa [children] using ih hc hz hab (by omega) h1')
  | record p keys cs length ih =>
    obtain ⟨hl, hcs⟩ := good_record.mp h
    simp only [len] at hb
    simp only [range] at h1
    split at h1
    · rename_i he
      have : cs = [] := by simpa using he
      subst this
      simp only [ok.injEq] at h1; subst h1
      refine hP.node rfl ⟨?_, by simp, by simp, by simp, by simp [children],
        (by rintro _ _ _ _ ⟨⟩; exact ⟨_, _, _, rfl⟩), rfl, by simp⟩ (by simp [children])
      intro _ _ cs' _ h d hd
      simp only [record.injEq] at h
      obtain ⟨_, _, rfl, _⟩ := h
      simp at hd
    split at h1
    · simp only [ok.injEq] at h1; subst h1
      exact fun _ h => h
    obtain ⟨cs', h2, h1⟩ := bind_eq_ok.mp h1
    simp only [ok.injEq] at h1; subst h1
    have key : ∀ ds ds' : List Content, (∀ d ∈ ds, d ∈ cs) → rangeFields ds a b = ok ds' →
        ∀ d' ∈ ds', d'.len = b - a ∧ ∃ d ∈ cs, ∀ x, P x d → P x d' := by
      intro ds
      induction ds with
      | nil =>
        intro ds' _ hr
        simp only [rangeFields, ok.injEq] at hr; subst hr; simp
      | cons d ds ihd =>
        intro ds' hm hr
        simp only [rangeFields, bind_eq_ok] at hr
        obtain ⟨d', hd', es, hes, hr⟩ := hr
        simp only [ok.injEq] at hr; subst hr
        have hd := hm d List.mem_cons_self
        intro e he
        cases he with
        | head =>
          obtain ⟨d'', g1, g2, g3, _⟩ := range_ok (hcs d hd).wf hab
            (by have := hl d hd; omega)
          rw [g1, ok.injEq] at hd'; subst hd'
          exact ⟨g3.1, d, hd, ih d hd (hcs d hd) hz hab (by have := hl d hd; omega) g1⟩
        | tail _ he => exact ihd es (fun e he => hm e (List.mem_cons_of_mem _ he)) hes e he
    have hk := key cs cs' (fun _ h => h) h2
    have hlen : cs'.length = cs.length := rangeFields_length h2
    refine hP.node rfl ⟨?_, by simp, by simp, by simp, by simpa [children] using hlen,
      (by rintro _ _ _ _ ⟨⟩; exact ⟨_, _, _, rfl⟩), rfl, by simp⟩
      (fun d' hd' => (hk d' (by simpa [children] using hd')).2)
    intro p' k' cs'' n' he
    simp only [record.injEq] at he
    obtain ⟨rfl, rfl, rfl, rfl⟩ := he
    intro d hd
    have := (hk d hd).1
    omega
  | union p tags index cs ih =>
    simp only [range, bind_eq_ok] at h1
    obtain ⟨_, _, _, _, h1⟩ := h1
    simp only [ok.injEq] at h1; subst h1
    exact hP.node rfl ⟨by simp, by simp, by simp, by simp, by simp [children], by simp, rfl, by simp⟩
      (fun d' hd' => ⟨d', by simpa [children] using hd', fun _ h => h⟩)

theorem range_closed {ι : Type} {P : ι → Content → Prop} (hP : Closed P) {c : Content} (h : c.Good)
    {b : Nat} (hb : b ≤ c.len) {c' : Content} (h1 : c.range 0 b = ok c') :
    ∀ a, P a c → P a c' :=
  range_closedG hP h (a := 0) (fun _ => rfl) (by omega) hb h1

theorem carry_closed {z : Prop} {ι : Type} {P : ι → Content → Prop} (hP : ClosedG z P) {c : Content} (h : c.Good)
    {lazy : Bool} {idx : List Int} (hi : InRange idx c.len) {c' : Content}
    (h1 : c.carry lazy idx = ok c') : ∀ a, P a c → P a c' := by
  have cont : ∀ (c c' : Content) (idx : List Int), c.Good → InRange idx c.len →
      isContiguous idx = true →
      (if idx.length = c.len then ok c else c.range 0 idx.length) = ok c' →
      ∀ a, P a c → P a c' := by
    intro c c' idx h hi hc h1
    split at h1
    · simp only [ok.injEq] at h1; subst h1
      exact fun _ h => h
    · have hle : idx.length ≤ c.len := by
        rw [isContiguous_iff] at hc
        by_contra hlt
        have hl : c.len < idx.length := by omega
        have := (hi _ (List.getElem_mem hl)).2
        rw [hc _ hl] at this
        omega
      exact range_closedG hP h (a := 0) (fun _ => rfl) (by omega) hle h1
  induction c using induct generalizing idx c' with
  | empty p =>
    simp only [carry] at h1
    split at h1
    · simp only [ok.injEq] at h1; subst h1; exact fun _ h => h
    · simp at h1
  | numpy p dt data =>
    simp only [carry] at h1
    split at h1
    · rename_i hc; exact cont _ _ _ h hi hc h1
    · obtain ⟨d, hd, h1⟩ := bind_eq_ok.mp h1
      simp only [ok.injEq] at h1; subst h1
      refine hP.node rfl (.other (by simp) (by simp) (by simp) (h7 := ?_)) (by simp [children])
      rintro _ _ _ ⟨⟩
      refine ⟨_, _, rfl, ?_⟩
      obtain ⟨xs, g1, g2, g3⟩ := NumpyArray_getitem_next_null_ok
        (out := List.replicate idx.length (Atom.int (-559038737))) (by simp) hi
      rw [g1, ok.injEq] at hd; subst hd
      intro x hx
      obtain ⟨i, hi', rfl⟩ := List.getElem_of_mem hx
      have := g3 i (by omega)
      rw [rd_nat_ok hi'] at this
      obtain ⟨q, hq, he⟩ := hi.get (show i < idx.length by omega)
      rw [he, rd_nat_ok hq, ok.injEq] at this
      rw [this]; exact List.getElem_mem hq
  | regular p c size zeros ih =>
    have hc : c.Good := h.child (by simp [children])
    simp only [carry] at h1
    split at h1
    · rename_i hc; exact cont _ _ _ h hi hc h1
    · have hal : (alloc ((idx.length : Int) * size)).length = idx.length * size := by
        rw [show ((idx.length : Int) * size) = ((idx.length * size : Nat) : Int) by push_cast; rfl,
          alloc_length]
      obtain ⟨xs, e1, e2, e3⟩ := RegularArray_getitem_carry_ok hal
      have hin : InRange xs c.len := by
        intro x hx
        obtain ⟨k, hk, rfl⟩ := List.getElem_of_mem hx
        have hsz : 0 < size := by
          rcases Nat.eq_zero_or_pos size with h0 | h0
          · rw [e2, h0] at hk; omega
          · exact h0
        have hkd : k / size < idx.length := by
          rw [Nat.div_lt_iff_lt_mul hsz]; omega
        have hkm := Nat.mod_lt k hsz
        have := e3 (k / size) hkd (k % size) hkm
        rw [Nat.div_add_mod' k size, List.getElem?_eq_getElem hk] at this
        injection this with this
        rw [this]
        obtain ⟨q, hq, he⟩ := hi.get hkd
        rw [he]
        have := regular_bound hq
        constructor
        · positivity
        · have : q * size + k % size < c.len := by omega
          exact_mod_cast this
      rw [e1, bind_ok] at h1
      obtain ⟨d, h2, h1⟩ := bind_eq_ok.mp h1
      simp only [ok.injEq] at h1; subst h1
      exact hP.node rfl (.other (by simp) (by simp) (by simp)) (by simpa [children] using ih hc hin h2)
  | listArray p starts stops c ih =>
    simp only [carry] at h1
    split at h1
    · rename_i hc; exact cont _ _ _ h hi hc h1
    split at h1
    · simp at h1
    · obtain ⟨d, _, h1⟩ := bind_eq_ok.mp h1
      simp only [ok.injEq] at h1; subst h1
      exact hP.node rfl (.other (by simp) (by simp) (by simp)) (by simp [children])
  | listOffset p offsets c ih =>
    simp only [carry] at h1
    split at h1
    · rename_i hc; exact cont _ _ _ h hi hc h1
    · obtain ⟨d, _, h1⟩ := bind_eq_ok.mp h1
      simp only [ok.injEq] at h1; subst h1
      exact hP.node rfl (.other (by simp) (by simp) (by simp)) (by simp [children])
  | indexed p index c ih =>
    simp only [carry] at h1
    split at h1
    · rename_i hc; exact cont _ _ _ h hi hc h1
    · obtain ⟨d, _, h1⟩ := bind_eq_ok.mp h1
      simp only [ok.injEq] at h1; subst h1
      exact hP.node rfl (.other (by simp) (by simp) (by simp)) (by simp [children])
  | indexedOption p index c ih =>
    simp only [carry] at h1
    split at h1
    · rename_i hc; exact cont _ _ _ h hi hc h1
    · obtain ⟨d, _, h1⟩ := bind_eq_ok.mp h1
      simp only [ok.injEq] at h1; subst h1
      exact hP.node rfl (.other (by simp) (by simp) (by simp)) (by simp [children])
  | byteMasked p mask vw c ih =>
    obtain ⟨hl, hc⟩ := good_byteMasked.mp h
    simp only [carry] at h1
    split at h1
    · rename_i hc; exact cont _ _ _ h hi hc h1
    · simp only [byteMaskedCarry, bind_eq_ok] at h1
      obtain ⟨_, _, d', h1', h1⟩ := h1
      simp only [ok.injEq] at h1; subst h1
      have hin : InRange idx c.len :=
        fun j hj => ⟨(hi j hj).1, by have := (hi j hj).2; simp only [len] at this; omega⟩
      exact hP.node rfl (.other (by simp) (by simp) (by simp)) (by simpa [children] using ih hc hin h1')
  | bitMasked p mask vw length lsb c ih =>
    obtain ⟨_, hl, hc⟩ := good_bitMasked.mp h
    simp only [carry] at h1
    split at h1
    · rename_i hc; exact cont _ _ _ h hi hc h1
    · simp only [byteMaskedCarry, bind_eq_ok] at h1
      obtain ⟨_, _, _, _, d', h1', h1⟩ := h1
      simp only [ok.injEq] at h1; subst h1
      have hin : InRange idx c.len :=
        fun j hj => ⟨(hi j hj).1, by have := (hi j hj).2; simp only [len] at this; omega⟩
      exact hP.node rfl (.other (by simp) (by simp) (by simp)) (by simpa [children] using ih hc hin h1')
  | unmasked p c ih =>
    have hc : c.Good := h.child (by simp [children])
    simp only [carry] at h1
    split at h1
    · rename_i hc; exact cont _ _ _ h hi hc h1
    · obtain ⟨d', h1', h1⟩ := bind_eq_ok.mp h1
      simp only [ok.injEq] at h1; subst h1
      simp only [len] at hi
      exact hP.node rfl (.other (by simp) (by simp) (by simp)) (by simpa [children] using ih hc hi h1')
  | record p keys cs length ih =>
    obtain ⟨hl, hcs⟩ := good_record.mp h
    simp only [carry] at h1
    split at h1
    · rename_i hc; exact cont _ _ _ h hi hc.2 h1
    split at h1
    · simp only [ok.injEq] at h1; subst h1
      exact fun _ h => hP.lazy rfl h
    obtain ⟨cs', h2, h1⟩ := bind_eq_ok.mp h1
    simp only [ok.injEq] at h1; subst h1
    simp only [len] at hi
    have key : ∀ ds ds' : List Content, (∀ d ∈ ds, d ∈ cs) → carryFields lazy ds idx = ok ds' →
        ∀ d' ∈ ds', d'.len = idx.length ∧ ∃ d ∈ cs, ∀ a, P a d → P a d' := by
      intro ds
      induction ds with
      | nil =>
        intro ds' _ hr
        simp only [carryFields, ok.injEq] at hr; subst hr; simp
      | cons d ds ihd =>
        intro ds' hm hr
        simp only [carryFields, bind_eq_ok] at hr
        obtain ⟨d', hd', es, hes, hr⟩ := hr
        simp only [ok.injEq] at hr; subst hr
        have hd := hm d List.mem_cons_self
        have hin : InRange idx d.len :=
          fun j hj => ⟨(hi j hj).1, by have := (hi j hj).2; have := hl d hd; omega⟩
        intro e he
        cases he with
        | head =>
          obtain ⟨d'', g1, g2, g3⟩ := carry_ok (hcs d hd).wf lazy hin
          rw [g1, ok.injEq] at hd'; subst hd'
          exact ⟨g3.1, d, hd, ih d hd (hcs d hd) hin g1⟩
        | tail _ he => exact ihd es (fun e he => hm e (List.mem_cons_of_mem _ he)) hes e he
    have hk := key cs cs' (fun _ h => h) h2
    have hlen : cs'.length = cs.length := carryFields_length h2
    refine hP.node rfl ⟨?_, by simp, by simp, by simp, by simpa [children] using hlen,
      (by rintro _ _ _ _ ⟨⟩; exact ⟨_, _, _, rfl⟩), rfl, by simp⟩
      (fun d' hd' => (hk d' (by simpa [children] using hd')).2)
    intro p' k' cs'' n' he
    simp only [record.injEq] at he
    obtain ⟨rfl, rfl, rfl, rfl⟩ := he
    exact fun d hd => (hk d hd).1
  | union p tags index cs ih =>
    simp only [carry] at h1
    split at h1
    · rename_i hc; exact cont _ _ _ h hi hc h1
    split at h1
    · simp at h1
    · obtain ⟨_, _, h1⟩ := bind_eq_ok.mp h1
      obtain ⟨_, _, h1⟩ := bind_eq_ok.mp h1
      simp only [ok.injEq] at h1; subst h1
      exact hP.node rfl ⟨by simp, by simp, by simp, by simp, by simp [children], by simp, rfl, by simp⟩
        (fun d' hd' => ⟨d', by simpa [children] using hd', fun _ h => h⟩)

theorem Gathered.closed {z : Prop} {ι : Type} {P : ι → Content → Prop} (hP : ClosedG z P) {c' c : Content} (hc : c.Good)
    (h : Gathered c' c) : ∀ a, P a c → P a c' := by
  rcases h with rfl | ⟨lazy, idx, hi, h1⟩
  · exact fun _ h => h
  · exact carry_closed hP hc hi h1

theorem HasAxis.closed (u e : Bool) : Closed (HasAxis u e) where
  lazy _ h := .thru rfl (by simpa [children] using h)
  node := by
    intro c' c hc _ hd a h
    cases h with
    | here hl =>
      refine .here ?_
      cases c <;> simp only [isListNode, Bool.false_eq_true] at hl <;> cases c' <;>
        first | rfl | (simp [cls] at hc)
    | inside hl h1 hch =>
      refine .inside ?_ h1 (fun d' hd' => ?_)
      · cases c <;> simp only [isListNode, Bool.false_eq_true] at hl <;> cases c' <;>
          first | rfl | (simp [cls] at hc)
      · obtain ⟨d, hd1, hd2⟩ := hd d' hd'
        exact hd2 _ (hch d hd1)
    | thru ht hch =>
      refine .thru ?_ (fun d' hd' => ?_)
      · cases c <;> simp only [isThru, Bool.false_eq_true] at ht <;> cases c' <;>
          first | rfl | exact ht | (simp [cls] at hc)
      · obtain ⟨d, hd1, hd2⟩ := hd d' hd'
        exact hd2 _ (hch d hd1)
    | empty he =>
      cases c' <;> simp [cls] at hc
      exact .empty he

theorem ListLike.closed : Closed (fun _ : Nat => ListLike) where
  lazy _ h := .thru rfl (by simpa [children] using h)
  node := by
    intro c' c hc hlo hd a h
    cases h with
    | list hl =>
      refine .list ?_
      cases c <;> simp only [isListNode, Bool.false_eq_true] at hl <;> cases c' <;>
        first | rfl | (simp [cls] at hc)
    | thru ht hch =>
      refine .thru ?_ (fun d' hd' => ?_)
      · cases c <;> simp only [isOptionOrIndexed, Bool.false_eq_true] at ht <;> cases c' <;>
          first | rfl | (simp [cls] at hc)
      · obtain ⟨d, hd1, hd2⟩ := hd d' hd'
        exact hd2 0 (hch d hd1)
    | union hne hch =>
      cases c' <;> simp [cls] at hc
      obtain ⟨_, _, _, he⟩ := hlo.alts _ _ _ _ rfl
      simp only [Content.union.injEq] at he
      obtain ⟨_, _, _, rfl⟩ := he
      refine .union hne (fun d' hd' => ?_)
      obtain ⟨d, hd1, hd2⟩ := hd d' (by simpa [children] using hd')
      exact hd2 0 (hch d (by simpa [children] using hd1))
    | empty =>
      cases c' <;> simp [cls] at hc
      exact .empty

theorem Trimmed.closed : Closed (fun _ : Nat => AllNodes TrimmedNode) where
  lazy _ h := .mk trivial (by simpa [children] using h)
  node := by
    intro c' c hc hl hd a h
    cases h with
    | mk _ hch =>
      refine .mk ?_ (fun d' hd' => ?_)
      · cases c' <;> try trivial
        exact hl.trim _ _ _ _ rfl
      · obtain ⟨d, hd1, hd2⟩ := hd d' hd'
        exact hd2 0 (hch d hd1)

theorem ZeroBased.closed : Closed (fun _ : Nat => AllNodes ZeroBasedNode) where
  lazy _ h := .mk trivial (by simpa [children] using h)
  node := by
    intro c' c hc hl hd a h
    cases h with
    | mk h0 hch =>
      refine .mk ?_ (fun d' hd' => ?_)
      · cases c' <;> try trivial
        obtain ⟨p', offs', rfl, he, _⟩ := hl.first _ _ _ rfl
        simp only [ZeroBasedNode] at h0 ⊢
        rw [he trivial]; exact h0
      · obtain ⟨d, hd1, hd2⟩ := hd d' hd'
        exact hd2 0 (hch d hd1)

end Content
end Awk
