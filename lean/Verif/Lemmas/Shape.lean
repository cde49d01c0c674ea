import Verif.Lemmas.MergeShape
import Verif.Spec.Shape
/-
The validity check of an array, split into the part about its buffers (`Good`) and the part about
its parameters and the nesting of its nodes (`layout`). Cutting and gathering keep both.
-/

namespace Awk
open R

namespace Content

mutual
/-- `validity` without the checks of the buffers. -/
def layout : Content → R Unit
  | empty p => paramsOk p false
  | numpy p _ _ => paramsOk p false
  | regular p c _ _ => paramsOkList p c >>= fun _ =>
    if p.arr = .string ∨ p.arr = .bytestring then ok () else c.layout
  | listArray p _ _ c => paramsOkList p c >>= fun _ =>
    if p.arr = .string ∨ p.arr = .bytestring then ok () else c.layout
  | listOffset p _ c => paramsOkList p c >>= fun _ =>
    if p.arr = .string ∨ p.arr = .bytestring then ok () else c.layout
  | indexed p _ c => paramsOk p true >>= fun _ => c.nestedOk >>= fun _ => c.layout
  | indexedOption p _ c => paramsOk p true >>= fun _ => c.nestedOk >>= fun _ => c.layout
  | byteMasked p _ _ c => paramsOk p false >>= fun _ => c.nestedOk >>= fun _ => c.layout
  | bitMasked p _ _ _ _ c => paramsOk p false >>= fun _ => c.nestedOk >>= fun _ => c.layout
  | unmasked p c => paramsOk p false >>= fun _ => c.nestedOk >>= fun _ => c.layout
  | record p _ cs _ => paramsOk p false >>= fun _ => layoutAll cs
  | union p _ _ cs => paramsOk p false >>= fun _ =>
    if cs.any isUnion then err "might have forgotten to call 'simplify_uniontype()'"
    else layoutAll cs
/-- `layout` of every content. -/
def layoutAll : List Content → R Unit
  | [] => ok ()
  | c :: cs => c.layout >>= fun _ => layoutAll cs
end

theorem layoutAll_ok {cs : List Content} :
    layoutAll cs = ok () ↔ ∀ c ∈ cs, c.layout = ok () := by
  induction cs with
  | nil => simp [layoutAll]
  | cons c cs ih =>
    simp only [layoutAll, bind_eq_ok, ih, List.forall_mem_cons]
    exact ⟨fun ⟨_, h1, h2⟩ => ⟨h1, h2⟩, fun ⟨h1, h2⟩ => ⟨(), h1, h2⟩⟩

theorem layout_of_validity {c : Content} (h : c.validity = ok ()) : c.layout = ok () := by
  induction c using induct with
  | empty p => exact h
  | numpy p dt data => exact h
  | regular p c size zeros ih =>
    simp only [validity, layout, bind_eq_ok] at h ⊢
    obtain ⟨_, h1, h2⟩ := h
    refine ⟨(), h1, ?_⟩
    split <;> simp_all
  | listArray p starts stops c ih =>
    simp only [validity, layout, bind_eq_ok] at h ⊢
    obtain ⟨_, h1, h2⟩ := h
    refine ⟨(), h1, ?_⟩
    split at h2
    · simp at h2
    · simp only [bind_eq_ok] at h2
      obtain ⟨_, _, h2⟩ := h2
      split <;> simp_all
  | listOffset p offsets c ih =>
    simp only [validity, layout, bind_eq_ok] at h ⊢
    obtain ⟨_, h1, h2⟩ := h
    refine ⟨(), h1, ?_⟩
    split at h2
    · simp at h2
    · simp only [bind_eq_ok] at h2
      obtain ⟨_, _, h2⟩ := h2
      split <;> simp_all
  | indexed p index c ih =>
    simp only [validity, layout, bind_eq_ok] at h ⊢
    obtain ⟨_, h1, _, _, _, h3, h4⟩ := h
    exact ⟨(), h1, (), h3, ih h4⟩
  | indexedOption p index c ih =>
    simp only [validity, layout, bind_eq_ok] at h ⊢
    obtain ⟨_, h1, _, _, _, h3, h4⟩ := h
    exact ⟨(), h1, (), h3, ih h4⟩
  | byteMasked p mask vw c ih =>
    simp only [validity, layout, bind_eq_ok] at h ⊢
    obtain ⟨_, h1, h2⟩ := h
    split at h2
    · simp at h2
    · simp only [bind_eq_ok] at h2
      obtain ⟨_, h3, h4⟩ := h2
      exact ⟨(), h1, (), h3, ih h4⟩
  | bitMasked p mask vw length lsb c ih =>
    simp only [validity, layout, bind_eq_ok] at h ⊢
    obtain ⟨_, h1, h2⟩ := h
    split at h2
    · simp at h2
    · split at h2
      · simp at h2
      · simp only [bind_eq_ok] at h2
        obtain ⟨_, h3, h4⟩ := h2
        exact ⟨(), h1, (), h3, ih h4⟩
  | unmasked p c ih =>
    simp only [validity, layout, bind_eq_ok] at h ⊢
    obtain ⟨_, h1, _, h3, h4⟩ := h
    exact ⟨(), h1, (), h3, ih h4⟩
  | record p keys cs length ih =>
    simp only [validity, layout, bind_eq_ok] at h ⊢
    obtain ⟨_, h1, h2⟩ := h
    split at h2
    · simp at h2
    · exact ⟨(), h1, layoutAll_ok.mpr fun c hc => ih c hc (validityAll_ok.mp h2 c hc)⟩
  | union p tags index cs ih =>
    simp only [validity, layout, bind_eq_ok] at h ⊢
    obtain ⟨_, h1, h2⟩ := h
    refine ⟨(), h1, ?_⟩
    split at h2
    · simp at h2
    · rename_i hu
      rw [if_neg hu]
      split at h2
      · simp at h2
      · simp only [bind_eq_ok] at h2
        obtain ⟨_, _, h2⟩ := h2
        exact layoutAll_ok.mpr fun c hc => ih c hc (validityAll_ok.mp h2 c hc)

theorem validity_of_layout {c : Content} (hg : c.Good) (h : c.layout = ok ()) :
    c.validity = ok () := by
  induction c using induct with
  | empty p => exact h
  | numpy p dt data => exact h
  | regular p c size zeros ih =>
    simp only [validity, layout, bind_eq_ok] at h ⊢
    obtain ⟨_, h1, h2⟩ := h
    refine ⟨(), h1, ?_⟩
    have := good_regular.mp hg
    split <;> simp_all
  | listArray p starts stops c ih =>
    simp only [validity, layout, bind_eq_ok] at h ⊢
    obtain ⟨_, h1, h2⟩ := h
    obtain ⟨hl, hc, hp⟩ := good_listArray.mp hg
    refine ⟨(), h1, ?_⟩
    rw [if_neg (by omega), bind_eq_ok]
    refine ⟨(), (ListArray_validity_ok (by omega) hl).mpr hp, ?_⟩
    split <;> simp_all
  | listOffset p offsets c ih =>
    simp only [validity, layout, bind_eq_ok] at h ⊢
    obtain ⟨_, h1, h2⟩ := h
    obtain ⟨hl, hc, hp⟩ := good_listOffset.mp hg
    refine ⟨(), h1, ?_⟩
    rw [if_neg (by omega), bind_eq_ok]
    refine ⟨(), (ListArray_validity_ok (by simp [makeStarts]) (by simp [makeStops])).mpr ?_, ?_⟩
    · intro i hi
      simpa [makeStarts, makeStops, Nat.add_comm] using hp i (by omega)
    · split <;> simp_all
  | indexed p index c ih =>
    simp only [validity, layout, bind_eq_ok] at h ⊢
    obtain ⟨_, h1, _, h3, h4⟩ := h
    obtain ⟨hc, hp⟩ := good_indexed.mp hg
    exact ⟨(), h1, (), IndexedArray_validity_ok.mpr fun i hi => ⟨(hp i hi).2, fun _ => (hp i hi).1⟩,
      (), h3, ih hc h4⟩
  | indexedOption p index c ih =>
    simp only [validity, layout, bind_eq_ok] at h ⊢
    obtain ⟨_, h1, _, h3, h4⟩ := h
    obtain ⟨hc, hp⟩ := good_indexedOption.mp hg
    exact ⟨(), h1, (), IndexedArray_validity_ok.mpr fun i hi => ⟨hp i hi, by simp⟩,
      (), h3, ih hc h4⟩
  | byteMasked p mask vw c ih =>
    simp only [validity, layout, bind_eq_ok] at h ⊢
    obtain ⟨_, h1, _, h3, h4⟩ := h
    obtain ⟨hl, hc⟩ := good_byteMasked.mp hg
    refine ⟨(), h1, ?_⟩
    rw [if_neg (by omega), bind_eq_ok]
    exact ⟨(), h3, ih hc h4⟩
  | bitMasked p mask vw length lsb c ih =>
    simp only [validity, layout, bind_eq_ok] at h ⊢
    obtain ⟨_, h1, _, h3, h4⟩ := h
    obtain ⟨hl, hl', hc⟩ := good_bitMasked.mp hg
    refine ⟨(), h1, ?_⟩
    rw [if_neg (by omega), if_neg (by omega), bind_eq_ok]
    exact ⟨(), h3, ih hc h4⟩
  | unmasked p c ih =>
    simp only [validity, layout, bind_eq_ok] at h ⊢
    obtain ⟨_, h1, _, h3, h4⟩ := h
    exact ⟨(), h1, (), h3, ih (good_unmasked.mp hg) h4⟩
  | record p keys cs length ih =>
    simp only [validity, layout, bind_eq_ok] at h ⊢
    obtain ⟨_, h1, h2⟩ := h
    obtain ⟨hl, hc⟩ := good_record.mp hg
    refine ⟨(), h1, ?_⟩
    rw [if_neg (by
      simp only [List.any_eq_true, decide_eq_true_eq, not_exists, not_and]
      intro c hc; have := hl c hc; omega)]
    exact validityAll_ok.mpr fun c hm => ih c hm (hc c hm) (layoutAll_ok.mp h2 c hm)
  | union p tags index cs ih =>
    simp only [validity, layout, bind_eq_ok] at h ⊢
    obtain ⟨_, h1, h2⟩ := h
    obtain ⟨hl, hc, hp⟩ := good_union.mp hg
    refine ⟨(), h1, ?_⟩
    split at h2
    · simp at h2
    · rename_i hu
      rw [if_neg hu, if_neg (by omega), bind_eq_ok]
      exact ⟨(), (UnionArray_validity_ok hl).mpr hp,
        validityAll_ok.mpr fun c hm => ih c hm (hc c hm) (layoutAll_ok.mp h2 c hm)⟩

theorem validity_iff {c : Content} : c.validity = ok () ↔ c.Good ∧ c.layout = ok () :=
  ⟨fun h => ⟨good_of_validity h, layout_of_validity h⟩, fun h => validity_of_layout h.1 h.2⟩

/-- What the checks of a node ask about its contents. -/
structure Similar (c' c : Content) : Prop where
  option : c'.isOptionOrIndexed = c.isOptionOrIndexed
  union : c'.isUnion = c.isUnion
  string : ∀ k, stringContentOk k c' = stringContentOk k c

theorem Similar.refl (c : Content) : Similar c c := ⟨rfl, rfl, fun _ => rfl⟩

theorem Similar.nested {c' c : Content} (h : Similar c' c) : c'.nestedOk = c.nestedOk := by
  simp only [nestedOk, h.option]

theorem Similar.list {c' c : Content} (h : Similar c' c) (p : Params) :
    paramsOkList p c' = paramsOkList p c := by
  simp only [paramsOkList, h.string]

/-- A list node over similar contents. -/
theorem list_layout {p : Params} {c c' : Content} (h : (paramsOkList p c >>= fun _ =>
      if p.arr = .string ∨ p.arr = .bytestring then ok () else c.layout) = ok ())
    (hs : p.arr ≠ .none → Similar c' c) (hc : c.layout = ok () → c'.layout = ok ()) :
    (paramsOkList p c' >>= fun _ =>
      if p.arr = .string ∨ p.arr = .bytestring then ok () else c'.layout) = ok () := by
  simp only [bind_eq_ok] at h ⊢
  obtain ⟨_, h1, h2⟩ := h
  by_cases hp : p.arr = .none
  · refine ⟨(), by simp [paramsOkList, hp], ?_⟩
    simp only [hp, reduceCtorEq, or_self, if_false] at h2 ⊢
    exact hc h2
  · refine ⟨(), by rw [(hs hp).list]; exact h1, ?_⟩
    rcases paramsOkList_content h1 h2 with ⟨h3, _⟩ | ⟨h3, _⟩
    · rw [if_pos h3]
    · exact absurd h3 hp

/-- A mask or index over similar contents. -/
theorem option_layout {x : R Unit} {c c' : Content} (hs : Similar c' c)
    (hc : c.layout = ok () → c'.layout = ok ())
    (h : (x >>= fun _ => c.nestedOk >>= fun _ => c.layout) = ok ()) :
    (x >>= fun _ => c'.nestedOk >>= fun _ => c'.layout) = ok () := by
  simp only [bind_eq_ok, hs.nested] at h ⊢
  obtain ⟨_, h1, _, h2, h3⟩ := h
  exact ⟨(), h1, (), h2, hc h3⟩

theorem rangeFields_layout {cs cs' : List Content} {a b : Int}
    (ih : ∀ c ∈ cs, ∀ {a b : Int} {c'}, c.range a b = ok c' →
      Similar c' c ∧ (c.layout = ok () → c'.layout = ok ()))
    (h : rangeFields cs a b = ok cs') (hs : ∀ c ∈ cs, c.layout = ok ()) :
    ∀ c ∈ cs', c.layout = ok () := by
  induction cs generalizing cs' with
  | nil => simp only [rangeFields, ok.injEq] at h; subst h; simp
  | cons c cs ihc =>
    simp only [rangeFields, bind_eq_ok, ok.injEq] at h
    obtain ⟨c', h1, ds, h2, rfl⟩ := h
    simp only [List.forall_mem_cons] at ih hs ⊢
    exact ⟨(ih.1 h1).2 hs.1, ihc ih.2 h2 hs.2⟩

theorem range_layout {c c' : Content} {a b : Int} (h : c.range a b = ok c') :
    Similar c' c ∧ (c.layout = ok () → c'.layout = ok ()) := by
  induction c using induct generalizing a b c' with
  | empty p => simp only [range, ok.injEq] at h; subst h; exact ⟨.refl _, id⟩
  | numpy p dt data =>
    simp only [range, numpyRange, bind_eq_ok, ok.injEq] at h
    obtain ⟨d, _, rfl⟩ := h
    exact ⟨⟨rfl, rfl, fun _ => rfl⟩, fun h => h⟩
  | regular p c size zeros ih =>
    simp only [range, bind_eq_ok, ok.injEq] at h
    obtain ⟨d, h1, rfl⟩ := h
    obtain ⟨g1, g2⟩ := ih h1
    exact ⟨⟨rfl, rfl, fun _ => rfl⟩, fun h => list_layout h (fun _ => g1) g2⟩
  | listArray p starts stops c ih =>
    simp only [range, bind_eq_ok, ok.injEq] at h
    obtain ⟨_, _, _, _, rfl⟩ := h
    exact ⟨⟨rfl, rfl, fun _ => rfl⟩, fun h => h⟩
  | listOffset p offsets c ih =>
    simp only [range, bind_eq_ok, ok.injEq] at h
    obtain ⟨_, _, rfl⟩ := h
    exact ⟨⟨rfl, rfl, fun _ => rfl⟩, fun h => h⟩
  | indexed p index c ih =>
    simp only [range, bind_eq_ok, ok.injEq] at h
    obtain ⟨_, _, rfl⟩ := h
    exact ⟨⟨rfl, rfl, fun _ => rfl⟩, fun h => h⟩
  | indexedOption p index c ih =>
    simp only [range, bind_eq_ok, ok.injEq] at h
    obtain ⟨_, _, rfl⟩ := h
    exact ⟨⟨rfl, rfl, fun _ => rfl⟩, fun h => h⟩
  | byteMasked p mask vw c ih =>
    simp only [range, bind_eq_ok, ok.injEq] at h
    obtain ⟨_, _, d, h1, rfl⟩ := h
    obtain ⟨g1, g2⟩ := ih h1
    exact ⟨⟨rfl, rfl, fun _ => rfl⟩, option_layout g1 g2⟩
  | bitMasked p mask vw length lsb c ih =>
    simp only [range, bind_eq_ok, ok.injEq] at h
    obtain ⟨_, _, _, _, d, h1, rfl⟩ := h
    obtain ⟨g1, g2⟩ := ih h1
    exact ⟨⟨rfl, rfl, fun _ => rfl⟩, option_layout g1 g2⟩
  | unmasked p c ih =>
    simp only [range, bind_eq_ok, ok.injEq] at h
    obtain ⟨d, h1, rfl⟩ := h
    obtain ⟨g1, g2⟩ := ih h1
    exact ⟨⟨rfl, rfl, fun _ => rfl⟩, option_layout g1 g2⟩
  | record p keys cs length ih =>
    simp only [range] at h
    split at h
    · simp only [ok.injEq] at h; subst h
      exact ⟨⟨rfl, rfl, fun _ => rfl⟩, fun h => h⟩
    · split at h
      · simp only [ok.injEq] at h; subst h
        exact ⟨⟨rfl, rfl, fun _ => rfl⟩, fun h => h⟩
      · simp only [bind_eq_ok, ok.injEq] at h
        obtain ⟨cs', h1, rfl⟩ := h
        refine ⟨⟨rfl, rfl, fun _ => rfl⟩, fun h => ?_⟩
        simp only [layout, bind_eq_ok] at h ⊢
        obtain ⟨_, h2, h3⟩ := h
        exact ⟨(), h2, layoutAll_ok.mpr (rangeFields_layout (fun c hc _ _ _ h => ih c hc h) h1
          (layoutAll_ok.mp h3))⟩
  | union p tags index cs ih =>
    simp only [range, bind_eq_ok, ok.injEq] at h
    obtain ⟨_, _, _, _, rfl⟩ := h
    exact ⟨⟨rfl, rfl, fun _ => rfl⟩, fun h => h⟩

theorem carryFields_layout {cs cs' : List Content} {lazy : Bool} {idx : List Int}
    (ih : ∀ c ∈ cs, ∀ {idx : List Int} {c'}, c.carry lazy idx = ok c' →
      (c.layout = ok () → c'.layout = ok ()))
    (h : carryFields lazy cs idx = ok cs') (hs : ∀ c ∈ cs, c.layout = ok ()) :
    ∀ c ∈ cs', c.layout = ok () := by
  induction cs generalizing cs' with
  | nil => simp only [carryFields, ok.injEq] at h; subst h; simp
  | cons c cs ihc =>
    simp only [carryFields, bind_eq_ok, ok.injEq] at h
    obtain ⟨c', h1, ds, h2, rfl⟩ := h
    simp only [List.forall_mem_cons] at ih hs ⊢
    exact ⟨ih.1 h1 hs.1, ihc ih.2 h2 hs.2⟩

/-- The contiguous case of `carry`. -/
theorem contiguous_layout {c c' : Content} {n : Nat}
    (h : (if n = c.len then ok c else c.range 0 n) = ok c') :
    Similar c' c ∧ (c.layout = ok () → c'.layout = ok ()) := by
  split at h
  · simp only [ok.injEq] at h; subst h; exact ⟨.refl _, id⟩
  · exact range_layout h

theorem carry_layout {lazy : Bool} {c c' : Content} {idx : List Int}
    (hl : lazy = false ∨ AllNodes MaskNode c) (h : c.carry lazy idx = ok c') :
    (lazy = false ∨ c.isRecord = false → Similar c' c) ∧ (c.layout = ok () → c'.layout = ok ()) := by
  induction c using induct generalizing idx c' with
  | empty p =>
    simp only [carry] at h
    split at h
    · simp only [ok.injEq] at h; subst h; exact ⟨fun _ => .refl _, id⟩
    · simp at h
  | numpy p dt data =>
    simp only [carry] at h
    split at h
    · obtain ⟨g1, g2⟩ := contiguous_layout h; exact ⟨fun _ => g1, g2⟩
    simp only [bind_eq_ok, ok.injEq] at h
    obtain ⟨d, _, rfl⟩ := h
    exact ⟨fun _ => ⟨rfl, rfl, fun _ => rfl⟩, fun h => h⟩
  | regular p c size zeros ih =>
    simp only [carry] at h
    split at h
    · obtain ⟨g1, g2⟩ := contiguous_layout h; exact ⟨fun _ => g1, g2⟩
    simp only [bind_eq_ok, ok.injEq] at h
    obtain ⟨_, _, d, h1, rfl⟩ := h
    obtain ⟨g1, g2⟩ := ih (hl.imp_right fun h => h.child (by simp [children])) h1
    refine ⟨fun _ => ⟨rfl, rfl, fun _ => rfl⟩, fun h => list_layout h (fun hp => g1 (.inr ?_)) g2⟩
    simp only [layout, bind_eq_ok] at h
    obtain ⟨_, e1, e2⟩ := h
    rcases paramsOkList_content e1 e2 with ⟨_, _, _, rfl, _⟩ | ⟨h3, _⟩
    · rfl
    · exact absurd h3 hp
  | listArray p starts stops c ih =>
    simp only [carry] at h
    split at h
    · obtain ⟨g1, g2⟩ := contiguous_layout h; exact ⟨fun _ => g1, g2⟩
    split at h
    · simp at h
    simp only [bind_eq_ok, ok.injEq] at h
    obtain ⟨_, _, rfl⟩ := h
    exact ⟨fun _ => ⟨rfl, rfl, fun _ => rfl⟩, fun h => h⟩
  | listOffset p offsets c ih =>
    simp only [carry] at h
    split at h
    · obtain ⟨g1, g2⟩ := contiguous_layout h; exact ⟨fun _ => g1, g2⟩
    simp only [bind_eq_ok, ok.injEq] at h
    obtain ⟨_, _, rfl⟩ := h
    exact ⟨fun _ => ⟨rfl, rfl, fun _ => rfl⟩, fun h => h⟩
  | indexed p index c ih =>
    simp only [carry] at h
    split at h
    · obtain ⟨g1, g2⟩ := contiguous_layout h; exact ⟨fun _ => g1, g2⟩
    simp only [bind_eq_ok, ok.injEq] at h
    obtain ⟨_, _, rfl⟩ := h
    exact ⟨fun _ => ⟨rfl, rfl, fun _ => rfl⟩, fun h => h⟩
  | indexedOption p index c ih =>
    simp only [carry] at h
    split at h
    · obtain ⟨g1, g2⟩ := contiguous_layout h; exact ⟨fun _ => g1, g2⟩
    simp only [bind_eq_ok, ok.injEq] at h
    obtain ⟨_, _, rfl⟩ := h
    exact ⟨fun _ => ⟨rfl, rfl, fun _ => rfl⟩, fun h => h⟩
  | byteMasked p mask vw c ih =>
    simp only [carry] at h
    split at h
    · obtain ⟨g1, g2⟩ := contiguous_layout h; exact ⟨fun _ => g1, g2⟩
    simp only [byteMaskedCarry, bind_eq_ok, ok.injEq] at h
    obtain ⟨_, _, d, h1, rfl⟩ := h
    obtain ⟨g1, g2⟩ := ih (hl.imp_right fun h => h.child (by simp [children])) h1
    exact ⟨fun _ => ⟨rfl, rfl, fun _ => rfl⟩,
      option_layout (g1 (hl.imp_right fun h => h.here)) g2⟩
  | bitMasked p mask vw length lsb c ih =>
    simp only [carry] at h
    split at h
    · obtain ⟨g1, g2⟩ := contiguous_layout h; exact ⟨fun _ => g1, g2⟩
    simp only [byteMaskedCarry, bind_eq_ok, ok.injEq] at h
    obtain ⟨_, _, _, _, d, h1, rfl⟩ := h
    obtain ⟨g1, g2⟩ := ih (hl.imp_right fun h => h.child (by simp [children])) h1
    exact ⟨fun _ => ⟨rfl, rfl, fun _ => rfl⟩,
      option_layout (g1 (hl.imp_right fun h => h.here)) g2⟩
  | unmasked p c ih =>
    simp only [carry] at h
    split at h
    · obtain ⟨g1, g2⟩ := contiguous_layout h; exact ⟨fun _ => g1, g2⟩
    simp only [bind_eq_ok, ok.injEq] at h
    obtain ⟨d, h1, rfl⟩ := h
    obtain ⟨g1, g2⟩ := ih (hl.imp_right fun h => h.child (by simp [children])) h1
    exact ⟨fun _ => ⟨rfl, rfl, fun _ => rfl⟩,
      option_layout (g1 (hl.imp_right fun h => h.here)) g2⟩
  | record p keys cs length ih =>
    simp only [carry] at h
    split at h
    · obtain ⟨g1, g2⟩ := contiguous_layout h; exact ⟨fun _ => g1, g2⟩
    split at h
    · rename_i hz
      simp only [ok.injEq] at h; subst h
      refine ⟨fun hn => by simp [hz, isRecord] at hn, fun h => ?_⟩
      simp only [layout, paramsOk, nestedOk, isOptionOrIndexed, Bool.false_eq_true, if_false,
        bind_ok] at h ⊢
      exact h
    · simp only [bind_eq_ok, ok.injEq] at h
      obtain ⟨cs', h1, rfl⟩ := h
      refine ⟨fun _ => ⟨rfl, rfl, fun _ => rfl⟩, fun h => ?_⟩
      simp only [layout, bind_eq_ok] at h ⊢
      obtain ⟨_, h2, h3⟩ := h
      exact ⟨(), h2, layoutAll_ok.mpr (carryFields_layout (fun c hc _ _ h =>
        (ih c hc (hl.imp_right fun h => h.child (by simpa [children] using hc)) h).2) h1
        (layoutAll_ok.mp h3))⟩
  | union p tags index cs ih =>
    simp only [carry] at h
    split at h
    · obtain ⟨g1, g2⟩ := contiguous_layout h; exact ⟨fun _ => g1, g2⟩
    split at h
    · simp at h
    simp only [bind_eq_ok, ok.injEq] at h
    obtain ⟨_, _, _, _, rfl⟩ := h
    exact ⟨fun _ => ⟨rfl, rfl, fun _ => rfl⟩, fun h => h⟩

end Content
end Awk
