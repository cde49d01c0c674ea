import Verif.Lemmas.BufferWalk
/-
Ordinary arrays can be read back.
-/

namespace Awk
open R
namespace Content

theorem OrdinaryAll_iff {cs : List Content} : OrdinaryAll cs ↔ ∀ c ∈ cs, c.Ordinary := by
  induction cs with
  | nil => simp [OrdinaryAll]
  | cons c cs ih => simp [OrdinaryAll, ih]

theorem range_storesLength {c d : Content} {a b : Int} (hs : c.StoresLength)
    (h : c.range a b = ok d) : d.StoresLength := by
  induction c using Awk.Content.induct generalizing d a b with
  | empty p => simp only [range, ok.injEq] at h; subst h; trivial
  | numpy p dt data =>
    simp only [range, numpyRange, bind_eq_ok, ok.injEq] at h
    obtain ⟨_, _, rfl⟩ := h; trivial
  | regular p c size zeros ih =>
    simp only [range, bind_eq_ok, ok.injEq] at h
    obtain ⟨c', h1, rfl⟩ := h
    exact ⟨hs.1, ih hs.2 h1⟩
  | listArray p starts stops c ih =>
    simp only [range, bind_eq_ok, ok.injEq] at h
    obtain ⟨_, _, _, _, rfl⟩ := h; trivial
  | listOffset p offsets c ih =>
    simp only [range, bind_eq_ok, ok.injEq] at h
    obtain ⟨_, _, rfl⟩ := h; trivial
  | indexed p index c ih =>
    simp only [range, bind_eq_ok, ok.injEq] at h
    obtain ⟨_, _, rfl⟩ := h; trivial
  | indexedOption p index c ih =>
    simp only [range, bind_eq_ok, ok.injEq] at h
    obtain ⟨_, _, rfl⟩ := h; trivial
  | byteMasked p mask vw c ih =>
    simp only [range, bind_eq_ok, ok.injEq] at h
    obtain ⟨_, _, c', h1, rfl⟩ := h; trivial
  | bitMasked p mask vw length lsb c ih => exact hs.elim
  | unmasked p c ih =>
    simp only [range, bind_eq_ok, ok.injEq] at h
    obtain ⟨c', h1, rfl⟩ := h
    exact ih (d := c') hs h1
  | record p keys cs length ih => exact hs.elim
  | union p tags index cs ih =>
    simp only [range, bind_eq_ok, ok.injEq] at h
    obtain ⟨_, _, _, _, rfl⟩ := h; trivial

theorem idxRange_sub {l l' : List Int} {a b : Int} (h : idxRange l a b = ok l') : ∀ x ∈ l', x ∈ l := by
  unfold idxRange at h
  split at h
  · cases h
  split at h
  · cases h; simp
  split at h
  · cases h
  · cases h
    intro x hx
    exact List.mem_of_mem_drop (List.mem_of_mem_take hx)

theorem range_ordinary {c d : Content} {a b : Int} (hs : c.Ordinary)
    (h : c.range a b = ok d) : d.Ordinary := by
  induction c using Awk.Content.induct generalizing d a b with
  | empty p => simp only [range, ok.injEq] at h; subst h; trivial
  | numpy p dt data =>
    simp only [range, numpyRange, bind_eq_ok, ok.injEq] at h
    obtain ⟨_, _, rfl⟩ := h; trivial
  | regular p c size zeros ih =>
    simp only [range, bind_eq_ok, ok.injEq] at h
    obtain ⟨c', h1, rfl⟩ := h
    exact ih (d := c') hs h1
  | listArray p starts stops c ih =>
    simp only [range, bind_eq_ok, ok.injEq] at h
    obtain ⟨_, _, _, _, rfl⟩ := h; exact hs
  | listOffset p offsets c ih =>
    simp only [range, bind_eq_ok, ok.injEq] at h
    obtain ⟨offs, h1, rfl⟩ := h
    exact ⟨fun x hx => hs.1 x (idxRange_sub h1 x hx), hs.2⟩
  | indexed p index c ih =>
    simp only [range, bind_eq_ok, ok.injEq] at h
    obtain ⟨_, _, rfl⟩ := h; exact hs
  | indexedOption p index c ih =>
    simp only [range, bind_eq_ok, ok.injEq] at h
    obtain ⟨_, _, rfl⟩ := h; exact hs
  | byteMasked p mask vw c ih =>
    simp only [range, bind_eq_ok, ok.injEq] at h
    obtain ⟨_, _, c', h1, rfl⟩ := h
    exact ⟨range_storesLength hs.1 h1, ih hs.2 h1⟩
  | bitMasked p mask vw length lsb c ih =>
    simp only [range, bind_eq_ok, ok.injEq] at h
    obtain ⟨_, _, _, _, c', h1, rfl⟩ := h
    exact ⟨range_storesLength hs.1 h1, ih hs.2 h1⟩
  | unmasked p c ih =>
    simp only [range, bind_eq_ok, ok.injEq] at h
    obtain ⟨c', h1, rfl⟩ := h
    exact ih (d := c') hs h1
  | record p keys cs length ih =>
    simp only [range] at h
    split at h
    · simp only [ok.injEq] at h; subst h; exact hs
    split at h
    · simp only [ok.injEq] at h; subst h; exact hs
    · simp only [bind_eq_ok, ok.injEq] at h
      obtain ⟨ds, h1, rfl⟩ := h
      simp only [Ordinary] at hs ⊢
      refine OrdinaryAll_iff.mpr fun d hd => ?_
      obtain ⟨c, hc, hr⟩ := forall₂_right_mem (rangeFields_forall₂ h1) hd
      exact ih c hc (OrdinaryAll_iff.mp hs c hc) hr
  | union p tags index cs ih =>
    simp only [range, bind_eq_ok, ok.injEq] at h
    obtain ⟨_, _, _, _, rfl⟩ := h; exact hs

theorem rangeFields_total {cs : List Content} {length : Nat} (hg : ∀ c ∈ cs, c.Good)
    (hl : ∀ c ∈ cs, length ≤ c.len) :
    ∃ fields, rangeFields cs 0 length = ok fields ∧
      ∀ d ∈ fields, ∃ c ∈ cs, c.range 0 length = ok d ∧ d.Good ∧ d.rank ≤ c.rank ∧
        d.len = length := by
  induction cs with
  | nil => exact ⟨[], rfl, by simp⟩
  | cons c cs ih =>
    obtain ⟨fields, e, h⟩ := ih (fun d hd => hg d (List.mem_cons_of_mem _ hd))
      (fun d hd => hl d (List.mem_cons_of_mem _ hd))
    obtain ⟨d, e1, e2, e3, e4, _⟩ := range_good (hg c List.mem_cons_self) (Nat.zero_le length)
      (hl c List.mem_cons_self)
    rw [show ((0 : Nat) : Int) = 0 from rfl] at e1
    refine ⟨d :: fields, by simp only [rangeFields]; rw [e1, bind_ok, e, bind_ok], ?_⟩
    intro d' hd'
    rcases List.mem_cons.mp hd' with rfl | hd'
    · exact ⟨c, List.mem_cons_self, e1, e2, e3, by simpa using e4.1⟩
    · obtain ⟨c', hc', h'⟩ := h d' hd'
      exact ⟨c', List.mem_cons_of_mem _ hc', h'⟩

theorem Ordinary.restorable : ∀ (f : Nat) (c : Content) (n : Int), c.rank ≤ f → c.Good →
    c.Ordinary → 0 ≤ n → n ≤ (c.len : Int) → Restorable c n := by
  intro f
  induction f with
  | zero =>
    intro c n hr
    exact absurd hr (by cases c <;> simp [Content.rank])
  | succ f ih =>
    intro c n hr hg ho h0 hle
    cases c with
    | empty p =>
      have : n = 0 := by simp only [len] at hle; omega
      subst this
      exact .empty
    | numpy p dt data => exact .numpy
    | regular p c size zeros =>
      simp only [rank] at hr
      have hc := good_regular.mp hg
      refine .regular (ih c _ (by omega) hc ho (Int.mul_nonneg h0 (by omega)) ?_)
      obtain ⟨m, rfl⟩ := Int.eq_ofNat_of_zero_le h0
      cases m with
      | zero => simp
      | succ m =>
        have := regular_bound (p := p) (c := c) (size := size) (zeros := zeros) (i := m)
          (by omega)
        have : ((m + 1 : Nat) : Int) * (size : Int) = ((m * size + size : Nat) : Int) := by
          push_cast; ring
        rw [this]; omega
    | listArray p starts stops c =>
      simp only [rank] at hr
      obtain ⟨hl, hc, hp⟩ := good_listArray.mp hg
      refine .listArray (ih c _ (by omega) hc ho (above_lists _ _ _).1 ?_)
      refine (above_lists starts stops n.toNat).le (fun x hx => ?_)
      obtain ⟨ab, hab', rfl⟩ := List.mem_map.mp hx
      obtain ⟨hab, hne⟩ := List.mem_filter.mp hab'
      obtain ⟨i, hi, rfl⟩ := List.mem_iff_getElem.mp hab
      simp only [List.length_zip, List.length_take, len] at hi hle
      simp only [List.getElem_zip, List.getElem_take, decide_eq_true_eq] at hne ⊢
      have := hp i (by omega)
      unfold GoodPair at this
      omega
    | listOffset p offsets c =>
      simp only [rank] at hr
      obtain ⟨hl, hc, hp⟩ := good_listOffset.mp hg
      obtain ⟨hx, ho⟩ := ho
      have hlast := List.getLast?_eq_some_getLast (l := offsets)
        (by intro h; subst h; simp at hl)
      have hm := hx _ (List.getLast_mem (l := offsets) (by intro h; subst h; simp at hl))
      exact .listOffset hlast hm.1 hm.2 (ih c _ (by omega) hc ho hm.1 hm.2)
    | indexed p index c =>
      simp only [rank] at hr
      obtain ⟨hc, hp⟩ := good_indexed.mp hg
      refine .indexed (ih c _ (by omega) hc ho (above_index _).1 ((above_index index).le ?_))
      intro x hx
      obtain ⟨i, hi, rfl⟩ := List.mem_iff_getElem.mp hx
      exact (hp i hi).2
    | indexedOption p index c =>
      simp only [rank] at hr
      obtain ⟨hc, hp⟩ := good_indexedOption.mp hg
      refine .indexedOption (ih c _ (by omega) hc ho (above_index _).1 ((above_index index).le ?_))
      intro x hx
      obtain ⟨i, hi, rfl⟩ := List.mem_iff_getElem.mp hx
      exact hp i hi
    | byteMasked p mask vw c =>
      simp only [rank] at hr
      simp only [len] at hle
      obtain ⟨hl, hc⟩ := good_byteMasked.mp hg
      exact .byteMasked (.inr ho.1) (ih c _ (by omega) hc ho.2 h0 (by omega))
    | bitMasked p mask vw length lsb c =>
      simp only [rank] at hr
      simp only [len] at hle
      obtain ⟨_, hl, hc⟩ := good_bitMasked.mp hg
      exact .bitMasked (ih c _ (by omega) hc ho.2 h0 (by omega))
    | unmasked p c =>
      simp only [rank] at hr
      simp only [len] at hle
      exact .unmasked (ih c _ (by omega) (good_unmasked.mp hg) ho h0 hle)
    | record p keys cs length =>
      simp only [rank] at hr
      simp only [len] at hle
      obtain ⟨hl, hc⟩ := good_record.mp hg
      simp only [Ordinary] at ho
      have ho := OrdinaryAll_iff.mp ho
      cases keys with
      | none =>
        refine .tuple fun c h => ?_
        have := rank_le_rankAll h
        have := hl c h
        exact ih c _ (by omega) (hc c h) (ho c h) h0 (by omega)
      | some ks =>
        obtain ⟨fields, e, h⟩ := rangeFields_total hc hl
        refine .record e fun d hd => ?_
        obtain ⟨c, hcm, hrd, h1, h2, h3⟩ := h d hd
        have := rank_le_rankAll hcm
        exact ih d _ (by omega) h1 (range_ordinary (ho c hcm) hrd) h0 (by omega)
    | union p tags index cs =>
      simp only [rank] at hr
      simp only [len] at hle
      obtain ⟨hl, hc, hp⟩ := good_union.mp hg
      simp only [Ordinary] at ho
      have ho := OrdinaryAll_iff.mp ho
      refine .union fun t c htc => ?_
      have hm := List.mem_of_getElem? htc
      have := rank_le_rankAll hm
      refine ih c _ (by omega) (hc c hm) (ho c hm) (above_tag _ _ _ _).1
        ((above_tag tags index t n.toNat).le (fun x hx => ?_))
      obtain ⟨ti, hti, rfl⟩ := List.mem_map.mp hx
      obtain ⟨hti, he⟩ := List.mem_filter.mp hti
      obtain ⟨i, hi, rfl⟩ := List.mem_iff_getElem.mp hti
      simp only [List.length_zip, List.length_take] at hi
      simp only [List.getElem_zip, List.getElem_take, decide_eq_true_eq] at he ⊢
      obtain ⟨g1, g2, g3, g4⟩ := hp i (by omega)
      have ht' : tags[i].toNat = t := by omega
      obtain ⟨ht, htc⟩ := List.getElem?_eq_some_iff.mp htc
      subst htc
      simpa only [ht'] using g4

end Content
end Awk
