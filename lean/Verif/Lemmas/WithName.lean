import Verif.Model.WithName
import Verif.Spec.WithName
import Verif.Lemmas.ApplyLevel
import Verif.Lemmas.Like
/-
Lemmas for `ak.with_name`.
-/

namespace Awk
open R

namespace Content

theorem withNameGet_applies {name : String} {c : Content} (hg : c.Good) (d : Nat) :
    Applies (withNameGet name) (fun _ v => v) d () c := by
  induction c using induct generalizing d with
  | empty p => exact .pass rfl passes_id (fun e he => by simp [children] at he)
  | numpy p dt data => exact .pass rfl passes_id (fun e he => by simp [children] at he)
  | regular p c _ _ ih | listArray p _ _ c ih | listOffset p _ c ih | indexed p _ c ih | indexedOption p _ c ih
  | byteMasked p _ _ c ih | bitMasked p _ _ _ _ c ih | unmasked p c ih =>
    refine .pass rfl passes_id (fun e he => ?_)
    have hm := hg.child he
    simp only [children, List.mem_singleton] at he
    subst he
    exact ih hm _
  | record p keys cs length ih =>
    refine .stop rfl ?_
    have hg' : (record { p with recName := some name } keys cs length).Good :=
      good_record.mpr (good_record.mp hg)
    refine ⟨⟨hg', Nat.le_refl _, fun i hi => ?_⟩, fun _ => rfl⟩
    simp only [len] at hi
    rw [valD_record hg' hi, valD_record hg hi]
  | union p tags index cs ih =>
    refine .pass rfl passes_id (fun e he => ?_)
    have hm := hg.child he
    simp only [children] at he
    exact ih e he hm _

theorem withNameSimplify_applies {same : Content → Content → Bool} {c : Content} (hg : c.Good)
    (hn : AllNodes Nameable c) (d : Nat) : Applies (withNameSimplify same) (fun _ v => v) d () c := by
  induction c using induct generalizing d with
  | empty p => exact .pass rfl passes_id (fun e he => by simp [children] at he)
  | numpy p dt data => exact .pass rfl passes_id (fun e he => by simp [children] at he)
  | regular p c _ _ ih | listArray p _ _ c ih | listOffset p _ c ih | indexed p _ c ih | indexedOption p _ c ih
  | byteMasked p _ _ c ih | bitMasked p _ _ _ _ c ih | unmasked p c ih =>
    refine .pass rfl passes_id (fun e he => ?_)
    have hm := hg.child he
    have hn' := hn.child he
    simp only [children, List.mem_singleton] at he
    subst he
    exact ih hm hn' _
  | record p keys cs length ih =>
    refine .pass rfl passes_id (fun e he => ?_)
    have hm := hg.child he
    have hn' := hn.child he
    simp only [children] at he
    exact ih e he hm hn' _
  | union p tags index cs ih => exact absurd rfl (hn.here.1 _ _ _ _)

theorem setParams_same (f : Params → Params) (hf : ∀ p, f p = p) (t : AkType) : t.setParams f = t := by
  cases t <;> simp only [AkType.setParams, hf]

theorem indexedParams_empty {p : Params} (h : p.isEmpty = true) (q : Params) : indexedParams p q = q := by
  unfold indexedParams
  rw [if_pos h]

/-- The first pass names the outermost records of the type. -/
theorem withNameGet_type {name : String} {ts : List (String × String)} {c : Content}
    (hp : AllNodes Nameable c) : ∀ {d : Nat} {out : Content}, apply (withNameGet name) d () c = ok out →
      out.form.type ts = (c.form.type ts).named ts name ∧ AllNodes Nameable out := by
  induction c using induct with
  | empty p =>
    intro d out h
    simp only [apply, withNameGet, bind_ok, custom, ok.injEq] at h
    subst h
    exact ⟨by simp [form, Form.type, AkType.named], hp⟩
  | numpy p dt data =>
    intro d out h
    simp only [apply, withNameGet, bind_ok, custom, ok.injEq] at h
    subst h
    exact ⟨by simp [form, Form.type, AkType.named], hp⟩
  | indexed p index c ih =>
    intro d out h
    simp only [apply, withNameGet, bind_ok, custom, bind_eq_ok, ok.injEq] at h
    obtain ⟨e, h3, rfl⟩ := h
    obtain ⟨h4, h5⟩ := ih (hp.child (by simp [children])) h3
    have he := hp.here.2 p index c rfl
    refine ⟨?_, .mk ⟨by simp, fun p' i' d' hh => ?_⟩ (by simpa [children] using h5)⟩
    · simp only [form, Form.type, h4]
      rw [setParams_same _ (indexedParams_empty he), setParams_same _ (indexedParams_empty he)]
    · cases hh; exact he
  | regular p c _ _ ih | listArray p _ _ c ih | listOffset p _ c ih | indexedOption p _ c ih
  | byteMasked p _ _ c ih | bitMasked p _ _ _ _ c ih | unmasked p c ih =>
    intro d out h
    simp only [apply, withNameGet, bind_ok, custom, bind_eq_ok, ok.injEq] at h
    obtain ⟨e, h3, rfl⟩ := h
    obtain ⟨h4, h5⟩ := ih (hp.child (by simp [children])) h3
    exact ⟨by simp only [form, Form.type, AkType.named, h4], .mk ⟨by simp, by simp⟩ (by simpa [children] using h5)⟩
  | record p keys cs length ih =>
    intro d out h
    simp only [apply, withNameGet, bind_ok, custom, ok.injEq] at h
    subst h
    exact ⟨by simp only [form, Form.type, AkType.named, Params.ty],
      .mk ⟨by simp, by simp⟩ (fun e he => hp.child (by simpa [children] using he))⟩
  | union p tags index cs ih => exact absurd rfl (hp.here.1 _ _ _ _)

/-- The second pass does not change the type of an array without unions. -/
theorem withNameSimplify_type {same : Content → Content → Bool} {ts : List (String × String)} {c : Content}
    (hp : AllNodes Nameable c) : ∀ {d : Nat} {out : Content}, apply (withNameSimplify same) d () c = ok out →
      out.form.type ts = c.form.type ts := by
  induction c using induct with
  | empty p =>
    intro d out h
    simp only [apply, withNameSimplify, bind_ok, custom, ok.injEq] at h
    subst h
    rfl
  | numpy p dt data =>
    intro d out h
    simp only [apply, withNameSimplify, bind_ok, custom, ok.injEq] at h
    subst h
    rfl
  | regular p c _ _ ih | listArray p _ _ c ih | listOffset p _ c ih | indexed p _ c ih | indexedOption p _ c ih
  | byteMasked p _ _ c ih | bitMasked p _ _ _ _ c ih | unmasked p c ih =>
    intro d out h
    simp only [apply, withNameSimplify, bind_ok, custom, bind_eq_ok, ok.injEq] at h
    obtain ⟨e, h3, rfl⟩ := h
    have h4 := ih (hp.child (by simp [children])) h3
    simp only [form, Form.type, h4]
  | record p keys cs length ih =>
    intro d out h
    simp only [apply, withNameSimplify, bind_ok, custom, bind_eq_ok, ok.injEq] at h
    obtain ⟨es, h3, rfl⟩ := h
    have h4 := applyAll_outs h3
    have := form_typeAll_congr (ts := ts) (((List.forall₂_and_left (p := fun c => c ∈ cs) cs es).mpr
      ⟨fun _ h => h, h4⟩).imp (fun c e h => ih c h.1 (hp.child (by simpa [children] using h.1)) h.2))
    simp only [form, Form.type, this]
  | union p tags index cs ih => exact absurd rfl (hp.here.1 _ _ _ _)

end Content
end Awk
