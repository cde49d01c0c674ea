import Verif.Lemmas.FormJson
import Verif.Lemmas.MergeShape
/-
The forms of arrays, for C91.
-/

namespace Awk
open R

namespace Content

theorem noNul_nil : Spec.Json.NoNul "" := by simp [Spec.Json.NoNul]

theorem formAll_length (cs : List Content) : (formAll cs).length = cs.length := by
  induction cs with
  | nil => rfl
  | cons c cs ih => simp [formAll, ih]

theorem properAll_formAll {cs : List Content} (h : ∀ c ∈ cs, c.form.Proper) : Form.ProperAll (formAll cs) := by
  induction cs with
  | nil => trivial
  | cons c cs ih => exact ⟨h c (by simp), ih fun d hd => h d (by simp [hd])⟩

theorem form_proper {c : Content} (hn : AllNodes JsonNode c) : c.form.Proper := by
  have wide : IndexKind.i64.Wide := .inr (.inr rfl)
  induction c using Awk.Content.induct with
  | empty | numpy => exact noNul_nil
  | regular p c size zeros ih =>
    exact ⟨noNul_nil, hn.here, ih (hn.child (by simp [children]))⟩
  | listArray p starts stops c ih =>
    exact ⟨noNul_nil, wide, rfl, ih (hn.child (by simp [children]))⟩
  | listOffset p offsets c ih | indexed p index c ih =>
    exact ⟨noNul_nil, wide, ih (hn.child (by simp [children]))⟩
  | indexedOption p index c ih =>
    exact ⟨noNul_nil, .inr rfl, ih (hn.child (by simp [children]))⟩
  | byteMasked p mask vw c ih | unmasked p c ih =>
    exact ⟨noNul_nil, ih (hn.child (by simp [children]))⟩
  | bitMasked p mask vw length lsb c ih =>
    exact ⟨noNul_nil, ih (hn.child (by simp [children]))⟩
  | record p keys cs length ih =>
    refine ⟨noNul_nil, fun ks hks => ?_, properAll_formAll fun c hc =>
      ih c hc (hn.child (by simpa [children] using hc))⟩
    rw [formAll_length]
    exact hn.here ks hks
  | union p tags index cs ih =>
    exact ⟨noNul_nil, rfl, wide, properAll_formAll fun c hc =>
      ih c hc (hn.child (by simpa [children] using hc))⟩

end Content
end Awk
