import Verif.Lemmas.Field
import Verif.Lemmas.Simplify
/-
Lemmas for selecting fields from unions.
-/

namespace Awk
open R

namespace Content

theorem getitemFieldsAll_ok {same : Content → Content → Bool} {s : FieldSel} {k : Content → R Content} {F : Val → Val}
    {φ : Content → Prop} : ∀ {cs : List Content},
    (∀ c ∈ cs, ∃ c', getitemFields same s k c = ok c' ∧ Maps c c' F ∧ φ c') →
    ∃ cs', getitemFieldsAll same s k cs = ok cs' ∧ List.Forall₂ (fun c c' => Maps c c' F) cs cs' ∧ ∀ c' ∈ cs', φ c'
  | [], _ => ⟨[], rfl, .nil, by simp⟩
  | c :: cs, h => by
    obtain ⟨c', h1, h2, h3⟩ := h c (by simp)
    obtain ⟨cs', g1, g2, g3⟩ := getitemFieldsAll_ok (cs := cs) (fun d hd => h d (by simp [hd]))
    refine ⟨c' :: cs', ?_, .cons h2 g2, ?_⟩
    · rw [getitemFieldsAll, h1, bind_ok, g1, bind_ok]
    · intro d hd
      rcases List.mem_cons.mp hd with rfl | hd
      · exact h3
      · exact g3 d hd

end Content
end Awk
