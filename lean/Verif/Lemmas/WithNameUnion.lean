import Verif.Lemmas.WithName
import Verif.Lemmas.Simplify
/-
Lemmas for `ak.with_name` of unions.
-/

namespace Awk
open R

namespace Content

/-- The first pass of `with_name` keeps what merging needs. -/
theorem withNameGet_mergeNode {no : Without} {name : String} {c : Content} (hp : AllNodes (MergeNode no) c) :
    ∀ {d : Nat} {out : Content}, (no.union) → apply (withNameGet name) d () c = ok out →
      AllNodes (MergeNode no) out := by
  induction c using induct with
  | empty p | numpy p dt data =>
    intro d out hu h
    simp only [apply, withNameGet, bind_ok, custom, ok.injEq] at h
    subst h
    exact hp
  | regular p c size zeros ih =>
    intro d out hu h
    simp only [apply, withNameGet, bind_ok, custom, bind_eq_ok, ok.injEq] at h
    obtain ⟨e, h3, rfl⟩ := h
    refine .mk ?_ (by simpa [children] using ih (hp.child (by simp [children])) hu h3)
    have hh := hp.here
    cases e with
    | record q keys cs length =>
      cases c with
      | record q' keys' cs' length' => exact hh
      | _ =>
        simp only [apply, withNameGet, bind_ok, custom, bind_eq_ok, ok.injEq, reduceCtorEq, and_false, exists_false] at h3
    | _ => trivial
  | listArray p _ _ c ih | listOffset p _ c ih | indexed p _ c ih | indexedOption p _ c ih
  | byteMasked p _ _ c ih | bitMasked p _ _ _ _ c ih | unmasked p c ih =>
    intro d out hu h
    simp only [apply, withNameGet, bind_ok, custom, bind_eq_ok, ok.injEq] at h
    obtain ⟨e, h3, rfl⟩ := h
    exact .mk hp.here (by simpa [children] using ih (hp.child (by simp [children])) hu h3)
  | record p keys cs length ih =>
    intro d out hu h
    simp only [apply, withNameGet, bind_ok, custom, ok.injEq] at h
    subst h
    exact .mk hp.here (fun e he => hp.child (by simpa [children] using he))
  | union p tags index cs ih => intro d out hu; exact absurd hu hp.here

theorem withNameGet_mergeAll {no : Without} {name : String} (hu : no.union) {d : Nat} : ∀ {cs es : List Content},
    (∀ c ∈ cs, AllNodes (MergeNode no) c) → applyAll (withNameGet name) d () cs = ok es →
      es.length = cs.length ∧ ∀ e ∈ es, AllNodes (MergeNode no) e
  | [], es, _, h => by
    simp only [applyAll, ok.injEq] at h
    subst h
    exact ⟨rfl, by simp⟩
  | c :: cs, es, hc, h => by
    simp only [applyAll, bind_eq_ok, ok.injEq] at h
    obtain ⟨e, h1, es', h2, rfl⟩ := h
    obtain ⟨g1, g2⟩ := withNameGet_mergeAll hu (fun d hd => hc d (by simp [hd])) h2
    refine ⟨by simp [g1], fun x hx => ?_⟩
    rcases List.mem_cons.mp hx with rfl | hx
    · exact withNameGet_mergeNode (hc c (by simp)) hu h1
    · exact g2 x hx

theorem alts_single {no : Without} (hu : no.union) {c : Content} (h : AllNodes (MergeNode no) c) : c.alts = [c] := by
  have := h.here
  cases c <;> first | rfl | exact absurd hu this

theorem alts_length : ∀ {ds : List Content}, (∀ c ∈ ds, c.alts = [c]) → (ds.flatMap alts).length = ds.length
  | [], _ => rfl
  | d :: ds, h => by
    rw [List.flatMap_cons, List.length_append, alts_length (fun c hc => h c (by simp [hc])), h d (by simp)]
    simp only [List.length_cons, List.length_nil]
    omega

end Content
end Awk
