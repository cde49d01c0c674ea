import Verif.Model.NanToNum
import Verif.Lemmas.Apply
import Verif.Lemmas.Astype
import Verif.Spec.Complete
/-
`ak.nan_to_num` changes the numbers and nothing else.
-/

namespace Awk
open R

namespace Val

mutual
/-- Numbers that stay leave the element as it is. -/
theorem mapNumbers_same {f : Atom → Atom} : ∀ (v : Val), (∀ a ∈ v.leaves, f a = a) → mapNumbers f v = v
  | .null, _ => rfl
  | .atom a, h => by rw [mapNumbers, h a (by simp [leaves])]
  | .str _, _ => rfl
  | .bytes _, _ => rfl
  | .list vs, h => by rw [mapNumbers, mapNumbersList_same vs (by simpa only [leaves] using h)]
  | .tuple vs, h => by rw [mapNumbers, mapNumbersList_same vs (by simpa only [leaves] using h)]
  | .record fs, h => by rw [mapNumbers, mapNumbersFields_same fs (by simpa only [leaves] using h)]
theorem mapNumbersList_same {f : Atom → Atom} :
    ∀ (vs : List Val), (∀ a ∈ leavesAll vs, f a = a) → mapNumbersList f vs = vs
  | [], _ => rfl
  | v :: vs, h => by
    simp only [leavesAll, List.mem_append] at h
    rw [mapNumbersList, mapNumbers_same v (fun a ha => h a (.inl ha)), mapNumbersList_same vs (fun a ha => h a (.inr ha))]
theorem mapNumbersFields_same {f : Atom → Atom} :
    ∀ (fs : List (String × Val)), (∀ a ∈ leavesFields fs, f a = a) → mapNumbersFields f fs = fs
  | [], _ => rfl
  | (k, v) :: fs, h => by
    simp only [leavesFields, List.mem_append] at h
    rw [mapNumbersFields, mapNumbers_same v (fun a ha => h a (.inl ha)),
      mapNumbersFields_same fs (fun a ha => h a (.inr ha))]
end

end Val

namespace Content

theorem nanToNum_applies (replace : Atom → Atom) {c : Content} (hp : AllNodes (fun d => d.params.arr = .none) c) :
    ∀ d, Applies (nanToNumGet replace) (fun _ => Val.mapNumbers replace) d () c := by
  induction hp with
  | @mk c h0 hch ih =>
    clear hch
    intro d
    cases c
    case numpy p dt data =>
      refine .stop (e := numpy {} dt (data.map replace)) rfl ⟨⟨good_numpy _ _ _, by simp [len], fun i hi => ?_⟩, by simp [len]⟩
      simp only [len] at hi
      rw [valD_numpy hi, valD_numpy (by simpa using hi)]
      simp [Val.mapNumbers]
    all_goals
      refine .pass (u' := ()) rfl ?_ (fun e he => ih e he _)
      first
        | trivial
        | exact rfl
        | exact ⟨Val.mapNumbers_null _, rfl⟩
        | exact ⟨Val.mapNumbers_mkRecord _, rfl⟩
        | exact fun vs => Val.mapNumbers_list _ h0 vs

/-- The result passes the checks of a valid array that are about parameters and nodes. -/
theorem nanToNum_layout (replace : Atom → Atom) {c : Content} (hp : AllNodes (fun d => d.params.arr = .none) c)
    (hl : c.layout = ok ()) : ∀ d e, apply (nanToNumGet replace) d () c = ok e →
      e.layout = ok () ∧ e.isOptionOrIndexed = c.isOptionOrIndexed ∧ e.isUnion = c.isUnion := by
  have all : ∀ {cs : List Content}, (∀ c ∈ cs, ∀ d e, apply (nanToNumGet replace) d () c = ok e →
      e.layout = ok () ∧ e.isOptionOrIndexed = c.isOptionOrIndexed ∧ e.isUnion = c.isUnion) →
      ∀ d es, applyAll (nanToNumGet replace) d () cs = ok es →
        List.Forall₂ (fun c e => e.layout = ok () ∧ e.isOptionOrIndexed = c.isOptionOrIndexed ∧ e.isUnion = c.isUnion) cs es := by
    intro cs
    induction cs with
    | nil =>
      intro _ d es h
      simp only [applyAll, ok.injEq] at h
      subst h
      exact .nil
    | cons c cs ih =>
      intro hc d es h
      simp only [applyAll, bind_eq_ok, ok.injEq] at h
      obtain ⟨e, h1, es', h2, rfl⟩ := h
      exact .cons (hc c (by simp) d e h1) (ih (fun c hm => hc c (by simp [hm])) d es' h2)
  induction c using induct with
  | empty p =>
    intro d e h
    simp only [apply, nanToNumGet, bind_ok, custom, ok.injEq] at h
    subst h
    exact ⟨hl, rfl, rfl⟩
  | numpy p dt data =>
    intro d e h
    simp only [apply, nanToNumGet, bind_ok, custom, ok.injEq] at h
    subst h
    exact ⟨rfl, rfl, rfl⟩
  | regular p c size zeros ih | listArray p starts stops c ih | listOffset p offsets c ih =>
    intro d e h
    have hn : p.arr = .none := hp.here
    simp only [apply, nanToNumGet, bind_ok, custom, bind_eq_ok, ok.injEq] at h
    obtain ⟨c', h1, rfl⟩ := h
    simp only [layout, paramsOkList, hn, bind_eq_ok] at hl
    have := (ih (hp.child (by simp [children])) (by simpa using hl) _ _ h1).1
    exact ⟨by simp [layout, paramsOkList, hn, this], rfl, rfl⟩
  | indexed p index c ih | indexedOption p index c ih | byteMasked p mask vw c ih | bitMasked p mask vw length lsb c ih
  | unmasked p c ih =>
    intro d e h
    simp only [apply, nanToNumGet, bind_ok, custom, bind_eq_ok, ok.injEq] at h
    obtain ⟨c', h1, rfl⟩ := h
    simp only [layout, bind_eq_ok] at hl
    obtain ⟨_, l1, _, l2, l3⟩ := hl
    obtain ⟨g1, g2, g3⟩ := ih (hp.child (by simp [children])) l3 _ _ h1
    have l4 : c'.nestedOk = ok () := by simpa only [nestedOk, g2] using l2
    exact ⟨by simp only [layout, l1, l4, g1, bind_ok], rfl, rfl⟩
  | record p keys cs length ih =>
    intro d e h
    simp only [apply, nanToNumGet, bind_ok, custom, bind_eq_ok, ok.injEq] at h
    obtain ⟨cs', h1, rfl⟩ := h
    simp only [layout, bind_eq_ok] at hl
    obtain ⟨_, l1, l2⟩ := hl
    have h2 := all (fun c hc => ih c hc (hp.child (by simpa [children] using hc)) (layoutAll_ok.mp l2 c hc)) _ _ h1
    refine ⟨?_, rfl, rfl⟩
    simp only [layout, l1, bind_ok]
    exact layoutAll_ok.mpr (fun e he => by
      obtain ⟨c, _, hc⟩ := forall₂_mem h2 he
      exact hc.1)
  | union p tags index cs ih =>
    intro d e h
    simp only [apply, nanToNumGet, bind_ok, custom, bind_eq_ok, ok.injEq] at h
    obtain ⟨cs', h1, rfl⟩ := h
    simp only [layout, bind_eq_ok] at hl
    obtain ⟨_, l1, l2⟩ := hl
    split at l2
    · cases l2
    · rename_i hu
      have h2 := all (fun c hc => ih c hc (hp.child (by simpa [children] using hc)) (layoutAll_ok.mp l2 c hc)) _ _ h1
      refine ⟨?_, rfl, rfl⟩
      simp only [layout, l1, bind_ok]
      rw [if_neg]
      · refine layoutAll_ok.mpr (fun e he => ?_)
        obtain ⟨c, _, hc⟩ := forall₂_mem h2 he
        exact hc.1
      · simp only [List.any_eq_true, not_exists, not_and, Bool.not_eq_true] at hu ⊢
        intro e he
        obtain ⟨c, hm, hc⟩ := forall₂_mem h2 he
        rw [hc.2.2]; exact hu c hm

end Content
end Awk
