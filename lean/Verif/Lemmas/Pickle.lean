import Verif.Spec.Pickle
import Verif.Model.Pickle
import Verif.Lemmas.Packed
import Verif.Lemmas.MergeShape
import Verif.Lemmas.BufferOrdinary
import Verif.Lemmas.ApplyLevel
import Verif.Lemmas.ByName
/-
Lemmas for pickling.
-/

namespace Awk
open R

namespace Content

theorem ordinaryAll_iff' {cs : List Content} : OrdinaryAll cs ↔ ∀ c ∈ cs, c.Ordinary := by
  induction cs with
  | nil => simp [OrdinaryAll]
  | cons c cs ih => simp [OrdinaryAll, ih]

theorem between_ends {offsets : List Int} {n : Int} (h0 : offsets[0]? = some 0) (hl : offsets.getLast? = some n)
    (hp : offsets.Pairwise (· ≤ ·)) : ∀ x ∈ offsets, 0 ≤ x ∧ x ≤ n := by
  intro x hx
  obtain ⟨i, hi, rfl⟩ := List.getElem_of_mem hx
  rw [List.getLast?_eq_getElem?] at hl
  obtain ⟨h0', h0''⟩ := List.getElem?_eq_some_iff.mp h0
  obtain ⟨hl', hl''⟩ := List.getElem?_eq_some_iff.mp hl
  rw [List.pairwise_iff_getElem] at hp
  constructor
  · by_cases h : i = 0
    · subst h
      omega
    · have := hp 0 i h0' hi (by omega)
      omega
  · by_cases h : i = offsets.length - 1
    · subst h
      omega
    · have := hp i (offsets.length - 1) hi hl' (by omega)
      omega

/-- A packed array can be restored. -/
theorem packed_ordinary {c : Content} (h : PackedTo none c) (hf : AllNodes FilledNode c) : c.Ordinary := by
  induction c using Awk.Content.induct with
  | empty | numpy => trivial
  | regular p c size zeros ih =>
    simp only [PackedTo, levelDown, Option.map_none, reduceCtorEq, false_or] at h
    rcases h with h | h
    · exact hf.here h
    · exact ih h.2 (hf.child (by simp [children]))
  | listArray => simp [PackedTo] at h
  | listOffset p offsets c ih =>
    simp only [PackedTo, levelDown, Option.map_none, reduceCtorEq, false_or] at h
    exact ⟨between_ends h.1 h.2.1 h.2.2.1, ih h.2.2.2 (hf.child (by simp [children]))⟩
  | indexed => simp [PackedTo] at h
  | indexedOption p index c ih =>
    simp only [PackedTo, reduceCtorEq, false_or] at h
    exact ih h.2.2 (hf.child (by simp [children]))
  | byteMasked p mask vw c ih =>
    simp only [PackedTo, reduceCtorEq, false_or] at h
    obtain ⟨_, _, _, _, _, rfl⟩ := h
    exact ⟨trivial, trivial⟩
  | bitMasked p mask vw length lsb c ih =>
    simp only [PackedTo, reduceCtorEq, false_or] at h
    obtain ⟨_, _, _, _, _, rfl⟩ := h
    exact ⟨trivial, trivial⟩
  | unmasked p c ih =>
    simp only [PackedTo, reduceCtorEq, false_or] at h
    exact ih h (hf.child (by simp [children]))
  | record p keys cs length ih =>
    simp only [PackedTo, packedToAll_iff, reduceCtorEq, false_or] at h
    exact ordinaryAll_iff'.mpr fun c hc => ih c hc (h c hc).2 (hf.child (by simpa [children] using hc))
  | union => simp [PackedTo] at h

theorem sortFieldsAll_eq (ts : List AkType) : AkType.sortFieldsAll ts = ts.map AkType.sortFields := by
  induction ts with
  | nil => rfl
  | cons t ts ih => simp only [AkType.sortFieldsAll, ih, List.map_cons]

theorem setParams_sortFields (f : Params → Params) (t : AkType) :
    (t.setParams f).sortFields = t.sortFields.setParams f := by
  cases t with
  | record m ks ts => cases ks <;> simp only [AkType.setParams, AkType.sortFields]
  | _ => simp only [AkType.setParams, AkType.sortFields]

/-- The skeleton of an array has its type, with the fields in the order of their names. -/
theorem skeleton_type (ts : List (String × String)) (c : Content) :
    c.skeleton.type ts = (c.type ts).sortFields := by
  have all : ∀ cs : List Content, (∀ c ∈ cs, c.skeleton.form.type ts = (c.form.type ts).sortFields) →
      Form.typeAll ts (formAll (skeletonAll cs)) = AkType.sortFieldsAll (Form.typeAll ts (formAll cs)) := by
    intro cs h
    rw [typeAll_content, typeAll_content, skeletonAll_eq, sortFieldsAll_eq, List.map_map, List.map_map]
    exact List.map_congr_left h
  unfold Content.type
  induction c using Awk.Content.induct with
  | empty | numpy => rfl
  | regular p c size zeros ih => simp only [skeleton, form, Form.type, AkType.sortFields, ih]
  | listArray p starts stops c ih => simp only [skeleton, form, Form.type, AkType.sortFields, ih]
  | listOffset p offsets c ih => simp only [skeleton, form, Form.type, AkType.sortFields, ih]
  | indexed p index c ih => simp only [skeleton, form, Form.type, setParams_sortFields, ih]
  | indexedOption p index c ih => simp only [skeleton, form, Form.type, AkType.sortFields, ih]
  | byteMasked p mask vw c ih => simp only [skeleton, form, Form.type, AkType.sortFields, ih]
  | bitMasked p mask vw length lsb c ih => simp only [skeleton, form, Form.type, AkType.sortFields, ih]
  | unmasked p c ih => simp only [skeleton, form, Form.type, AkType.sortFields, ih]
  | record p keys cs length ih =>
    cases keys with
    | none => simp only [skeleton, form, Form.type, AkType.sortFields, all cs ih]
    | some ks =>
      simp only [skeleton, form, Form.type, AkType.sortFields]
      rw [← all cs ih, typeAll_content, typeAll_content, zip_map_right', sortByName_map]
      simp only [List.map_map]
      rfl
  | union p tags index cs ih => simp only [skeleton, form, Form.type, AkType.sortFields, all cs ih]

theorem packed_record {same : Content → Content → Bool} {p : Params} {keys : Option (List String)} {cs : List Content}
    {length : Nat} {d : Content} (h : (record p keys cs length).packed same = ok d) :
    ∃ es, d = record p keys es length := by
  unfold packed at h
  rw [packF, if_neg (by simp), packNode, bind_eq_ok] at h
  obtain ⟨es, _, h⟩ := h
  exact ⟨es, (ok.inj h).symm⟩

theorem fill_record {w : Walk} {f : Nat} {p : Params} {keys : Option (List String)} {cs : List Content}
    {length : Nat} {st st' : Nat × Container} {form : Form}
    (h : fill w f (record p keys cs length) st = ok (form, st')) :
    ∃ forms fk, form = .record p keys forms fk := by
  cases f with
  | zero => simp [fill] at h
  | succ f =>
    cases keys with
    | none =>
      simp only [fill, bind_eq_ok, ok.injEq, Prod.mk.injEq] at h
      obtain ⟨x, _, h, _⟩ := h
      exact ⟨_, _, h.symm⟩
    | some ks =>
      simp only [fill, bind_eq_ok, ok.injEq, Prod.mk.injEq] at h
      obtain ⟨x, _, h, _⟩ := h
      exact ⟨_, _, h.symm⟩

theorem formToLayout_record {s : Source} {p : Params} {keys : Option (List String)} {forms : List Form} {fk : String}
    {n : Nat} {e : Content} (h : formToLayout s (.record p keys forms fk) n = ok e) :
    ∃ ks es, e = record p ks es n := by
  simp only [formToLayout, bind_eq_ok] at h
  obtain ⟨es, _, h⟩ := h
  unfold newRecord at h
  split at h
  · simp at h
  split at h
  · simp at h
  · exact ⟨_, _, by simpa using (ok.inj h).symm⟩

end Content
end Awk
