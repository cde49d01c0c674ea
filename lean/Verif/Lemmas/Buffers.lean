import Verif.Lemmas.BufferNodes
/-
What `fill` writes, `_form_to_layout` reads.
-/

namespace Awk
open R

namespace Content

/-! ### Records -/

theorem NoBitsAll_iff {cs : List Content} : NoBitsAll cs ↔ ∀ c ∈ cs, c.NoBits := by
  induction cs with
  | nil => simp [NoBitsAll]
  | cons c cs ih => simp [NoBitsAll, ih]

theorem NoBitFieldsAll_iff {cs : List Content} : NoBitFieldsAll cs ↔ ∀ c ∈ cs, c.NoBitFields := by
  induction cs with
  | nil => simp [NoBitFieldsAll]
  | cons c cs ih => simp [NoBitFieldsAll, ih]

theorem skeletonAll_eq (cs : List Content) : skeletonAll cs = cs.map skeleton := by
  induction cs with
  | nil => rfl
  | cons c cs ih => simp only [skeletonAll, ih, List.map_cons]

theorem NoBits.fields {c : Content} (h : c.NoBits) : c.NoBitFields := by
  induction c using Awk.Content.induct with
  | empty p => trivial
  | numpy p dt data => trivial
  | regular p c size zeros ih => exact ih h
  | listArray p starts stops c ih => exact ih h
  | listOffset p offsets c ih => exact ih h
  | indexed p index c ih => exact ih h
  | indexedOption p index c ih => exact ih h
  | byteMasked p mask vw c ih => exact ih h
  | bitMasked p mask vw length lsb c ih => exact h.elim
  | unmasked p c ih => exact ih h
  | record p keys cs length ih =>
    cases keys with
    | none =>
      simp only [NoBits, NoBitFields] at h ⊢
      exact NoBitFieldsAll_iff.mpr fun c hc => ih c hc (NoBitsAll_iff.mp h c hc)
    | some ks => exact h
  | union p tags index cs ih =>
    simp only [NoBits, NoBitFields] at h ⊢
    exact NoBitFieldsAll_iff.mpr fun c hc => ih c hc (NoBitsAll_iff.mp h c hc)

theorem rangeFields_forall₂ {cs cs' : List Content} {a b : Int} (h : rangeFields cs a b = ok cs') :
    List.Forall₂ (fun c c' => c.range a b = ok c') cs cs' := by
  induction cs generalizing cs' with
  | nil => simp only [rangeFields, ok.injEq] at h; subst h; exact .nil
  | cons c cs ih =>
    simp only [rangeFields, bind_eq_ok, ok.injEq] at h
    obtain ⟨c', h1, ds, h2, rfl⟩ := h
    exact .cons h1 (ih h2)

theorem map_eq_of_forall₂ {α β γ : Type} {R : α → β → Prop} {f : α → γ} {g : β → γ} {l : List α}
    {l' : List β} (h : List.Forall₂ R l l') (hfg : ∀ a ∈ l, ∀ b ∈ l', R a b → f a = g b) :
    l.map f = l'.map g := by
  induction h with
  | nil => rfl
  | cons hr _ ih =>
    rw [List.map_cons, List.map_cons, hfg _ List.mem_cons_self _ List.mem_cons_self hr,
      ih (fun a ha b hb => hfg a (List.mem_cons_of_mem _ ha) b (List.mem_cons_of_mem _ hb))]

theorem forall₂_right_mem {α β : Type} {R : α → β → Prop} {l : List α} {l' : List β}
    (h : List.Forall₂ R l l') {b : β} (hb : b ∈ l') : ∃ a ∈ l, R a b := by
  induction h with
  | nil => cases hb
  | cons hr _ ih =>
    rcases List.mem_cons.mp hb with rfl | hb
    · exact ⟨_, List.mem_cons_self, hr⟩
    · obtain ⟨a, ha, hr⟩ := ih hb
      exact ⟨a, List.mem_cons_of_mem _ ha, hr⟩

theorem range_skeleton {c d : Content} {a b : Int} (hn : c.NoBits) (h : c.range a b = ok d) :
    d.skeleton = c.skeleton := by
  induction c using Awk.Content.induct generalizing d a b with
  | empty p => simp only [range, ok.injEq] at h; subst h; rfl
  | numpy p dt data =>
    simp only [range, numpyRange, bind_eq_ok, ok.injEq] at h
    obtain ⟨_, _, rfl⟩ := h; rfl
  | regular p c size zeros ih =>
    simp only [range, bind_eq_ok, ok.injEq] at h
    obtain ⟨c', h1, rfl⟩ := h
    simp only [skeleton, ih hn h1]
  | listArray p starts stops c ih =>
    simp only [range, bind_eq_ok, ok.injEq] at h
    obtain ⟨_, _, _, _, rfl⟩ := h; rfl
  | listOffset p offsets c ih =>
    simp only [range, bind_eq_ok, ok.injEq] at h
    obtain ⟨_, _, rfl⟩ := h; rfl
  | indexed p index c ih =>
    simp only [range, bind_eq_ok, ok.injEq] at h
    obtain ⟨_, _, rfl⟩ := h; rfl
  | indexedOption p index c ih =>
    simp only [range, bind_eq_ok, ok.injEq] at h
    obtain ⟨_, _, rfl⟩ := h; rfl
  | byteMasked p mask vw c ih =>
    simp only [range, bind_eq_ok, ok.injEq] at h
    obtain ⟨_, _, c', h1, rfl⟩ := h
    simp only [skeleton, ih hn h1]
  | bitMasked p mask vw length lsb c ih => exact hn.elim
  | unmasked p c ih =>
    simp only [range, bind_eq_ok, ok.injEq] at h
    obtain ⟨c', h1, rfl⟩ := h
    simp only [skeleton, ih hn h1]
  | record p keys cs length ih =>
    have key : ∀ ds, rangeFields cs a b = ok ds → skeletonAll ds = skeletonAll cs := by
      intro ds hds
      rw [skeletonAll_eq, skeletonAll_eq]
      exact (map_eq_of_forall₂ (rangeFields_forall₂ hds)
        (fun c hc d _ hr => (ih c hc (NoBitsAll_iff.mp hn c hc) hr).symm)).symm
    simp only [range] at h
    split at h
    · simp only [ok.injEq] at h; subst h; cases keys <;> rfl
    split at h
    · simp only [ok.injEq] at h; subst h; cases keys <;> rfl
    · simp only [bind_eq_ok, ok.injEq] at h
      obtain ⟨ds, h1, rfl⟩ := h
      cases keys <;> simp only [skeleton, key ds h1]
  | union p tags index cs ih =>
    simp only [range, bind_eq_ok, ok.injEq] at h
    obtain ⟨_, _, _, _, rfl⟩ := h; rfl

theorem range_noBits {c d : Content} {a b : Int} (hn : c.NoBits) (h : c.range a b = ok d) :
    d.NoBits := by
  induction c using Awk.Content.induct generalizing d a b with
  | empty p => simp only [range, ok.injEq] at h; subst h; trivial
  | numpy p dt data =>
    simp only [range, numpyRange, bind_eq_ok, ok.injEq] at h
    obtain ⟨_, _, rfl⟩ := h; trivial
  | regular p c size zeros ih =>
    simp only [range, bind_eq_ok, ok.injEq] at h
    obtain ⟨c', h1, rfl⟩ := h
    exact ih (d := c') hn h1
  | listArray p starts stops c ih =>
    simp only [range, bind_eq_ok, ok.injEq] at h
    obtain ⟨_, _, _, _, rfl⟩ := h; exact hn
  | listOffset p offsets c ih =>
    simp only [range, bind_eq_ok, ok.injEq] at h
    obtain ⟨_, _, rfl⟩ := h; exact hn
  | indexed p index c ih =>
    simp only [range, bind_eq_ok, ok.injEq] at h
    obtain ⟨_, _, rfl⟩ := h; exact hn
  | indexedOption p index c ih =>
    simp only [range, bind_eq_ok, ok.injEq] at h
    obtain ⟨_, _, rfl⟩ := h; exact hn
  | byteMasked p mask vw c ih =>
    simp only [range, bind_eq_ok, ok.injEq] at h
    obtain ⟨_, _, c', h1, rfl⟩ := h
    exact ih (d := c') hn h1
  | bitMasked p mask vw length lsb c ih => exact hn.elim
  | unmasked p c ih =>
    simp only [range, bind_eq_ok, ok.injEq] at h
    obtain ⟨c', h1, rfl⟩ := h
    exact ih (d := c') hn h1
  | record p keys cs length ih =>
    simp only [range] at h
    split at h
    · simp only [ok.injEq] at h; subst h; exact hn
    split at h
    · simp only [ok.injEq] at h; subst h; exact hn
    · simp only [bind_eq_ok, ok.injEq] at h
      obtain ⟨ds, h1, rfl⟩ := h
      simp only [NoBits] at hn ⊢
      refine NoBitsAll_iff.mpr fun d hd => ?_
      obtain ⟨c, hc, hr⟩ := forall₂_right_mem (rangeFields_forall₂ h1) hd
      exact ih c hc (NoBitsAll_iff.mp hn c hc) hr
  | union p tags index cs ih =>
    simp only [range, bind_eq_ok, ok.injEq] at h
    obtain ⟨_, _, _, _, rfl⟩ := h; exact hn

theorem nodesAll_congr {cs ds : List Content} (h : List.Forall₂ (fun c d => d.nodes = c.nodes) cs ds) :
    nodesAll ds = nodesAll cs := by
  induction h with
  | nil => rfl
  | cons h1 _ ih => simp only [nodesAll, h1, ih]

theorem forall₂_imp_left {α β : Type} {P Q : α → β → Prop} {l : List α} {l' : List β}
    (h : List.Forall₂ P l l') (hpq : ∀ a ∈ l, ∀ b, P a b → Q a b) : List.Forall₂ Q l l' := by
  induction h with
  | nil => exact .nil
  | cons h1 _ ih =>
    exact .cons (hpq _ List.mem_cons_self _ h1) (ih (fun a ha => hpq a (List.mem_cons_of_mem _ ha)))

theorem range_nodes {c d : Content} {a b : Int} (h : c.range a b = ok d) : d.nodes = c.nodes := by
  induction c using Awk.Content.induct generalizing d a b with
  | empty p => simp only [range, ok.injEq] at h; subst h; rfl
  | numpy p dt data =>
    simp only [range, numpyRange, bind_eq_ok, ok.injEq] at h
    obtain ⟨_, _, rfl⟩ := h; rfl
  | regular p c size zeros ih =>
    simp only [range, bind_eq_ok, ok.injEq] at h
    obtain ⟨c', h1, rfl⟩ := h
    simp only [nodes, ih h1]
  | listArray p starts stops c ih =>
    simp only [range, bind_eq_ok, ok.injEq] at h
    obtain ⟨_, _, _, _, rfl⟩ := h; rfl
  | listOffset p offsets c ih =>
    simp only [range, bind_eq_ok, ok.injEq] at h
    obtain ⟨_, _, rfl⟩ := h; rfl
  | indexed p index c ih =>
    simp only [range, bind_eq_ok, ok.injEq] at h
    obtain ⟨_, _, rfl⟩ := h; rfl
  | indexedOption p index c ih =>
    simp only [range, bind_eq_ok, ok.injEq] at h
    obtain ⟨_, _, rfl⟩ := h; rfl
  | byteMasked p mask vw c ih =>
    simp only [range, bind_eq_ok, ok.injEq] at h
    obtain ⟨_, _, c', h1, rfl⟩ := h
    simp only [nodes, ih h1]
  | bitMasked p mask vw length lsb c ih =>
    simp only [range, bind_eq_ok, ok.injEq] at h
    obtain ⟨_, _, _, _, c', h1, rfl⟩ := h
    simp only [nodes, ih h1]
  | unmasked p c ih =>
    simp only [range, bind_eq_ok, ok.injEq] at h
    obtain ⟨c', h1, rfl⟩ := h
    simp only [nodes, ih h1]
  | record p keys cs length ih =>
    simp only [range] at h
    split at h
    · simp only [ok.injEq] at h; subst h; rfl
    split at h
    · simp only [ok.injEq] at h; subst h; rfl
    · simp only [bind_eq_ok, ok.injEq] at h
      obtain ⟨ds, h1, rfl⟩ := h
      simp only [nodes]
      rw [nodesAll_congr (forall₂_imp_left (rangeFields_forall₂ h1) (fun c hc d hr => ih c hc hr))]
  | union p tags index cs ih =>
    simp only [range, bind_eq_ok, ok.injEq] at h
    obtain ⟨_, _, _, _, rfl⟩ := h; rfl

theorem valFields_map {σ : Type} {l : List σ} {f : σ → Content} {g : σ → Val} {i : Nat}
    (h : ∀ x ∈ l, (f x).val i = ok (g x)) : valFields (l.map f) i = ok (l.map g) := by
  induction l with
  | nil => rfl
  | cons x l ih =>
    simp only [List.map_cons, valFields]
    rw [h x List.mem_cons_self, bind_ok, ih (fun y hy => h y (List.mem_cons_of_mem _ hy)), bind_ok]

theorem Rebuilt.tuple {p : Params} {length : Nat} {n : Int} {T : List (Content × Content)}
    (hg : (Content.record p none (T.map (fun t => t.1)) length).Good)
    (h : ∀ t ∈ T, Rebuilt t.1 t.2 n) (h0 : 0 ≤ n) (hn : n ≤ (length : Int)) :
    Rebuilt (.record p none (T.map (fun t => t.1)) length)
      (.record p none (T.map (fun t => t.2)) n.toNat) n := by
  refine ⟨by simp only [len]; omega, by simp only [len]; omega, fun h => h.elim, ?_, ?_⟩
  · intro i hi
    rw [valD_record hg (by omega)]
    simp only [Content.val]
    rw [valFields_map (g := fun t => (t.1.valD i).sortFields) (fun t ht => (h t ht).val i hi), bind_ok]
    simp only [mkRecord, Val.sortFields, Val.sortFieldsList_eq, List.map_map]
    rfl
  · intro hs
    simp only [NoBitFields] at hs
    simp only [skeleton, skeletonAll_eq, List.map_map]
    congr 1
    apply List.map_congr_left
    intro t ht
    exact (h t ht).skel (NoBitFieldsAll_iff.mp hs _ (List.mem_map_of_mem ht))

theorem zip_map_fst {α β : Type} {ks : List String} {l : List α} (f : α → β) :
    ks.zip (l.map f) = (ks.zip l).map (fun b => (b.1, f b.2)) := zip_map_right' f ks l

theorem map_zip_snd {α : Type} {l : List (String × α)} :
    (l.map (fun b => b.1)).zip (l.map (fun b => b.2)) = l := by
  induction l with
  | nil => rfl
  | cons b l ih => simp only [List.map_cons, List.zip_cons_cons, ih]

theorem sortByName_sortByName {α : Type} {l : List (String × α)}
    (hn : (l.map (fun b => b.1)).Nodup) : sortByName (sortByName l) = sortByName l := by
  have hp := sortByName_perm l
  exact NamesUp.eq_of_perm (sortByName_up ((hp.map _).nodup_iff.mpr hn)) (sortByName_up hn)
    (sortByName_perm _)

theorem Rebuilt.record {p : Params} {length : Nat} {n : Int} {ks : List String} {cs : List Content}
    {T : List (Content × Content)} (hk : ks.Nodup) (hl : ks.length = cs.length)
    (hg : (Content.record p (some ks) cs length).Good)
    (hr : rangeFields cs 0 length = ok (T.map (fun t => t.1)))
    (h : ∀ t ∈ T, Rebuilt t.1 t.2 n) (h0 : 0 ≤ n) (hn : n ≤ (length : Int)) :
    Rebuilt (.record p (some ks) cs length)
      (.record p (some ((sortByName (ks.zip T)).map (fun b => b.1)))
        ((sortByName (ks.zip T)).map (fun b => b.2.2)) n.toNat) n := by
  have hf := rangeFields_forall₂ hr
  have hlT : T.length = cs.length := by simpa using hf.length_eq.symm
  have hmem : ∀ b ∈ sortByName (ks.zip T), b.2 ∈ T := by
    intro b hb
    exact (List.of_mem_zip ((sortByName_perm _).mem_iff.mp hb)).2
  refine ⟨by simp only [len]; omega, by simp only [len]; omega, fun h => h.elim, ?_, ?_⟩
  · intro i hi
    rw [valD_record hg (by omega)]
    simp only [Content.val]
    rw [valFields_map (l := sortByName (ks.zip T)) (f := fun b => b.2.2)
      (g := fun b => (b.2.1.valD i).sortFields) (fun b hb => (h b.2 (hmem b hb)).val i hi), bind_ok]
    simp only [mkRecord, Val.sortFields, Val.sortFieldsNamed_eq]
    have e : cs.map (fun c => c.valD i) = T.map (fun t => t.1.valD i) := by
      rw [show T.map (fun t => t.1.valD i) = (T.map (fun t => t.1)).map (fun c => c.valD i) by
        rw [List.map_map]; rfl]
      refine map_eq_of_forall₂ hf (fun c hc d _ hrd => ?_)
      obtain ⟨hle, hcg⟩ := good_record.mp hg
      obtain ⟨d', e1, _, _, e4, _⟩ := range_good (hcg c hc) (Nat.zero_le length) (hle c hc)
      rw [show ((0 : Nat) : Int) = 0 from rfl, hrd] at e1
      cases e1
      have := e4.valD (show i < length - 0 by omega)
      simpa using this.symm
    have e' : (ks.zip (cs.map (fun c => c.valD i))).map (fun b => (b.1, b.2.sortFields))
        = (ks.zip T).map (fun b => (b.1, (b.2.1.valD i).sortFields)) := by
      rw [e, zip_map_right', List.map_map]; rfl
    rw [e', sortByName_map (fun t : Content × Content => (t.1.valD i).sortFields) (ks.zip T)]
    congr 2
    have := map_zip_snd (l := (sortByName (ks.zip T)).map
      (fun b => (b.1, (b.2.1.valD i).sortFields)))
    simpa [List.map_map, Function.comp_def] using this
  · intro hs
    simp only [NoBitFields] at hs
    have e : cs.map skeleton = T.map (fun t => t.2.skeleton) := by
      have e1 : cs.map skeleton = T.map (fun t => t.1.skeleton) := by
        rw [show T.map (fun t => t.1.skeleton) = (T.map (fun t => t.1)).map skeleton by
          rw [List.map_map]; rfl]
        exact map_eq_of_forall₂ hf
          (fun c hc d _ hrd => (range_skeleton (NoBitsAll_iff.mp hs c hc) hrd).symm)
      rw [e1]
      apply List.map_congr_left
      intro t ht
      refine ((h t ht).skel ?_).symm
      obtain ⟨c, hc, hrd⟩ := forall₂_right_mem hf (List.mem_map_of_mem (f := fun t => t.1) ht)
      exact (range_noBits (NoBitsAll_iff.mp hs c hc) hrd).fields
    simp only [skeleton, skeletonAll_eq]
    have e2 : sortByName (ks.zip (cs.map skeleton))
        = (sortByName (ks.zip T)).map (fun b => (b.1, b.2.2.skeleton)) := by
      rw [e, zip_map_right']
      exact sortByName_map (fun t : Content × Content => t.2.skeleton) _
    have e3 : ((sortByName (ks.zip T)).map (fun b => b.1)).zip
        (((sortByName (ks.zip T)).map (fun b => b.2.2)).map skeleton)
        = (sortByName (ks.zip T)).map (fun b => (b.1, b.2.2.skeleton)) := by
      have := map_zip_snd (l := (sortByName (ks.zip T)).map (fun b => (b.1, b.2.2.skeleton)))
      simpa [List.map_map, Function.comp_def] using this
    rw [e3, ← e2, sortByName_sortByName (by rw [zip_names (by simpa using hl)]; exact hk)]

end Content
end Awk
