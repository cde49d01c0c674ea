import Verif.Lemmas.Merge
/-
Arrays that are `mergeable` have a common type.
-/

namespace Awk
open R

namespace Content

theorem lookup_zip_get {α : Type} {ks : List String} {xs : List α} (hn : ks.Nodup)
    (hl : ks.length = xs.length) {i : Nat} (hi : i < ks.length) :
    (ks.zip xs).lookup ks[i] = some xs[i] := by
  induction ks generalizing xs i with
  | nil => simp at hi
  | cons k ks ih =>
    cases xs with
    | nil => simp at hl
    | cons x xs =>
      cases i with
      | zero => simp
      | succ i =>
        obtain ⟨hk, hn⟩ := List.nodup_cons.mp hn
        simp only [List.length_cons, Nat.add_right_cancel_iff] at hl hi
        have : ks[i] ≠ k := fun h => hk (h ▸ List.getElem_mem (by omega))
        simp only [List.zip_cons_cons, List.lookup_cons, List.getElem_cons_succ,
          beq_eq_false_iff_ne.mpr this]
        exact ih hn hl (by omega)

/-- A keyed record whose field `ks[i]` has the type `ts[i]`. -/
theorem OfType.record' {p : Params} {ks ks' : List String} {ts : List Ty} {cs : List Content}
    {n : Nat} (hp : ks'.Perm ks) (hl : ks'.length = cs.length) (hts : ks.length = ts.length)
    (h : ∀ i (h : i < ks.length), ∃ d, column ks' cs ks[i] = some d ∧ OfType ts[i] d) :
    OfType (.record p.key (ks.zip ts)) (Content.record p (some ks') cs n) := by
  refine .record ?_ hl (fun kt hkt d hd => ?_)
  · rw [List.map_fst_zip (by omega)]; exact hp
  · obtain ⟨i, hi, rfl⟩ := List.getElem_of_mem hkt
    simp only [List.length_zip] at hi
    simp only [List.getElem_zip] at hd ⊢
    obtain ⟨d', h1, h2⟩ := h i (by omega)
    rw [h1] at hd
    injection hd with hd
    subst hd
    exact h2

/-- The types of some arrays. -/
theorem choose_types {cs : List Content} {P : Nat → Ty → Prop}
    (h : ∀ i, i < cs.length → ∃ t, P i t) : ∃ ts : List Ty, cs.length = ts.length ∧
      ∀ i (_ : i < cs.length) (h : i < ts.length), P i ts[i] := by
  classical
  refine ⟨(List.range cs.length).map (fun i => if hi : i < cs.length then (h i hi).choose
    else .unknown (.none, none)), by simp, fun i h1 h2 => ?_⟩
  simp only [List.getElem_map, List.getElem_range, dif_pos h1]
  exact (h i h1).choose_spec

theorem exists_type {no : Without} {c : Content} (h : AllNodes (MergeNode no) c) :
    ∃ t, OfType t c := by
  have lists : ∀ c d : Content, c.isListNode = true → c.children = [d] → (∃ t, OfType t d) →
      ∃ t, OfType t c := by
    rintro c d hl hc ⟨t, ht⟩
    exact ⟨_, .list (t := t) hl (by rw [hc]; simpa using ht)⟩
  have opts : ∀ c d : Content, c.isIndirectNode = true → c.children = [d] → (∃ t, OfType t d) →
      ∃ t, OfType t c := by
    rintro c d hl hc ⟨t, ht⟩
    exact ⟨_, .opt (t := t) hl (by rw [hc]; simpa using ht)⟩
  induction c using induct with
  | empty p => exact ⟨.unknown p.key, .empty rfl⟩
  | numpy p dt data => exact ⟨_, .leaf⟩
  | union p tags index cs ih => exact ⟨.unknown p.key, .union rfl⟩
  | regular p c size zeros ih => exact lists _ c rfl rfl (ih (h.child (by simp [children])))
  | listArray p starts stops c ih => exact lists _ c rfl rfl (ih (h.child (by simp [children])))
  | listOffset p offsets c ih => exact lists _ c rfl rfl (ih (h.child (by simp [children])))
  | indexed p index c ih => exact opts _ c rfl rfl (ih (h.child (by simp [children])))
  | indexedOption p index c ih => exact opts _ c rfl rfl (ih (h.child (by simp [children])))
  | byteMasked p mask vw c ih => exact opts _ c rfl rfl (ih (h.child (by simp [children])))
  | bitMasked p mask vw length lsb c ih => exact opts _ c rfl rfl (ih (h.child (by simp [children])))
  | unmasked p c ih => exact opts _ c rfl rfl (ih (h.child (by simp [children])))
  | record p keys cs length ih =>
    obtain ⟨ts, h1, h2⟩ := choose_types (cs := cs)
      (P := fun i t => ∀ h : i < cs.length, OfType t cs[i])
      (fun i hi => by
        obtain ⟨t, ht⟩ := ih cs[i] (List.getElem_mem hi)
          (h.child (by simpa [children] using List.getElem_mem hi))
        exact ⟨t, fun _ => ht⟩)
    have hno := h.here
    simp only [MergeNode] at hno
    cases keys with
    | none => exact ⟨_, .tuple h1 (fun i hi hi' => h2 i hi hi' hi)⟩
    | some ks =>
      obtain ⟨hnd, hl⟩ := hno.2.2 ks rfl
      exact ⟨_, .record' (List.Perm.refl ks) hl (by omega) (fun i hi =>
        ⟨cs[i], lookup_zip_get hnd hl hi, h2 i (by omega) (by omega) (by omega)⟩)⟩

/-- What `strip` finds. -/
structure Stripped (p : Params) (d b : Content) : Prop where
  key : d.params.key = p.key
  plain : d.isIndirectNode = false
  nodes : ∀ no, AllNodes (MergeNode no) b → AllNodes (MergeNode no) d
  type : ∀ a : Content, a.isIndirectNode = false → a.params.key = p.key → ∀ t, OfType t a →
    OfType t d → ∃ t', OfType t' a ∧ OfType t' b

theorem strip_spec {p : Params} {b d : Content} (h : strip p b = some d) : Stripped p d b := by
  have ind : ∀ (b c : Content) (q : Params), b.isIndirectNode = true → b.children = [c] →
      b.params = q → (strip p c = some d → Stripped p d c) →
      (if p.agree q then strip p c else none) = some d → Stripped p d b := by
    intro b c q hb hc hq ih h
    split at h
    · rename_i hag
      rw [Params.agree_iff] at hag
      obtain ⟨h1, h2, h3, h4⟩ := ih h
      refine ⟨h1, h2, fun no hn => h3 no (hn.child (by simp [hc])), fun a ha hk t ht1 ht2 => ?_⟩
      obtain ⟨t', g1, g2⟩ := h4 a ha hk t ht1 ht2
      refine ⟨.opt b.params.key b.isOption t', ?_, .opt hb (by rw [hc]; simpa using g2)⟩
      rw [hq, ← hag, ← hk]
      exact .plain ha g1
    · simp at h
  have other : ∀ b : Content, (if p.agree b.params then some b else none) = some d →
      b.isIndirectNode = false → Stripped p d b := by
    intro b h hb
    split at h
    · rename_i hag
      rw [Params.agree_iff] at hag
      injection h with h
      subst h
      exact ⟨hag.symm, hb, fun _ hn => hn, fun a _ _ t h1 h2 => ⟨t, h1, h2⟩⟩
    · simp at h
  induction b using induct with
  | empty p => exact other _ h rfl
  | numpy p dt data => exact other _ h rfl
  | union p tags index cs ih => exact other _ h rfl
  | regular p c size zeros ih => exact other _ h rfl
  | listArray p starts stops c ih => exact other _ h rfl
  | listOffset p offsets c ih => exact other _ h rfl
  | record p keys cs length ih => exact other _ h rfl
  | indexed q index c ih => exact ind _ c q rfl rfl rfl ih h
  | indexedOption q index c ih => exact ind _ c q rfl rfl rfl ih h
  | byteMasked q mask vw c ih => exact ind _ c q rfl rfl rfl ih h
  | bitMasked q mask vw length lsb c ih => exact ind _ c q rfl rfl rfl ih h
  | unmasked q c ih => exact ind _ c q rfl rfl rfl ih h

theorem mergeableAll_get {mb : Bool} {cs : List Content} {ds : List (Option Content)}
    (h : mergeableAll mb cs ds = true) {i : Nat} (hi : i < cs.length) :
    ∃ d, ds[i]? = some (some d) ∧ mergeable mb cs[i] d = true := by
  induction cs generalizing ds i with
  | nil => simp at hi
  | cons c cs ih =>
    cases ds with
    | nil => simp [mergeableAll] at h
    | cons d ds =>
      cases d with
      | none => simp [mergeableAll] at h
      | some d =>
        simp only [mergeableAll, Bool.and_eq_true] at h
        cases i with
        | zero => exact ⟨d, by simp, h.1⟩
        | succ i =>
          obtain ⟨e, h1, h2⟩ := ih h.2 (i := i) (by simpa using hi)
          exact ⟨e, by simpa using h1, by simpa using h2⟩

theorem numpyMergeable_kind {mb : Bool} {d e : DType} (h : numpyMergeable mb d e = true) :
    d.kind = e.kind := by
  revert h
  cases mb <;> cases d <;> cases e <;> decide

theorem isOption_not {no : Without} {c : Content} (hc : c.isIndirectNode = true)
    (h : MergeNode no c) : (no.option → c.isOption = false) ∧ (no.indexed → c.isOption = true) := by
  cases c <;> simp_all [isIndirectNode, isOption, MergeNode]

/-- `mergeable` finds a common type, if there are no IndexedArrays or no options. -/
theorem mergeable_type {no : Without} (hno : no.indexed ∨ no.option) {mb : Bool} {a b : Content}
    (ha : AllNodes (MergeNode no) a) (hb : AllNodes (MergeNode no) b)
    (h : mergeable mb a b = true) : ∃ t, OfType t a ∧ OfType t b := by
  -- lists
  have lists : ∀ (a b c : Content) (p : Params), a.isListNode = true → a.children = [c] →
      a.params = p → AllNodes (MergeNode no) a → AllNodes (MergeNode no) b →
      (∀ d, AllNodes (MergeNode no) d → mergeable mb c d = true → ∃ t, OfType t c ∧ OfType t d) →
      mergeableList (mergeable mb c) p b = true → ∃ t, OfType t a ∧ OfType t b := by
    intro a b c p hl hc hp ha hb ih h
    have hind : a.isIndirectNode = false := (list_plain hl).1
    unfold mergeableList at h
    cases hs : strip p b with
    | none => rw [hs] at h; simp at h
    | some d =>
      rw [hs] at h
      have hst := strip_spec hs
      have hk := hst.key
      have hdn := hst.nodes no hb
      refine (fun ⟨t, h1, h2⟩ => hst.type a hind (by rw [hp]) t h1 h2 :
        (∃ t, OfType t a ∧ OfType t d) → _) ?_
      have lst : ∀ e, d.isListNode = true → d.children = [e] → mergeable mb c e = true →
          ∃ t, OfType t a ∧ OfType t d := by
        intro e h1 h2 h3
        obtain ⟨t, g1, g2⟩ := ih e (hdn.child (by simp [h2])) h3
        refine ⟨.list a.params.key t, .list hl (by rw [hc]; simpa using g1), ?_⟩
        rw [hp, ← hk]
        exact .list h1 (by rw [h2]; simpa using g2)
      obtain ⟨t, ht⟩ := exists_type ha
      cases d <;> simp only [Bool.false_eq_true] at h
      · exact ⟨t, ht, .empty (by rw [← ht.key, hp]; exact hk)⟩
      · exact lst _ rfl rfl h
      · exact lst _ rfl rfl h
      · exact lst _ rfl rfl h
      · exact ⟨t, ht, .union (by rw [← ht.key, hp]; exact hk)⟩
  -- indexed and option arrays
  have opts : ∀ (a b c : Content) (p : Params), a.isIndirectNode = true → a.children = [c] →
      a.params = p → AllNodes (MergeNode no) a → AllNodes (MergeNode no) b →
      (∀ d, AllNodes (MergeNode no) d → mergeable mb c d = true → ∃ t, OfType t c ∧ OfType t d) →
      mergeableIndirect (mergeable mb c) p b = true → ∃ t, OfType t a ∧ OfType t b := by
    intro a b c p hl hc hp ha hb ih h
    unfold mergeableIndirect at h
    rw [Bool.and_eq_true, Params.agree_iff] at h
    obtain ⟨hk, h⟩ := h
    have lst : ∀ e, b.isIndirectNode = true → b.children = [e] → mergeable mb c e = true →
        ∃ t, OfType t a ∧ OfType t b := by
      intro e h1 h2 h3
      obtain ⟨t, g1, g2⟩ := ih e (hb.child (by simp [h2])) h3
      refine ⟨.opt a.params.key a.isOption t, .opt hl (by rw [hc]; simpa using g1), ?_⟩
      have : a.isOption = b.isOption := by
        have e1 := isOption_not hl ha.here
        have e2 := isOption_not h1 hb.here
        rcases hno with hno | hno
        · rw [e1.2 hno, e2.2 hno]
        · rw [e1.1 hno, e2.1 hno]
      rw [hp, hk, this]
      exact .opt h1 (by rw [h2]; simpa using g2)
    have plain : b.isIndirectNode = false → mergeable mb c b = true →
        ∃ t, OfType t a ∧ OfType t b := by
      intro h1 h2
      obtain ⟨t, g1, g2⟩ := ih b hb h2
      refine ⟨.opt a.params.key a.isOption t, .opt hl (by rw [hc]; simpa using g1), ?_⟩
      rw [hp, hk]
      exact .plain h1 g2
    obtain ⟨t, ht⟩ := exists_type ha
    cases b <;> simp only at h
    · exact ⟨t, ht, .empty (by rw [← ht.key, hp]; exact hk.symm)⟩
    · exact plain rfl h
    · exact plain rfl h
    · exact plain rfl h
    · exact plain rfl h
    · exact lst _ rfl rfl h
    · exact lst _ rfl rfl h
    · exact lst _ rfl rfl h
    · exact lst _ rfl rfl h
    · exact lst _ rfl rfl h
    · exact plain rfl h
    · exact ⟨t, ht, .union (by rw [← ht.key, hp]; exact hk.symm)⟩
  induction a using induct generalizing b with
  | empty p =>
    simp only [mergeable, Params.agree_iff] at h
    obtain ⟨t, ht⟩ := exists_type hb
    exact ⟨t, .empty (by rw [h, ht.key]), ht⟩
  | union p tags index cs ih =>
    simp only [mergeable, Params.agree_iff] at h
    obtain ⟨t, ht⟩ := exists_type hb
    exact ⟨t, .union (by rw [h, ht.key]), ht⟩
  | numpy p dt data =>
    simp only [mergeable] at h
    cases hs : strip p b with
    | none => rw [hs] at h; simp at h
    | some d =>
      rw [hs] at h
      have hst := strip_spec hs
      refine hst.type (numpy p dt data) rfl rfl _ .leaf ?_
      have hk := hst.key
      cases d <;> simp only [Bool.false_eq_true] at h
      · exact .empty hk
      · simp only [params] at hk
        rw [← hk, numpyMergeable_kind h]; exact .leaf
      · exact .union hk
  | regular p c size zeros ih =>
    simp only [mergeable] at h
    exact lists _ b c p rfl rfl rfl ha hb (fun d hd hm => ih (ha.child (by simp [children])) hd hm) h
  | listArray p starts stops c ih =>
    simp only [mergeable] at h
    exact lists _ b c p rfl rfl rfl ha hb (fun d hd hm => ih (ha.child (by simp [children])) hd hm) h
  | listOffset p offsets c ih =>
    simp only [mergeable] at h
    exact lists _ b c p rfl rfl rfl ha hb (fun d hd hm => ih (ha.child (by simp [children])) hd hm) h
  | indexed p index c ih =>
    simp only [mergeable] at h
    exact opts _ b c p rfl rfl rfl ha hb (fun d hd hm => ih (ha.child (by simp [children])) hd hm) h
  | indexedOption p index c ih =>
    simp only [mergeable] at h
    exact opts _ b c p rfl rfl rfl ha hb (fun d hd hm => ih (ha.child (by simp [children])) hd hm) h
  | byteMasked p mask vw c ih =>
    simp only [mergeable] at h
    exact opts _ b c p rfl rfl rfl ha hb (fun d hd hm => ih (ha.child (by simp [children])) hd hm) h
  | bitMasked p mask vw length lsb c ih =>
    simp only [mergeable] at h
    exact opts _ b c p rfl rfl rfl ha hb (fun d hd hm => ih (ha.child (by simp [children])) hd hm) h
  | unmasked p c ih =>
    simp only [mergeable] at h
    exact opts _ b c p rfl rfl rfl ha hb (fun d hd hm => ih (ha.child (by simp [children])) hd hm) h
  | record p keys cs length ih =>
    simp only [mergeable] at h
    cases hs : strip p b with
    | none => rw [hs] at h; simp at h
    | some d =>
      rw [hs] at h
      have hst := strip_spec hs
      have hk := hst.key
      have hdn := hst.nodes no hb
      refine (fun ⟨t, h1, h2⟩ => hst.type (record p keys cs length) rfl rfl t h1 h2 :
        (∃ t, OfType t (record p keys cs length) ∧ OfType t d) → _) ?_
      obtain ⟨t, ht⟩ := exists_type ha
      cases d <;> simp only [Bool.false_eq_true] at h
      · exact ⟨t, ht, .empty (by rw [← ht.key]; exact hk)⟩
      · rename_i q keys' cs' length'
        have hn1 := ha.here
        have hn2 := hdn.here
        simp only [MergeNode] at hn1 hn2
        simp only [params] at hk
        cases keys with
        | none =>
          cases keys' with
          | some _ => simp at h
          | none =>
            simp only [Bool.and_eq_true, decide_eq_true_eq] at h
            obtain ⟨ts, h1, h2⟩ := choose_types (cs := cs)
              (P := fun i t => ∀ (h : i < cs.length) (h' : i < cs'.length),
                OfType t cs[i] ∧ OfType t cs'[i])
              (fun i hi => by
                obtain ⟨d, g1, g2⟩ := mergeableAll_get h.2 hi
                rw [List.getElem?_map, List.getElem?_eq_getElem (by omega)] at g1
                simp only [Option.map_some, Option.some.injEq] at g1
                subst g1
                obtain ⟨t, ht⟩ := ih cs[i] (List.getElem_mem hi)
                  (ha.child (by simpa [children] using List.getElem_mem hi))
                  (hdn.child (by simpa [children] using List.getElem_mem (by omega))) g2
                exact ⟨t, fun _ _ => ht⟩)
            refine ⟨.tuple p.key ts, .tuple h1 (fun i g1 g2 => (h2 i g1 g2 g1 (by omega)).1), ?_⟩
            rw [← hk]
            exact .tuple (by omega) (fun i g1 g2 => (h2 i (by omega) g2 (by omega) g1).2)
        | some ks =>
          cases keys' with
          | none => simp at h
          | some ks' =>
            simp only [Bool.and_eq_true, List.isPerm_iff] at h
            obtain ⟨hnd, hl⟩ := hn1.2.2 ks rfl
            obtain ⟨hnd', hl'⟩ := hn2.2.2 ks' rfl
            obtain ⟨ts, h1, h2⟩ := choose_types (cs := cs)
              (P := fun i t => ∀ (h : i < cs.length) (h' : i < ks.length), OfType t cs[i] ∧
                ∃ d, column ks' cs' ks[i] = some d ∧ OfType t d)
              (fun i hi => by
                obtain ⟨d, g1, g2⟩ := mergeableAll_get h.2 hi
                rw [List.getElem?_map, List.getElem?_eq_getElem (by omega)] at g1
                simp only [Option.map_some, Option.some.injEq, fieldOf] at g1
                have hd : d ∈ cs' := (List.of_mem_zip (lookup_mem g1)).2
                obtain ⟨t, ht⟩ := ih cs[i] (List.getElem_mem hi)
                  (ha.child (by simpa [children] using List.getElem_mem hi))
                  (hdn.child (by simpa [children] using hd)) g2
                exact ⟨t, fun _ _ => ⟨ht.1, d, g1, ht.2⟩⟩)
            refine ⟨.record p.key (ks.zip ts), .record' (List.Perm.refl ks) hl (by omega)
              (fun i hi => ⟨cs[i], lookup_zip_get hnd hl hi,
                (h2 i (by omega) (by omega) (by omega) hi).1⟩), ?_⟩
            rw [← hk]
            exact .record' h.1.symm hl' (by omega) (fun i hi =>
              (h2 i (by omega) (by omega) (by omega) hi).2)
      · exact ⟨t, ht, .union (by rw [← ht.key]; exact hk)⟩

end Content
end Awk
