import Verif.Lemmas.VirtualForms
/-
Fields of arrays and of forms.
-/

namespace Awk
open R
namespace Content

theorem form_node {c d : Content} (h : c.form = d.form) :
    c.params = d.params ∧ c.isListNode = d.isListNode ∧
      c.isOptionOrIndexed = d.isOptionOrIndexed ∧ c.children.map form = d.children.map form := by
  cases c <;> cases d <;> simp only [form, reduceCtorEq] at h <;> injections <;> subst_vars <;>
    simp_all [params, isListNode, isOptionOrIndexed, children, formAll_eq]

theorem form_child {c d : Content} (h : c.children.map form = d.children.map form) {y : Content}
    (hy : y ∈ d.children) : ∃ x ∈ c.children, x.form = y.form := by
  have : y.form ∈ c.children.map form := by rw [h]; exact List.mem_map_of_mem hy
  simpa using List.mem_map.mp this

theorem form_nth {cs ds : List Content} (h : formAll cs = formAll ds) :
    cs.length = ds.length ∧ ∀ (i : Nat) (x : Content), cs[i]? = some x →
      ∃ y, ds[i]? = some y ∧ x.form = y.form := by
  rw [formAll_eq, formAll_eq] at h
  refine ⟨by simpa using congrArg List.length h, fun i x hx => ?_⟩
  have := congrArg (fun l => l[i]?) h
  simp only [List.getElem?_map, hx, Option.map_some] at this
  cases hd : ds[i]? with
  | none => simp [hd] at this
  | some y => simp only [hd, Option.map_some, Option.some.injEq] at this; exact ⟨y, rfl, this⟩

/-- Which fields an array has depends on its form only. -/
theorem hasFields_form {ss : List FieldSel} {c d : Content} (h : HasFields ss c)
    (hf : c.form = d.form) : HasFields ss d := by
  induction h generalizing d with
  | nil => exact .nil
  | list hl hp h ih =>
    obtain ⟨h1, h2, h3, h4⟩ := form_node hf
    refine .list (h2 ▸ hl) (h1 ▸ hp) (fun y hy => ?_)
    obtain ⟨x, hx, hxy⟩ := form_child h4 hy
    exact ih x hx hxy
  | option ho h ih =>
    obtain ⟨h1, h2, h3, h4⟩ := form_node hf
    refine .option (h3 ▸ ho) (fun y hy => ?_)
    obtain ⟨x, hx, hxy⟩ := form_child h4 hy
    exact ih x hx hxy
  | @one key ss p keys cs length i x hn hd h ih =>
    cases d <;> simp only [form, Form.record.injEq, reduceCtorEq] at hf
    obtain ⟨rfl, rfl, hf, _⟩ := hf
    obtain ⟨hl, hg⟩ := form_nth hf
    obtain ⟨y, hy, hxy⟩ := hg i x hd
    exact .one (hl ▸ hn) hy (ih hxy)
  | @many names ss p keys cs length h h' ih =>
    cases d <;> simp only [form, Form.record.injEq, reduceCtorEq] at hf
    obtain ⟨rfl, rfl, hf, _⟩ := hf
    obtain ⟨hl, hg⟩ := form_nth hf
    obtain ⟨_, hg'⟩ := form_nth hf.symm
    refine .many (fun key hk => ?_) (fun key hk i y hn hy => ?_)
    · obtain ⟨i, x, g1, g2⟩ := h key hk
      obtain ⟨y, hy, _⟩ := hg i x g2
      exact ⟨i, y, hl ▸ g1, hy⟩
    · obtain ⟨x, hx, hxy⟩ := hg' i y hy
      exact ih key hk i x (hl ▸ hn) hx hxy.symm

/-- Simplifying nested options, on the form. -/
theorem simplifyOption_form {x y : Content} (hs : x.form.Settled) (ho : x.isOptionOrIndexed = true)
    (h : x.simplifyOption = ok y) : y.form = x.form.simplifyOption ∧ y.form.Settled := by
  have key : ∀ {b : Bool} {p : Params} {index : List Int} {c : Content}, c.form.Settled →
      indexedSimplify b p index c = ok y →
      y.form = (if b then (indexedOption p index c) else (indexed p index c)).form.simplifyOption ∧
        y.form.Settled := by
    intro b p index c hc h
    simp only [indexedSimplify, bind_eq_ok] at h
    obtain ⟨r, h1, h2⟩ := h
    cases c <;> simp only [innerIndex, bind_eq_ok, ok.injEq] at h1
    all_goals try subst h1
    all_goals try obtain ⟨_, _, rfl⟩ := h1
    all_goals simp only [bind_eq_ok, ok.injEq] at h2
    all_goals try obtain ⟨_, _, rfl⟩ := h2
    all_goals try subst h2
    all_goals cases b <;> refine ⟨?_, ?_⟩ <;> first | exact hc | rfl | exact hc.elim
  cases x <;> simp only [isOptionOrIndexed, Bool.false_eq_true] at ho
  case indexed p index c => exact key (b := false) (c := c) hs h
  case indexedOption p index c => exact key (b := true) (c := c) hs h
  case byteMasked p mask vw c =>
    simp only [simplifyOption] at h
    split at h
    · rename_i hc
      simp only [bind_eq_ok] at h
      obtain ⟨index, _, h⟩ := h
      obtain ⟨k1, k2⟩ := key (b := true) (c := c) hs h
      refine ⟨?_, k2⟩
      rw [k1]
      cases c <;> simp only [isOptionOrIndexed, Bool.false_eq_true] at hc <;> rfl
    · rename_i hc
      cases h
      refine ⟨?_, hs⟩
      cases c <;> simp only [isOptionOrIndexed, not_true] at hc <;> rfl
  case bitMasked => exact hs.elim
  case unmasked p c =>
    simp only [simplifyOption] at h
    split at h
    · rename_i hc
      cases h
      refine ⟨?_, hs⟩
      cases y <;> simp only [isOptionOrIndexed, Bool.false_eq_true] at hc <;> rfl
    · rename_i hc
      cases h
      refine ⟨?_, hs⟩
      cases c <;> simp only [isOptionOrIndexed, not_true] at hc <;> rfl

theorem rd_form {cs : List Content} {i : Int} {c : Content} (h : rd cs i = ok c) :
    rd (formAll cs) i = ok c.form := by
  rw [rd_eq_ok] at h ⊢
  rw [formAll_eq, List.getElem?_map, h.2]
  exact ⟨h.1, rfl⟩

/-- Selecting fields, on the form. -/
theorem getitemFields_form {same : Content → Content → Bool} {s : FieldSel} {c d : Content}
    (hn : ∀ names, s = .many names → names.Nodup) (hf : HasFields [s] c) (hs : c.form.Settled)
    (h : getitemFields same s ok c = ok d) :
    c.form.getitemFields s = ok d.form ∧ d.form.Settled := by
  induction c using Awk.Content.induct generalizing d with
  | empty p => simp [getitemFields] at h
  | numpy p dt data => simp [getitemFields] at h
  | regular p c size zeros ih =>
    simp only [getitemFields, bind_eq_ok, ok.injEq] at h
    obtain ⟨c', h1, rfl⟩ := h
    have hf' : HasFields [s] c := by cases hf with
      | list hl hp h => exact h c (by simp [children])
      | option ho h => simp [isOptionOrIndexed] at ho
    obtain ⟨k1, k2⟩ := ih hf' hs h1
    exact ⟨by simp only [form, Form.getitemFields, k1, bind_ok], k2⟩
  | listArray p starts stops c ih =>
    simp only [getitemFields, bind_eq_ok, ok.injEq] at h
    obtain ⟨c', h1, rfl⟩ := h
    have hf' : HasFields [s] c := by cases hf with
      | list hl hp h => exact h c (by simp [children])
      | option ho h => simp [isOptionOrIndexed] at ho
    obtain ⟨k1, k2⟩ := ih hf' hs h1
    exact ⟨by simp only [form, Form.getitemFields, k1, bind_ok], k2⟩
  | listOffset p offsets c ih =>
    simp only [getitemFields, bind_eq_ok, ok.injEq] at h
    obtain ⟨c', h1, rfl⟩ := h
    have hf' : HasFields [s] c := by cases hf with
      | list hl hp h => exact h c (by simp [children])
      | option ho h => simp [isOptionOrIndexed] at ho
    obtain ⟨k1, k2⟩ := ih hf' hs h1
    exact ⟨by simp only [form, Form.getitemFields, k1, bind_ok], k2⟩
  | indexed p index c ih =>
    simp only [getitemFields, bind_eq_ok] at h
    obtain ⟨c', h1, h2⟩ := h
    have hf' : HasFields [s] c := by cases hf with
      | list hl hp h => simp [isListNode] at hl
      | option ho h => exact h c (by simp [children])
    obtain ⟨k1, k2⟩ := ih hf' hs h1
    obtain ⟨g1, g2⟩ := simplifyOption_form (x := indexed {} index c') k2 rfl h2
    exact ⟨by simp only [form, Form.getitemFields, k1, bind_ok, g1], g2⟩
  | indexedOption p index c ih =>
    simp only [getitemFields, bind_eq_ok] at h
    obtain ⟨c', h1, h2⟩ := h
    have hf' : HasFields [s] c := by cases hf with
      | list hl hp h => simp [isListNode] at hl
      | option ho h => exact h c (by simp [children])
    obtain ⟨k1, k2⟩ := ih hf' hs h1
    obtain ⟨g1, g2⟩ := simplifyOption_form (x := indexedOption {} index c') k2 rfl h2
    exact ⟨by simp only [form, Form.getitemFields, k1, bind_ok, g1], g2⟩
  | byteMasked p mask vw c ih =>
    simp only [getitemFields, bind_eq_ok] at h
    obtain ⟨c', h1, h2⟩ := h
    have hf' : HasFields [s] c := by cases hf with
      | list hl hp h => simp [isListNode] at hl
      | option ho h => exact h c (by simp [children])
    obtain ⟨k1, k2⟩ := ih hf' hs h1
    obtain ⟨g1, g2⟩ := simplifyOption_form (x := byteMasked {} mask vw c') k2 rfl h2
    exact ⟨by simp only [form, Form.getitemFields, k1, bind_ok, g1], g2⟩
  | bitMasked p mask vw length lsb c ih => exact hs.elim
  | unmasked p c ih =>
    simp only [getitemFields, bind_eq_ok] at h
    obtain ⟨c', h1, h2⟩ := h
    have hf' : HasFields [s] c := by cases hf with
      | list hl hp h => simp [isListNode] at hl
      | option ho h => exact h c (by simp [children])
    obtain ⟨k1, k2⟩ := ih hf' hs h1
    obtain ⟨g1, g2⟩ := simplifyOption_form (x := unmasked {} c') k2 rfl h2
    exact ⟨by simp only [form, Form.getitemFields, k1, bind_ok, g1], g2⟩
  | record p keys cs length ih =>
    have hs' := Form.settledAll_iff.mp hs.2
    have hl : (formAll cs).length = cs.length := by rw [formAll_eq, List.length_map]
    have pick : ∀ {key : String} {x : Content}, fieldOfKey keys cs key = ok x →
        (fieldIndex keys key (formAll cs).length >>= fun i => rd (formAll cs) i) = ok x.form ∧
          x.form.Settled := by
      intro key x hx
      simp only [fieldOfKey, bind_eq_ok] at hx
      obtain ⟨i, h1, h2⟩ := hx
      refine ⟨by rw [hl, h1, bind_ok, rd_form h2], hs' _ ?_⟩
      rw [formAll_eq]
      rw [rd_eq_ok] at h2
      exact List.mem_map_of_mem (List.mem_of_getElem? h2.2)
    cases s with
    | one key =>
      simp only [getitemFields, bind_eq_ok, ok.injEq] at h
      obtain ⟨x, h1, y, h2, rfl⟩ := h
      obtain ⟨k1, k2⟩ := pick h1
      refine ⟨?_, range_settled k2 h2⟩
      rw [range_form k2 h2]
      exact k1
    | many names =>
      simp only [getitemFields, bind_eq_ok, ok.injEq] at h
      obtain ⟨cs', h1, rfl⟩ := h
      have hall : ∀ {names : List String} {cs' : List Content},
          mapR (fun key => fieldOfKey keys cs key >>= ok) names = ok cs' →
          mapR (fun key => fieldIndex keys key (formAll cs).length >>= fun i => rd (formAll cs) i)
            names = ok (formAll cs') ∧ Form.SettledAll (formAll cs') := by
        intro names
        induction names with
        | nil => intro cs' h; simp only [mapR, ok.injEq] at h; subst h; exact ⟨rfl, trivial⟩
        | cons k ks ih2 =>
          intro cs' h
          simp only [mapR, bind_eq_ok, ok.injEq] at h
          obtain ⟨x, ⟨x', h1, rfl⟩, xs, h2, rfl⟩ := h
          obtain ⟨k1, k2⟩ := pick h1
          obtain ⟨g1, g2⟩ := ih2 h2
          simp only [mapR, k1, bind_ok, g1]
          exact ⟨rfl, k2, g2⟩
      obtain ⟨g1, g2⟩ := hall h1
      refine ⟨?_, fun ks hk => ?_, g2⟩
      · simp only [form, Form.getitemFields, g1, bind_ok]
      · cases keys with
        | none => simp at hk
        | some _ =>
          simp only [Option.map_some, Option.some.injEq] at hk
          subst hk
          refine ⟨hn _ rfl, ?_⟩
          rw [formAll_eq, List.length_map, mapR_length h1]
  | union p tags index cs ih => cases hf with
    | list hl hp h => simp [isListNode] at hl
    | option ho h => simp [isOptionOrIndexed] at ho

end Content
end Awk
