import Verif.Spec.Virtual
import Verif.Lemmas.Field
import Verif.Lemmas.Buffers
/-
Forms of arrays that are cut, gathered or projected.
-/

namespace Awk
open R

theorem Form.settledAll_iff {fs : List Form} : Form.SettledAll fs ↔ ∀ f ∈ fs, f.Settled := by
  induction fs with
  | nil => simp [Form.SettledAll]
  | cons f fs ih => simp [Form.SettledAll, ih]

theorem Content.formAll_eq (cs : List Content) : Content.formAll cs = cs.map Content.form := by
  induction cs with
  | nil => rfl
  | cons c cs ih => rw [Content.formAll, ih]; rfl

theorem findIdx?_nodup {ks : List String} (h : ks.Nodup) {j : Nat} (hj : j < ks.length) :
    ks.findIdx? (fun k' => ks[j] == k') = some j := by
  rw [List.findIdx?_eq_some_iff_getElem]
  refine ⟨hj, by simp, fun i hi => ?_⟩
  have := List.pairwise_iff_getElem.mp h i j (by omega) hj hi
  simp only [beq_iff_eq]
  exact fun hc => this hc.symm

mutual
/-- A form is equal to itself. -/
theorem Form.equal_refl : ∀ (f : Form), f.Settled → f.equal f = true
  | .empty p k, _ => by simp [Form.equal]
  | .numpy p dt k, _ => by simp [Form.equal]
  | .regular p c s k, h => by simp [Form.equal, Form.equal_refl c h]
  | .listArray p a b c k, h => by simp [Form.equal, Form.equal_refl c h]
  | .listOffset p a c k, h => by simp [Form.equal, Form.equal_refl c h]
  | .indexed p a c k, h => by simp [Form.equal, Form.equal_refl c h]
  | .indexedOption p a c k, h => by simp [Form.equal, Form.equal_refl c h]
  | .byteMasked p a v c k, h => by simp [Form.equal, Form.equal_refl c h]
  | .bitMasked p a v l c k, h => h.elim
  | .unmasked p c k, h => by simp [Form.equal, Form.equal_refl c h]
  | .record p none cs k, h => by
    simp [Form.equal, Form.equalAll_refl cs h.2]
  | .record p (some ks) cs k, h => by
    simp only [Form.equal, decide_true, Bool.and_self, Bool.true_and]
    exact Form.equalNamed_refl cs h.2 ks ks cs 0 (h.1 ks rfl).1 (by simp) (by simp) (h.1 ks rfl).2
  | .union p a b cs k, h => by
    simp [Form.equal, Form.equalAll_refl cs h]
/-- The loop over the contents. -/
theorem Form.equalAll_refl : ∀ (fs : List Form), Form.SettledAll fs → Form.equalAll fs fs = true
  | [], _ => rfl
  | f :: fs, h => by
    simp [Form.equalAll, Form.equal_refl f h.1, Form.equalAll_refl fs h.2]
/-- The loop over the named fields. -/
theorem Form.equalNamed_refl : ∀ (cs : List Form), Form.SettledAll cs → ∀ (ks ks' : List String)
    (cs' : List Form) (j : Nat), ks'.Nodup → ks = ks'.drop j → cs = cs'.drop j →
    ks'.length = cs'.length → Form.equalNamed ks cs ks' cs' = true
  | [], _, ks, ks', cs', j, _, _, _, _ => by cases ks <;> rfl
  | c :: cs, h, ks, ks', cs', j, hn, hk, hc, hl => by
    cases ks with
    | nil => rfl
    | cons k ks =>
      have hj : j < ks'.length := by
        rcases Nat.lt_or_ge j ks'.length with h' | h'
        · exact h'
        · rw [List.drop_eq_nil_of_le h'] at hk; cases hk
      rw [List.drop_eq_getElem_cons hj] at hk
      rw [List.drop_eq_getElem_cons (show j < cs'.length by omega)] at hc
      obtain ⟨rfl, rfl⟩ := List.cons.inj hk
      obtain ⟨rfl, rfl⟩ := List.cons.inj hc
      simp only [Form.equalNamed]
      rw [findIdx?_nodup hn hj]
      simp only [List.getElem?_eq_getElem (show j < cs'.length by omega)]
      rw [Form.equal_refl _ h.1, Bool.true_and]
      exact Form.equalNamed_refl _ h.2 _ _ _ (j + 1) hn rfl rfl hl
end

namespace Content

/-- Cutting keeps the form, if there are no bit masks. -/
theorem range_form {c d : Content} {a b : Int} (hs : c.form.Settled) (h : c.range a b = ok d) :
    d.form = c.form := by
  induction c using Awk.Content.induct generalizing d a b with
  | empty p => simp only [range, ok.injEq] at h; subst h; rfl
  | numpy p dt data =>
    simp only [range, numpyRange, bind_eq_ok, ok.injEq] at h
    obtain ⟨_, _, rfl⟩ := h; rfl
  | regular p c size zeros ih =>
    simp only [range, bind_eq_ok, ok.injEq] at h
    obtain ⟨c', h1, rfl⟩ := h
    simp only [form, ih hs h1]
  | listArray p starts stops c ih =>
    simp only [range, bind_eq_ok, ok.injEq] at h
    obtain ⟨_, _, _, _, rfl⟩ := h; rfl
  | listOffset p offsets c ih =>
    simp only [range, bind_eq_ok, ok.injEq] at h
    obtain ⟨_, _, rfl⟩ := h; rfl
  | indexed p index c ih =>
    simp only [range, bind_eq_ok, ok.injEq] at h
    obtain ⟨_, _, rfl⟩ := h; rfl
  | indexedOption p index c ih =>
    simp only [range, bind_eq_ok, ok.injEq] at h
    obtain ⟨_, _, rfl⟩ := h; rfl
  | byteMasked p mask vw c ih =>
    simp only [range, bind_eq_ok, ok.injEq] at h
    obtain ⟨_, _, c', h1, rfl⟩ := h
    simp only [form, ih hs h1]
  | bitMasked p mask vw length lsb c ih => exact hs.elim
  | unmasked p c ih =>
    simp only [range, bind_eq_ok, ok.injEq] at h
    obtain ⟨c', h1, rfl⟩ := h
    simp only [form, ih hs h1]
  | record p keys cs length ih =>
    simp only [range] at h
    split at h
    · cases h; rfl
    · split at h
      · cases h; rfl
      · simp only [bind_eq_ok, ok.injEq] at h
        obtain ⟨cs', h1, rfl⟩ := h
        simp only [form, formAll_eq]
        congr 1
        have hs' := Form.settledAll_iff.mp hs.2
        rw [formAll_eq] at hs'
        exact (map_eq_of_forall₂ (rangeFields_forall₂ h1) (fun x hx y _ hy =>
          (ih x hx (hs' _ (List.mem_map_of_mem hx)) hy).symm)).symm
  | union p tags index cs ih =>
    simp only [range, bind_eq_ok, ok.injEq] at h
    obtain ⟨_, _, _, _, rfl⟩ := h; rfl

theorem range_settled {c d : Content} {a b : Int} (hs : c.form.Settled) (h : c.range a b = ok d) :
    d.form.Settled := by
  rw [range_form hs h]; exact hs

/-- Two arrays of the same form keep having the same form when the same items are taken. -/
theorem carry_form {c d c' d' : Content} {idx : List Int} {lazy : Bool} (hs : c.form.Settled)
    (hf : c.form = d.form) (h : c.carry lazy idx = ok c') (h' : d.carry lazy idx = ok d') :
    c'.form = d'.form := by
  have cut : ∀ {x x' : Content} {a b : Int}, x.form = c.form → x.range a b = ok x' →
      x'.form = c.form := by
    intro x x' a b hx hr
    rw [range_form (hx ▸ hs) hr, hx]
  induction c using Awk.Content.induct generalizing d c' d' idx with
  | empty p =>
    cases d <;> simp only [form, Form.empty.injEq, reduceCtorEq] at hf
    obtain ⟨rfl, _⟩ := hf
    simp only [carry] at h h'
    split at h <;> simp_all
  | numpy p dt data =>
    cases d <;> simp only [form, Form.numpy.injEq, reduceCtorEq] at hf
    rename_i p' dt' data'
    obtain ⟨rfl, rfl, _⟩ := hf
    have key : ∀ {x : List Atom} {x' : Content}, (numpy p dt x).carry lazy idx = ok x' →
        x'.form = .numpy p dt "" := by
      intro x x' hx
      simp only [carry] at hx
      split at hx
      · split at hx
        · cases hx; rfl
        · exact cut (x := numpy p dt x) rfl hx
      · simp only [bind_eq_ok, ok.injEq] at hx
        obtain ⟨_, _, rfl⟩ := hx; rfl
    rw [key h, key h']
  | regular p c size zeros ih =>
    cases d <;> simp only [form, Form.regular.injEq, reduceCtorEq] at hf
    rename_i p' d size' zeros'
    obtain ⟨rfl, hf, rfl, _⟩ := hf
    have e : (regular p d size zeros').form = (regular p c size zeros).form := by
      simp only [form, hf]
    simp only [carry] at h h'
    split at h
    · rename_i hc
      rw [if_pos hc] at h'
      have k1 : c'.form = (regular p c size zeros).form := by
        split at h
        · cases h; rfl
        · exact cut rfl h
      have k2 : d'.form = (regular p c size zeros).form := by
        split at h'
        · cases h'; exact e
        · exact cut e h'
      rw [k1, k2]
    · rename_i hc
      rw [if_neg hc] at h'
      simp only [bind_eq_ok, ok.injEq] at h h'
      obtain ⟨n, h1, x, h2, rfl⟩ := h
      obtain ⟨n', h1', x', h2', rfl⟩ := h'
      rw [h1, ok.injEq] at h1'
      subst h1'
      simp only [form]
      rw [ih hs hf h2 h2' (fun {y y' a b} hy hr => by rw [range_form (hy ▸ hs) hr, hy])]
  | listArray p starts stops c ih =>
    cases d <;> simp only [form, Form.listArray.injEq, reduceCtorEq] at hf
    rename_i p' starts' stops' d
    obtain ⟨rfl, _, _, hf, _⟩ := hf
    have key : ∀ {s t : List Int} {x x' : Content}, x.form = c.form →
        (listArray p s t x).carry lazy idx = ok x' → x'.form = (listArray p starts stops c).form := by
      intro s t x x' hx hr
      have e : (listArray p s t x).form = (listArray p starts stops c).form := by simp only [form, hx]
      simp only [carry] at hr
      split at hr
      · split at hr
        · cases hr; exact e
        · exact cut e hr
      · split at hr
        · cases hr
        · simp only [bind_eq_ok, ok.injEq] at hr
          obtain ⟨_, _, rfl⟩ := hr
          simp only [form, hx]
    rw [key rfl h, key hf.symm h']
  | listOffset p offsets c ih =>
    cases d <;> simp only [form, Form.listOffset.injEq, reduceCtorEq] at hf
    rename_i p' offsets' d
    obtain ⟨rfl, _, hf, _⟩ := hf
    have e : (listOffset p offsets' d).form = (listOffset p offsets c).form := by simp only [form, hf]
    simp only [carry] at h h'
    split at h
    · rename_i hc
      rw [if_pos hc] at h'
      have k1 : c'.form = (listOffset p offsets c).form := by
        split at h
        · cases h; rfl
        · exact cut rfl h
      have k2 : d'.form = (listOffset p offsets c).form := by
        split at h'
        · cases h'; exact e
        · exact cut e h'
      rw [k1, k2]
    · rename_i hc
      rw [if_neg hc] at h'
      simp only [bind_eq_ok, ok.injEq] at h h'
      obtain ⟨_, _, rfl⟩ := h
      obtain ⟨_, _, rfl⟩ := h'
      simp only [form, hf]
  | indexed p index c ih =>
    cases d <;> simp only [form, Form.indexed.injEq, reduceCtorEq] at hf
    rename_i p' index' d
    obtain ⟨rfl, _, hf, _⟩ := hf
    have key : ∀ {s : List Int} {x x' : Content}, x.form = c.form →
        (indexed p s x).carry lazy idx = ok x' → x'.form = (indexed p index c).form := by
      intro s x x' hx hr
      have e : (indexed p s x).form = (indexed p index c).form := by simp only [form, hx]
      simp only [carry] at hr
      split at hr
      · split at hr
        · cases hr; exact e
        · exact cut e hr
      · simp only [bind_eq_ok, ok.injEq] at hr
        obtain ⟨_, _, rfl⟩ := hr
        simp only [form, hx]
    rw [key rfl h, key hf.symm h']
  | indexedOption p index c ih =>
    cases d <;> simp only [form, Form.indexedOption.injEq, reduceCtorEq] at hf
    rename_i p' index' d
    obtain ⟨rfl, _, hf, _⟩ := hf
    have key : ∀ {s : List Int} {x x' : Content}, x.form = c.form →
        (indexedOption p s x).carry lazy idx = ok x' → x'.form = (indexedOption p index c).form := by
      intro s x x' hx hr
      have e : (indexedOption p s x).form = (indexedOption p index c).form := by simp only [form, hx]
      simp only [carry] at hr
      split at hr
      · split at hr
        · cases hr; exact e
        · exact cut e hr
      · simp only [bind_eq_ok, ok.injEq] at hr
        obtain ⟨_, _, rfl⟩ := hr
        simp only [form, hx]
    rw [key rfl h, key hf.symm h']
  | byteMasked p mask vw c ih =>
    cases d <;> simp only [form, Form.byteMasked.injEq, reduceCtorEq] at hf
    rename_i p' mask' vw' d
    obtain ⟨rfl, _, rfl, hf, _⟩ := hf
    have e : (byteMasked p mask' vw d).form = (byteMasked p mask vw c).form := by
      simp only [form, hf]
    simp only [carry] at h h'
    split at h
    · rename_i hc
      rw [if_pos hc] at h'
      have k1 : c'.form = (byteMasked p mask vw c).form := by
        split at h
        · cases h; rfl
        · exact cut rfl h
      have k2 : d'.form = (byteMasked p mask vw c).form := by
        split at h'
        · cases h'; exact e
        · exact cut e h'
      rw [k1, k2]
    · rename_i hc
      rw [if_neg hc] at h'
      simp only [byteMaskedCarry, bind_eq_ok, ok.injEq] at h h'
      obtain ⟨_, _, x, h2, rfl⟩ := h
      obtain ⟨_, _, x', h2', rfl⟩ := h'
      simp only [form]
      rw [ih hs hf h2 h2' (fun {y y' a b} hy hr => by rw [range_form (hy ▸ hs) hr, hy])]
  | bitMasked p mask vw length lsb c ih => exact hs.elim
  | unmasked p c ih =>
    cases d <;> simp only [form, Form.unmasked.injEq, reduceCtorEq] at hf
    rename_i p' d
    obtain ⟨rfl, hf, _⟩ := hf
    have e : (unmasked p d).form = (unmasked p c).form := by simp only [form, hf]
    simp only [carry] at h h'
    split at h
    · rename_i hc
      rw [if_pos hc] at h'
      have k1 : c'.form = (unmasked p c).form := by
        split at h
        · cases h; rfl
        · exact cut rfl h
      have k2 : d'.form = (unmasked p c).form := by
        split at h'
        · cases h'; exact e
        · exact cut e h'
      rw [k1, k2]
    · rename_i hc
      rw [if_neg hc] at h'
      simp only [bind_eq_ok, ok.injEq] at h h'
      obtain ⟨x, h2, rfl⟩ := h
      obtain ⟨x', h2', rfl⟩ := h'
      simp only [form]
      rw [ih hs hf h2 h2' (fun {y y' a b} hy hr => by rw [range_form (hy ▸ hs) hr, hy])]
  | record p keys cs length ih =>
    cases d <;> simp only [form, Form.record.injEq, reduceCtorEq] at hf
    rename_i p' keys' ds length'
    obtain ⟨rfl, rfl, hf, _⟩ := hf
    have e : (record p keys ds length').form = (record p keys cs length).form := by
      simp only [form, hf]
    simp only [carry] at h h'
    split at h
    · rename_i hc
      rw [if_pos hc] at h'
      have k1 : c'.form = (record p keys cs length).form := by
        split at h
        · cases h; rfl
        · exact cut rfl h
      have k2 : d'.form = (record p keys cs length).form := by
        split at h'
        · cases h'; exact e
        · exact cut e h'
      rw [k1, k2]
    · rename_i hc
      rw [if_neg hc] at h'
      cases lazy with
      | true =>
        rw [if_pos rfl] at h h'
        cases h; cases h'
        simp only [form, hf]
      | false =>
        rw [if_neg (by simp)] at h h'
        simp only [bind_eq_ok, ok.injEq] at h h'
        obtain ⟨xs, h2, rfl⟩ := h
        obtain ⟨xs', h2', rfl⟩ := h'
        simp only [form]
        congr 1
        have hs' := Form.settledAll_iff.mp hs.2
        clear hs e hc cut
        induction cs generalizing ds xs xs' with
        | nil =>
          cases ds with
          | nil => cases h2; cases h2'; rfl
          | cons d ds => simp [formAll] at hf
        | cons c cs ih2 =>
          cases ds with
          | nil => simp [formAll] at hf
          | cons d ds =>
            simp only [formAll, List.cons.injEq] at hf
            simp only [carryFields, bind_eq_ok, ok.injEq] at h2 h2'
            obtain ⟨x, g1, y, g2, rfl⟩ := h2
            obtain ⟨x', g1', y', g2', rfl⟩ := h2'
            have hc := hs' c.form (by simp [formAll])
            simp only [formAll]
            rw [ih c List.mem_cons_self hc hf.1 g1 g1'
                (fun {y y' a b} hy hr => by rw [range_form (hy ▸ hc) hr, hy]),
              ih2 ds hf.2 (fun z hz => ih z (List.mem_cons_of_mem _ hz)) y g2 y' g2'
                (fun f hf => hs' f (by simp only [formAll]; exact List.mem_cons_of_mem _ hf))]
  | union p tags index cs ih =>
    cases d <;> simp only [form, Form.union.injEq, reduceCtorEq] at hf
    rename_i p' tags' index' ds
    obtain ⟨rfl, _, _, hf, _⟩ := hf
    have key : ∀ {s t : List Int} {x : List Content} {x' : Content}, formAll x = formAll cs →
        (union p s t x).carry lazy idx = ok x' → x'.form = (union p tags index cs).form := by
      intro s t x x' hx hr
      have e : (union p s t x).form = (union p tags index cs).form := by simp only [form, hx]
      simp only [carry] at hr
      split at hr
      · split at hr
        · cases hr; exact e
        · exact cut e hr
      · split at hr
        · cases hr
        · simp only [bind_eq_ok, ok.injEq] at hr
          obtain ⟨_, _, _, _, rfl⟩ := hr
          simp only [form, hx]
    rw [key rfl h, key hf.symm h']

/-- Taking items keeps a form settled. -/
theorem carry_settled {c c' : Content} {idx : List Int} {lazy : Bool} (hs : c.form.Settled)
    (h : c.carry lazy idx = ok c') : c'.form.Settled := by
  have cut : ∀ {x' : Content} {a b : Int}, c.range a b = ok x' → x'.form.Settled := by
    intro x' a b hr
    rw [range_form hs hr]; exact hs
  induction c using Awk.Content.induct generalizing c' idx with
  | empty p => simp only [carry] at h; split at h <;> cases h; trivial
  | numpy p dt data =>
    simp only [carry] at h
    split at h
    · split at h
      · cases h; exact hs
      · exact cut h
    · simp only [bind_eq_ok, ok.injEq] at h
      obtain ⟨_, _, rfl⟩ := h; exact hs
  | regular p c size zeros ih =>
    simp only [carry] at h
    split at h
    · split at h
      · cases h; exact hs
      · exact cut h
    · simp only [bind_eq_ok, ok.injEq] at h
      obtain ⟨_, _, x, h2, rfl⟩ := h
      exact ih (c' := x) hs h2 (fun {x' a b} hr => range_settled (c := c) hs hr)
  | listArray p starts stops c ih =>
    simp only [carry] at h
    split at h
    · split at h
      · cases h; exact hs
      · exact cut h
    · split at h
      · cases h
      · simp only [bind_eq_ok, ok.injEq] at h
        obtain ⟨_, _, rfl⟩ := h; exact hs
  | listOffset p offsets c ih =>
    simp only [carry] at h
    split at h
    · split at h
      · cases h; exact hs
      · exact cut h
    · simp only [bind_eq_ok, ok.injEq] at h
      obtain ⟨_, _, rfl⟩ := h; exact hs
  | indexed p index c ih =>
    simp only [carry] at h
    split at h
    · split at h
      · cases h; exact hs
      · exact cut h
    · simp only [bind_eq_ok, ok.injEq] at h
      obtain ⟨_, _, rfl⟩ := h; exact hs
  | indexedOption p index c ih =>
    simp only [carry] at h
    split at h
    · split at h
      · cases h; exact hs
      · exact cut h
    · simp only [bind_eq_ok, ok.injEq] at h
      obtain ⟨_, _, rfl⟩ := h; exact hs
  | byteMasked p mask vw c ih =>
    simp only [carry] at h
    split at h
    · split at h
      · cases h; exact hs
      · exact cut h
    · simp only [byteMaskedCarry, bind_eq_ok, ok.injEq] at h
      obtain ⟨_, _, x, h2, rfl⟩ := h
      exact ih (c' := x) hs h2 (fun {x' a b} hr => range_settled (c := c) hs hr)
  | bitMasked p mask vw length lsb c ih => exact hs.elim
  | unmasked p c ih =>
    simp only [carry] at h
    split at h
    · split at h
      · cases h; exact hs
      · exact cut h
    · simp only [bind_eq_ok, ok.injEq] at h
      obtain ⟨x, h2, rfl⟩ := h
      exact ih (c' := x) hs h2 (fun {x' a b} hr => range_settled (c := c) hs hr)
  | record p keys cs length ih =>
    simp only [carry] at h
    split at h
    · split at h
      · cases h; exact hs
      · exact cut h
    · split at h
      · cases h; exact hs
      · simp only [bind_eq_ok, ok.injEq] at h
        obtain ⟨xs, h2, rfl⟩ := h
        have hl : xs.length = cs.length ∧ Form.SettledAll (formAll xs) := by
          have hs' := hs.2
          clear hs cut
          induction cs generalizing xs with
          | nil => cases h2; exact ⟨rfl, trivial⟩
          | cons c cs ih2 =>
            simp only [carryFields, bind_eq_ok, ok.injEq] at h2
            obtain ⟨x, g1, y, g2, rfl⟩ := h2
            obtain ⟨k1, k2⟩ := ih2 (fun z hz => ih z (List.mem_cons_of_mem _ hz)) y g2 hs'.2
            exact ⟨by simp [k1], ih c List.mem_cons_self hs'.1 g1
              (fun {x' a b} hr => by rw [range_form hs'.1 hr]; exact hs'.1), k2⟩
        refine ⟨fun ks hk => ?_, hl.2⟩
        have := hs.1 ks hk
        rw [formAll_eq, List.length_map] at this ⊢
        rw [hl.1]; exact this
  | union p tags index cs ih =>
    simp only [carry] at h
    split at h
    · split at h
      · cases h; exact hs
      · exact cut h
    · split at h
      · cases h
      · simp only [bind_eq_ok, ok.injEq] at h
        obtain ⟨_, _, _, _, rfl⟩ := h; exact hs

end Content
end Awk
