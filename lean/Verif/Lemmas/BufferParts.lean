import Verif.Lemmas.BufferWalk
import Mathlib.Data.List.Perm.Subperm
/-
Forms that are equal read the same, and partitions.
-/

namespace Awk
open R

mutual
theorem equal_layout (s : Source) : ∀ (f g : Form), f.equal g = true → f.Named → g.Named →
    formToLayout s f = formToLayout s g
  | .empty p k, g, h, hf, hg => by
    cases g <;> simp only [Form.equal, Bool.false_eq_true, Bool.and_eq_true, decide_eq_true_eq] at h
    obtain ⟨rfl, rfl⟩ := h; rfl
  | .numpy p dt k, g, h, hf, hg => by
    cases g <;> simp only [Form.equal, Bool.false_eq_true, Bool.and_eq_true, decide_eq_true_eq] at h
    obtain ⟨⟨rfl, rfl⟩, rfl⟩ := h; rfl
  | .regular p c size k, g, h, hf, hg => by
    cases g <;> simp only [Form.equal, Bool.false_eq_true, Bool.and_eq_true, decide_eq_true_eq] at h
    obtain ⟨⟨⟨rfl, rfl⟩, rfl⟩, h⟩ := h
    have := equal_layout s c _ h hf hg
    funext n; simp only [formToLayout, this]
  | .listArray p a b c k, g, h, hf, hg => by
    cases g <;> simp only [Form.equal, Bool.false_eq_true, Bool.and_eq_true, decide_eq_true_eq] at h
    obtain ⟨⟨⟨⟨rfl, rfl⟩, rfl⟩, rfl⟩, h⟩ := h
    have := equal_layout s c _ h hf hg
    funext n; simp only [formToLayout, this]
  | .listOffset p a c k, g, h, hf, hg => by
    cases g <;> simp only [Form.equal, Bool.false_eq_true, Bool.and_eq_true, decide_eq_true_eq] at h
    obtain ⟨⟨⟨rfl, rfl⟩, rfl⟩, h⟩ := h
    have := equal_layout s c _ h hf hg
    funext n; simp only [formToLayout, this]
  | .indexed p a c k, g, h, hf, hg => by
    cases g <;> simp only [Form.equal, Bool.false_eq_true, Bool.and_eq_true, decide_eq_true_eq] at h
    obtain ⟨⟨⟨rfl, rfl⟩, rfl⟩, h⟩ := h
    have := equal_layout s c _ h hf hg
    funext n; simp only [formToLayout, this]
  | .indexedOption p a c k, g, h, hf, hg => by
    cases g <;> simp only [Form.equal, Bool.false_eq_true, Bool.and_eq_true, decide_eq_true_eq] at h
    obtain ⟨⟨⟨rfl, rfl⟩, rfl⟩, h⟩ := h
    have := equal_layout s c _ h hf hg
    funext n; simp only [formToLayout, this]
  | .byteMasked p a vw c k, g, h, hf, hg => by
    cases g <;> simp only [Form.equal, Bool.false_eq_true, Bool.and_eq_true, decide_eq_true_eq] at h
    obtain ⟨⟨⟨⟨rfl, rfl⟩, rfl⟩, rfl⟩, h⟩ := h
    have := equal_layout s c _ h hf hg
    funext n; simp only [formToLayout, this]
  | .bitMasked p a vw lsb c k, g, h, hf, hg => by
    cases g <;> simp only [Form.equal, Bool.false_eq_true, Bool.and_eq_true, decide_eq_true_eq] at h
    obtain ⟨⟨⟨⟨⟨rfl, rfl⟩, rfl⟩, rfl⟩, rfl⟩, h⟩ := h
    have := equal_layout s c _ h hf hg
    funext n; simp only [formToLayout, this]
  | .unmasked p c k, g, h, hf, hg => by
    cases g <;> simp only [Form.equal, Bool.false_eq_true, Bool.and_eq_true, decide_eq_true_eq] at h
    obtain ⟨⟨rfl, rfl⟩, h⟩ := h
    have := equal_layout s c _ h hf hg
    funext n; simp only [formToLayout, this]
  | .record p none cs k, g, h, hf, hg => by
    cases g <;> try (simp only [Form.equal, Bool.false_eq_true] at h; done)
    rename_i p' ks' cs' k'
    cases ks' <;> simp only [Form.equal, Bool.false_eq_true, Bool.and_eq_true, decide_eq_true_eq] at h
    obtain ⟨⟨⟨rfl, rfl⟩, hl⟩, h⟩ := h
    have := equalAll_layouts s cs cs' h hl hf hg
    funext n; simp only [formToLayout, this, Option.map_none]
  | .record p (some ks) cs k, g, h, hf, hg => by
    cases g <;> try (simp only [Form.equal, Bool.false_eq_true] at h; done)
    rename_i p' ks' cs' k'
    cases ks' <;> simp only [Form.equal, Bool.false_eq_true, Bool.and_eq_true, decide_eq_true_eq] at h
    rename_i ks'
    obtain ⟨⟨⟨rfl, rfl⟩, hl⟩, h⟩ := h
    obtain ⟨h1, h2, h3⟩ := hf
    obtain ⟨g1, g2, g3⟩ := hg
    have hsub := equalNamed_layouts s ks cs ks' cs' h h2 h3 g3
    have : recordItems (some ks) (formsToLayouts s cs)
        = recordItems (some ks') (formsToLayouts s cs') := by
      have e1 : ((ks.zip (formsToLayouts s cs)).map (fun b => b.1)) = ks :=
        zip_names (by rw [formsToLayouts_eq]; simpa using h2)
      have e2 : ((ks'.zip (formsToLayouts s cs')).map (fun b => b.1)) = ks' :=
        zip_names (by rw [formsToLayouts_eq]; simpa using g2)
      have n1 : ((ks.zip (formsToLayouts s cs)).map (fun b => b.1)).Nodup := by rw [e1]; exact h1
      have n2 : ((ks'.zip (formsToLayouts s cs')).map (fun b => b.1)).Nodup := by rw [e2]; exact g1
      simp only [recordItems]
      refine (stdMap_up n1).eq_of_perm (stdMap_up n2)
        ((stdMap_perm n1).trans (List.Perm.trans ?_ (stdMap_perm n2).symm))
      refine List.Subperm.perm_of_length_le (List.subperm_of_subset ((List.pairwise_map.mp n1).imp (fun h e => h (by rw [e]))) hsub) ?_
      simp only [List.length_zip, formsToLayouts_eq, List.length_map]
      omega
    funext n; simp only [formToLayout, this, Option.map_some]
  | .union p a b cs k, g, h, hf, hg => by
    cases g <;> simp only [Form.equal, Bool.false_eq_true, Bool.and_eq_true, decide_eq_true_eq] at h
    obtain ⟨⟨⟨⟨⟨rfl, rfl⟩, rfl⟩, rfl⟩, hl⟩, h⟩ := h
    have := equalAll_layouts s cs _ h hl hf hg
    funext n; simp only [formToLayout, this]
theorem equalAll_layouts (s : Source) : ∀ (cs cs' : List Form), Form.equalAll cs cs' = true →
    cs.length = cs'.length → Form.NamedAll cs → Form.NamedAll cs' →
    formsToLayouts s cs = formsToLayouts s cs'
  | [], [], _, _, _, _ => rfl
  | [], _ :: _, _, h, _, _ => by simp at h
  | _ :: _, [], _, h, _, _ => by simp at h
  | c :: cs, c' :: cs', h, hl, hn, hn' => by
    simp only [Form.equalAll, Bool.and_eq_true] at h
    have h1 := equal_layout s c c' h.1 hn.1 hn'.1
    have h2 := equalAll_layouts s cs cs' h.2 (by simpa using hl) hn.2 hn'.2
    simp only [formsToLayouts, h1, h2]
theorem equalNamed_layouts (s : Source) : ∀ (ks : List String) (cs : List Form) (ks' : List String)
    (cs' : List Form), Form.equalNamed ks cs ks' cs' = true → ks.length = cs.length →
    Form.NamedAll cs → Form.NamedAll cs' →
    ks.zip (formsToLayouts s cs) ⊆ ks'.zip (formsToLayouts s cs')
  | [], [], _, _, _, _, _, _ => by simp
  | [], _ :: _, _, _, _, h, _, _ => by simp at h
  | _ :: _, [], _, _, _, h, _, _ => by simp at h
  | k :: ks, c :: cs, ks', cs', h, hl, hn, hn' => by
    simp only [Form.equalNamed, Bool.and_eq_true] at h
    obtain ⟨h1, h2⟩ := h
    have ih := equalNamed_layouts s ks cs ks' cs' h2 (by simpa using hl) hn.2 hn'
    simp only [formsToLayouts, List.zip_cons_cons]
    refine List.cons_subset.mpr ⟨?_, ih⟩
    cases hj : ks'.findIdx? (fun k' => k == k') with
    | none => simp [hj] at h1
    | some j =>
      simp only [hj] at h1
      cases hc : cs'[j]? with
      | none => simp [hc] at h1
      | some c' =>
        simp only [hc] at h1
        obtain ⟨hj1, hj2, _⟩ := List.findIdx?_eq_some_iff_getElem.mp hj
        have hk : k = ks'[j] := by simpa using hj2
        have e := equal_layout s c c' h1 hn.1
          (namedAll_iff.mp hn' c' (List.mem_of_getElem? hc))
        rw [List.mem_iff_getElem?]
        refine ⟨j, ?_⟩
        rw [List.getElem?_zip_eq_some]
        refine ⟨by rw [List.getElem?_eq_getElem hj1, hk], ?_⟩
        rw [formsToLayouts_eq, List.getElem?_map, hc]
        simp only [Option.map_some, e]
end


/-- Only buffers of partitions from `a` to `b - 1` differ. -/
def KeepsParts (nm : Naming) (a b : Nat) (before after : Container) : Prop :=
  ∀ key, (∀ j attr p, a ≤ p → p < b → key ≠ nm.key j attr p) →
    after.lookup key = before.lookup key

/-- The buffers of partitions from `a` to `b - 1` are those of `cont`. -/
def AgreeParts (nm : Naming) (a b : Nat) (cont cont' : Container) : Prop :=
  ∀ j attr p, a ≤ p → p < b → cont'.lookup (nm.key j attr p) = cont.lookup (nm.key j attr p)

theorem Keeps.parts {w : Walk} {a b : Nat} {c c' : Container} (h : Keeps w a b c c') {q r : Nat}
    (hq : q ≤ w.part) (hr : w.part < r) : KeepsParts w.nm q r c c' :=
  fun k hk => h k (fun j attr _ _ => hk j attr w.part hq hr)

theorem KeepsParts.trans {nm : Naming} {a b : Nat} {c c' c'' : Container}
    (h : KeepsParts nm a b c c') (h' : KeepsParts nm a b c' c'') : KeepsParts nm a b c c'' :=
  fun k hk => (h' k hk).trans (h k hk)

theorem KeepsParts.mono {nm : Naming} {a b a' b' : Nat} {c c' : Container}
    (h : KeepsParts nm a b c c') (ha : a' ≤ a) (hb : b ≤ b') : KeepsParts nm a' b' c c' :=
  fun k hk => h k (fun j attr p h1 h2 => hk j attr p (by omega) (by omega))

theorem AgreeParts.reads {w : Walk} {cont cont1 final : Container} (hd : w.nm.Distinct)
    {q r n : Nat} (hq : q ≤ w.part) (hr : w.part < r) (ha : AgreeParts w.nm q r cont1 final)
    {a b : Nat} (hk : KeepsParts w.nm a b cont cont1) (hw : w.part < a ∨ b ≤ w.part) :
    Reads w 0 n cont ⟨w.fl, w.nm.key_format, final, toString w.part⟩ := by
  refine ⟨rfl, rfl, rfl, fun j attr _ _ => ?_⟩
  refine (ha j attr w.part hq hr).trans (hk _ (fun j' attr' p h1 h2 e => ?_))
  have := (hd _ _ _ _ _ _ e).2.2
  omega

theorem rebuilt_len {c c' : Content} (h : Content.Rebuilt c c' c.len) : c'.len = c.len := by
  have := h.ge; have := h.le; omega

/-- The running sums. -/
def runningSums : Nat → List Nat → List Nat
  | _, [] => []
  | offset, n :: ns => (offset + n) :: runningSums (offset + n) ns

theorem runningSums_get {ns : List Nat} {offset i : Nat} (hi : i < ns.length) :
    (runningSums offset ns)[i]? = some (offset + (ns.take (i + 1)).sum) := by
  induction ns generalizing offset i with
  | nil => simp at hi
  | cons n ns ih =>
    cases i with
    | zero => simp [runningSums]
    | succ i =>
      simp only [runningSums, List.getElem?_cons_succ]
      rw [ih (by simpa using hi)]
      simp [Nat.add_assoc]

theorem runningSums_length {ns : List Nat} {offset : Nat} :
    (runningSums offset ns).length = ns.length := by
  induction ns generalizing offset with
  | nil => rfl
  | cons n ns ih => simp [runningSums, ih]

theorem partsNext {w : Walk} (hd : w.nm.Distinct) {form : Form} (hn : form.Named) :
    ∀ (cs : List Content) (q : Nat) (cont : Container),
      (∀ c ∈ cs, c.Good ∧ Storable w.fl w.kind 0 c) →
      toBuffersNext { w with part := q } form cs cont
          = err "the Form of a partition differs from the first Form" ∨
      ∃ cont', toBuffersNext { w with part := q } form cs cont
          = ok (cs.map Content.len, cont') ∧
        KeepsParts w.nm q (q + cs.length) cont cont' ∧
        ((∀ c ∈ cs, Restorable c c.len) → ∀ final,
          AgreeParts w.nm q (q + cs.length) cont' final → ∀ offset,
          ∃ cs', fromBuffersNext w.fl w.nm.key_format form final (cs.map Content.len) q offset
              = ok (cs', runningSums offset (cs.map Content.len)) ∧
            List.Forall₂ (fun c c' => Content.Rebuilt c c' c.len) cs cs')
  | [], q, cont, _ =>
    .inr ⟨cont, rfl, fun _ _ => rfl, fun _ _ _ _ => ⟨[], rfl, .nil⟩⟩
  | c :: cs, q, cont, h => by
    obtain ⟨f, cont1, e1, h1⟩ := fill_filled (w := { w with part := q }) hd c.rank c 0 cont
      (h c List.mem_cons_self).1 (Nat.le_refl _) (h c List.mem_cons_self).2
    simp only [toBuffersNext]
    rw [e1, bind_ok]
    simp only
    by_cases he : form.equal f = false
    · left; rw [if_pos he]
    rw [if_neg he]
    rcases partsNext hd hn cs (q + 1) cont1 (fun d hd => h d (List.mem_cons_of_mem _ hd)) with
      e2 | ⟨cont2, e2, k2, b2⟩
    · left; rw [e2]; rfl
    right
    refine ⟨cont2, ?_, ?_, ?_⟩
    · rw [e2, bind_ok]; rfl
    · have k1 := h1.keeps.parts (q := q) (r := q + (c :: cs).length) (Nat.le_refl _)
        (by simp)
      exact k1.trans (k2.mono (by omega) (by simp; omega))
    · intro hr final ha offset
      have hb := h1.back ⟨w.fl, w.nm.key_format, final, toString q⟩
        (AgreeParts.reads (w := { w with part := q }) hd (Nat.le_refl q)
          (by simp : q < q + (c :: cs).length) ha k2 (.inl (by simp)))
      obtain ⟨c', e3, hR⟩ := hb c.len (hr c List.mem_cons_self) (by omega) (Int.le_refl _)
      rw [← equal_layout _ form f (by simpa using he) hn h1.named] at e3
      have hl := rebuilt_len hR
      obtain ⟨cs', e4, hF⟩ := b2 (fun d hd => hr d (List.mem_cons_of_mem _ hd)) final
        (fun j attr p h1 h2 => ha j attr p (by omega) (by simp; omega)) (offset + c.len)
      refine ⟨c' :: cs', ?_, .cons hR hF⟩
      simp only [List.map_cons, fromBuffersNext]
      rw [e3, bind_ok, hl, e4, bind_ok]
      rfl

end Awk
