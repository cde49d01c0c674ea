import Verif.Spec.Types
import Verif.Lemmas.Validity
import Verif.Lemmas.VirtualForms
import Verif.Lemmas.ValD
/-
The types of arrays and their values.
-/

namespace Awk
open R Spec

namespace Content

theorem builtAll_iff {cs : List Content} : BuiltAll cs ↔ ∀ c ∈ cs, c.Built := by
  induction cs with
  | nil => simp [BuiltAll]
  | cons c cs ih => simp [BuiltAll, ih]

mutual
/-- Only lists are text. -/
def Quiet : Content → Prop
  | empty _ => True
  | numpy _ _ _ => True
  | regular _ c _ _ => c.Quiet
  | listArray _ _ _ c => c.Quiet
  | listOffset _ _ c => c.Quiet
  | indexed p _ c => (p.arr = .none ∨ p.arr = .categorical) ∧ c.Quiet
  | indexedOption _ _ c => c.Quiet
  | byteMasked _ _ _ c => c.Quiet
  | bitMasked _ _ _ _ _ c => c.Quiet
  | unmasked _ c => c.Quiet
  | record _ _ cs _ => QuietAll cs
  | union _ _ _ cs => QuietAll cs
/-- `Quiet` of every member. -/
def QuietAll : List Content → Prop
  | [] => True
  | c :: cs => c.Quiet ∧ QuietAll cs
end

theorem quietAll_iff {cs : List Content} : QuietAll cs ↔ ∀ c ∈ cs, c.Quiet := by
  induction cs with
  | nil => simp [QuietAll]
  | cons c cs ih => simp [QuietAll, ih]

theorem quiet_of_validity {c : Content} (h : c.validity = ok ()) : c.Quiet := by
  have inner : ∀ {p : Params} {c : Content}, (c.validity = ok () → c.Quiet) →
      paramsOkList p c = ok () →
      (if p.arr = .string ∨ p.arr = .bytestring then ok () else c.validity) = ok () → c.Quiet := by
    intro p c ih h1 h2
    rcases paramsOkList_content h1 h2 with ⟨_, p', data, rfl, _⟩ | ⟨_, h2⟩
    · trivial
    · exact ih h2
  induction c using Awk.Content.induct with
  | empty p => trivial
  | numpy p dt data => trivial
  | regular p c size zeros ih =>
    simp only [validity, bind_eq_ok] at h
    obtain ⟨⟨⟩, h1, h2⟩ := h
    have := inner ih h1 h2
    exact this
  | listArray p starts stops c ih =>
    simp only [validity, bind_eq_ok] at h
    obtain ⟨⟨⟩, h1, h2⟩ := h
    split at h2
    · cases h2
    · simp only [bind_eq_ok] at h2
      obtain ⟨⟨⟩, _, h2⟩ := h2
      have := inner ih h1 h2
      exact this
  | listOffset p offsets c ih =>
    simp only [validity, bind_eq_ok] at h
    obtain ⟨⟨⟩, h1, h2⟩ := h
    split at h2
    · cases h2
    · simp only [bind_eq_ok] at h2
      obtain ⟨⟨⟩, _, h2⟩ := h2
      have := inner ih h1 h2
      exact this
  | indexed p index c ih =>
    simp only [validity, bind_eq_ok] at h
    obtain ⟨⟨⟩, h1, ⟨⟩, _, ⟨⟩, _, h2⟩ := h
    refine ⟨?_, ih h2⟩
    unfold paramsOk at h1
    cases hp : p.arr <;> simp [hp] at h1 ⊢
  | indexedOption p index c ih =>
    simp only [validity, bind_eq_ok] at h
    obtain ⟨⟨⟩, h1, ⟨⟩, _, ⟨⟩, _, h2⟩ := h
    exact ih h2
  | byteMasked p mask vw c ih =>
    simp only [validity, bind_eq_ok] at h
    obtain ⟨⟨⟩, _, h2⟩ := h
    split at h2
    · cases h2
    · simp only [bind_eq_ok] at h2
      obtain ⟨⟨⟩, _, h2⟩ := h2
      exact ih h2
  | bitMasked p mask vw length lsb c ih =>
    simp only [validity, bind_eq_ok] at h
    obtain ⟨⟨⟩, _, h2⟩ := h
    split at h2
    · cases h2
    · split at h2
      · cases h2
      · simp only [bind_eq_ok] at h2
        obtain ⟨⟨⟩, _, h2⟩ := h2
        exact ih h2
  | unmasked p c ih =>
    simp only [validity, bind_eq_ok] at h
    obtain ⟨⟨⟩, _, ⟨⟩, _, h2⟩ := h
    exact ih h2
  | record p keys cs length ih =>
    simp only [validity, bind_eq_ok] at h
    obtain ⟨⟨⟩, _, h2⟩ := h
    split at h2
    · cases h2
    · exact quietAll_iff.mpr fun c hc => ih c hc (validityAll_ok.mp h2 c hc)
  | union p tags index cs ih =>
    simp only [validity, bind_eq_ok] at h
    obtain ⟨⟨⟩, _, h2⟩ := h
    split at h2
    · cases h2
    · split at h2
      · cases h2
      · simp only [bind_eq_ok] at h2
        obtain ⟨⟨⟩, _, h2⟩ := h2
        exact quietAll_iff.mpr fun c hc => ih c hc (validityAll_ok.mp h2 c hc)

end Content

theorem wrapList_shownAs (p : Params) (vs : List Val) : wrapList p vs = shownAs p.arr vs := rfl

theorem Form.typeAll_eq (ts : List (String × String)) (fs : List Form) :
    Form.typeAll ts fs = fs.map (Form.type ts) := by
  induction fs with
  | nil => rfl
  | cons f fs ih => rw [Form.typeAll, ih]; rfl

/-- Parameters that make lists text in the same way. -/
def SameText (k l : ArrKind) : Prop := ∀ vs, shownAs k vs = shownAs l vs

/-- Parameters that do not say what is text do not change what a type describes. -/
theorem Spec.Describes.setParams {f : Params → Params} (hf : ∀ p, SameText (f p).arr p.arr)
    {t : AkType} {v : Val} (h : Describes t v) : Describes (t.setParams f) v := by
  cases h with
  | prim h => exact .prim h
  | @list m t vs h =>
    rw [← hf m.params vs]
    exact Describes.list (m := { m with params := f m.params }) h
  | @regular m t vs h =>
    rw [← hf m.params vs]
    exact Describes.regular (m := { m with params := f m.params }) h
  | missing => exact .missing
  | present h => exact .present h
  | record h1 h2 h3 => exact .record h1 h2 h3
  | tuple h2 h3 => exact .tuple h2 h3
  | union h1 h2 => exact .union h1 h2
  | array h => exact .array h

theorem setOther_arr (p : Params) (k v : String) : (p.setOther k v).arr = p.arr := rfl

theorem foldl_setOther_arr (kvs : List (String × String)) (p : Params) :
    (kvs.foldl (fun q kv => q.setOther kv.1 kv.2) p).arr = p.arr := by
  induction kvs generalizing p with
  | nil => rfl
  | cons kv kvs ih => rw [List.foldl_cons, ih]; rfl

theorem isEmpty_arr {p : Params} (h : p.isEmpty = true) : p.arr = .none := by
  simp only [Params.isEmpty, Bool.and_eq_true, decide_eq_true_eq] at h
  exact h.1.1

theorem indexedParams_text {own : Params} (h : own.arr = .none ∨ own.arr = .categorical)
    (inner : Params) : SameText (indexedParams own inner).arr inner.arr := by
  intro vs
  unfold indexedParams
  split
  · rfl
  · split
    · rename_i he
      rw [isEmpty_arr he]
      split
      · rfl
      · rcases h with h | h
        · rw [h]
        · contradiction
    · dsimp only
      split
      · rw [Params.setCategorical, setOther_arr, foldl_setOther_arr]
      · rw [foldl_setOther_arr]

theorem foldl_setOther_id {p : Params} : indexedParams {} p = p := rfl

theorem AkType.setParams_id (t : AkType) : t.setParams (indexedParams {}) = t := by
  cases t <;> rfl

namespace Content

theorem mapN_mem {α : Type} {n : Nat} {f : Nat → R α} {xs : List α} (h : mapN n f = ok xs) {x : α}
    (hx : x ∈ xs) : ∃ k, k < n ∧ f k = ok x := by
  obtain ⟨k, hk, rfl⟩ := List.getElem_of_mem hx
  exact ⟨k, by rw [mapN_length h] at hk; exact hk, mapN_get h (by rw [mapN_length h] at hk; exact hk)⟩

theorem valFields_forall₂ {cs : List Content} {i : Nat} {vs : List Val}
    (h : valFields cs i = ok vs) : List.Forall₂ (fun c v => c.val i = ok v) cs vs := by
  induction cs generalizing vs with
  | nil => simp only [valFields, ok.injEq] at h; subst h; exact .nil
  | cons c cs ih =>
    simp only [valFields, bind_eq_ok, ok.injEq] at h
    obtain ⟨v, h1, vs', h2, rfl⟩ := h
    exact .cons h1 (ih h2)

theorem valNth_mem {cs : List Content} {t : Nat} {j : Int} {v : Val} (h : valNth cs t j = ok v) :
    ∃ c ∈ cs, c.val j.toNat = ok v := by
  induction cs generalizing t with
  | nil => simp [valNth] at h
  | cons c cs ih =>
    cases t with
    | zero =>
      simp only [valNth] at h
      split at h
      · cases h
      · exact ⟨c, List.mem_cons_self, h⟩
    | succ t =>
      obtain ⟨d, h1, h2⟩ := ih h
      exact ⟨d, List.mem_cons_of_mem _ h1, h2⟩

/-- The type describes each value. -/
theorem val_described (ts : List (String × String)) {c : Content} (hq : c.Quiet) (hb : c.Built)
    {i : Nat} {v : Val} (h : c.val i = ok v) : Describes (c.type ts) v := by
  induction c using Awk.Content.induct generalizing i v with
  | empty p => simp [val] at h
  | numpy p dt data =>
    simp only [val, bind_eq_ok, ok.injEq] at h
    obtain ⟨a, h1, rfl⟩ := h
    exact .prim (hb a (List.mem_of_getElem? (rd_eq_ok.mp h1).2))
  | regular p c size zeros ih =>
    simp only [val, bind_eq_ok, ok.injEq] at h
    obtain ⟨vs, h1, rfl⟩ := h
    have hn := mapN_length h1
    subst hn
    exact .regular (m := p.ty ts) fun v hv => by
      obtain ⟨k, _, hk⟩ := mapN_mem h1 hv
      exact ih hq hb hk
  | listArray p starts stops c ih =>
    simp only [val, bind_eq_ok, ok.injEq] at h
    obtain ⟨_, _, _, _, _, _, vs, h1, rfl⟩ := h
    exact .list (m := p.ty ts) fun v hv => by
      obtain ⟨k, _, hk⟩ := mapN_mem h1 hv
      exact ih hq hb hk
  | listOffset p offsets c ih =>
    simp only [val, bind_eq_ok, ok.injEq] at h
    obtain ⟨_, _, _, _, _, _, vs, h1, rfl⟩ := h
    exact .list (m := p.ty ts) fun v hv => by
      obtain ⟨k, _, hk⟩ := mapN_mem h1 hv
      exact ih hq hb hk
  | indexed p index c ih =>
    simp only [val, bind_eq_ok] at h
    obtain ⟨j, _, o, h1, h2⟩ := h
    refine Describes.setParams (indexedParams_text hq.1) ?_
    cases o with
    | none =>
      simp only [checkIndex] at h1
      split at h1
      · simp at h1
      · split at h1 <;> simp at h1
    | some k => exact ih hq.2 hb h2
  | indexedOption p index c ih =>
    simp only [val, bind_eq_ok] at h
    obtain ⟨j, _, o, h1, h2⟩ := h
    cases o with
    | none => cases h2; exact .missing
    | some k => exact .present (ih hq hb h2)
  | byteMasked p mask vw c ih =>
    simp only [val, bind_eq_ok] at h
    obtain ⟨j, _, h2⟩ := h
    split at h2
    · exact .present (ih hq hb h2)
    · cases h2; exact .missing
  | bitMasked p mask vw length lsb c ih =>
    simp only [val, bind_eq_ok] at h
    obtain ⟨j, _, h2⟩ := h
    split at h2
    · exact .present (ih hq hb h2)
    · cases h2; exact .missing
  | unmasked p c ih => exact .present (ih hq hb h)
  | record p keys cs length ih =>
    simp only [val, bind_eq_ok, ok.injEq] at h
    obtain ⟨vs, h1, rfl⟩ := h
    have hf := valFields_forall₂ h1
    have hl := hf.length_eq
    have each : ∀ i (h : i < (Form.typeAll ts (formAll cs)).length)
        (h' : i < vs.length), Describes (Form.typeAll ts (formAll cs))[i] vs[i] := by
      intro j hj hj'
      simp only [Form.typeAll_eq, formAll_eq, List.map_map, List.getElem_map, Function.comp]
      exact ih _ (List.getElem_mem _) (quietAll_iff.mp hq _ (List.getElem_mem _))
        (builtAll_iff.mp hb.2 _ (List.getElem_mem _)) (hf.get (by omega) hj')
    have hl' : (Form.typeAll ts (formAll cs)).length = vs.length := by
      simp [Form.typeAll_eq, formAll_eq, hl]
    cases keys with
    | none => exact .tuple hl' fun i h => each i h (by omega)
    | some ks =>
      refine .record ?_ hl' fun i h => each i h (by omega)
      rw [hb.1 ks rfl]
      simp [Form.typeAll_eq, formAll_eq]
  | union p tags index cs ih =>
    simp only [val, bind_eq_ok] at h
    obtain ⟨_, _, _, _, _, _, h2⟩ := h
    obtain ⟨c, hc, hv⟩ := valNth_mem h2
    refine .union (t := c.type ts) ?_ (ih c hc (quietAll_iff.mp hq c hc) (builtAll_iff.mp hb c hc) hv)
    rw [Form.typeAll_eq, formAll_eq, List.map_map]
    exact List.mem_map_of_mem hc

/-- The loop over the fields, cut. -/
theorem rangeFields_type (ts : List (String × String)) {cs cs' : List Content} {a b : Int}
    (ih : ∀ c ∈ cs, ∀ {d : Content} {a b : Int}, c.range a b = ok d → d.type ts = c.type ts)
    (h : rangeFields cs a b = ok cs') :
    Form.typeAll ts (formAll cs') = Form.typeAll ts (formAll cs) := by
  induction cs generalizing cs' with
  | nil => simp only [rangeFields, ok.injEq] at h; subst h; rfl
  | cons c cs ih' =>
    simp only [rangeFields, bind_eq_ok, ok.injEq] at h
    obtain ⟨c', h1, cs'', h2, rfl⟩ := h
    have e1 := ih c List.mem_cons_self h1
    have e2 := ih' (fun d hd => ih d (List.mem_cons_of_mem _ hd)) h2
    simp only [formAll, Form.typeAll]
    rw [e2]
    exact congrArg (· :: _) e1

/-- Cutting keeps the type. -/
theorem range_type (ts : List (String × String)) {c d : Content} {a b : Int}
    (h : c.range a b = ok d) : d.type ts = c.type ts := by
  induction c using Awk.Content.induct generalizing d a b with
  | empty p => simp only [range, ok.injEq] at h; subst h; rfl
  | numpy p dt data =>
    simp only [range, numpyRange, bind_eq_ok, ok.injEq] at h
    obtain ⟨_, _, rfl⟩ := h; rfl
  | regular p c size zeros ih =>
    simp only [range, bind_eq_ok, ok.injEq] at h
    obtain ⟨c', h1, rfl⟩ := h
    have := ih h1
    simp only [type] at this
    simp only [type, form, Form.type, this]
  | listArray p starts stops c ih =>
    simp only [range, bind_eq_ok, ok.injEq] at h
    obtain ⟨_, _, _, _, rfl⟩ := h; rfl
  | listOffset p offsets c ih =>
    simp only [range, bind_eq_ok, ok.injEq] at h
    obtain ⟨_, _, rfl⟩ := h; rfl
  | indexed p index c ih =>
    simp only [range, bind_eq_ok, ok.injEq] at h
    obtain ⟨_, _, rfl⟩ := h; rfl
  | indexedOption p index c ih =>
    simp only [range, bind_eq_ok, ok.injEq] at h
    obtain ⟨_, _, rfl⟩ := h; rfl
  | byteMasked p mask vw c ih =>
    simp only [range, bind_eq_ok, ok.injEq] at h
    obtain ⟨_, _, c', h1, rfl⟩ := h
    have := ih h1
    simp only [type] at this
    simp only [type, form, Form.type, this]
  | bitMasked p mask vw length lsb c ih =>
    simp only [range, bind_eq_ok, ok.injEq] at h
    obtain ⟨_, _, _, _, c', h1, rfl⟩ := h
    have := ih h1
    simp only [type] at this
    simp only [type, form, Form.type, this]
  | unmasked p c ih =>
    simp only [range, bind_eq_ok, ok.injEq] at h
    obtain ⟨c', h1, rfl⟩ := h
    have := ih h1
    simp only [type] at this
    simp only [type, form, Form.type, this]
  | record p keys cs length ih =>
    simp only [range] at h
    split at h
    · cases h; rfl
    · split at h
      · cases h; rfl
      · simp only [bind_eq_ok, ok.injEq] at h
        obtain ⟨cs', h1, rfl⟩ := h
        simp only [type, form, Form.type, rangeFields_type ts (fun c hc => @ih c hc) h1]
  | union p tags index cs ih =>
    simp only [range, bind_eq_ok, ok.injEq] at h
    obtain ⟨_, _, _, _, rfl⟩ := h; rfl

/-- The loop over the fields, gathered. -/
theorem carryFields_type (ts : List (String × String)) {cs cs' : List Content} {lazy : Bool}
    {idx : List Int}
    (ih : ∀ c ∈ cs, ∀ {d : Content} {idx : List Int}, c.carry lazy idx = ok d →
      d.type ts = c.type ts)
    (h : carryFields lazy cs idx = ok cs') :
    Form.typeAll ts (formAll cs') = Form.typeAll ts (formAll cs) := by
  induction cs generalizing cs' with
  | nil => simp only [carryFields, ok.injEq] at h; subst h; rfl
  | cons c cs ih' =>
    simp only [carryFields, bind_eq_ok, ok.injEq] at h
    obtain ⟨c', h1, cs'', h2, rfl⟩ := h
    have e1 := ih c List.mem_cons_self h1
    have e2 := ih' (fun d hd => ih d (List.mem_cons_of_mem _ hd)) h2
    simp only [formAll, Form.typeAll]
    rw [e2]
    exact congrArg (· :: _) e1

/-- Gathering keeps the type. -/
theorem carry_type (ts : List (String × String)) {c d : Content} {lazy : Bool} {idx : List Int}
    (h : c.carry lazy idx = ok d) : d.type ts = c.type ts := by
  have mask : ∀ {p : Params} {m : List Int} {vw : Bool} {c d : Content}
      {k : List Int → R Content} {idx : List Int},
      (∀ {idx d}, k idx = ok d → d.type ts = c.type ts) →
      byteMaskedCarry p m vw k idx = ok d →
      d.type ts = .option (p.ty ts) (c.type ts) := by
    intro p m vw c d k idx hk h
    simp only [byteMaskedCarry, bind_eq_ok, ok.injEq] at h
    obtain ⟨_, _, c', h1, rfl⟩ := h
    have := hk h1
    simp only [type] at this
    simp only [type, form, Form.type, this]
  have whole : ∀ {c d : Content} {P : Prop} [Decidable P] {a b : Int},
      (if P then ok c else c.range a b) = ok d → d.type ts = c.type ts := by
    intro c d P _ a b h
    split at h
    · cases h; rfl
    · exact range_type ts h
  induction c using Awk.Content.induct generalizing d idx with
  | empty p =>
    simp only [carry] at h
    split at h <;> simp_all
  | numpy p dt data =>
    simp only [carry] at h
    split at h
    · exact whole h
    · simp only [bind_eq_ok, ok.injEq] at h
      obtain ⟨_, _, rfl⟩ := h; rfl
  | regular p c size zeros ih =>
    simp only [carry] at h
    split at h
    · exact whole h
    · simp only [bind_eq_ok, ok.injEq] at h
      obtain ⟨_, _, c', h1, rfl⟩ := h
      have := ih h1
      simp only [type] at this
      simp only [type, form, Form.type, this]
  | listArray p starts stops c ih =>
    simp only [carry] at h
    split at h
    · exact whole h
    · split at h
      · cases h
      · simp only [bind_eq_ok, ok.injEq] at h
        obtain ⟨_, _, rfl⟩ := h; rfl
  | listOffset p offsets c ih =>
    simp only [carry] at h
    split at h
    · exact whole h
    · simp only [bind_eq_ok, ok.injEq] at h
      obtain ⟨_, _, rfl⟩ := h; rfl
  | indexed p index c ih =>
    simp only [carry] at h
    split at h
    · exact whole h
    · simp only [bind_eq_ok, ok.injEq] at h
      obtain ⟨_, _, rfl⟩ := h; rfl
  | indexedOption p index c ih =>
    simp only [carry] at h
    split at h
    · exact whole h
    · simp only [bind_eq_ok, ok.injEq] at h
      obtain ⟨_, _, rfl⟩ := h; rfl
  | byteMasked p m vw c ih =>
    simp only [carry] at h
    split at h
    · exact whole h
    · exact mask (fun h => ih h) h
  | bitMasked p m vw length lsb c ih =>
    simp only [carry] at h
    split at h
    · exact whole h
    · simp only [bind_eq_ok] at h
      obtain ⟨_, _, h⟩ := h
      exact mask (fun h => ih h) h
  | unmasked p c ih =>
    simp only [carry] at h
    split at h
    · exact whole h
    · simp only [bind_eq_ok, ok.injEq] at h
      obtain ⟨c', h1, rfl⟩ := h
      have := ih h1
      simp only [type] at this
      simp only [type, form, Form.type, this]
  | record p keys cs length ih =>
    simp only [carry] at h
    split at h
    · exact whole h
    · split at h
      · cases h
        exact AkType.setParams_id ((record p keys cs length).type ts)
      · simp only [bind_eq_ok, ok.injEq] at h
        obtain ⟨cs', h1, rfl⟩ := h
        simp only [type, form, Form.type, carryFields_type ts (fun c hc => @ih c hc) h1]
  | union p tags index cs ih =>
    simp only [carry] at h
    split at h
    · exact whole h
    · split at h
      · cases h
      · simp only [bind_eq_ok, ok.injEq] at h
        obtain ⟨_, _, _, _, rfl⟩ := h; rfl

end Content

theorem AkType.setParams_same (t : AkType) : t.setParams id = t := by cases t <;> rfl

/-- The elements of a type whose parameters are changed. -/
theorem Spec.Element.setParams {t u : AkType} (h : Element t u) (f : Params → Params) :
    ∃ g, Element (t.setParams f) (u.setParams g) := by
  cases h with
  | self => exact ⟨f, .self⟩
  | option h => exact ⟨id, by rw [AkType.setParams_same]; exact .option h⟩
  | union h1 h2 => exact ⟨id, by rw [AkType.setParams_same]; exact .union h1 h2⟩

theorem Spec.ItemOf.setParams {ts : List (String × String)} {t : AkType} {it : Item}
    (h : ItemOf ts t it) (f : Params → Params) : ItemOf ts (t.setParams f) it := by
  cases h with
  | none h => obtain ⟨g, h⟩ := h.setParams f; exact .none h
  | scalar h h' => obtain ⟨g, h⟩ := h.setParams f; exact .scalar h h'
  | list h => obtain ⟨g, h⟩ := h.setParams f; exact .list h
  | regular h => obtain ⟨g, h⟩ := h.setParams f; exact .regular h
  | record h' h => obtain ⟨g, h⟩ := h.setParams f; exact .record h' h

theorem Spec.ItemOf.option {ts : List (String × String)} {t : AkType} {it : Item} {m : TyMeta}
    (h : ItemOf ts t it) : ItemOf ts (.option m t) it := by
  cases h with
  | none h => exact .none (.option h)
  | scalar h h' => exact .scalar (.option h) h'
  | list h => exact .list (.option h)
  | regular h => exact .regular (.option h)
  | record h' h => exact .record h' (.option h)

theorem Spec.ItemOf.union {ts : List (String × String)} {t : AkType} {us : List AkType} {it : Item}
    {m : TyMeta} (ht : t ∈ us) (h : ItemOf ts t it) : ItemOf ts (.union m us) it := by
  cases h with
  | none h => exact .none (.union ht h)
  | scalar h h' => exact .scalar (.union ht h) h'
  | list h => exact .list (.union ht h)
  | regular h => exact .regular (.union ht h)
  | record h' h => exact .record h' (.union ht h)

namespace Content

theorem getitemAtNth_mem {cs : List Content} {t : Nat} {j : Int} {it : Item}
    (h : getitemAtNth cs t j = ok it) :
    ∃ c ∈ cs, j.toNat < c.len ∧ c.getitemAtNowrap j.toNat = ok it := by
  induction cs generalizing t with
  | nil => simp [getitemAtNth] at h
  | cons c cs ih =>
    cases t with
    | zero =>
      simp only [getitemAtNth] at h
      split at h
      · cases h
      · exact ⟨c, List.mem_cons_self, by omega, h⟩
    | succ t =>
      obtain ⟨d, h1, h2⟩ := ih h
      exact ⟨d, List.mem_cons_of_mem _ h1, h2⟩

/-- The type of one element. -/
theorem getitemAtNowrap_type (ts : List (String × String)) {c : Content} (hg : c.Good)
    (hb : c.Built) {i : Nat} (hi : i < c.len) {it : Item} (h : c.getitemAtNowrap i = ok it) :
    ItemOf ts (c.type ts) it := by
  induction c using Awk.Content.induct generalizing i it with
  | empty p => simp [getitemAtNowrap] at h
  | numpy p dt data =>
    simp only [getitemAtNowrap, bind_eq_ok, ok.injEq] at h
    obtain ⟨a, h1, rfl⟩ := h
    exact .scalar .self (hb a (List.mem_of_getElem? (rd_eq_ok.mp h1).2))
  | regular p c size zeros ih =>
    have hc := good_regular.mp hg
    simp only [getitemAtNowrap, bind_eq_ok, ok.injEq] at h
    obtain ⟨c', h1, rfl⟩ := h
    have hbd := regular_bound hi
    obtain ⟨c'', h2, _, hv, _⟩ := range_ok hc.wf (a := i * size) (b := (i + 1) * size)
      (Nat.mul_le_mul_right _ (by omega)) (by rw [Nat.add_mul]; omega)
    push_cast at h2
    rw [h1, ok.injEq] at h2
    subst h2
    have hl : c'.len = size := by
      have := hv.1
      rw [Nat.add_mul, Nat.one_mul, Nat.add_sub_cancel_left] at this
      exact this
    refine .regular (m := p.ty ts) ?_
    rw [hl, range_type ts h1]
    exact .self
  | listArray p starts stops c ih =>
    simp only [getitemAtNowrap, bind_eq_ok, ok.injEq] at h
    obtain ⟨_, _, _, _, _, _, c', h1, rfl⟩ := h
    refine .list (m := p.ty ts) ?_
    rw [range_type ts h1]
    exact .self
  | listOffset p offsets c ih =>
    simp only [getitemAtNowrap, bind_eq_ok, ok.injEq] at h
    obtain ⟨_, _, _, _, _, _, c', h1, rfl⟩ := h
    refine .list (m := p.ty ts) ?_
    rw [range_type ts h1]
    exact .self
  | indexed p index c ih =>
    simp only [getitemAtNowrap, bind_eq_ok] at h
    obtain ⟨j, _, o, h1, h2⟩ := h
    refine ItemOf.setParams ?_ _
    simp only [checkIndex] at h1
    split at h1
    · simp at h1
    · split at h1
      · simp at h1
      · cases h1
        exact ih (hg.child (by simp [children])) hb (by omega) h2
  | indexedOption p index c ih =>
    simp only [getitemAtNowrap, bind_eq_ok] at h
    obtain ⟨j, _, o, h1, h2⟩ := h
    simp only [checkIndex] at h1
    split at h1
    · simp only [if_true, ok.injEq] at h1
      subst h1
      cases h2
      exact .none (m := { p.ty ts with params := optionParams p }) .self
    · split at h1
      · simp at h1
      · cases h1
        exact (ih (hg.child (by simp [children])) hb (by omega) h2).option
  | byteMasked p mask vw c ih =>
    obtain ⟨hl, hc⟩ := good_byteMasked.mp hg
    simp only [len] at hi
    simp only [getitemAtNowrap, bind_eq_ok] at h
    obtain ⟨j, _, h2⟩ := h
    split at h2
    · exact (ih hc hb (by omega) h2).option
    · cases h2; exact .none (m := p.ty ts) .self
  | bitMasked p mask vw length lsb c ih =>
    obtain ⟨hl, hl', hc⟩ := good_bitMasked.mp hg
    simp only [len] at hi
    simp only [getitemAtNowrap, bind_eq_ok] at h
    obtain ⟨j, _, h2⟩ := h
    split at h2
    · exact (ih hc hb (by omega) h2).option
    · cases h2; exact .none (m := p.ty ts) .self
  | unmasked p c ih => exact (ih (good_unmasked.mp hg) hb hi h).option
  | record p keys cs length ih =>
    simp only [getitemAtNowrap, ok.injEq] at h
    subst h
    exact .record (m := p.ty ts) (m' := p.ty ts) rfl .self
  | union p tags index cs ih =>
    simp only [getitemAtNowrap, bind_eq_ok] at h
    obtain ⟨_, _, _, _, _, _, h2⟩ := h
    obtain ⟨c, hc, hj, hv⟩ := getitemAtNth_mem h2
    refine ItemOf.union (t := c.type ts) ?_ (ih c hc (hg.child (by simpa [children] using hc))
      (builtAll_iff.mp hb c hc) hj hv)
    rw [Form.typeAll_eq, formAll_eq, List.map_map]
    exact List.mem_map_of_mem hc

/-- The rows that one item selects have the type of the rows. -/
theorem getitem_row_type (ts : List (String × String)) {c : Content} {it : Item} {item : SliceItem}
    (hi : (∃ a b s, item = .range a b s) ∨ ∃ n flat, item = .array [n] flat)
    (h : getitem [item] c = ok it) : ∃ d, it = .array d ∧ d.type ts = c.type ts := by
  have last : ∀ {p : Params} {d : Content} {n m : Nat}, d.type ts = c.type ts →
      (if (regular p d n m).len = 0 then getitemNothing (regular p d n m)
        else (regular p d n m).getitemAtNowrap 0) = ok it →
      ∃ d, it = .array d ∧ d.type ts = c.type ts := by
    intro p d n m hd h
    split at h
    · simp only [getitemNothing, bind_eq_ok, ok.injEq] at h
      obtain ⟨d', h1, rfl⟩ := h
      exact ⟨d', rfl, by rw [range_type ts h1, hd]⟩
    · simp only [getitemAtNowrap, bind_eq_ok, ok.injEq] at h
      obtain ⟨d', h1, rfl⟩ := h
      exact ⟨d', rfl, by rw [range_type ts h1, hd]⟩
  simp only [getitem, bind_eq_ok] at h
  obtain ⟨out, h1, h2⟩ := h
  have step : ∀ (x : SliceItem) (f : Nat) (k : Cont), x ≠ .newaxis →
      stepF x (f + 1) k none c.wrapped
        = regularNext x k none {} c c.len c.wrapped.len := by
    intro x f k hx
    simp only [stepF, wrapped, if_neg hx]
  have hr : 2 * c.wrapped.rank = (2 * c.wrapped.rank - 1) + 1 := by
    have : 0 < c.wrapped.rank := by simp [wrapped, rank]
    omega
  rcases hi with ⟨a, b, s, rfl⟩ | ⟨n, flat, rfl⟩
  · simp only [List.map_cons, List.map_nil, SliceItem.constructed, next] at h1
    rw [hr, step _ _ _ (by simp)] at h1
    simp only [regularNext, regularRange, bind_eq_ok, ok.injEq] at h1
    obtain ⟨nc, _, d, h3, _, _, d', h4, rfl⟩ := h1
    subst h4
    exact last (carry_type ts h3) h2
  · simp only [List.map_cons, List.map_nil, SliceItem.constructed, next] at h1
    rw [hr, step _ _ _ (by simp)] at h1
    simp only [regularNext, regularArray, Adv.isFirst, if_true, bind_eq_ok, ok.injEq] at h1
    obtain ⟨_, _, _, _, d, h3, d', h4, rfl⟩ := h1
    subst h4
    exact last (carry_type ts h3) h2

end Content

end Awk
