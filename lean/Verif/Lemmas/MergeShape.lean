import Verif.Lemmas.MergeKernels
/-
The nodes of an array without their buffers (`shape`). Range slices keep the shape, and the type of
an array depends on its shape only.
-/

namespace Awk
open R

namespace Content

mutual
/-- The array without its buffers. -/
def shape : Content → Content
  | empty p => empty p
  | numpy p d _ => numpy p d []
  | regular p c size _ => regular p c.shape size 0
  | listArray p _ _ c => listArray p [] [] c.shape
  | listOffset p _ c => listOffset p [] c.shape
  | indexed p _ c => indexed p [] c.shape
  | indexedOption p _ c => indexedOption p [] c.shape
  | byteMasked p _ _ c => byteMasked p [] false c.shape
  | bitMasked p _ _ _ _ c => byteMasked p [] false c.shape
  | unmasked p c => unmasked p c.shape
  | record p keys cs _ => record p keys (shapeAll cs) 0
  | union p _ _ cs => union p [] [] (shapeAll cs)
/-- `shape` of every member. -/
def shapeAll : List Content → List Content
  | [] => []
  | c :: cs => c.shape :: shapeAll cs
end

theorem shapeAll_eq (cs : List Content) : shapeAll cs = cs.map shape := by
  induction cs with
  | nil => simp [shapeAll]
  | cons c cs ih => simp [shapeAll, ih]

theorem sizeAll_eq (cs : List Content) : sizeAll cs = (cs.map size).sum := by
  induction cs with
  | nil => simp [sizeAll]
  | cons c cs ih => simp [sizeAll, ih]

theorem size_pos (c : Content) : 1 ≤ c.size := by cases c <;> simp [size]

theorem range_shape {c c' : Content} {a b : Int} (h : c.range a b = ok c') :
    c'.shape = c.shape := by
  induction c using induct generalizing a b c' with
  | empty p => simp only [range, ok.injEq] at h; subst h; rfl
  | numpy p dt data =>
    simp only [range, numpyRange, bind_eq_ok] at h
    obtain ⟨d, _, h⟩ := h
    simp only [ok.injEq] at h; subst h; simp [shape]
  | regular p c size zeros ih =>
    simp only [range, bind_eq_ok] at h
    obtain ⟨d, h1, h⟩ := h
    simp only [ok.injEq] at h; subst h; simp [shape, ih h1]
  | listArray p starts stops c ih =>
    simp only [range, bind_eq_ok] at h
    obtain ⟨_, _, _, _, h⟩ := h
    simp only [ok.injEq] at h; subst h; simp [shape]
  | listOffset p offsets c ih =>
    simp only [range, bind_eq_ok] at h
    obtain ⟨_, _, h⟩ := h
    simp only [ok.injEq] at h; subst h; simp [shape]
  | indexed p index c ih =>
    simp only [range, bind_eq_ok] at h
    obtain ⟨_, _, h⟩ := h
    simp only [ok.injEq] at h; subst h; simp [shape]
  | indexedOption p index c ih =>
    simp only [range, bind_eq_ok] at h
    obtain ⟨_, _, h⟩ := h
    simp only [ok.injEq] at h; subst h; simp [shape]
  | byteMasked p mask vw c ih =>
    simp only [range, bind_eq_ok] at h
    obtain ⟨_, _, _, h1, h⟩ := h
    simp only [ok.injEq] at h; subst h; simp [shape, ih h1]
  | bitMasked p mask vw length lsb c ih =>
    simp only [range, bind_eq_ok] at h
    obtain ⟨_, _, _, _, _, h1, h⟩ := h
    simp only [ok.injEq] at h; subst h; simp [shape, ih h1]
  | unmasked p c ih =>
    simp only [range, bind_eq_ok] at h
    obtain ⟨_, h1, h⟩ := h
    simp only [ok.injEq] at h; subst h; simp [shape, ih h1]
  | record p keys cs length ih =>
    simp only [range] at h
    split at h
    · simp only [ok.injEq] at h; subst h; simp [shape]
    split at h
    · simp only [ok.injEq] at h; subst h; simp [shape]
    obtain ⟨cs', h2, h1⟩ := bind_eq_ok.mp h
    simp only [ok.injEq] at h1; subst h1
    have key : ∀ ds ds' : List Content, (∀ d ∈ ds, d ∈ cs) → rangeFields ds a b = ok ds' →
        shapeAll ds' = shapeAll ds := by
      intro ds
      induction ds with
      | nil =>
        intro ds' _ hr
        simp only [rangeFields, ok.injEq] at hr; subst hr; rfl
      | cons d ds ihd =>
        intro ds' hm hr
        simp only [rangeFields, bind_eq_ok] at hr
        obtain ⟨d', hd', es, hes, hr⟩ := hr
        simp only [ok.injEq] at hr; subst hr
        simp only [shapeAll]
        rw [ih d (hm d List.mem_cons_self) hd', ihd es (fun e he => hm e (List.mem_cons_of_mem _ he)) hes]
    simp only [shape]
    rw [key cs cs' (fun _ h => h) h2]
  | union p tags index cs ih =>
    simp only [range, bind_eq_ok] at h
    obtain ⟨_, _, _, _, h⟩ := h
    simp only [ok.injEq] at h; subst h; simp [shape]

theorem size_shape (c : Content) : c.shape.size = c.size := by
  have key : ∀ cs : List Content, (∀ c ∈ cs, c.shape.size = c.size) →
      sizeAll (shapeAll cs) = sizeAll cs := by
    intro cs h
    rw [sizeAll_eq, sizeAll_eq, shapeAll_eq, List.map_map]
    congr 1
    exact List.map_congr_left h
  induction c using induct with
  | record p keys cs length ih => simp only [shape, size]; rw [key cs ih]
  | union p tags index cs ih => simp only [shape, size]; rw [key cs ih]
  | empty p => rfl
  | numpy p dt data => rfl
  | regular p c size zeros ih => simp only [shape, Content.size, ih]
  | listArray p starts stops c ih => simp only [shape, Content.size, ih]
  | listOffset p offsets c ih => simp only [shape, Content.size, ih]
  | indexed p index c ih => simp only [shape, Content.size, ih]
  | indexedOption p index c ih => simp only [shape, Content.size, ih]
  | byteMasked p mask vw c ih => simp only [shape, Content.size, ih]
  | bitMasked p mask vw length lsb c ih => simp only [shape, Content.size, ih]
  | unmasked p c ih => simp only [shape, Content.size, ih]

theorem size_of_shape {c c' : Content} (h : c'.shape = c.shape) : c'.size = c.size := by
  rw [← size_shape c', h, size_shape]

theorem params_shape (c : Content) : c.shape.params = c.params := by
  cases c <;> simp [shape, params]

theorem children_shape (c : Content) : c.shape.children = c.children.map shape := by
  cases c <;> simp [shape, children, shapeAll_eq]

theorem children_of_shape {c c' : Content} (h : c'.shape = c.shape) {P : Content → Prop}
    (hp : ∀ d ∈ c.children, ∀ d' : Content, d'.shape = d.shape → P d') : ∀ d ∈ c'.children, P d := by
  intro d hd
  have : d.shape ∈ c.children.map shape := by
    rw [← children_shape, ← h, children_shape]; exact List.mem_map_of_mem hd
  obtain ⟨e, he, hs⟩ := List.mem_map.mp this
  exact hp e he d hs.symm

theorem isListNode_shape (c : Content) : c.shape.isListNode = c.isListNode := by
  cases c <;> simp [shape, isListNode]
theorem isIndirectNode_shape (c : Content) : c.shape.isIndirectNode = c.isIndirectNode := by
  cases c <;> simp [shape, isIndirectNode, isOption]
theorem isOption_shape (c : Content) : c.shape.isOption = c.isOption := by
  cases c <;> simp [shape, isOption]

theorem column_shape (keys : List String) (cs : List Content) (k : String) :
    column keys (cs.map shape) k = (column keys cs k).map shape := by
  unfold column
  induction keys generalizing cs with
  | nil => simp
  | cons a keys ih =>
    cases cs with
    | nil => simp
    | cons c cs =>
      simp only [List.map_cons, List.zip_cons_cons, List.lookup_cons]
      cases k == a <;> simp [ih]

theorem OfType.shape {t : Ty} {c : Content} (h : OfType t c) :
    ∀ c' : Content, c'.shape = c.shape → OfType t c' := by
  induction h with
  | empty hk =>
    intro c' hs
    cases c' <;> simp only [Content.shape, reduceCtorEq, empty.injEq] at hs
    subst hs; exact .empty hk
  | union hk =>
    intro c' hs
    cases c' <;> simp only [Content.shape, reduceCtorEq, union.injEq] at hs
    obtain ⟨rfl, _⟩ := hs; exact .union hk
  | leaf =>
    intro c' hs
    cases c' <;> simp only [Content.shape, reduceCtorEq, numpy.injEq] at hs
    obtain ⟨rfl, rfl, _⟩ := hs; exact .leaf
  | @list t c hl _ ih =>
    intro c' hs
    rw [← params_shape c, ← hs, params_shape]
    exact .list (by rw [← isListNode_shape, hs, isListNode_shape, hl]) (children_of_shape hs ih)
  | @opt t c hl _ ih =>
    intro c' hs
    rw [← params_shape c, ← isOption_shape c, ← hs, params_shape, isOption_shape]
    exact .opt (by rw [← isIndirectNode_shape, hs, isIndirectNode_shape, hl])
      (children_of_shape hs ih)
  | @plain t o c hl _ ih =>
    intro c' hs
    rw [← params_shape c, ← hs, params_shape]
    exact .plain (by rw [← isIndirectNode_shape, hs, isIndirectNode_shape, hl]) (ih _ hs)
  | @tuple p ts cs n hl _ ih =>
    intro c' hs
    cases c' <;> simp only [Content.shape, reduceCtorEq, record.injEq, shapeAll_eq, and_true] at hs
    obtain ⟨rfl, rfl, hs⟩ := hs
    have hlen := congrArg List.length hs
    simp only [List.length_map] at hlen
    refine .tuple (by omega) (fun i h1 h2 => ih i (by omega) h2 _ ?_)
    have := congrArg (fun l => l[i]?) hs
    simpa [List.getElem?_eq_getElem h1, List.getElem?_eq_getElem (show i < cs.length by omega)]
      using this
  | @record p fields keys cs n hp hl _ ih =>
    intro c' hs
    cases c' <;> simp only [Content.shape, reduceCtorEq, record.injEq, shapeAll_eq, and_true] at hs
    obtain ⟨rfl, rfl, hs⟩ := hs
    have hlen := congrArg List.length hs
    simp only [List.length_map] at hlen
    refine .record hp (by omega) (fun kt hkt d hd => ?_)
    have e := column_shape keys cs kt.1
    rw [← hs, column_shape, hd] at e
    cases hc : column keys cs kt.1 with
    | none => simp [hc] at e
    | some d0 =>
      simp only [hc, Option.map_some, Option.some.injEq] at e
      exact ih kt hkt d0 hc d e

theorem MergeNode.shape {nu : Without} {c c' : Content} (hs : c'.shape = c.shape)
    (ht : c'.TrimmedNode) (h : MergeNode nu c) : MergeNode nu c' := by
  cases c' with
  | record p keys cs n =>
    cases c <;> simp only [Content.shape, reduceCtorEq, record.injEq, shapeAll_eq, and_true] at hs
    obtain ⟨rfl, rfl, hs⟩ := hs
    simp only [MergeNode] at h ⊢
    have hlen := congrArg List.length hs
    simp only [List.length_map] at hlen
    refine ⟨?_, ht, fun ks hk => ⟨(h.2.2 ks hk).1, by have := (h.2.2 ks hk).2; omega⟩⟩
    intro h0; apply h.1; subst h0; simpa using hlen.symm
  | numpy p d data =>
    cases c <;> simp only [Content.shape, reduceCtorEq, numpy.injEq, and_true] at hs
    obtain ⟨rfl, rfl⟩ := hs
    exact h
  | union p tags index cs =>
    cases c <;> simp only [Content.shape, reduceCtorEq] at hs
    exact h
  | regular p d size zeros =>
    cases c <;> simp only [Content.shape, reduceCtorEq, regular.injEq, and_true] at hs
    obtain ⟨rfl, hs, rfl⟩ := hs
    rename_i c0 _
    cases d <;> cases c0 <;> simp only [Content.shape, reduceCtorEq] at hs <;>
      first | trivial | exact h
  | empty | listArray | listOffset => trivial
  | _ => cases c <;> simp only [Content.shape, reduceCtorEq] at hs <;> exact h

theorem AllNodes.mergeShape {nu : Without} {c : Content} (h : AllNodes (MergeNode nu) c) :
    ∀ c' : Content, c'.shape = c.shape → AllNodes TrimmedNode c' → AllNodes (MergeNode nu) c' := by
  induction h with
  | @mk c hc _ ih =>
    intro c' hs ht
    obtain ⟨ht, hch⟩ := ht
    refine .mk (hc.shape hs ht) ?_
    have := children_of_shape (P := fun d => AllNodes TrimmedNode d → AllNodes (MergeNode nu) d) hs
      (fun d hd d' hs' => ih d hd d' hs')
    exact fun d hd => this d hd (hch d hd)

theorem MergeNode.trimmed {nu : Without} {c : Content} (h : MergeNode nu c) : c.TrimmedNode := by
  cases c <;> first | trivial | exact h.2.1

theorem AllNodes.mono {φ ψ : Content → Prop} {c : Content} (h : AllNodes φ c)
    (hi : ∀ c, φ c → ψ c) : AllNodes ψ c := by
  induction h with
  | mk h0 _ ih => exact .mk (hi _ h0) ih

theorem AllNodes.here {φ : Content → Prop} {c : Content} (h : AllNodes φ c) : φ c := by
  cases h; assumption
theorem AllNodes.child {φ : Content → Prop} {c d : Content} (h : AllNodes φ c)
    (hd : d ∈ c.children) : AllNodes φ d := by
  cases h with
  | mk _ h => exact h d hd

/-- What merging needs of an array, apart from its type. -/
structure Input (nu : Without) (c : Content) : Prop where
  good : c.Good
  nodes : AllNodes (MergeNode nu) c

theorem Input.child {nu : Without} {c d : Content} (h : Input nu c) (hd : d ∈ c.children) :
    Input nu d := ⟨h.good.child hd, h.nodes.child hd⟩

/-- A range slice from the beginning. -/
theorem range_input {nu : Without} {c : Content} (h : Input nu c) {b : Nat} (hb : b ≤ c.len) :
    ∃ c', c.range 0 b = ok c' ∧ Input nu c' ∧ c'.shape = c.shape ∧ c'.cv = c.cv.take b := by
  obtain ⟨c', h1, h2, _, h4, _⟩ := range_good h.good (a := 0) (b := b) (by omega) hb
  rw [show ((0 : Nat) : Int) = 0 from rfl] at h1
  have hs := range_shape h1
  refine ⟨c', h1, ⟨h2, h.nodes.mergeShape c' hs
    (range_closed Trimmed.closed h.good hb h1 0 (h.nodes.mono (fun _ => MergeNode.trimmed)))⟩, hs, ?_⟩
  apply List.ext_getElem?
  intro i
  rw [cv_get?, List.getElem?_take, cv_get?, h4.1]
  by_cases hi : i < b
  · rw [if_pos (by omega), if_pos hi, if_pos (by omega), h4.valD (by omega)]; simp
  · rw [if_neg (by omega), if_neg hi]

end Content
end Awk
