import Verif.Model.Apply
import Verif.Spec.Apply
import Verif.Lemmas.Maps
import Verif.Lemmas.Regular
import Verif.Lemmas.Option
/-
`recursively_apply` maps the elements, if it maps those of the nodes at which it stops.
-/

namespace Awk
open R
namespace Content

/-- The depth of the contents of a node at depth `d`. -/
def deeper (c : Content) (d : Nat) : Nat := if c.isListNode then d + 1 else d

/-- The function `F` of the elements of a node is the function `G` of the elements of its contents. -/
def Passes (F G : Val → Val) : Content → Prop
  | regular p .. | listArray p .. | listOffset p .. =>
    ∀ vs, F (wrapList p vs) = wrapList p (vs.map G)
  | indexedOption .. | byteMasked .. | bitMasked .. | unmasked .. => F .null = .null ∧ F = G
  | record .. => (∀ keys vs, F (mkRecord keys vs) = mkRecord keys (vs.map F)) ∧ F = G
  | indexed .. | union .. => F = G
  | numpy .. => ∀ x, F (.atom x) = .atom x
  | empty .. => True

/-- `getfunction` stops at nodes whose elements it maps with `T`, and passes through the others. -/
inductive Applies {U : Type} (get : Nat → U → Content → R (Content ⊕ U)) (T : Nat → Val → Val) :
    Nat → U → Content → Prop
  | stop {d : Nat} {u : U} {c e : Content} : get d u c = ok (.inl e) → MapsG True c e (T d) →
      Applies get T d u c
  | pass {d : Nat} {u u' : U} {c : Content} : get d u c = ok (.inr u') →
      Passes (T d) (T (c.deeper d)) c → (∀ e ∈ c.children, Applies get T (c.deeper d) u' e) →
      Applies get T d u c

section
variable {F G : Val → Val}

theorem MapsG.regular' {p p' : Params} {c next : Content} {size zeros : Nat} (hc : c.Good)
    (hF : ∀ vs, F (wrapList p vs) = wrapList p' (vs.map G)) (h : MapsG True c next G) :
    MapsG True (Content.regular p c size zeros)
      (Content.regular p' next size (Content.regular p c size zeros).len) F := by
  have hle := h.len_le
  have hll : (Content.regular p' next size (Content.regular p c size zeros).len).len
      = (Content.regular p c size zeros).len := by
    simp only [len, h.exact trivial]
    split <;> rfl
  refine ⟨⟨good_regular.mpr h.good, by omega, ?_⟩, fun _ => hll⟩
  intro i hi
  rw [valD_regular h.good (by omega), valD_regular hc hi, hF, h.seg (regular_bound hi)]

theorem MapsG.listArray' {p p' : Params} {starts stops : List Int} {c next : Content}
    (hg : (Content.listArray p starts stops c).Good)
    (hF : ∀ vs, F (wrapList p vs) = wrapList p' (vs.map G)) (h : MapsG True c next G) :
    MapsG True (Content.listArray p starts stops c) (Content.listArray p' starts stops next) F := by
  obtain ⟨hl, hc, hp⟩ := good_listArray.mp hg
  have hg' : (Content.listArray p' starts stops next).Good :=
    good_listArray.mpr ⟨hl, h.good, fun i hi => GoodPair.mono (hp i hi) h.len_le⟩
  refine ⟨⟨hg', Nat.le_refl _, ?_⟩, fun _ => rfl⟩
  intro i hi
  simp only [len] at hi
  rw [valD_listArray hg' hi (by omega), valD_listArray hg hi (by omega), hF, h.seg_pair (hp i hi)]

theorem MapsG.listOffset' {p p' : Params} {offsets : List Int} {c next : Content}
    (hg : (Content.listOffset p offsets c).Good)
    (hF : ∀ vs, F (wrapList p vs) = wrapList p' (vs.map G)) (h : MapsG True c next G) :
    MapsG True (Content.listOffset p offsets c) (Content.listOffset p' offsets next) F := by
  obtain ⟨hl, hc, hp⟩ := good_listOffset.mp hg
  have hg' : (Content.listOffset p' offsets next).Good :=
    good_listOffset.mpr ⟨hl, h.good, fun i hi => GoodPair.mono (hp i hi) h.len_le⟩
  refine ⟨⟨hg', Nat.le_refl _, ?_⟩, fun _ => rfl⟩
  intro i hi
  simp only [len] at hi
  rw [valD_listOffset hg' (by omega), valD_listOffset hg (by omega), hF,
    h.seg_pair (hp i (by omega))]

theorem MapsG.bitMasked {p p' : Params} {mask : List Nat} {vw : Bool} {length : Nat} {lsb : Bool}
    {c next : Content} (hg : (Content.bitMasked p mask vw length lsb c).Good)
    (hF : F .null = .null) (h : MapsG True c next F) :
    MapsG True (Content.bitMasked p mask vw length lsb c)
      (Content.bitMasked p' mask vw length lsb next) F := by
  obtain ⟨hm, hl, hc⟩ := good_bitMasked.mp hg
  have hle := h.len_le
  have hg' : (Content.bitMasked p' mask vw length lsb next).Good :=
    good_bitMasked.mpr ⟨hm, by omega, h.good⟩
  refine ⟨⟨hg', Nat.le_refl _, ?_⟩, fun _ => rfl⟩
  intro i hi
  simp only [len] at hi
  rw [valD_bitMasked hg' hi, valD_bitMasked hg hi]
  split
  · rw [h.val _ (by omega)]
  · exact hF.symm

theorem MapsG.record' {p p' : Params} {keys : Option (List String)} {cs cs' : List Content}
    {length : Nat} (hg : (Content.record p keys cs length).Good)
    (hF : ∀ keys vs, F (mkRecord keys vs) = mkRecord keys (vs.map F))
    (h : List.Forall₂ (fun c c' => Maps c c' F) cs cs') :
    MapsG True (Content.record p keys cs length) (Content.record p' keys cs' length) F := by
  obtain ⟨hlen, hc⟩ := good_record.mp hg
  have hg' : (Content.record p' keys cs' length).Good := by
    refine good_record.mpr ⟨fun d hd => ?_, fun d hd => ?_⟩
    · obtain ⟨e, hm, he⟩ := forall₂_mem h hd
      have := hlen e hm
      have := he.len_le
      omega
    · obtain ⟨e, _, he⟩ := forall₂_mem h hd
      exact he.good
  refine ⟨⟨hg', Nat.le_refl _, ?_⟩, fun _ => rfl⟩
  intro i hi
  simp only [len] at hi
  rw [valD_record hg' (by omega), valD_record hg hi, hF,
    forall₂_map_valD h (fun c hc => by have := hlen c hc; omega)]

end

theorem applyAll_ok {U : Type} {get : Nat → U → Content → R (Content ⊕ U)} {d : Nat} {u : U}
    {P : Content → Content → Prop} {cs : List Content}
    (h : ∀ c ∈ cs, ∃ e, apply get d u c = ok e ∧ P c e) :
    ∃ es, applyAll get d u cs = ok es ∧ List.Forall₂ P cs es := by
  induction cs with
  | nil => exact ⟨[], by simp only [applyAll], .nil⟩
  | cons c cs ih =>
    obtain ⟨e, h1, h2⟩ := h c List.mem_cons_self
    obtain ⟨es, h3, h4⟩ := ih (fun x hx => h x (List.mem_cons_of_mem _ hx))
    exact ⟨e :: es, by simp only [applyAll, h1, h3, bind_ok], .cons h2 h4⟩

/-- `recursively_apply` maps the elements. -/
theorem apply_maps {U : Type} {get : Nat → U → Content → R (Content ⊕ U)} {T : Nat → Val → Val}
    {d : Nat} {u : U} {c : Content} (h : Applies get T d u c) (hg : c.Good) :
    ∃ e, apply get d u c = ok e ∧ MapsG True c e (T d) := by
  induction h with
  | @stop d u c e h1 h2 =>
    refine ⟨e, ?_, h2⟩
    cases c <;> simp only [apply, h1, bind_ok, custom]
  | @pass d u u' c h1 h2 h3 ih =>
    cases c
    case empty p =>
      refine ⟨.empty p, by simp only [apply, h1, bind_ok, custom], ⟨hg, Nat.le_refl _, ?_⟩, fun _ => rfl⟩
      intro i hi
      simp [len] at hi
    case numpy p dt data =>
      refine ⟨.numpy p dt data, by simp only [apply, h1, bind_ok, custom],
        ⟨hg, Nat.le_refl _, ?_⟩, fun _ => rfl⟩
      intro i hi
      simp only [len] at hi
      rw [valD_numpy hi, h2]
    case regular p c size zeros =>
      obtain ⟨e, g1, g2⟩ := ih c (by simp [children]) (hg.child (by simp [children]))
      exact ⟨_, by simp only [apply, h1, bind_ok, custom]; rw [show d + 1 = (Content.regular p c size zeros).deeper d by rfl, g1, bind_ok],
        MapsG.regular' (good_regular.mp hg) h2 g2⟩
    case listArray p starts stops c =>
      obtain ⟨e, g1, g2⟩ := ih c (by simp [children]) (hg.child (by simp [children]))
      exact ⟨_, by simp only [apply, h1, bind_ok, custom]; rw [show d + 1 = (Content.listArray p starts stops c).deeper d by rfl, g1, bind_ok],
        MapsG.listArray' hg h2 g2⟩
    case listOffset p offsets c =>
      obtain ⟨e, g1, g2⟩ := ih c (by simp [children]) (hg.child (by simp [children]))
      exact ⟨_, by simp only [apply, h1, bind_ok, custom]; rw [show d + 1 = (Content.listOffset p offsets c).deeper d by rfl, g1, bind_ok],
        MapsG.listOffset' hg h2 g2⟩
    case indexed p index c =>
      obtain ⟨e, g1, g2⟩ := ih c (by simp [children]) (hg.child (by simp [children]))
      refine ⟨_, by simp only [apply, h1, bind_ok, custom]; rw [show apply get d u' c = ok e from g1, bind_ok], ?_⟩
      exact MapsG.indexed hg g2
    case indexedOption p index c =>
      obtain ⟨e, g1, g2⟩ := ih c (by simp [children]) (hg.child (by simp [children]))
      refine ⟨_, by simp only [apply, h1, bind_ok, custom]; rw [show apply get d u' c = ok e from g1, bind_ok], ?_⟩
      exact MapsG.indexedOption hg h2.1 g2
    case byteMasked p mask vw c =>
      obtain ⟨e, g1, g2⟩ := ih c (by simp [children]) (hg.child (by simp [children]))
      refine ⟨_, by simp only [apply, h1, bind_ok, custom]; rw [show apply get d u' c = ok e from g1, bind_ok], ?_⟩
      exact MapsG.byteMasked hg h2.1 g2
    case bitMasked p mask vw length lsb c =>
      obtain ⟨e, g1, g2⟩ := ih c (by simp [children]) (hg.child (by simp [children]))
      refine ⟨_, by simp only [apply, h1, bind_ok, custom]; rw [show apply get d u' c = ok e from g1, bind_ok], ?_⟩
      exact MapsG.bitMasked hg h2.1 g2
    case unmasked p c =>
      obtain ⟨e, g1, g2⟩ := ih c (by simp [children]) (hg.child (by simp [children]))
      refine ⟨_, by simp only [apply, h1, bind_ok, custom]; rw [show apply get d u' c = ok e from g1, bind_ok], ?_⟩
      exact MapsG.unmasked g2
    case record p keys cs length =>
      obtain ⟨es, g1, g2⟩ := applyAll_ok (get := get) (d := d) (u := u')
        (P := fun c e => MapsG True c e (T d)) (cs := cs) (fun c hc => ih c hc (hg.child hc))
      refine ⟨_, by simp only [apply, h1, bind_ok, custom]; rw [g1, bind_ok], ?_⟩
      exact MapsG.record' hg h2.1 (g2.imp fun _ _ h => h.toMaps)
    case union p tags index cs =>
      obtain ⟨es, g1, g2⟩ := applyAll_ok (get := get) (d := d) (u := u')
        (P := fun c e => MapsG True c e (T d)) (cs := cs) (fun c hc => ih c hc (hg.child hc))
      refine ⟨_, by simp only [apply, h1, bind_ok, custom]; rw [g1, bind_ok], ?_⟩
      exact MapsG.union hg (g2.imp fun _ _ h => h.toMaps)

/-! ### Values at a depth -/

theorem mapDepthList_eq (g : Val → Val) (a : Nat) (vs : List Val) :
    Val.mapDepthList g a vs = vs.map (Val.mapDepth g a) := by
  induction vs with
  | nil => simp [Val.mapDepthList]
  | cons v vs ih => simp [Val.mapDepthList, ih]

theorem mapDepthFields_zip (g : Val → Val) (a : Nat) (ks : List String) (vs : List Val) :
    Val.mapDepthFields g a (ks.zip vs) = ks.zip (vs.map (Val.mapDepth g a)) := by
  induction ks generalizing vs with
  | nil => simp [Val.mapDepthFields]
  | cons k ks ih => cases vs <;> simp [Val.mapDepthFields, ih]

theorem mapDepth_wrapList (g : Val → Val) (a : Nat) (p : Params) (vs : List Val) :
    Val.mapDepth g (a + 1) (wrapList p vs) = wrapList p (vs.map (Val.mapDepth g a)) := by
  unfold wrapList
  cases p.arr <;> simp [Val.mapDepth, mapDepthList_eq]

theorem mapDepth_mkRecord (g : Val → Val) (a : Nat) (keys : Option (List String)) (vs : List Val) :
    Val.mapDepth g (a + 1) (mkRecord keys vs) = mkRecord keys (vs.map (Val.mapDepth g (a + 1))) := by
  cases keys <;> simp [mkRecord, Val.mapDepth, mapDepthList_eq, mapDepthFields_zip]

theorem mapDepth_zero (g : Val → Val) : Val.mapDepth g 0 = g := by
  funext v; simp only [Val.mapDepth]

theorem wrapList_isNull (p : Params) (vs : List Val) : (wrapList p vs).isNull = false := by
  unfold wrapList; cases p.arr <;> rfl

theorem mkRecord_isNull (keys : Option (List String)) (vs : List Val) :
    (mkRecord keys vs).isNull = false := by
  cases keys <;> rfl

theorem listNode_val {c : Content} (h : c.Good) (hl : c.isListNode = true) {i : Nat} (hi : i < c.len) :
    ∃ vs, c.valD i = wrapList c.params vs := by
  cases c <;> simp only [isListNode, Bool.false_eq_true] at hl
  · exact ⟨_, valD_regular (good_regular.mp h) hi⟩
  · rename_i p starts stops c
    simp only [len] at hi
    have := (good_listArray.mp h).1
    exact ⟨_, valD_listArray h hi (by omega)⟩
  · simp only [len] at hi
    exact ⟨_, valD_listOffset h (by omega)⟩

theorem Solid.isNull {c : Content} (h : c.Solid) (hg : c.Good) {i : Nat} (hi : i < c.len) :
    (c.valD i).isNull = false := by
  induction h generalizing i with
  | @node c hn =>
    cases c <;> simp only [isThru, Bool.true_eq_false] at hn
    · simp [len] at hi
    · simp only [len] at hi
      rw [valD_numpy hi]; rfl
    all_goals
      obtain ⟨vs, hv⟩ := listNode_val hg rfl hi
      rw [hv]; exact wrapList_isNull _ _
  | @record p keys cs length =>
    simp only [len] at hi
    rw [valD_record hg hi]; exact mkRecord_isNull _ _
  | @indexed p index c _ ih =>
    simp only [len] at hi
    have := (good_indexed.mp hg).2 i hi
    rw [valD_indexed hg hi]
    exact ih (hg.child (by simp [children])) (by omega)
  | @union p tags index cs _ ih =>
    simp only [len] at hi
    obtain ⟨hl, hc, hp⟩ := good_union.mp hg
    obtain ⟨h1, h2, h3, h4⟩ := hp i hi
    rw [valD_union hg hi (by omega) h2]
    exact ih _ (List.getElem_mem h2) (hc _ (List.getElem_mem h2)) (by omega)

theorem inner_mem {c : Content} (ho : c.isOption = true) : c.inner ∈ c.children := by
  cases c <;> simp_all [isOption, inner, children]

/-- What the bytes of the mask say. -/
theorem once_mask {c : Content} (hg : c.Good) (ho : c.isOption = true) (h1 : c.OnceNode) :
    ∃ bm, c.bytemask = ok bm ∧ bm.length = c.len ∧
      ∀ i (h : i < bm.length), (c.valD i).isNull = decide (bm[i] ≠ 0) := by
  obtain ⟨bm, e1, e2, e3⟩ := bytemask_ok hg.wf ho
  refine ⟨bm, e1, e2, fun i hi => ?_⟩
  have hin := hg.child (inner_mem ho)
  have hs := h1 ho _ (inner_mem ho)
  have := isNull_iff_pick hg.wf ho hg.toList hin.toList (by
    intro u hu
    obtain ⟨j, hj, rfl⟩ := List.mem_map.mp hu
    exact hs.isNull hin (List.mem_range.mp hj)) (i := i) (by simp; omega)
  simp only [List.getElem_map, List.getElem_range] at this
  rw [this]
  exact decide_eq_decide.mpr (e3 i hi).symm

@[simp] theorem len_boolArray (data : List Bool) : (boolArray data).len = data.length := by
  simp [boolArray, len]

theorem valD_boolArray {data : List Bool} {i : Nat} (hi : i < data.length) :
    (boolArray data).valD i = .atom (.bool data[i]) := by
  unfold boolArray
  rw [valD_numpy (by simpa using hi)]; simp

theorem boolArray_maps {c : Content} {data : List Bool} (hl : data.length = c.len)
    (hv : ∀ i (h : i < data.length), (c.valD i).isNull = data[i]) :
    MapsG True c (boolArray data) Val.missing :=
  ⟨⟨good_numpy _ _ _, by simp [hl], fun i hi => by
    rw [valD_boolArray (by omega), Val.missing, hv i (by omega)]⟩, fun _ => by simp [hl]⟩

theorem axisWrap_nat (c : Content) (a : Nat) : c.axisWrap a = ok (a : Int) := by
  unfold axisWrap; rw [if_pos (by omega)]

theorem isNone_plain {c : Content} {a : Nat} (hg : c.Good) (hs : c.Solid)
    (hi : c.isOptionOrIndexed = false)
    (hu : (match c with | .union .. => true | _ => false) = false) :
    Applies isNoneGet (fun d => Val.mapDepth Val.missing (a + 1 - d)) (a + 1) (a : Int) c := by
  refine .stop (e := boolArray (List.replicate c.len false)) ?_ ?_
  · simp only [isNoneGet, axisWrap_nat, bind_ok]
    rw [if_pos (by omega)]
    cases c <;> first | rfl | exact Bool.noConfusion hi | exact Bool.noConfusion hu
  · rw [Nat.sub_self, mapDepth_zero]
    refine boolArray_maps (by simp) (fun i hi => ?_)
    rw [List.getElem_replicate]
    exact hs.isNull hg (by simpa using hi)

/-- `is_none` at its axis. -/
theorem isNone_here {c : Content} {a : Nat} (hg : c.Good) (h1 : AllNodes OnceNode c) :
    Applies isNoneGet (fun d => Val.mapDepth Val.missing (a + 1 - d)) (a + 1) (a : Int) c := by
  induction c using Awk.Content.induct
  case indexed p index c ih =>
    cases h1 with
    | mk h1 h2 =>
      refine .pass (u' := (a : Int)) ?_ ?_ ?_
      · simp only [isNoneGet, axisWrap_nat, bind_ok]
        rw [if_pos (by omega)]
      · rfl
      · intro e he
        simp only [children, List.mem_singleton] at he
        subst he
        exact ih (hg.child (by simp [children])) (h2 _ (by simp [children]))
  case union p tags index cs ih =>
    cases h1 with
    | mk h1 h2 =>
      refine .pass (u' := (a : Int)) ?_ ?_ ?_
      · simp only [isNoneGet, axisWrap_nat, bind_ok]
        rw [if_pos (by omega)]
      · rfl
      · intro e he
        exact ih e he (hg.child he) (h2 _ he)
  case indexedOption p index c ih =>
    cases h1 with
    | mk h1 h2 =>
      obtain ⟨bm, e1, e2, e3⟩ := once_mask hg rfl h1
      refine .stop (e := boolArray (bm.map (fun b => decide (b ≠ 0)))) ?_ ?_
      · simp only [isNoneGet, axisWrap_nat, bind_ok]
        rw [if_pos (by omega), e1, bind_ok]
      · rw [Nat.sub_self, mapDepth_zero]
        exact boolArray_maps (by simp [e2]) (fun i hi => by rw [e3 i (by simpa using hi)]; simp)
  case byteMasked p mask vw c ih =>
    cases h1 with
    | mk h1 h2 =>
      obtain ⟨bm, e1, e2, e3⟩ := once_mask hg rfl h1
      refine .stop (e := boolArray (bm.map (fun b => decide (b ≠ 0)))) ?_ ?_
      · simp only [isNoneGet, axisWrap_nat, bind_ok]
        rw [if_pos (by omega), e1, bind_ok]
      · rw [Nat.sub_self, mapDepth_zero]
        exact boolArray_maps (by simp [e2]) (fun i hi => by rw [e3 i (by simpa using hi)]; simp)
  case bitMasked p mask vw length lsb c ih =>
    cases h1 with
    | mk h1 h2 =>
      obtain ⟨bm, e1, e2, e3⟩ := once_mask hg rfl h1
      refine .stop (e := boolArray (bm.map (fun b => decide (b ≠ 0)))) ?_ ?_
      · simp only [isNoneGet, axisWrap_nat, bind_ok]
        rw [if_pos (by omega), e1, bind_ok]
      · rw [Nat.sub_self, mapDepth_zero]
        exact boolArray_maps (by simp [e2]) (fun i hi => by rw [e3 i (by simpa using hi)]; simp)
  case unmasked p c ih =>
    cases h1 with
    | mk h1 h2 =>
      obtain ⟨bm, e1, e2, e3⟩ := once_mask hg rfl h1
      refine .stop (e := boolArray (bm.map (fun b => decide (b ≠ 0)))) ?_ ?_
      · simp only [isNoneGet, axisWrap_nat, bind_ok]
        rw [if_pos (by omega), e1, bind_ok]
      · rw [Nat.sub_self, mapDepth_zero]
        exact boolArray_maps (by simp [e2]) (fun i hi => by rw [e3 i (by simpa using hi)]; simp)
  case record => exact isNone_plain hg .record rfl rfl
  all_goals exact isNone_plain hg (.node rfl) rfl rfl

/-- A function that stops at a depth, above that depth. -/
theorem applies_deep {U : Type} {get : Nat → U → Content → R (Content ⊕ U)} {u : U}
    {N : Content → Prop} {g : Val → Val} {a : Nat}
    (pass : ∀ d c, d ≤ a → get d u c = ok (.inr u))
    (here : ∀ c, c.Good → AllNodes N c →
      Applies get (fun d => Val.mapDepth g (a + 1 - d)) (a + 1) u c)
    {c : Content} (hg : c.Good) (h1 : AllNodes N c) {k : Nat} (hk : k ≤ a) (hd : Deep k c) :
    Applies get (fun d => Val.mapDepth g (a + 1 - d)) (a + 1 - k) u c := by
  induction c using Awk.Content.induct generalizing k
  all_goals cases k with
  | zero => exact here _ hg h1
  | succ k => ?_
  all_goals
    have hq : a + 1 - (a + 1 - (k + 1)) = k + 1 := by omega
    have hq' : a + 1 - (k + 1) + 1 = a + 1 - k := by omega
    have hq'' : a + 1 - (a + 1 - k) = k := by omega
    obtain ⟨h1, h2⟩ := h1
    refine Applies.pass (pass _ _ (by omega)) ?_ ?_
  case empty.succ.refine_1 => trivial
  case empty.succ.refine_2 => simp [children]
  case numpy.succ.refine_1 =>
    cases hd with
    | list hl => simp [isListNode] at hl
    | thru ht => simp [isThru] at ht
  case numpy.succ.refine_2 => simp [children]
  case regular.succ.refine_1 | listArray.succ.refine_1 | listOffset.succ.refine_1 =>
    intro vs
    simp only [deeper, isListNode, if_true, hq, hq', hq'']
    exact mapDepth_wrapList _ _ _ _
  case indexedOption.succ.refine_1 | byteMasked.succ.refine_1 | bitMasked.succ.refine_1
      | unmasked.succ.refine_1 =>
    simp only [Passes, hq]
    exact ⟨by simp only [Val.mapDepth], by simp only [deeper, isListNode, Bool.false_eq_true, if_false, hq]⟩
  case record.succ.refine_1 =>
    simp only [Passes, hq]
    exact ⟨mapDepth_mkRecord _ _, by simp only [deeper, isListNode, Bool.false_eq_true, if_false, hq]⟩
  case indexed.succ.refine_1 | union.succ.refine_1 =>
    simp only [Passes, hq]
    simp only [deeper, isListNode, Bool.false_eq_true, if_false, hq]
  case regular.succ.refine_2 p c size zeros ih =>
    intro e he
    have hd' : Deep k e := by
      cases hd with
      | list _ _ _ hd => exact hd e he
      | thru ht => simp [isThru] at ht
    simp only [children, List.mem_singleton] at he
    subst he
    simp only [deeper, isListNode, if_true, hq']
    exact ih (hg.child (by simp [children])) (h2 _ (by simp [children])) (by omega) hd'
  case listArray.succ.refine_2 ih =>
    intro e he
    have hd' : Deep k e := by
      cases hd with
      | list _ _ _ hd => exact hd e he
      | thru ht => simp [isThru] at ht
    simp only [children, List.mem_singleton] at he
    subst he
    simp only [deeper, isListNode, if_true, hq']
    exact ih (hg.child (by simp [children])) (h2 _ (by simp [children])) (by omega) hd'
  case listOffset.succ.refine_2 ih =>
    intro e he
    have hd' : Deep k e := by
      cases hd with
      | list _ _ _ hd => exact hd e he
      | thru ht => simp [isThru] at ht
    simp only [children, List.mem_singleton] at he
    subst he
    simp only [deeper, isListNode, if_true, hq']
    exact ih (hg.child (by simp [children])) (h2 _ (by simp [children])) (by omega) hd'
  case record.succ.refine_2 ih | union.succ.refine_2 ih =>
    intro e he
    have hd' : Deep (k + 1) e := by
      cases hd with
      | list hl => simp [isListNode] at hl
      | thru _ hd => exact hd e he
    exact ih e he (hg.child he) (h2 _ he) hk hd'
  case indexed.succ.refine_2 ih | indexedOption.succ.refine_2 ih | byteMasked.succ.refine_2 ih
      | bitMasked.succ.refine_2 ih | unmasked.succ.refine_2 ih =>
    intro e he
    have hd' : Deep (k + 1) e := by
      cases hd with
      | list hl => simp [isListNode] at hl
      | thru _ hd => exact hd e he
    simp only [children, List.mem_singleton] at he
    subst he
    exact ih (hg.child (by simp [children])) (h2 _ (by simp [children])) hk hd'

/-- `is_none` maps the elements at its axis to whether they are missing. -/
theorem isNone_ok {c : Content} {a : Nat} (hg : c.Good) (h1 : AllNodes OnceNode c) (hd : Deep a c) :
    ∃ e, c.isNone a = ok e ∧ MapsG True c e (Val.mapDepth Val.missing a) := by
  have h := applies_deep (g := Val.missing) (a := a) (u := (a : Int)) (get := isNoneGet)
    (fun d c hd => by
      simp only [isNoneGet, axisWrap_nat, bind_ok]
      rw [if_neg (by omega)]) (fun c hg h1 => isNone_here hg h1) hg h1 (Nat.le_refl a) hd
  rw [show a + 1 - a = 1 by omega] at h
  have := apply_maps h hg
  simpa [isNone] using this

/-! ### `singletons` -/

/-- The contents of an option-type node without the missing elements can be read. -/
theorem project_good {c : Content} (hg : c.Good) (ho : c.isOption = true) :
    ∃ d, c.project = ok d ∧ d.Good ∧ d.toList = ok ((List.range c.len).filterMap
      (fun i => if (c.pick i).isSome then some (c.valD i) else none)) := by
  obtain ⟨d, h1, h2, h3⟩ := project_ok hg.wf ho hg.toList
  refine ⟨d, h1, ?_, ?_⟩
  · have hr : ∀ i, i < c.len → IsOk (c.val i) := fun i hi => ⟨_, hg.val hi⟩
    rcases project_eq hg.wf ho hr with ⟨p, e, rfl⟩ | heq
    · rw [show (unmasked p e).project = ok e from rfl, ok.injEq] at h1
      subst h1
      exact hg.child (by simp [children])
    · obtain ⟨d', g1, g2, _⟩ := carry_good (hg.child (inner_mem ho)) false (shown_inRange hg.wf ho hr)
      rw [heq, g1, ok.injEq] at h1
      subst h1
      exact g2
  · rw [h3]
    congr 1
    apply filterMap_congr'
    intro i hi
    have hi' : i < c.len := by simpa using hi
    rw [List.getElem?_map, List.getElem?_range hi']
    rfl

theorem filterMap_range_length {α : Type} (h : Nat → Option α) (m : Nat) :
    ((List.range m).filterMap h).length = sumTo (fun i => if (h i).isSome then 1 else 0) m := by
  induction m with
  | zero => rfl
  | succ m ih =>
    rw [List.range_succ, List.filterMap_append, List.length_append, ih, sumTo_succ]
    cases hm : h m <;> simp [hm]

/-- The members that are kept, by their positions. -/
theorem filterMap_range_at {α : Type} (h : Nat → Option α) {n i : Nat} (hi : i < n) {x : α}
    (hx : h i = some x) :
    ((List.range n).filterMap h)[sumTo (fun i => if (h i).isSome then 1 else 0) i]? = some x := by
  have hlen := filterMap_range_length h
  obtain ⟨m, rfl⟩ : ∃ m, n = i + 1 + m := ⟨n - i - 1, by omega⟩
  rw [List.range_add, List.filterMap_append, List.range_succ, List.filterMap_append,
    List.getElem?_append_left (by rw [List.length_append, hlen]; simp [hx]),
    List.getElem?_append_right (by rw [hlen]), hlen]
  simp [hx]

theorem sumTo_shift (f : Nat → Nat) (n : Nat) :
    sumTo f (n + 1) = f 0 + sumTo (fun i => f (i + 1)) n := by
  induction n with
  | zero => simp [sumTo]
  | succ n ih => rw [sumTo_succ, ih, sumTo_succ]; omega

theorem singletonOffsets_eq (n : Nat) (mask : List Int) :
    singletonOffsets n mask = (List.range (mask.length + 1)).map (fun i =>
      ((n + sumTo (fun i => if mask[i]?.getD 0 ≠ 0 then 0 else 1) i : Nat) : Int)) := by
  induction mask generalizing n with
  | nil => simp [singletonOffsets]
  | cons b mask ih =>
    rw [singletonOffsets, show (if b ≠ 0 then (n : Int) else n + 1)
      = ((n + (if b ≠ 0 then 0 else 1) : Nat) : Int) by split <;> simp, ih, List.length_cons,
      List.range_succ_eq_map (n := mask.length + 1), List.map_cons, List.map_map]
    congr 1
    apply List.map_congr_left
    intro i _
    simp only [Function.comp]
    congr 1
    rw [show i.succ = i + 1 from rfl, sumTo_shift (fun i => if (b :: mask)[i]?.getD 0 ≠ 0 then 0 else 1),
      Nat.add_assoc]
    simp only [List.getElem?_cons_zero, Option.getD_some, List.getElem?_cons_succ]

theorem singletons_here {c : Content} (hg : c.Good) (ho : c.isOption = true) (h1 : c.OnceNode) :
    ∃ e, singletonsGet d () c = ok (.inl e) ∧ MapsG True c e Val.singleton := by
  obtain ⟨bm, e1, e2, e3⟩ := bytemask_ok hg.wf ho
  obtain ⟨pr, p1, p2, p3⟩ := project_good hg ho
  have hmask : ∀ i, i < c.len → (bm[i]?.getD 0 ≠ 0 ↔ c.pick i = none) := by
    intro i hi
    rw [List.getElem?_eq_getElem (by omega)]
    exact e3 i (by omega)
  have hnull : ∀ i, i < c.len → (c.valD i).isNull = decide (c.pick i = none) := by
    obtain ⟨bm', e1', e2', e3'⟩ := once_mask hg ho h1
    rw [e1, ok.injEq] at e1'
    subst e1'
    intro i hi
    rw [e3' i (by omega)]
    exact decide_eq_decide.mpr (e3 i (by omega))
  refine ⟨listOffset {} (singletonOffsets 0 bm) pr, ?_, ?_⟩
  · cases c <;> simp only [isOption, Bool.false_eq_true] at ho <;>
      simp only [singletonsGet, e1, p1, bind_ok]
  · have hof : singletonOffsets 0 bm
        = offsTo (fun i => if (c.pick i).isSome then 1 else 0) c.len := by
      rw [show (0 : Int) = ((0 : Nat) : Int) by rfl, singletonOffsets_eq, offsTo, e2]
      apply List.map_congr_left
      intro i hi
      simp only [Nat.zero_add]
      congr 1
      refine sumTo_congr fun j hj => ?_
      have hj' : j < c.len := by simp at hi; omega
      cases hp : c.pick j with
      | none => rw [if_pos ((hmask j hj').mpr hp)]; rfl
      | some k =>
        rw [if_neg (fun h => by rw [(hmask j hj').mp h] at hp; cases hp)]; rfl
    have hlen : pr.len = sumTo (fun i => if (c.pick i).isSome then 1 else 0) c.len := by
      have := mapN_length p3
      rw [filterMap_range_length] at this
      rw [← this]
      refine sumTo_congr fun j hj => ?_
      cases hj : c.pick j <;> simp [hj]
    rw [hof]
    refine ⟨⟨good_offsTo p2 (by omega), by simp [len], ?_⟩, fun _ => by simp [len]⟩
    intro i hi
    rw [valD_offsTo p2 (by omega) hi, wrapList_default, Val.singleton, hnull i hi]
    cases hp : c.pick i with
    | none => rfl
    | some k =>
      have hat := filterMap_range_at
        (fun i => if (c.pick i).isSome then some (c.valD i) else none) hi (x := c.valD i) (by simp [hp])
      have hs : sumTo (fun i => if ((fun i => if (c.pick i).isSome then some (c.valD i) else none) i).isSome
          then 1 else 0) i = sumTo (fun i => if (c.pick i).isSome then 1 else 0) i := by
        refine sumTo_congr fun j hj => ?_
        cases hj : c.pick j <;> simp [hj]
      rw [hs] at hat
      have ht := p2.toList
      rw [p3, ok.injEq] at ht
      rw [ht, List.getElem?_map] at hat
      have hlt : sumTo (fun i => if (c.pick i).isSome then 1 else 0) i < pr.len := by
        have := sumTo_mono (f := fun i => if (c.pick i).isSome then 1 else 0) (show i + 1 ≤ c.len by omega)
        rw [sumTo_succ] at this
        simp only [hp, Option.isSome_some, if_true] at this
        omega
      rw [List.getElem?_range hlt] at hat
      simp only [Option.map_some, Option.some.injEq] at hat
      simp [seg, hat]

theorem singletons_applies {c : Content} {a : Nat} (hg : c.Good) (h1 : AllNodes OnceNode c) {k : Nat}
    (hk : k ≤ a) (hd : OptionsAt k c) :
    Applies singletonsGet (fun d => Val.mapDepth Val.singleton (a + 1 - d)) (a + 1 - k) () c := by
  induction hd with
  | @here c ho =>
    cases h1 with
    | mk h1 h2 =>
      obtain ⟨e, g1, g2⟩ := singletons_here (d := a + 1 - 0) hg ho h1
      exact .stop g1 (by simpa [mapDepth_zero] using g2)
  | @list c k hl hd ih =>
    cases h1 with
    | mk h1 h2 =>
      have hq : a + 1 - (a + 1 - (k + 1)) = k + 1 := by omega
      have hq' : a + 1 - (k + 1) + 1 = a + 1 - k := by omega
      have hq'' : a + 1 - (a + 1 - k) = k := by omega
      have hde : c.deeper (a + 1 - (k + 1)) = a + 1 - k := by
        simp only [deeper, hl, if_true, hq']
      refine .pass (u' := ()) ?_ ?_ ?_
      · cases c <;> simp only [isListNode, Bool.false_eq_true] at hl <;> rfl
      · rw [hde]
        rw [hq, hq'']
        cases c <;> simp only [isListNode, Bool.false_eq_true] at hl <;>
          exact mapDepth_wrapList _ _ _
      · intro e he
        rw [hde]
        exact ih e he (hg.child he) (h2 _ he) (by omega)
  | @indexed p index c k hd ih =>
    cases h1 with
    | mk h1 h2 =>
      refine .pass (u' := ()) rfl rfl ?_
      intro e he
      simp only [children, List.mem_singleton] at he
      subst he
      exact ih (hg.child (by simp [children])) (h2 _ (by simp [children])) hk
  | @union p tags index cs k hd ih =>
    cases h1 with
    | mk h1 h2 =>
      refine .pass (u' := ()) rfl rfl ?_
      intro e he
      exact ih e he (hg.child he) (h2 _ he) hk

/-- `singletons` wraps the elements at the depth of the missing data. -/
theorem singletons_ok {c : Content} {a : Nat} (hg : c.Good) (h1 : AllNodes OnceNode c)
    (hd : OptionsAt a c) :
    ∃ e, c.singletons = ok e ∧ MapsG True c e (Val.mapDepth Val.singleton a) := by
  have h := singletons_applies (a := a) hg h1 (Nat.le_refl a) hd
  rw [show a + 1 - a = 1 by omega] at h
  have := apply_maps h hg
  simpa [singletons] using this

/-! ### Negative axes -/

theorem purelistDepthAll_eq {cs : List Content} {n : Int} (h : ∀ c ∈ cs, c.purelistDepth = n) :
    purelistDepthAll cs = List.replicate cs.length n := by
  induction cs with
  | nil => rfl
  | cons c cs ih =>
    simp only [purelistDepthAll]
    rw [h c List.mem_cons_self, ih fun d hd => h d (List.mem_cons_of_mem _ hd)]
    rfl

theorem minmaxDepthAll_eq {cs : List Content} {n : Int} (hn : 0 ≤ n) (hne : cs ≠ [])
    (h : ∀ c ∈ cs, c.minmaxDepth = (n, n)) : minmaxDepthAll cs = some (n, n) := by
  induction cs with
  | nil => exact absurd rfl hne
  | cons c cs ih =>
    simp only [minmaxDepthAll]
    rw [h c List.mem_cons_self]
    by_cases hc : cs = []
    · subst hc
      simp only [minmaxDepthAll, Int.max_eq_left hn]
    · rw [ih hc fun d hd => h d (List.mem_cons_of_mem _ hd)]
      simp

theorem Uniform.depths {n : Nat} {c : Content} (h : Uniform n c) :
    1 ≤ n ∧ c.purelistDepth = n ∧ c.minmaxDepth = ((n : Int), (n : Int)) := by
  induction h with
  | empty => exact ⟨Nat.le_refl _, by simp [purelistDepth], by simp [minmaxDepth]⟩
  | numpy => exact ⟨Nat.le_refl _, by simp [purelistDepth], by simp [minmaxDepth]⟩
  | @string c hl hs =>
    refine ⟨Nat.le_refl _, ?_, ?_⟩ <;>
    cases c <;> simp only [isListNode, Bool.false_eq_true] at hl <;>
      simp only [params] at hs <;>
      simp [purelistDepth, minmaxDepth, listDepth, hs]
  | @list c n hl h1 h2 _ ih =>
    cases c <;> simp only [isListNode, Bool.false_eq_true] at hl <;>
    · obtain ⟨g1, g2, g3⟩ := ih _ (List.mem_singleton.mpr rfl)
      simp only [params] at h1 h2
      refine ⟨by omega, ?_, ?_⟩ <;>
        simp [purelistDepth, minmaxDepth, listDepth, h1, h2, g2, g3]
  | @thru c n ho _ ih =>
    cases c <;> simp only [isOptionOrIndexed, Bool.false_eq_true] at ho <;>
    · obtain ⟨g1, g2, g3⟩ := ih _ (List.mem_singleton.mpr rfl)
      exact ⟨g1, by simp [purelistDepth, g2], by simp [minmaxDepth, g3]⟩
  | @record p keys cs length hne _ ih =>
    refine ⟨Nat.le_refl _, by simp [purelistDepth], ?_⟩
    simp only [minmaxDepth]
    rw [minmaxDepthAll_eq (n := 1) (by omega) hne fun c hc => (ih c hc).2.2]
    rfl
  | @union p tags index cs n hne _ ih =>
    have hn : 1 ≤ n := by
      cases cs with
      | nil => exact absurd rfl hne
      | cons c cs => exact (ih c List.mem_cons_self).1
    refine ⟨hn, ?_, ?_⟩
    · simp only [purelistDepth]
      rw [purelistDepthAll_eq fun c hc => (ih c hc).2.1]
      cases cs with
      | nil => exact absurd rfl hne
      | cons c cs => simp [List.replicate_succ]
    · simp only [minmaxDepth]
      rw [minmaxDepthAll_eq (n := n) (by omega) hne fun c hc => (ih c hc).2.2]
      rfl

theorem Uniform.axisWrap {n : Nat} {c : Content} (h : Uniform n c) {j : Nat} (h1 : 1 ≤ j) (hj : j ≤ n) :
    c.axisWrap (-(j : Int)) = ok ((n - j : Nat) : Int) := by
  obtain ⟨_, g2, g3⟩ := h.depths
  unfold Content.axisWrap
  rw [if_neg (by omega), g2, g3, if_pos ⟨rfl, rfl⟩]
  dsimp only
  rw [if_neg (by omega)]
  congr 1
  omega

theorem nestedOk_solid {c : Content} (h : c.nestedOk = ok ())
    (hu : c.isUnion = true → ∀ e ∈ c.children, Solid e) : Solid c := by
  cases c with
  | union p tags index cs => exact .union (hu rfl)
  | record p keys cs length => exact .record
  | empty p => exact .node rfl
  | numpy p dt data => exact .node rfl
  | regular p c size zeros => exact .node rfl
  | listArray p starts stops c => exact .node rfl
  | listOffset p offsets c => exact .node rfl
  | _ => exact nomatch (show R.err _ = R.ok _ from h)

/-- In a valid array an option has no option directly below it, but for members of unions. -/
theorem once_of_validity {c : Content} (h : c.validity = ok ()) (h1 : AllNodes OnceUnion c) :
    AllNodes OnceNode c := by
  have str : ∀ {p : Params} {c : Content},
      (c.validity = ok () → AllNodes OnceUnion c → AllNodes OnceNode c) →
      paramsOkList p c = ok () →
      (if p.arr = .string ∨ p.arr = .bytestring then ok () else c.validity) = ok () →
      AllNodes OnceUnion c → AllNodes OnceNode c := by
    intro p c ih h1 h2 h3
    rcases paramsOkList_content h1 h2 with ⟨_, p', data, rfl, _⟩ | ⟨_, h2⟩
    · exact .mk (fun h => by cases h) fun d hd => by cases hd
    · exact ih h2 h3
  have opt : ∀ {c d : Content}, c.children = [d] → AllNodes OnceUnion c → c.isOption = true →
      (d.validity = ok () → AllNodes OnceUnion d → AllNodes OnceNode d) →
      d.nestedOk = ok () → d.validity = ok () → AllNodes OnceNode c := by
    intro c d hc ha ho ih hn hv
    cases ha with
    | mk hu hs =>
      rw [hc] at hs
      refine .mk (fun _ e he => ?_) fun e he => ?_ <;> rw [hc] at he <;> cases List.mem_singleton.mp he
      · exact nestedOk_solid hn (hu ho d (by rw [hc]; exact List.mem_singleton_self d))
      · exact ih hv (hs d (List.mem_singleton_self d))
  have hch : ∀ d ∈ c.children, AllNodes OnceUnion d := by cases h1; assumption
  induction c using induct with
  | empty p => exact .mk (fun h => by cases h) fun d hd => by cases hd
  | numpy p dt data => exact .mk (fun h => by cases h) fun d hd => by cases hd
  | regular p c size zeros ih =>
    refine .mk (fun h => by cases h) fun d hd => ?_
    have hd' := hch d hd
    cases List.mem_singleton.mp hd
    simp only [validity, bind_eq_ok] at h
    obtain ⟨_, h1, h2⟩ := h
    exact str (fun a b => ih a b (by cases b; assumption)) h1 h2 hd'
  | listArray p starts stops c ih =>
    refine .mk (fun h => by cases h) fun d hd => ?_
    have hd' := hch d hd
    cases List.mem_singleton.mp hd
    simp only [validity, bind_eq_ok] at h
    obtain ⟨_, h1, h2⟩ := h
    split at h2
    · simp at h2
    · obtain ⟨_, _, h3⟩ := bind_eq_ok.mp h2
      exact str (fun a b => ih a b (by cases b; assumption)) h1 h3 hd'
  | listOffset p offsets c ih =>
    refine .mk (fun h => by cases h) fun d hd => ?_
    have hd' := hch d hd
    cases List.mem_singleton.mp hd
    simp only [validity, bind_eq_ok] at h
    obtain ⟨_, h1, h2⟩ := h
    split at h2
    · simp at h2
    · obtain ⟨_, _, h3⟩ := bind_eq_ok.mp h2
      exact str (fun a b => ih a b (by cases b; assumption)) h1 h3 hd'
  | indexed p index c ih =>
    refine .mk (fun h => by cases h) fun d hd => ?_
    have hd' := hch d hd
    cases List.mem_singleton.mp hd
    simp only [validity, bind_eq_ok] at h
    obtain ⟨_, _, _, _, _, _, h4⟩ := h
    exact ih h4 hd' (by cases hd'; assumption)
  | indexedOption p index c ih =>
    simp only [validity, bind_eq_ok] at h
    obtain ⟨_, _, _, _, _, h3, h4⟩ := h
    exact opt rfl h1 rfl (fun a b => ih a b (by cases b; assumption)) h3 h4
  | byteMasked p mask vw c ih =>
    simp only [validity, bind_eq_ok] at h
    obtain ⟨_, _, h⟩ := h
    split at h
    · simp at h
    · obtain ⟨_, h3, h4⟩ := bind_eq_ok.mp h
      exact opt rfl h1 rfl (fun a b => ih a b (by cases b; assumption)) h3 h4
  | bitMasked p mask vw length lsb c ih =>
    simp only [validity, bind_eq_ok] at h
    obtain ⟨_, _, h⟩ := h
    split at h
    · simp at h
    split at h
    · simp at h
    · obtain ⟨_, h3, h4⟩ := bind_eq_ok.mp h
      exact opt rfl h1 rfl (fun a b => ih a b (by cases b; assumption)) h3 h4
  | unmasked p c ih =>
    simp only [validity, bind_eq_ok] at h
    obtain ⟨_, _, _, h3, h4⟩ := h
    exact opt rfl h1 rfl (fun a b => ih a b (by cases b; assumption)) h3 h4
  | record p keys cs length ih =>
    refine .mk (fun h => by cases h) fun d hd => ?_
    have hd' := hch d hd
    simp only [validity, bind_eq_ok] at h
    obtain ⟨_, _, h⟩ := h
    split at h
    · simp at h
    · rw [validityAll_ok] at h
      exact ih d hd (h d hd) hd' (by cases hd'; assumption)
  | union p tags index cs ih =>
    refine .mk (fun h => by cases h) fun d hd => ?_
    have hd' := hch d hd
    simp only [validity, bind_eq_ok] at h
    obtain ⟨_, _, h⟩ := h
    split at h
    · simp at h
    split at h
    · simp at h
    · obtain ⟨_, _, h⟩ := bind_eq_ok.mp h
      rw [validityAll_ok] at h
      exact ih d hd (h d hd) hd' (by cases hd'; assumption)

end Content
end Awk
