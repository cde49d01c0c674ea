import Verif.Lemmas.BcastMask
/-
Element-wise functions accept flat arrays and lists of numbers whose lengths agree.
-/

namespace Awk
open R Spec

namespace Content

/-- The numbers have no name for a behavior. -/
def UnnamedNode (c : Content) : Prop := BcastNode c ∧
  match c with
  | numpy p _ _ => p.arr = .none ∧ p.recName = Option.none
  | _ => True

theorem UnnamedNode.fam : Fam false (fun _ => AllNodes UnnamedNode) where
  closed := ⟨fun _ h2 => .mk ⟨trivial, trivial⟩ (by simpa [children] using h2),
    by
      intro c' c hc hl hd a h
      refine .mk ⟨?_, ?_⟩ (fun d' hd' => ?_)
      · have h0 := h.here.1
        have hp := hl.params
        cases c' <;> cases c <;> simp [cls] at hc <;> simp only [BcastNode, Content.params] at h0 hp ⊢ <;>
          try (first | (rw [hp]; exact h0) | exact h0 | (obtain ⟨_, _, _, he⟩ := hl.reg _ _ _ _ rfl; cases he))
        case record.record p k cs n p' k' cs' n' =>
          obtain ⟨_, _, _, he⟩ := hl.keys _ _ _ _ rfl
          simp only [Content.record.injEq] at he
          obtain ⟨_, rfl, _, _⟩ := he
          have hw := hl.width
          simp only [children] at hw
          cases k' with
          | some k => trivial
          | none => simp only [] at h0 ⊢; omega
      · have h0 := h.here.2
        have hp := hl.params
        cases c' <;> cases c <;> simp [cls] at hc <;> simp only [Content.params] at h0 hp ⊢
        rw [hp]; exact h0
      · obtain ⟨d, hd1, hd2⟩ := hd d' hd'
        exact hd2 0 (h.child hd1)⟩
  numpy _ _ _ := by rw [allNodes_iff]; simp [UnnamedNode, BcastNode, children]
  wrap _ _ _ h := .mk ⟨trivial, trivial⟩ (by simpa [children] using h)
  option _ c h ho := by
    cases c <;> simp only [isOption, Bool.false_eq_true] at ho <;>
      exact h.child (by simp [children, inner])
  indexed _ _ _ _ h := h.child (by simp [children])
  record _ _ _ _ _ h := ⟨by rintro rfl; exact h.here.1, fun d hd => h.child (by simpa [children] using hd)⟩
  listArray _ _ _ _ _ h := ⟨h.here.1, h.child (by simp [children])⟩
  listOffset _ _ _ _ h := ⟨h.here.1, h.child (by simp [children])⟩
  regular _ _ _ _ _ h := absurd h.here.1 (by simp [BcastNode])
  union _ _ _ _ _ h := absurd h.here.1 (by simp [BcastNode])
  mkList _ _ _ _ hp h := .mk ⟨hp, trivial⟩ (by simpa [children] using h)
  mono _ _ h := h
  toJagged h := by cases h

/-- An input without names for behaviors. -/
abbrev UnnamedIn (c : Content) : Prop := Binput (fun _ => AllNodes UnnamedNode) 1 c

theorem AllNodes.imp {P Q : Content → Prop} (h : ∀ c, P c → Q c) {c : Content} (hc : AllNodes P c) :
    AllNodes Q c := by
  induction hc with
  | mk h0 _ ih => exact .mk (h _ h0) ih

theorem UnnamedIn.bin {c : Content} (h : UnnamedIn c) : Bin c := ⟨h.good, h.nodes.imp (fun _ h => h.1)⟩

theorem UnnamedIn.leaf {c : Content} (h : UnnamedIn c) (hn : c.isNumpy = true) : c.hasBehavior = false := by
  cases c <;> simp only [isNumpy, Bool.false_eq_true] at hn
  have := h.nodes.here.2
  simp only at this
  simp [hasBehavior, params, this]

theorem allSome_map {α : Type} (l : List α) : allSome (l.map some) = some l := by
  induction l with
  | nil => rfl
  | cons x l ih => simp [allSome, ih]

theorem allSome_none {α : Type} : ∀ {l : List (Option α)}, Option.none ∈ l → allSome l = Option.none
  | none :: _, _ => rfl
  | some x :: l, h => by
    have : Option.none ∈ l := by simpa using h
    simp [allSome, allSome_none this]

theorem same_lens {cs : List Content} {n : Nat} (hl : ∀ c ∈ cs, c.len = n) :
    cs.any (fun c => c.len != ((cs.map len).headD 0)) = false := by
  rw [List.any_eq_false]
  intro c hc
  cases cs with
  | nil => cases hc
  | cons d ds => simp [hl c hc, hl d (by simp)]

theorem regularToJagged_id {cs : List Content} : mapR (regularToJagged false) cs = ok cs := by
  rw [mapR_forall₂]
  refine List.forall₂_same.mpr (fun c _ => ?_)
  cases c <;> rfl

/-- The innermost call: all inputs are flat. -/
theorem bcastWith_numpy {f : List Atom → Atom} {dt : DType} {k depth n : Nat} {cs : List Content}
    (hne : cs ≠ []) (hb : ∀ c ∈ cs, UnnamedIn c) (hn : ∀ c ∈ cs, c.isNumpy = true) (hl : ∀ c ∈ cs, c.len = n) :
    ∃ data, bcastWith ⟨true, false, false⟩ (ufuncGet f dt) (k + 1) depth cs = ok [numpy {} dt data] ∧
      ∀ x ∈ data, ∃ as, x = f as := by
  have hr : rightBroadcast cs = cs := rightBroadcast_eq BcastNode.fam (fun c hc => (hb c hc).bin)
  have hbeh : cs.any hasBehavior = false := by
    rw [List.any_eq_false]
    intro c hc
    simp [(hb c hc).leaf (hn c hc)]
  have hde : mapR deregulate cs = ok ((cs.map (fun c => ([c.len], c.leafData))).map some) := by
    rw [mapR_forall₂, List.forall₂_map_right_iff, List.forall₂_map_right_iff]
    refine List.forall₂_same.mpr (fun c hc => ?_)
    rw [deregulate_leaf (hb c hc).nodes.here.1, if_pos (hn c hc)]
  have hshape : bcastShape (((cs.map (fun c => ([c.len], c.leafData))).headD ([], [])).1.length)
      ((cs.map (fun c => ([c.len], c.leafData))).map Prod.fst) = ok [n] := by
    obtain ⟨c0, cs', rfl⟩ := List.exists_cons_of_ne_nil hne
    simp only [List.map_cons, List.headD_cons, List.length_cons, List.length_nil]
    rw [show (0 + 1) = 1 from rfl, bcastShape, if_neg (by simp), bcastDim_same (n := n) (by simp) (by
      intro x hx
      simp only [List.map_map, List.mem_cons, List.mem_map, List.map_cons, List.headD_cons] at hx
      rcases hx with h | ⟨c, hc, h⟩
      · rw [h]; exact hl c0 (by simp)
      · rw [← h]; exact hl c (by simp [hc])), bind_ok, bcastShape, if_pos (by simp), bind_ok]
  refine ⟨ndApply f [n] (cs.map (fun c => ([c.len], c.leafData))), ?_, ?_⟩
  · rw [bcastWith]
    simp only [regularToJagged_id, bind_ok, if_true, hr, same_lens hl, Bool.false_eq_true, if_false]
    unfold ufuncGet
    rw [hbeh, hde]
    simp only [Bool.false_eq_true, if_false, bind_ok, allSome_map, hshape]
    rfl
  · rw [ndApply_row]
    intro x hx
    obtain ⟨i, _, rfl⟩ := List.mem_map.mp hx
    exact ⟨_, rfl⟩

/-- Lists of the content `d`. -/
def ListsOver (p : Params) (d c : Content) : Prop :=
  (∃ offsets, c = listOffset p offsets d) ∨ ∃ starts stops, c = listArray p starts stops d

/-- Lists of numbers of type `dt` that `f` returned. -/
def ListsOf (f : List Atom → Atom) (dt : DType) (out : Content) : Prop :=
  ∃ data, ListsOver {} (numpy {} dt data) out ∧ ∀ x ∈ data, ∃ as, x = f as

theorem FlatOrLists.not_string {c : Content} (h : FlatOrLists c) (hj : c.isJagged = true) : c.hasCustom = false := by
  cases c <;> simp only [isJagged, Bool.false_eq_true] at hj <;> rename_i d <;> cases d <;>
    simp only [FlatOrLists] at h <;> simp [hasCustom, params, h.1]

theorem ufuncGet_none {f : List Atom → Atom} {dt : DType} {depth : Nat} {cs : List Content}
    (hb : ∀ c ∈ cs, UnnamedIn c) (hbeh : ∀ c ∈ cs, c.hasBehavior = false)
    {c0 : Content} (hc0 : c0 ∈ cs) (hj0 : c0.isJagged = true) :
    ufuncGet f dt depth cs = ok Option.none := by
  unfold ufuncGet
  rw [if_neg, show mapR deregulate cs
      = ok (cs.map (fun c => if c.isNumpy then some ([c.len], c.leafData) else Option.none)) by
    rw [mapR_forall₂, List.forall₂_map_right_iff]
    exact List.forall₂_same.mpr (fun c hc => deregulate_leaf (hb c hc).nodes.here.1), bind_ok, allSome_none]
  · refine List.mem_map.mpr ⟨c0, hc0, ?_⟩
    cases c0 <;> first | rfl | cases hj0
  · rw [List.any_eq_true]
    rintro ⟨c, hc, h⟩
    rw [hbeh c hc] at h; cases h

/-- The call for lists: flat arrays and lists of numbers of the same lengths. -/
theorem bcastWith_lists {f : List Atom → Atom} {dt : DType} {k depth n : Nat} {cs : List Content} (hn : 0 < n)
    (hb : ∀ c ∈ cs, UnnamedIn c) (hf : ∀ c ∈ cs, FlatOrLists c) (hbeh : ∀ c ∈ cs, c.hasBehavior = false)
    (hl : ∀ c ∈ cs, c.len = n)
    (ha : ∀ i, i < n → ∃ k, ∀ c ∈ cs, ∀ xs, c.valD i = .list xs → xs.length = k)
    {c0 : Content} (hc0 : c0 ∈ cs) (hj0 : c0.isJagged = true) :
    ∃ out, bcastWith ⟨true, false, false⟩ (ufuncGet f dt) (k + 2) depth cs = ok [out] ∧ ListsOf f dt out := by
  have hne : cs ≠ [] := by rintro rfl; cases hc0
  have hr : rightBroadcast cs = cs := rightBroadcast_eq BcastNode.fam (fun c hc => (hb c hc).bin)
  rw [bcastWith]
  simp only [regularToJagged_id, bind_ok, if_true, hr, same_lens hl, Bool.false_eq_true, if_false,
    ufuncGet_none hb hbeh hc0 hj0]
  have hno : ∀ (P : Content → Bool), (∀ c, P c = true → c.isNumpy = false ∧ c.isJagged = false) →
      ¬ (cs.any P = true) := by
    intro P hP h
    rw [List.any_eq_true] at h
    obtain ⟨c, hc, h⟩ := h
    obtain ⟨h1, h2⟩ := hP c h
    rcases (hf c hc).cases with h | h
    · rw [h1] at h; cases h
    · rw [h2] at h; exact absurd h.1 (by simp)
  unfold bcastSwitch
  rw [if_neg, if_neg, if_neg, if_neg, if_pos, if_neg]
  · by_cases hs : allSameOffsets none cs = false
    · rw [if_pos hs]
      unfold jaggedStepStrings
      have hsome : ∃ first, cs.find? (fun c => c.isJagged && !c.hasCustom) = some first := by
        cases hfind : cs.find? (fun c => c.isJagged && !c.hasCustom) with
        | none =>
          rw [List.find?_eq_none] at hfind
          exact absurd (by simp [hj0, (hf c0 hc0).not_string hj0]) (hfind c0 hc0)
        | some first => exact ⟨first, rfl⟩
      obtain ⟨first, hfind⟩ := hsome
      have hj := List.find?_some hfind
      simp only [Bool.and_eq_true] at hj
      replace hj := hj.1
      have hm := List.mem_of_find?_eq_some hfind
      rw [hfind]
      simp only
      rw [compactOffsets_ok (hb _ hm) hj, bind_ok, hl _ hm]
      obtain ⟨cs', h1, h2⟩ := mapR_ok_of (l := cs)
        (f := fun c => if c.hasCustom then stringBroadcast (offsTo first.lens n) c else toOffsets (offsTo first.lens n) c)
        (P := fun c' => UnnamedIn c' ∧ c'.isNumpy = true ∧ c'.len = sumTo first.lens n) (fun c hc => by
          obtain ⟨c', e1, e2, e3⟩ := toOffsets_complete (hb c hc).bin (hf c hc) (L := first.lens)
            (fun hjc i hi => by
              have hi' : i < n := by rw [← hl c hc]; exact hi
              obtain ⟨k, hk⟩ := ha i hi'
              obtain ⟨xs, hx⟩ := jagged_val UnnamedNode.fam (b := 0) (hb c hc) hjc hi
              obtain ⟨ys, hy⟩ := jagged_val UnnamedNode.fam (b := 0) (hb _ hm) hj (by rw [hl _ hm]; exact hi')
              rw [← lens_of_val (hb c hc).bin hjc hi hx,
                ← lens_of_val (hb _ hm).bin hj (by rw [hl _ hm]; exact hi') hy,
                hk c hc xs hx, hk _ hm ys hy])
          have hkind : c.isJagged = true ∨ c.isFlat = true := by
            rcases (hf c hc).cases with h | h
            · right; cases c <;> first | rfl | cases h
            · exact .inl h.1
          have e4 := (toOffsets_ok UnnamedNode.fam (b := 0) (hb c hc) hkind e1).1
          rw [hl c hc] at e1 e3
          refine ⟨c', ?_, ⟨e4.good, e4.nodes⟩, e2, e3⟩
          rw [if_neg]
          · exact e1
          · rcases (hf c hc).cases with h | h
            · have hq := (hb c hc).leaf h
              simp only [hasBehavior, Bool.or_eq_false_iff, bne_eq_false_iff_eq] at hq
              simp [hasCustom, hq.1]
            · simp [(hf c hc).not_string h.1])
      have hne' : cs' ≠ [] := by
        rw [mapR_forall₂] at h1
        rintro rfl
        exact hne (List.length_eq_zero_iff.mp (by simpa using h1.length_eq))
      obtain ⟨data, h3, hdata⟩ := bcastWith_numpy (f := f) (dt := dt) (k := k) (depth := depth + 1) hne'
        (fun c hc => (h2 c hc).1) (fun c hc => (h2 c hc).2.1) (fun c hc => (h2 c hc).2.2)
      rw [h1, bind_ok, h3, bind_ok]
      exact ⟨_, rfl, data, .inl ⟨_, rfl⟩, hdata⟩
    · rw [if_neg hs]
      simp only [Bool.not_eq_false] at hs
      have hjag : ∀ c ∈ cs, c.isJagged = true := by
        intro c hc
        rcases (hf c hc).cases with h | h
        · have := (same_adjacent hc hs).1
          cases c <;> simp_all only [isNumpy, isFlat, Bool.false_eq_true, reduceCtorEq]
        · exact h.1
      obtain ⟨offs, hfit⟩ := fits_of_none (fun c hc => (hb c hc).good) hl hjag hn hs
      have hls : ∀ c ∈ cs, c.lastStop = offs[n]?.getD 0 := by
        intro c hc
        unfold lastStop
        rw [hl c hc, (hfit c hc (n - 1) (by omega)).2, show n - 1 + 1 = n by omega]
      unfold sameStep
      obtain ⟨cs', h1, h2⟩ := mapR_ok_of (l := cs) (f := sameNext)
        (P := fun c' => UnnamedIn c' ∧ c'.isNumpy = true ∧ c'.len = (offs[n]?.getD 0).toNat) (fun c hc => by
          obtain ⟨c', e1, e2, e3⟩ := sameNext_complete (hb c hc).bin (hf c hc) (hjag c hc)
            (by rw [hl c hc]; exact hn) (same_adjacent hc hs).2
          rw [hls c hc] at e3
          have e4 := (sameNext_ok UnnamedNode.fam (b := 0) (hb c hc) (hjag c hc) e1).1
          exact ⟨c', e1, ⟨e4.good, e4.nodes⟩, e2, by omega⟩)
      have hne' : cs' ≠ [] := by
        rw [mapR_forall₂] at h1
        rintro rfl
        exact hne (List.length_eq_zero_iff.mp (by simpa using h1.length_eq))
      obtain ⟨data, h3, hdata⟩ := bcastWith_numpy (f := f) (dt := dt) (k := k) (depth := depth + 1) hne'
        (fun c hc => (h2 c hc).1) (fun c hc => (h2 c hc).2.1) (fun c hc => (h2 c hc).2.2)
      rw [h1, bind_ok, h3, bind_ok]
      have : ∃ o, sameLists cs (numpy {} dt data) = ok o ∧ ListsOf f dt o := by
        unfold sameLists
        split
        · exact ⟨_, rfl, data, .inl ⟨_, rfl⟩, hdata⟩
        · rename_i hno
          split
          · exact ⟨_, rfl, data, .inr ⟨_, _, rfl⟩, hdata⟩
          · rename_i hno'
            exfalso
            cases c0 <;> simp only [isJagged, Bool.false_eq_true] at hj0
            case listArray p starts stops d =>
              cases hq : cs.reverse.find? (fun c => match c with | listArray .. => true | _ => false) with
              | none =>
                rw [List.find?_eq_none] at hq
                exact absurd rfl (hq _ (List.mem_reverse.mpr hc0))
              | some q =>
                have := List.find?_some hq
                cases q <;> first | exact hno' _ _ _ _ hq | cases this
            case listOffset p o d =>
              cases hq : cs.reverse.find? (fun c => match c with | listOffset .. => true | _ => false) with
              | none =>
                rw [List.find?_eq_none] at hq
                exact absurd rfl (hq _ (List.mem_reverse.mpr hc0))
              | some q =>
                have := List.find?_some hq
                cases q <;> first | exact hno _ _ _ hq | cases this
      obtain ⟨o, h4, h5⟩ := this
      exact ⟨o, by simp [mapR, h4], h5⟩
  · rw [List.all_eq_true]
    intro h
    have := h c0 hc0
    rw [hj0] at this; cases this
  · rw [List.any_eq_true]
    refine ⟨c0, hc0, ?_⟩
    cases c0 <;> first | rfl | cases hj0
  · exact hno _ (fun c h => by cases c <;> first | exact ⟨rfl, rfl⟩ | cases h)
  · exact hno _ (fun c h => by cases c <;> first | exact ⟨rfl, rfl⟩ | cases h)
  · exact hno _ (fun c h => by cases c <;> first | exact ⟨rfl, rfl⟩ | cases h)
  · exact hno _ (fun c h => by cases c <;> first | exact ⟨rfl, rfl⟩ | cases h)

theorem ListsOver.range {p : Params} {o d e : Content} (h : ListsOver p e o) {a b : Int}
    (hr : o.range a b = ok d) : ListsOver p e d := by
  rcases h with ⟨offs, rfl⟩ | ⟨starts, stops, rfl⟩
  · simp only [Content.range, bind_eq_ok, ok.injEq] at hr
    obtain ⟨o', _, rfl⟩ := hr
    exact .inl ⟨_, rfl⟩
  · simp only [Content.range, bind_eq_ok, ok.injEq] at hr
    obtain ⟨o', _, _, _, rfl⟩ := hr
    exact .inr ⟨_, _, rfl⟩

theorem ListsOver.carry {p : Params} {o d e : Content} (h : ListsOver p e o) {lz : Bool} {idx : List Int}
    (hr : o.carry lz idx = ok d) : ListsOver p e d := by
  rcases h with ⟨offs, rfl⟩ | ⟨starts, stops, rfl⟩
  · simp only [Content.carry] at hr
    split at hr
    · split at hr
      · simp only [ok.injEq] at hr; subst hr; exact .inl ⟨_, rfl⟩
      · exact ListsOver.range (.inl ⟨_, rfl⟩) hr
    · simp only [bind_eq_ok] at hr
      obtain ⟨x, _, hr⟩ := hr
      simp only [ok.injEq] at hr; subst hr
      exact .inr ⟨_, _, rfl⟩
  · simp only [Content.carry] at hr
    split at hr
    · split at hr
      · simp only [ok.injEq] at hr; subst hr; exact .inr ⟨_, _, rfl⟩
      · exact ListsOver.range (.inr ⟨_, _, rfl⟩) hr
    · split at hr
      · cases hr
      · simp only [bind_eq_ok] at hr
        obtain ⟨x, _, hr⟩ := hr
        simp only [ok.injEq] at hr; subst hr
        exact .inr ⟨_, _, rfl⟩

theorem ListsOf.range {f : List Atom → Atom} {dt : DType} {o d : Content} (h : ListsOf f dt o) {a b : Int}
    (hr : o.range a b = ok d) : ListsOf f dt d := by
  obtain ⟨data, h1, h2⟩ := h
  exact ⟨data, h1.range hr, h2⟩

theorem range_listParams {c c' : Content} (hf : FlatOrLists c) {a b : Int} (h : c.range a b = ok c') :
    c'.params = c.params ∧ c'.isJagged = c.isJagged := by
  cases c <;> simp only [FlatOrLists] at hf
  case numpy p dt data =>
    simp only [Content.range, numpyRange, bind_eq_ok] at h
    obtain ⟨_, _, h⟩ := h
    simp only [ok.injEq] at h; subst h; exact ⟨rfl, rfl⟩
  case listOffset p o d =>
    simp only [Content.range, bind_eq_ok, ok.injEq] at h
    obtain ⟨o', _, rfl⟩ := h
    exact ⟨rfl, rfl⟩
  case listArray p starts stops d =>
    simp only [Content.range, bind_eq_ok, ok.injEq] at h
    obtain ⟨_, _, _, _, rfl⟩ := h
    exact ⟨rfl, rfl⟩

/-- Element-wise functions accept flat arrays and lists of numbers of the same lengths, and return lists. -/
theorem elementwise_lists {f : List Atom → Atom} {dt : DType} {k n : Nat} {cs : List Content} (hn : 0 < n)
    (hb : ∀ c ∈ cs, UnnamedIn c) (hf : ∀ c ∈ cs, FlatOrLists c) (hbeh : ∀ c ∈ cs, c.hasBehavior = false)
    (hl : ∀ c ∈ cs, c.len = n)
    (ha : ∀ i, i < n → ∃ k, ∀ c ∈ cs, ∀ xs, c.valD i = .list xs → xs.length = k)
    {c0 : Content} (hc0 : c0 ∈ cs) (hj0 : c0.isJagged = true) :
    ∃ out, elementwise f dt (k + 3) cs = ok (.array out) ∧ out.Good ∧ out.len = n ∧ ListsOf f dt out := by
  have hne : cs ≠ [] := by rintro rfl; cases hc0
  have hb' : ∀ c ∈ cs, Bin c := fun c hc => (hb c hc).bin
  unfold elementwise bcastAndApply
  rw [show (fun c : Content => regular {} c c.len 1) = pack from rfl]
  have hlens : ((cs.map pack).any (fun c => c.len != (((cs.map pack).map len).headD 0))) = false := by
    obtain ⟨c1, cs', rfl⟩ := List.exists_cons_of_ne_nil hne
    simp [pack_len]
  have hpb : (cs.map pack).any hasBehavior = false := by
    rw [List.any_eq_false]
    intro c hc
    obtain ⟨d, _, rfl⟩ := List.mem_map.mp hc
    simp [pack, hasBehavior, params]
  have hde : mapR deregulate (cs.map pack)
      = ok (cs.map (fun c => if c.isNumpy then some ([1, c.len], c.leafData) else Option.none)) := by
    rw [mapR_forall₂, List.forall₂_map_left_iff, List.forall₂_map_right_iff]
    exact List.forall₂_same.mpr (fun c hc => deregulate_pack (hb' c hc).nodes.here)
  have hstay : ufuncGet f dt 0 (cs.map pack) = ok Option.none := by
    unfold ufuncGet
    rw [hpb, hde, bind_ok, allSome_none]
    · simp
    · refine List.mem_map.mpr ⟨c0, hc0, ?_⟩
      cases c0 <;> first | rfl | cases hj0
  have hsw : bcastSwitch ⟨true, false, false⟩ (bcastWith ⟨true, false, false⟩ (ufuncGet f dt) (k + 2)) 0 (cs.map pack)
      = regularStep (bcastWith ⟨true, false, false⟩ (ufuncGet f dt) (k + 2) 1) (cs.map pack) := by
    obtain ⟨c1, cs', rfl⟩ := List.exists_cons_of_ne_nil hne
    unfold bcastSwitch
    rw [if_neg, if_neg, if_neg, if_neg, if_pos, if_pos]
    · simp [pack, isJagged]
    · simp [pack, isListNode]
    · simp [pack, isOption]
    · simp [pack, isUnion]
    · simp [pack]
    · simp [pack]
  rw [bcastWith]
  simp only [regularToJagged_id, bind_ok, if_true, rightBroadcast_pack hb', hlens, Bool.false_eq_true,
    if_false, hstay, hsw]
  unfold regularStep
  have hN : ((cs.map pack).map regularSize).foldl max 0 = n := by
    rw [List.map_map]
    refine foldl_max_const (fun x hx => ?_) (by simpa using hne)
    obtain ⟨c, hc, rfl⟩ := List.mem_map.mp hx
    exact hl c hc
  simp only [hN]
  have h1 : ∃ cs', mapR (bcastRegular n) (cs.map pack) = ok cs' ∧
      List.Forall₂ (fun c c' => UnnamedIn c' ∧ FlatOrLists c' ∧ (c'.params = c.params ∧ c'.isJagged = c.isJagged) ∧
        c'.len = n ∧ ∀ i, i < n → c'.valD i = c.valD i) cs cs' := by
    have h2 : ∀ c ∈ cs, ∃ c', bcastRegular n (pack c) = ok c' ∧ FlatOrLists c' ∧
        (c'.params = c.params ∧ c'.isJagged = c.isJagged) := by
      intro c hc
      have hlen := pack_len c
      simp only [pack] at hlen
      obtain ⟨b, hb1, hb2, hb3⟩ := getitemRange_zero c c.len
      have hbe : b = c.len := Nat.le_antisymm hb1 (hb3 c.len (by omega) (by omega))
      subst hbe
      obtain ⟨e, e1, _⟩ := range_good (hb c hc).good (a := 0) (b := c.len) (by omega) (by omega)
      refine ⟨e, ?_, range_all (hf c hc) e1, range_listParams (hf c hc) e1⟩
      simp only [pack, bcastRegular, hlen, Nat.one_mul, hb2]
      rw [if_neg (by have := hl c hc; omega), if_pos (hl c hc)]
      exact e1
    obtain ⟨cs', h3, _⟩ := mapR_ok_of (l := cs.map pack) (f := bcastRegular n) (P := fun _ => True)
      (fun d hd => by
        obtain ⟨c, hc, rfl⟩ := List.mem_map.mp hd
        obtain ⟨c', h, _⟩ := h2 c hc
        exact ⟨c', h, trivial⟩)
    refine ⟨cs', h3, ?_⟩
    rw [mapR_forall₂, List.forall₂_map_left_iff] at h3
    refine fa2_imp_mem h3 (fun c hc c' h => ?_)
    obtain ⟨_, r1, r2, r3⟩ := bcastRegular_pack UnnamedNode.fam (hb c hc) h
    obtain ⟨c'', h4, h5⟩ := h2 c hc
    rw [h] at h4
    simp only [ok.injEq] at h4; subst h4
    refine ⟨r1, h5.1, h5.2, r2, fun i hi => ?_⟩
    rw [r3 i hi]
    split
    · have := hl c hc
      have : i = 0 := by omega
      rw [this]
    · rfl
  obtain ⟨cs', h1, h2⟩ := h1
  rw [h1]
  simp only [bind_ok]
  obtain ⟨c0', hc0', h0⟩ := fa2_left h2 hc0
  have hbeh' : ∀ c ∈ cs', c.hasBehavior = false := by
    intro c' hc'
    obtain ⟨c, hc, h⟩ := forall₂_mem h2 hc'
    unfold hasBehavior
    rw [h.2.2.1.1]
    exact hbeh c hc
  obtain ⟨o, h3, h4⟩ := bcastWith_lists (f := f) (dt := dt) (k := k) (depth := 1) hn
    (fun c hc => (forall₂_mem h2 hc).choose_spec.2.1)
    (fun c hc => (forall₂_mem h2 hc).choose_spec.2.2.1) hbeh'
    (fun c hc => (forall₂_mem h2 hc).choose_spec.2.2.2.2.1) (fun i hi => by
      obtain ⟨k, hk⟩ := ha i hi
      refine ⟨k, fun c' hc' xs hx => ?_⟩
      obtain ⟨c, hc, h⟩ := forall₂_mem h2 hc'
      exact hk c hc xs (by rw [← h.2.2.2.2 i hi]; exact hx)) hc0' (by rw [h0.2.2.1.2]; exact hj0)
  rw [h3, bind_ok]
  have hne' : cs' ≠ [] := by rintro rfl; cases hc0'
  obtain ⟨m, hbo⟩ := bcastWith_sound (a := ⟨true, false, false⟩) BcastNode.fam (fun _ => rfl)
    (ufuncGet_ok f dt (w := cs'.length) (by simpa using hne')) (k + 2) 1 (k + 3) cs' [o] rfl hne'
    (fun c hc => let h := (forall₂_mem h2 hc).choose_spec.2.1.bin; ⟨h.good, h.nodes⟩) (.inl (by omega)) h3
  have hm : m = n := by rw [← hbo.len c0' hc0']; exact h0.2.2.2.1
  subst hm
  obtain ⟨hog, hol⟩ := hbo.good o (by simp)
  have hz : (cs'.map len).foldl max 0 = m := by
    refine foldl_max_const (fun x hx => ?_) (by simpa using hne')
    obtain ⟨c, hc, rfl⟩ := List.mem_map.mp hx
    exact hbo.len c hc
  obtain ⟨d, d1, d2, _, d4, _⟩ := range_good hog (a := 0) (b := m) (by omega) (by omega)
  have hdl : d.len = m := by simpa using d4.1
  refine ⟨d, ?_, d2, hdl, h4.range d1⟩
  simp only [bind_ok, List.map_cons, List.map_nil, mapR, hz]
  have hit : bcastItem (regular {} o m m) = ok (.array d) := by
    unfold bcastItem
    have hl : (regular {} o m m).len = 1 := by
      simp only [Content.len]
      rw [if_pos (by omega), hol, Nat.div_self (by omega)]
    rw [if_neg (by omega)]
    unfold getitemAt
    simp only [Int.lt_irrefl, if_false]
    rw [if_neg (by omega)]
    simp only [getitemAtNowrap, show (0 : Int).toNat = 0 from rfl, Nat.cast_zero, Int.zero_mul,
      Int.zero_add, Int.one_mul]
    rw [show (o.range 0 m) = ok d from d1]
    rfl
  rw [hit]
  rfl

end Content
end Awk
