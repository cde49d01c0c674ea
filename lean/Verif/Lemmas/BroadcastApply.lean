import Verif.Lemmas.BroadcastRecord
/-
`apply` and `broadcast_arrays`.
-/

namespace Awk
open R

namespace Content

variable {W : Nat → Content → Prop} {b : Nat}

theorem jagged_of_list (hW : Fam false W) {c : Content} (h : Binput W (b + 1) c)
    (hl : c.isListNode = true) : c.isJagged = true := by
  cases c <;> first | rfl | cases hl | skip
  case regular p d size zeros => exact nomatch (hW.regular _ _ _ _ _ h.nodes).1

theorem not_regular_of_jagged {c : Content} (h : c.isJagged = true) : c.purelistIsregular = false := by
  cases c <;> simp only [isJagged, Bool.false_eq_true] at h <;> simp [purelistIsregular]

theorem rightBroadcast_eq (hW : Fam false W) {cs : List Content}
    (hb : ∀ c ∈ cs, Binput W (b + 1) c) : rightBroadcast cs = cs := by
  unfold rightBroadcast
  split
  · rename_i h
    rw [List.any_eq_true] at h
    obtain ⟨c, hc, hl⟩ := h
    simp only
    rw [if_neg]
    rintro ⟨_, hall⟩
    rw [List.all_eq_true] at hall
    have := hall c hc
    rw [not_regular_of_jagged (jagged_of_list hW (hb c hc) hl)] at this
    cases this
  · rfl

theorem cases_of_not (hW : Fam false W) {c : Content} (h : Binput W (b + 1) c)
    (h1 : ¬ (∃ p, c = empty p)) (h2 : ¬ (∃ p index d, c = indexed p index d))
    (h3 : ¬ c.isUnion = true) (h4 : ¬ c.isOption = true) : c.isJagged = true ∨ c.isFlat = true := by
  cases c <;> simp_all [isJagged, isFlat, isUnion, isOption]
  exact nomatch (hW.regular _ _ _ _ _ h.nodes).1

theorem allSameOffsets_flat {c : Content} (h : c.isFlat = true) : ∀ (cs : List Content)
    (o : Option (List Int)), c ∈ cs → allSameOffsets o cs = false := by
  intro cs
  induction cs with
  | nil => intro o hc; cases hc
  | cons d cs ih =>
    intro o hc
    rcases List.mem_cons.mp hc with hc' | hc'
    · subst hc'
      cases c <;> simp only [isFlat, Bool.false_eq_true] at h <;> simp [allSameOffsets]
    · clear hc
      cases d <;> simp only [allSameOffsets] <;> (repeat' split) <;> first | rfl | exact ih _ hc'

/-- An input of `broadcast_arrays`. -/
abbrev Bin (c : Content) : Prop := Binput (fun _ => AllNodes BcastNode) 1 c

theorem Bcast.rules (k : Nat) :
    NullRule Bcast k k ∧ ListRule Bcast Bcast k k ∧ RecordRule Bcast Bcast k k := by
  refine ⟨fun vs hl h => ?_, fun vs outs n h0 h1 h2 h3 h4 h5 h6 => .list n h1 h2 h3 (by omega) h5 h6,
    fun vs outs names h0 h1 h2 h3 h4 h5 h6 h7 h8 => .record names h1 h2 h3 h4 (by omega) h6 h7 h8⟩
  have := Bcast.null h
  rw [List.map_const', hl] at this
  exact this

/-- What `apply` returns is the broadcast inputs. -/
theorem bcastApply_sound (f : Nat) : ∀ cs outs : List Content, (∀ c ∈ cs, Bin c) →
    bcastApply f cs = ok outs → ∃ n, BOut Bcast cs.length n cs outs := by
  have hW := BcastNode.fam
  induction f with
  | zero => intro cs outs _ h; cases h
  | succ f ih =>
    intro cs outs hb h
    simp only [bcastApply, rightBroadcast_eq hW hb] at h
    split at h
    · cases h
    rename_i hlen
    generalize (cs.map len).headD 0 = n at hlen
    have hl : ∀ c ∈ cs, c.len = n := by
      intro c hc
      apply Classical.byContradiction
      intro hne
      exact hlen (List.any_eq_true.mpr ⟨c, hc, by simpa using hne⟩)
    refine ⟨n, ?_⟩
    have hnext : ∀ cs' outs' : List Content, cs'.length = cs.length → (∀ c ∈ cs', Bin c) →
        bcastApply f cs' = ok outs' → ∃ m, BOut Bcast cs.length m cs' outs' := by
      intro cs' outs' h1 h2 h3
      rw [← h1]
      exact ih cs' outs' h2 h3
    have hnext0 : ∀ cs' outs' : List Content, cs'.length = cs.length →
        (∀ c ∈ cs', Binput (fun _ => AllNodes BcastNode) 0 c) →
        bcastApply f cs' = ok outs' → ∃ m, BOut Bcast cs.length m cs' outs' :=
      fun cs' outs' h1 h2 h3 => hnext cs' outs' h1 (fun c hc => ⟨(h2 c hc).good, (h2 c hc).nodes⟩) h3
    obtain ⟨r1, r2, r3⟩ := Bcast.rules cs.length
    split at h
    · rename_i hall
      simp only [ok.injEq] at h; subst h
      rw [List.all_eq_true] at hall
      refine ⟨rfl, hl, fun o ho => ⟨(hb o ho).good, hl o ho⟩, fun i hi => .number ?_⟩
      intro v hv
      obtain ⟨c, hc, rfl⟩ := List.mem_map.mp hv
      have := hall c hc
      have hci : i < c.len := by rw [hl c hc]; exact hi
      cases c <;> simp only [Bool.false_eq_true] at this
      case numpy p dt data =>
        simp only [Content.len] at hci
        exact ⟨_, valD_numpy hci⟩
    rename_i hnum
    have hne : cs ≠ [] := by rintro rfl; simp at hnum
    split at h
    · rename_i hem
      rw [List.any_eq_true] at hem
      obtain ⟨c0, hc0, he0⟩ := hem
      have hn0 : n = 0 := by
        rw [← hl c0 hc0]
        cases c0 <;> first | rfl | cases he0
      subst hn0
      obtain ⟨m, hbo⟩ := ih _ _ (by
        intro d hd
        obtain ⟨c, hc, rfl⟩ := List.mem_map.mp hd
        cases c <;> first | exact hb _ hc | skip
        exact ⟨good_numpy _ _ _, hW.numpy 1 _ _⟩) h
      have hm : m = 0 := by
        rw [← hbo.len _ (List.mem_map.mpr ⟨c0, hc0, rfl⟩)]
        cases c0 <;> first | rfl | cases he0
      subst hm
      exact ⟨by rw [hbo.length]; simp, hl, hbo.good, fun i hi => by omega⟩
    rename_i hem
    split at h
    · rw [bind_eq_ok] at h
      obtain ⟨cs', h1, h2⟩ := h
      rw [mapR_forall₂] at h1
      have hstep := fa2_imp_mem h1 (S := fun c c' => Bin c' ∧ c'.len = n ∧
        ∀ i, i < n → c'.valD i = c.valD i) (fun c hc c' h => by
          have hsame : c = c' → Bin c' ∧ c'.len = n ∧ ∀ i, i < n → c'.valD i = c.valD i := by
            rintro rfl; exact ⟨hb c hc, hl c hc, fun _ _ => rfl⟩
          cases c <;> first | exact hsame (by simpa using h) | skip
          case indexed p index d =>
            obtain ⟨e, e1, e2, e3, e4, e5, e6⟩ := project_indexed (hb _ hc).good
            simp only at h
            rw [e1] at h
            simp only [ok.injEq] at h; subst h
            have hln : index.length = n := hl _ hc
            exact ⟨Binput.gathered hW ⟨(hb _ hc).good.child (by simp [children]),
              hW.indexed 0 _ _ _ (hb _ hc).nodes⟩ e2 e6, by omega,
              fun i hi => e5 i (by omega)⟩)
      obtain ⟨m, hbo⟩ := ih _ _ (fun c hc => (forall₂_mem hstep hc).choose_spec.2.1) h2
      have hm : m = n := by
        obtain ⟨c, hc⟩ := List.exists_mem_of_ne_nil cs hne
        obtain ⟨c', hc', h⟩ := fa2_left hstep hc
        rw [← hbo.len c' hc']; exact h.2.1
      subst hm
      rw [← hstep.length_eq] at hbo
      exact hbo.of_same hl (hstep.imp (fun _ _ h => h.2.2))
    rename_i hix
    split at h
    · cases h
    rename_i hun
    split at h
    · exact optionStep_ok hW hb hl hnext r1 hne h
    rename_i hopt
    have hk : ∀ c ∈ cs, c.isJagged = true ∨ c.isFlat = true := by
      intro c hc
      refine cases_of_not hW (hb c hc) ?_ ?_ ?_ ?_
      · rintro ⟨p, rfl⟩; exact hem (List.any_eq_true.mpr ⟨_, hc, rfl⟩)
      · rintro ⟨p, ix, d, rfl⟩; exact hix (List.any_eq_true.mpr ⟨_, hc, rfl⟩)
      · intro h; exact hun (List.any_eq_true.mpr ⟨_, hc, h⟩)
      · intro h; exact hopt (List.any_eq_true.mpr ⟨_, hc, h⟩)
    split at h
    · rename_i hls
      split at h
      · cases h
      split at h
      · rename_i hnj
        exfalso
        rw [List.any_eq_true] at hls
        obtain ⟨c, hc, h⟩ := hls
        rw [List.all_eq_true] at hnj
        have := hnj c hc
        rw [jagged_of_list hW (hb c hc) h] at this
        cases this
      split at h
      · exact jaggedStep_ok hW hb hl hk hnext0 r2 h
      · rename_i hs
        simp only [Bool.not_eq_false] at hs
        refine sameStep_ok hW hb hl hne ?_ hs hnext0 r2 h
        intro c hc
        rcases hk c hc with hk | hk
        · exact hk
        · exfalso
          rw [allSameOffsets_flat hk cs none hc] at hs
          cases hs
    rename_i hls
    have hfl : ∀ c ∈ cs, c.isFlat = true := by
      intro c hc
      rcases hk c hc with h | h
      · exfalso
        apply hls
        refine List.any_eq_true.mpr ⟨c, hc, ?_⟩
        cases c <;> first | rfl | cases h
      · exact h
    split at h
    · exact recordStep_ok hW hb hl hfl hnext r3 h
    · cases h

theorem depth_one {c : Content} (h : AllNodes BcastNode c) (hr : c.purelistIsregular = true) :
    c.purelistDepth = 1 := by
  cases c with
  | empty p => rfl
  | numpy p dt data => rfl
  | record p keys cs length => rfl
  | regular p c size zeros => exact absurd h.here (by simp [BcastNode])
  | listArray p starts stops c => simp [purelistIsregular] at hr
  | listOffset p offsets c => simp [purelistIsregular] at hr
  | union p tags index cs => exact absurd h.here (by simp [BcastNode])
  | indexed p index c =>
    simp only [purelistIsregular] at hr
    simp only [purelistDepth]
    exact depth_one (h.child (d := c) (by simp [children])) hr
  | indexedOption p index c =>
    simp only [purelistIsregular] at hr
    simp only [purelistDepth]
    exact depth_one (h.child (d := c) (by simp [children])) hr
  | byteMasked p mask vw c =>
    simp only [purelistIsregular] at hr
    simp only [purelistDepth]
    exact depth_one (h.child (d := c) (by simp [children])) hr
  | bitMasked p mask vw length lsb c =>
    simp only [purelistIsregular] at hr
    simp only [purelistDepth]
    exact depth_one (h.child (d := c) (by simp [children])) hr
  | unmasked p c =>
    simp only [purelistIsregular] at hr
    simp only [purelistDepth]
    exact depth_one (h.child (d := c) (by simp [children])) hr
/-- _util.py:1080-1084: an array as the only element of a RegularArray. -/
def pack (c : Content) : Content := regular {} c c.len 1

theorem pack_len (c : Content) : (pack c).len = 1 := by
  simp only [pack, Content.len]
  split
  · exact Nat.div_self (by omega)
  · rfl

theorem rightBroadcast_pack {cs : List Content} (hb : ∀ c ∈ cs, Bin c) :
    rightBroadcast (cs.map pack) = cs.map pack := by
  unfold rightBroadcast
  split
  · simp only
    split
    · rename_i h
      obtain ⟨_, h⟩ := h
      rw [List.all_eq_true] at h
      have hd : ∀ c ∈ cs.map pack, c.purelistDepth = 2 := by
        intro c hc
        have hr := h c hc
        obtain ⟨d, hd, rfl⟩ := List.mem_map.mp hc
        simp only [pack, purelistIsregular] at hr
        simp only [pack, purelistDepth, depth_one (hb d hd).nodes hr]
        rfl
      have hmax : ∀ (l : List Content), (∀ c ∈ l, c.purelistDepth = 2) → ∀ a : Int, a ≤ 2 →
          (l.map purelistDepth).foldl max a ≤ 2 := by
        intro l
        induction l with
        | nil => intro _ a ha; simpa using ha
        | cons c l ih =>
          intro hl a ha
          simp only [List.map_cons, List.foldl_cons]
          exact ih (fun c hc => hl c (by simp [hc])) _ (by rw [hl c (by simp)]; omega)
      conv_rhs => rw [← List.map_id (cs.map pack)]
      refine List.map_congr_left (fun c hc => ?_)
      have hz : ((List.map purelistDepth (List.map pack cs)).foldl max 0 - c.purelistDepth).toNat = 0 := by
        have := hmax _ hd 0 (by omega)
        rw [hd c hc]; omega
      rw [hz]; rfl
    · rfl
  · rfl

/-- The array itself, or its only element `N` times. -/
theorem bcastRegular_pack {reg : Bool} (hW : Fam reg W) {c c' : Content} {N : Nat} (h : Binput W b c) (h1 : bcastRegular N (pack c) = ok c') :
    (c.len = N ∨ (c.len = 1 ∧ 1 < N)) ∧ Binput W b c' ∧ c'.len = N ∧
      ∀ i, i < N → c'.valD i = c.valD (if c.len = 1 then 0 else i) := by
  have hlen := pack_len c
  simp only [pack] at hlen
  simp only [pack, bcastRegular, hlen, Nat.one_mul] at h1
  obtain ⟨b, hb1, hb2, hb3⟩ := getitemRange_zero c c.len
  have hb : b = c.len := Nat.le_antisymm hb1 (hb3 c.len (by omega) (by omega))
  subst hb
  rw [hb2] at h1
  split at h1
  · rename_i hc
    rw [bind_eq_ok] at h1
    obtain ⟨d, hd, h1⟩ := h1
    obtain ⟨r1, r2, r3⟩ := h.range hW (Nat.le_refl _) hd
    simp only [List.range_one, List.map_cons, List.map_nil, List.flatten_cons, List.flatten_nil,
      List.append_nil] at h1
    have hg : (indexed {} (List.replicate N ((0 : Nat) : Int)) d).Good := by
      refine good_indexed.mpr ⟨r1.good, ?_⟩
      intro j hj
      simp only [List.getElem_replicate]
      omega
    obtain ⟨e, e1, e2, e3, e4, e5, e6⟩ := project_indexed hg
    rw [e1] at h1
    simp only [ok.injEq] at h1; subst h1
    refine ⟨.inr ⟨hc.2, hc.1⟩, r1.gathered hW e2 e6, by simpa using e4, fun i hi => ?_⟩
    rw [e5 i (by simpa using hi), if_pos hc.2, valD_indexed hg (by simpa using hi)]
    simp [r3 0 (by omega)]
  · rename_i hc
    split at h1
    · rename_i he
      obtain ⟨r1, r2, r3⟩ := h.range hW (Nat.le_refl _) h1
      refine ⟨.inl he, r1, by omega, fun i hi => ?_⟩
      rw [r3 i (by omega)]
      split
      · have : i = 0 := by omega
        rw [this]
      · rfl
    · cases h1

theorem bcastApply_pack {f : Nat} {cs : List Content} (hne : cs ≠ []) (hb : ∀ c ∈ cs, Bin c) :
    bcastApply (f + 1) (cs.map pack) = regularStep (bcastApply f) (cs.map pack) := by
  obtain ⟨c0, cs', rfl⟩ := List.exists_cons_of_ne_nil hne
  simp only [bcastApply, rightBroadcast_pack hb]
  rw [if_neg, if_neg, if_neg, if_neg, if_neg, if_neg, if_pos, if_neg, if_pos]
  · simp [pack, isJagged]
  · simp [pack, isStringList, params]
  · simp [pack, isListNode]
  · simp [pack, isOption]
  · simp [pack, isUnion]
  · simp [pack]
  · simp [pack]
  · simp [pack]
  · simp [pack_len]

theorem foldl_max_mem (l : List Nat) : ∀ a, a ≤ l.foldl max a ∧ ∀ x ∈ l, x ≤ l.foldl max a := by
  induction l with
  | nil => intro a; simp
  | cons y l ih =>
    intro a
    obtain ⟨h1, h2⟩ := ih (max a y)
    refine ⟨Nat.le_trans (Nat.le_max_left a y) h1, fun x hx => ?_⟩
    rcases List.mem_cons.mp hx with rfl | hx
    · exact Nat.le_trans (Nat.le_max_right a _) h1
    · exact h2 x hx

theorem foldl_max_const {l : List Nat} {n : Nat} (h : ∀ x ∈ l, x = n) (hne : l ≠ []) :
    l.foldl max 0 = n := by
  have key : ∀ (l : List Nat) (a : Nat), (∀ x ∈ l, x = n) → a ≤ n → l.foldl max a ≤ n := by
    intro l
    induction l with
    | nil => intro a _ h; simpa using h
    | cons y l ih =>
      intro a h ha
      simp only [List.foldl_cons]
      exact ih _ (fun x hx => h x (by simp [hx])) (by have := h y (by simp); omega)
  obtain ⟨x, hx⟩ := List.exists_mem_of_ne_nil l hne
  refine Nat.le_antisymm (key l 0 h (by omega)) ?_
  have := (foldl_max_mem l 0).2 x hx
  rw [h x hx] at this
  exact this

/-- What `broadcast_arrays` returns. -/
theorem broadcastArrays_sound {fuel : Nat} {cs outs : List Content} (hne : cs ≠ [])
    (hb : ∀ c ∈ cs, Bin c) (h : broadcastArrays fuel cs = ok outs) :
    ∃ N, N = (cs.map len).foldl max 0 ∧ (∀ c ∈ cs, c.len = N ∨ (c.len = 1 ∧ 1 < N)) ∧
      outs.length = cs.length ∧ (∀ o ∈ outs, o.Good ∧ o.len = N) ∧
      ∀ i, i < N → Bcast (cs.map (fun c => c.valD (if c.len = 1 then 0 else i)))
        (outs.map (fun o => o.valD i)) := by
  cases fuel with
  | zero => cases h
  | succ f =>
    unfold broadcastArrays at h
    rw [show (fun c : Content => regular {} c c.len 1) = pack from rfl, bcastApply_pack hne hb] at h
    unfold regularStep at h
    have hN : ((cs.map pack).map regularSize).foldl max 0 = (cs.map len).foldl max 0 := by
      rw [List.map_map]; rfl
    simp only [hN] at h
    refine ⟨_, rfl, ?_⟩
    generalize (cs.map len).foldl max 0 = N at h
    simp only [bind_eq_ok] at h
    obtain ⟨mid, ⟨cs', h1, outs', h2, h3⟩, h4⟩ := h
    simp only [ok.injEq] at h3; subst h3
    rw [mapR_forall₂, List.forall₂_map_left_iff] at h1
    rw [mapR_forall₂, List.forall₂_map_left_iff] at h4
    have hstep := fa2_imp_mem h1 (fun c hc c' h => bcastRegular_pack BcastNode.fam (hb c hc) h)
    obtain ⟨m, hbo⟩ := bcastApply_sound f cs' outs'
      (fun c hc => (forall₂_mem hstep hc).choose_spec.2.2.1) h2
    have hm : m = N := by
      obtain ⟨c, hc⟩ := List.exists_mem_of_ne_nil cs hne
      obtain ⟨c', hc', h⟩ := fa2_left hstep hc
      rw [← hbo.len c' hc']; exact h.2.2.1
    subst hm
    have hz : (cs'.map len).foldl max 0 = m := by
      refine foldl_max_const (fun x hx => ?_) ?_
      · obtain ⟨c, hc, rfl⟩ := List.mem_map.mp hx
        exact hbo.len c hc
      · intro he
        have := hstep.length_eq
        simp only [List.map_eq_nil_iff] at he
        subst he
        simp at this
        exact hne this
    rw [hz] at h4
    have hout := fa2_imp_mem h4 (S := fun o o' => o'.Good ∧ o'.len = m ∧
      ∀ i, i < m → o'.valD i = o.valD i) (fun o ho o' h => by
        obtain ⟨hg, hlo⟩ := hbo.good o ho
        have hr : o.range 0 (m : Int) = ok o' := by
          simp only [bcastUnpack] at h
          split at h
          · rename_i he
            simp only [Content.len, hlo] at he
            by_cases hm0 : m = 0
            · subst hm0; exact h
            · rw [if_pos hm0, Nat.div_self (by omega)] at he; omega
          · exact h
        obtain ⟨d, d1, d2, _, d4, _⟩ := range_good hg (a := 0) (b := m) (by omega) (by omega)
        have he : o' = d := by have := hr.symm.trans d1; simpa using this
        subst he
        refine ⟨d2, by simpa using d4.1, fun i hi => ?_⟩
        rw [d4.valD (by omega)]; simp)
    refine ⟨fun c hc => (fa2_left hstep hc).choose_spec.2.1, ?_, ?_, ?_⟩
    · rw [← hout.length_eq, hbo.length, hstep.length_eq]
    · intro o ho
      obtain ⟨o', _, h1, h2, _⟩ := forall₂_mem hout ho
      exact ⟨h1, h2⟩
    · intro i hi
      have e1 : cs'.map (fun c => c.valD i) = cs.map (fun c => c.valD (if c.len = 1 then 0 else i)) := by
        clear h1 h2 h4 hout hbo hz hN hne
        induction hstep with
        | nil => rfl
        | cons h _ ih =>
          rw [List.map_cons, List.map_cons, h.2.2.2 i hi, ih (fun c hc => hb c (by simp [hc]))]
      rw [← e1, map_valD_congr (hout.imp (fun _ _ h => h.2.2 i hi))]
      exact hbo.rows i hi

end Content
end Awk
