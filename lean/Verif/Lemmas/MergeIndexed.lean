import Verif.Lemmas.MergeList
/-
The merge of option and indexed arrays.
-/

namespace Awk
open R

namespace Content

/-- The index of an option or indexed array. -/
structure IsIndex (c : Content) (idx : List Int) : Prop where
  len : idx.length = c.len
  cv : c.cv = idx.map (pk c.inner.cv)
  lt : ∀ j ∈ idx, j < c.inner.len
  nonneg : c.isOption = false → ∀ j ∈ idx, 0 ≤ j
  fill : ∀ st, fillIndexOf st c = fillIndex st c.isOption idx c.inner
  reverse : ∀ rec other, reverseMerge rec c other
    = reverseMergeIndexed rec c.isOption c.params idx c.inner other
  fillna : c.isOption = true → (∀ p d, c ≠ unmasked p d) → ∀ same value,
    fillna same value c = indexedFillna same c.params idx c.inner value

theorem isIndex_of {c : Content} (h : c.Good) (hc : c.isIndirectNode = true) :
    ∃ idx, IsIndex c idx := by
  rw [isIndirectNode_eq] at hc
  obtain ⟨b, idx, h1, h2, h3, h4⟩ := innerIndex_ok h.wf hc
  obtain ⟨h5, h6⟩ := cv_pick h hc h2 h3
  have key : (∀ st, fillIndexOf st c = fillIndex st c.isOption idx c.inner) ∧
    (∀ rec other, reverseMerge rec c other
      = reverseMergeIndexed rec c.isOption c.params idx c.inner other) ∧
    (c.isOption = false → ∀ j ∈ idx, 0 ≤ j) ∧
    (c.isOption = true → (∀ p d, c ≠ unmasked p d) → ∀ same value,
      Content.fillna same value c = indexedFillna same c.params idx c.inner value) := by
    cases c <;> simp only [isOptionOrIndexed, Bool.false_eq_true] at hc <;>
      simp only [innerIndex, bind_eq_ok, ok.injEq, Option.some.injEq, Prod.mk.injEq] at h1
    case indexed p index d =>
      obtain ⟨_, rfl, _⟩ := h1
      refine ⟨fun st => rfl, fun rec other => rfl, fun _ j hj => ?_, by simp [isOption]⟩
      obtain ⟨i, hi, rfl⟩ := List.mem_iff_getElem.mp hj
      exact ((good_indexed.mp h).2 i hi).1
    case indexedOption p index d =>
      obtain ⟨_, rfl, _⟩ := h1
      exact ⟨fun st => rfl, fun rec other => rfl, by simp [isOption], fun _ _ _ _ => by
        simp only [Content.fillna]; rfl⟩
    case unmasked p d =>
      obtain ⟨i, hi, _, rfl, _⟩ := h1
      refine ⟨fun st => ?_, fun rec other => ?_, by simp [isOption], fun _ h => absurd rfl (h p d)⟩
      · simp only [fillIndexOf, hi, bind_ok]; rfl
      · simp only [reverseMerge, hi, bind_ok]; rfl
    all_goals
      obtain ⟨i, hi, _, rfl, _⟩ := h1
      refine ⟨fun st => ?_, fun rec other => ?_, by simp [isOption], fun _ _ _ _ => ?_⟩
      · simp only [fillIndexOf, hi, bind_ok]; rfl
      · simp only [reverseMerge, hi, bind_ok]; rfl
      · simp only [Content.fillna, hi, bind_ok]; rfl
  exact ⟨idx, h2, h5, h6, key.2.2.1, key.1, key.2.1, key.2.2.2⟩

theorem inner_child {c : Content} (hc : c.isIndirectNode = true) : c.inner ∈ c.children := by
  cases c <;> simp [isIndirectNode, isOption] at hc <;> simp [inner, children]

theorem inner_size {c : Content} (hc : c.isIndirectNode = true) : c.inner.size + 1 = c.size := by
  cases c <;> simp [isIndirectNode, isOption] at hc <;> simp [inner, size]

/-- What `mergemany` of an IndexedArray collects from an array. -/
def ixContent (c : Content) : Option Content :=
  if c.isEmptyNode then none else if c.isIndirectNode then some c.inner else some c

theorem isOption_of_not {c : Content} (h : ¬ c.isIndirectNode = true) : c.isOption = false := by
  cases c <;> simp [isIndirectNode, isOption] at h ⊢

theorem ixContent_empty {c : Content} (h : c.isEmptyNode = true) : c.ixContent = none := by
  simp [ixContent, h]
theorem ixContent_inner {c : Content} (h : ¬ c.isEmptyNode = true) (hi : c.isIndirectNode = true) :
    c.ixContent = some c.inner := by simp [ixContent, h, hi]
theorem ixContent_self {c : Content} (h : ¬ c.isEmptyNode = true) (hi : ¬ c.isIndirectNode = true) :
    c.ixContent = some c := by simp [ixContent, h, hi]

/-- The index that an array adds. -/
theorem ix_step {c : Content} (h : c.Good) (hu : c.isUnion = false) (he : c.isEmptyNode = false) :
    ∃ (idx : List Int) (d : Content), c.ixContent = some d ∧ idx.length = c.len ∧ c.cv = idx.map (pk d.cv) ∧
      (∀ j ∈ idx, j < d.len) ∧ (c.isOption = false → ∀ j ∈ idx, 0 ≤ j) ∧
      ∀ done rest cs0 o base n, done.length = n → c.len ≤ rest.length →
        fillIndexOf ⟨done ++ rest, cs0, o, base, n⟩ c
          = ok ⟨done ++ idx.map (shiftIx base) ++ rest.drop c.len, cs0 ++ [d],
              if c.isIndirectNode then c.isOption else o, base + d.len, n + c.len⟩ := by
  by_cases hi : c.isIndirectNode = true
  · obtain ⟨idx, hx⟩ := isIndex_of h hi
    refine ⟨idx, c.inner, by simp [ixContent, he, hi], hx.len, hx.cv, hx.lt, hx.nonneg, ?_⟩
    intro done rest cs0 o base n hn hr
    rw [hx.fill]
    simp only [fillIndex]
    rw [← hn, IndexedArray_fill_ok (by rw [hx.len]; exact hr), bind_ok, hx.len, if_pos hi]
  · have hi' : c.isIndirectNode = false := by simpa using hi
    refine ⟨(List.range c.len).map (fun (i : Nat) => (i : Int)), c, by simp [ixContent, he, hi'],
      by simp, ?_, by simp, by simp, ?_⟩
    · apply List.ext_getElem?
      intro i
      rw [List.map_map, List.getElem?_map]
      by_cases h : i < c.len
      · rw [List.getElem?_range h, cv_get h]
        simp [pk, cv_get h]
      · rw [cv_none (by omega), List.getElem?_eq_none (by simpa using h)]; rfl
    · intro done rest cs0 o base n hn hr
      have hf : fillIndexOf ⟨done ++ rest, cs0, o, base, n⟩ c
          = (IndexedArray_fill_count (done ++ rest) n c.len base >>= fun out =>
            ok ⟨out, cs0 ++ [c], o, base + c.len, n + c.len⟩) := by
        cases c <;> simp only [isIndirectNode, isOption, isUnion, isEmptyNode, reduceCtorEq] at hi' hu he <;> rfl
      rw [hf, ← hn, IndexedArray_fill_count_ok hr, bind_ok, if_neg hi]
      have : ((List.range c.len).map (fun (i : Nat) => (i : Int))).map (shiftIx base)
          = (List.range c.len).map (fun (i : Nat) => (i : Int) + base) := by
        rw [List.map_map]
        apply List.map_congr_left
        intro i _
        simp [shiftIx, show ¬ ((i : Int) < 0) by omega]
      rw [this]

theorem fold_index {o : Bool} {hs : List Content}
    (hi : ∀ c ∈ hs, c.Good ∧ c.isUnion = false ∧ (c.isIndirectNode = true → c.isOption = o))
    {done rest : List Int} {cs0 : List Content} {o' : Bool} {base n : Nat} (h1 : done.length = n)
    (h3 : rest.length = totalLen hs) :
    ∃ (I : List Int) (r : Bool), foldR fillIndexOf ⟨done ++ rest, cs0, o', base, n⟩ hs
        = ok ⟨done ++ I, cs0 ++ hs.filterMap ixContent, r,
            base + totalLen (hs.filterMap ixContent), n + totalLen hs⟩ ∧
      (o' = o ∨ (∃ c ∈ hs, c.isIndirectNode = true) → r = o) ∧
      (∀ j ∈ I, j < ((base + totalLen (hs.filterMap ixContent) : Nat) : Int)) ∧
      (o = false → ∀ j ∈ I, 0 ≤ j) ∧
      ∀ pre post : List Val, pre.length = base →
        I.map (pk (pre ++ flat (hs.filterMap ixContent) ++ post)) = flat hs := by
  induction hs generalizing done rest cs0 o' base n with
  | nil =>
    simp only [totalLen, List.map_nil, List.sum_nil, List.length_eq_zero_iff] at h3
    subst h3
    exact ⟨[], o', by simp [foldR, totalLen], by simp, by simp, by simp, fun _ _ _ => rfl⟩
  | cons c hs ih =>
    have hi' : ∀ c ∈ hs, c.Good ∧ c.isUnion = false ∧ (c.isIndirectNode = true → c.isOption = o) :=
      fun d hd => hi d (List.mem_cons_of_mem _ hd)
    obtain ⟨hg, hu, ho⟩ := hi c List.mem_cons_self
    rw [totalLen_cons] at h3
    by_cases hemp : c.isEmptyNode = true
    · cases c <;> simp [isEmptyNode] at hemp
      simp only [len, Nat.zero_add] at h3
      obtain ⟨I, r, g1, g2, g3, g4, g5⟩ := ih hi' h1 h3 (base := base) (cs0 := cs0) (o' := o')
      refine ⟨I, r, ?_, ?_, ?_, g4, ?_⟩
      · simp only [foldR_cons, fillIndexOf, bind_ok, List.filterMap_cons, ixContent, isEmptyNode, if_true]
        rw [totalLen_cons]; simp only [len, Nat.zero_add]; exact g1
      · simpa [isIndirectNode, isOption] using g2
      · simpa only [List.filterMap_cons, ixContent, isEmptyNode, if_true] using g3
      · simpa only [List.filterMap_cons, ixContent, isEmptyNode, if_true, flat_cons, cv_empty,
          List.nil_append] using g5
    · obtain ⟨idx, d, e1, e2, e3, e4, e5, e6⟩ := ix_step hg hu (by simpa using hemp)
      obtain ⟨I, r, g1, g2, g3, g4, g5⟩ := ih hi' (base := base + d.len) (n := n + c.len)
        (done := done ++ idx.map (shiftIx base)) (rest := rest.drop c.len) (cs0 := cs0 ++ [d])
        (o' := if c.isIndirectNode then c.isOption else o') (by simp; omega) (by simp; omega)
      refine ⟨idx.map (shiftIx base) ++ I, r, ?_, ?_, ?_, ?_, ?_⟩
      · rw [foldR_cons, e6 _ _ _ _ _ _ h1 (by omega), bind_ok, g1]
        simp only [List.filterMap_cons, e1, totalLen_cons, List.append_assoc, Nat.add_assoc,
          List.singleton_append]
      · intro h
        apply g2
        by_cases hind : c.isIndirectNode = true
        · left; rw [if_pos hind, ho hind]
        · rw [if_neg hind]
          rcases h with h | ⟨x, hx, hx2⟩
          · exact .inl h
          · rcases List.mem_cons.mp hx with rfl | hx
            · exact absurd hx2 hind
            · exact .inr ⟨x, hx, hx2⟩
      · intro j hj
        simp only [List.filterMap_cons, e1, totalLen_cons]
        rcases List.mem_append.mp hj with hj | hj
        · obtain ⟨k, hk, rfl⟩ := List.mem_map.mp hj
          have := e4 k hk
          unfold shiftIx
          split <;> omega
        · have := g3 j hj; omega
      · intro h0 j hj
        rcases List.mem_append.mp hj with hj | hj
        · obtain ⟨k, hk, rfl⟩ := List.mem_map.mp hj
          have hno : c.isOption = false := by
            by_cases hind : c.isIndirectNode = true
            · rw [ho hind, h0]
            · exact isOption_of_not hind
          have := e5 hno k hk
          unfold shiftIx
          split <;> omega
        · exact g4 h0 j hj
      · intro pre post hpre
        simp only [List.filterMap_cons, e1, flat_cons, List.map_append]
        rw [e3]
        congr 1
        · rw [List.map_map]
          apply List.map_congr_left
          intro j hj
          exact pk_shift (pre := pre) (post := flat (hs.filterMap ixContent) ++ post) (by simp) hpre
            (by simpa using e4 j hj)
        · have := g5 (pre ++ d.cv) post (by simp; omega)
          simpa using this

theorem sizeAll_filterMap_ix {cs : List Content} :
    sizeAll (cs.filterMap ixContent) + (cs.filter (·.isIndirectNode)).length ≤ sizeAll cs := by
  induction cs with
  | nil => simp [sizeAll]
  | cons c cs ih =>
    by_cases he : c.isEmptyNode = true
    · have : c.isIndirectNode = false := by cases c <;> simp_all [isEmptyNode, isIndirectNode, isOption]
      simp only [List.filterMap_cons, ixContent_empty he, sizeAll, List.filter_cons, this,
        Bool.false_eq_true, if_false]
      omega
    · by_cases hi : c.isIndirectNode = true
      · have := inner_size hi
        simp only [List.filterMap_cons, ixContent_inner he hi, sizeAll, List.filter_cons, hi,
          if_true, List.length_cons]
        omega
      · simp only [List.filterMap_cons, ixContent_self he hi, sizeAll, List.filter_cons, hi,
          Bool.false_eq_true, if_false]
        omega

theorem MergeNode.kind {nu : Without} {c : Content} (h : MergeNode nu c)
    (hi : c.isIndirectNode = true) :
    (c.isOption = true → ¬ nu.option) ∧ (c.isOption = false → ¬ nu.indexed) := by
  cases c <;> simp_all [isIndirectNode, isOption, MergeNode]

/-- The array built by the indexed classes. -/
theorem out_index {nu : Without} {o : Bool} {t' : Ty} {p : Params} {I : List Int} {m : Content}
    (hm : Input nu m) (ht : OfType t' m) (h1 : ∀ j ∈ I, j < (m.len : Int))
    (h2 : o = false → ∀ j ∈ I, 0 ≤ j)
    (hw : (o = true → ¬ nu.option) ∧ (o = false → ¬ nu.indexed)) :
    let r := if o then indexedOption p I m else indexed p I m
    Input nu r ∧ OfType (.opt p.key o t') r ∧ r.cv = I.map (pk m.cv) ∧ r.size = m.size + 1 ∧
      r.isIndirectNode = true := by
  have hch : ∀ r : Content, r.children = [m] → (∀ d ∈ r.children, AllNodes (MergeNode nu) d) ∧
      ∀ d ∈ r.children, OfType t' d := by
    intro r hr
    rw [hr]
    constructor <;> · intro d hd; simp only [List.mem_singleton] at hd; subst hd; first | exact hm.nodes | exact ht
  cases o with
  | true =>
    have hg : (indexedOption p I m).Good := good_indexedOption.mpr ⟨hm.good, fun i hi =>
      h1 _ (List.getElem_mem hi)⟩
    exact ⟨⟨hg, .mk (hw.1 rfl) (hch _ rfl).1⟩, .opt (c := indexedOption p I m) rfl (hch _ rfl).2,
      cv_indexedOption hg, rfl, rfl⟩
  | false =>
    have hg : (indexed p I m).Good := good_indexed.mpr ⟨hm.good, fun i hi =>
      ⟨h2 rfl _ (List.getElem_mem hi), h1 _ (List.getElem_mem hi)⟩⟩
    exact ⟨⟨hg, .mk (hw.2 rfl) (hch _ rfl).1⟩, .opt (c := indexed p I m) rfl (hch _ rfl).2,
      cv_indexed hg, rfl, rfl⟩

theorem mergeIndexed_ok {nu : Without} {n : Nat} {rec : Content → List Content → R Content}
    (hrec : RecOk nu n rec) {t : Ty} {self : Content} {hs : List Content}
    (hself : self.isIndirectNode = true)
    (hi : Ins nu t (self :: hs)) (he : ∀ c ∈ hs, c.isUnion = false) (hn : mu (self :: hs) ≤ n) :
    (mergeIndexed rec self.params (self :: hs)).Tot nu.union
      (fun m => Out nu t (self :: hs) m ∧ m.isIndirectNode = true) := by
  obtain ⟨t', rfl, _⟩ := hi.head.2.indirect hself
  have hall : ∀ c ∈ self :: hs, c.Good ∧ c.isUnion = false ∧
      (c.isIndirectNode = true → c.isOption = self.isOption) := by
    intro c hc
    refine ⟨(hi c hc).1.good, ?_, ?_⟩
    · rcases List.mem_cons.mp hc with rfl | hc
      · cases c <;> simp_all [isIndirectNode, isOption, isUnion]
      · exact he c hc
    · intro hind
      obtain ⟨t'', ht, _⟩ := (hi c hc).2.indirect hind
      simp only [Ty.opt.injEq] at ht
      exact ht.2.1.symm
  have hkey : ∀ c ∈ self :: hs, c.params.key = self.params.key := fun c hc => by
    rw [(hi c hc).2.key]; rfl
  have hcont : Ins nu t' ((self :: hs).filterMap ixContent) := by
    intro d hd
    obtain ⟨c, hc, hcd⟩ := List.mem_filterMap.mp hd
    by_cases hemp : c.isEmptyNode = true
    · simp [ixContent, hemp] at hcd
    · by_cases hind : c.isIndirectNode = true
      · simp only [ixContent, hemp, hind, if_true, Bool.false_eq_true, if_false, Option.some.injEq] at hcd
        obtain ⟨t'', ht, hch⟩ := (hi c hc).2.indirect hind
        simp only [Ty.opt.injEq] at ht
        rw [ht.2.2, ← hcd]
        exact ⟨(hi c hc).1.child (inner_child hind), hch _ (inner_child hind)⟩
      · simp only [ixContent, hemp, hind, Bool.false_eq_true, if_false, Option.some.injEq] at hcd
        subst hcd
        refine ⟨(hi c hc).1, (hi c hc).2.of_opt ⟨by simpa using hind, (hall c hc).2.1, by simpa using hemp⟩⟩
  have hse : self.isEmptyNode = false := by
    cases self <;> simp_all [isIndirectNode, isOption, isEmptyNode]
  have hfm : (self :: hs).filterMap ixContent = self.inner :: hs.filterMap ixContent := by
    simp [ixContent, hse, hself]
  have hsz := sizeAll_filterMap_ix (cs := self :: hs)
  simp only [List.filter_cons, hself, if_true, List.length_cons] at hsz
  obtain ⟨I, r, g1, g2, g3, g4, g5⟩ := fold_index hall (done := [])
    (rest := alloc (totalLen (self :: hs))) (cs0 := []) (o' := false) (base := 0) (n := 0) rfl
    (alloc_length _)
  have hr := g2 (.inr ⟨self, List.mem_cons_self, hself⟩)
  subst hr
  unfold mergeIndexed
  dsimp only
  simp only [List.nil_append, Nat.zero_add] at g1 g3 g5
  rw [g1, bind_ok]
  rw [hfm] at hcont hsz g3 g5 ⊢
  dsimp only
  refine (hrec t' self.inner _ hcont ?_).bind (fun m hm => ?_)
  · refine Nat.lt_of_lt_of_le (mu_lt_size ?_) hn
    omega
  · have hparams : ((self :: hs).foldl (fun q c => q.merge c.params) self.params).key = self.params.key :=
      Params.foldl_merge_key (fun c hc => hkey c hc)
    obtain ⟨h1, h2, h3, h4, h5⟩ := out_index (p := (self :: hs).foldl (fun q c => q.merge c.params) self.params)
      (I := I) hm.input hm.type (by rw [hm.len]; exact g3) g4 (hi.head.1.nodes.here.kind hself)
    refine .ok ⟨⟨h1, ?_, ?_, ?_⟩, h5⟩
    · rw [← hparams]; exact h2
    · rw [h3, hm.cv]
      have := g5 [] [] rfl
      simpa using this
    · rw [h4]; have := hm.size; omega

/-- `reverse_merge` of an option or indexed array: `next` goes first. -/
theorem reverse_indexed_ok {nu : Without} {n : Nat} {rec : Content → List Content → R Content}
    (hrec : RecOk nu n rec) {t : Ty} {next c : Content} (hc : c.isIndirectNode = true)
    (hp : next.Plain) (hi : Ins nu t [next, c]) (hn : mu [next, c] ≤ n) :
    (reverseMerge rec c next).Tot nu.union (Out nu t [next, c]) := by
  have hic := hi c (by simp)
  obtain ⟨t', rfl, hch⟩ := hic.2.indirect hc
  have hin : Ins nu t' [next, c.inner] := by
    intro d hd
    simp only [List.mem_cons, List.not_mem_nil, or_false] at hd
    rcases hd with rfl | rfl
    · exact ⟨hi.head.1, hi.head.2.of_opt hp⟩
    · exact ⟨hic.1.child (inner_child hc), hch _ (inner_child hc)⟩
  obtain ⟨idx, hx⟩ := isIndex_of hic.1.good hc
  rw [hx.reverse]
  unfold reverseMergeIndexed
  have hsz := inner_size hc
  refine (hrec t' next _ hin ?_).bind (fun m hm => ?_)
  · refine Nat.lt_of_lt_of_le (mu_lt_size ?_) hn
    simp only [sizeAll]; omega
  · have hlm : m.len = next.len + c.inner.len := by rw [hm.len]; simp [totalLen]
    have f1 := IndexedArray_fill_count_ok (done := [])
      (rest := alloc ((next.len + idx.length : Nat) : Int)) (n := next.len) (base := 0)
      (by rw [alloc_length]; omega)
    simp only [List.nil_append, List.length_nil] at f1
    rw [f1, bind_ok]
    have f2 := IndexedArray_fill_ok (done := (List.range next.len).map (fun (i : Nat) => (i : Int) + ((0 : Nat) : Int)))
      (rest := (alloc ((next.len + idx.length : Nat) : Int)).drop next.len) (index := idx)
      (base := next.len) (by rw [List.length_drop, alloc_length]; omega)
    rw [List.length_map, List.length_range] at f2
    rw [f2, bind_ok, List.drop_eq_nil_of_le (as := List.drop _ _) (by rw [List.length_drop, alloc_length]; omega),
      List.append_nil]
    dsimp only
    have hparams : (c.params.merge next.params).key = c.params.key :=
      Params.merge_key (by rw [hic.2.key, hi.head.2.key])
    have b1 : ∀ j ∈ (List.range next.len).map (fun (i : Nat) => (i : Int) + ((0 : Nat) : Int)) ++
        idx.map (shiftIx next.len), j < (m.len : Int) := by
      intro j hj
      rcases List.mem_append.mp hj with hj | hj
      · simp only [List.mem_map, List.mem_range] at hj
        obtain ⟨i, hi, rfl⟩ := hj
        omega
      · obtain ⟨k, hk, rfl⟩ := List.mem_map.mp hj
        have := hx.lt k hk
        unfold shiftIx
        split <;> omega
    have b2 : c.isOption = false → ∀ j ∈ (List.range next.len).map
        (fun (i : Nat) => (i : Int) + ((0 : Nat) : Int)) ++ idx.map (shiftIx next.len), 0 ≤ j := by
      intro ho j hj
      rcases List.mem_append.mp hj with hj | hj
      · simp only [List.mem_map, List.mem_range] at hj
        obtain ⟨i, hi, rfl⟩ := hj
        omega
      · obtain ⟨k, hk, rfl⟩ := List.mem_map.mp hj
        have := hx.nonneg ho k hk
        unfold shiftIx
        split <;> omega
    obtain ⟨h1, h2, h3, h4, h5⟩ := out_index (o := c.isOption) (p := c.params.merge next.params)
      hm.input hm.type b1 b2 ((hi c (by simp)).1.nodes.here.kind hc)
    refine .ok ⟨h1, ?_, ?_, ?_⟩
    · rw [← hparams]; exact h2
    · rw [h3, hm.cv]
      simp only [flat_cons, flat_nil, List.append_nil, List.map_append, List.map_map]
      congr 1
      · apply List.ext_getElem?
        intro i
        rw [List.getElem?_map]
        by_cases h : i < next.len
        · rw [List.getElem?_range h, cv_get h]
          simp only [Option.map_some, Function.comp, pk, Nat.cast_zero, Int.add_zero, Int.toNat_natCast]
          rw [if_neg (by omega), List.getElem?_append_left (by simpa using h), cv_get h]; rfl
        · rw [cv_none (by omega), List.getElem?_eq_none (by simpa using h)]; rfl
      · rw [hx.cv]
        apply List.map_congr_left
        intro j hj
        exact pk_shift (pre := next.cv) (post := []) (by simp) (by simp) (by simpa using hx.lt j hj)
    · rw [h4]; have := hm.size; simp only [sizeAll] at this ⊢; omega

end Content
end Awk
