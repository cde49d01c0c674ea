import Verif.Lemmas.MergeIndexed
/-
The merge of union arrays.
-/

namespace Awk
open R

namespace Content

theorem UOk.shift {pre ns post : List Nat} {t j : Int} (h : UOk ns t j) :
    UOk (pre ++ ns ++ post) (t + pre.length) j := by
  obtain ⟨h1, h2, h3, h4⟩ := h
  have e : (t + pre.length).toNat = pre.length + t.toNat := by omega
  refine ⟨by omega, h2, by rw [e]; simp; omega, ?_⟩
  rw [e, List.append_assoc, List.getElem?_append_right (by omega), Nat.add_sub_cancel_left,
    List.getElem?_append_left h3]
  exact h4

theorem uk_shift {pre d post : List (List Val)} {t j : Int} (h0 : 0 ≤ t) (h : t.toNat < d.length) :
    uk (pre ++ d ++ post) (t + pre.length) j = uk d t j := by
  have e : (t + pre.length).toNat = pre.length + t.toNat := by omega
  unfold uk
  rw [e, List.append_assoc, List.getElem?_append_right (by omega), Nat.add_sub_cancel_left,
    List.getElem?_append_left h]

/-- The alternatives that an array adds to a union. -/
def uContents : Content → List Content
  | union _ _ _ cs => cs
  | empty _ => []
  | c => [c]

theorem u_step {c : Content} (h : c.Good) :
    ∃ (T J : List Int), T.length = c.len ∧ J.length = c.len ∧
      List.Forall₂ (UOk (c.uContents.map len)) T J ∧
      c.cv = List.zipWith (uk (c.uContents.map cv)) T J ∧
      ∀ done1 rest1 done2 rest2 cs0 n, done1.length = n → done2.length = n →
        c.len ≤ rest1.length → c.len ≤ rest2.length →
        fillUnionOf (done1 ++ rest1, done2 ++ rest2, cs0, n) c
          = ok (done1 ++ T.map (· + (cs0.length : Int)) ++ rest1.drop c.len,
              done2 ++ J ++ rest2.drop c.len, cs0 ++ c.uContents, n + c.len) := by
  by_cases hu : c.isUnion = true
  · cases c <;> simp only [isUnion, Bool.false_eq_true] at hu
    rename_i p tags index cs
    obtain ⟨hl, hc, hf⟩ := good_union'.mp h
    refine ⟨tags, index.take tags.length, rfl, by simp [len]; omega, hf, ?_, ?_⟩
    · rw [cv_union h]
      simp only [uContents]
      rw [List.zipWith_eq_zipWith_take_min (l₂ := index),
        List.zipWith_eq_zipWith_take_min (l₂ := index.take _)]
      simp [hl, List.take_take]
    · intro done1 rest1 done2 rest2 cs0 n h1 h2 h3 h4
      simp only [len] at h3 h4 ⊢
      subst h1
      simp only [fillUnionOf]
      rw [UnionArray_filltags_ok h3, bind_ok, ← h2, UnionArray_fillindex_ok h4 hl, bind_ok]
      rfl
  · by_cases he : c.isEmptyNode = true
    · cases c <;> simp only [isEmptyNode, Bool.false_eq_true] at he
      exact ⟨[], [], rfl, rfl, .nil, rfl, fun done1 rest1 done2 rest2 cs0 n h1 h2 h3 h4 => by
        simp [fillUnionOf, uContents, len]⟩
    · have huc : c.uContents = [c] := by
        cases c <;> simp [isUnion, isEmptyNode] at hu he <;> rfl
      refine ⟨List.replicate c.len 0, (List.range c.len).map (fun (i : Nat) => (i : Int)), by simp,
        by simp, ?_, ?_, ?_⟩
      · rw [huc]
        refine List.forall₂_iff_get.mpr ⟨by simp, fun i h1 h2 => ?_⟩
        simp at h1
        simp [UOk, h1]
      · rw [huc]
        apply List.ext_getElem?
        intro i
        rw [List.getElem?_zipWith]
        by_cases h : i < c.len
        · rw [cv_get h, List.getElem?_replicate, if_pos h, List.getElem?_map, List.getElem?_range h]
          simp [uk, cv_get h]
        · rw [cv_none (by omega), List.getElem?_replicate, if_neg h]
      · intro done1 rest1 done2 rest2 cs0 n h1 h2 h3 h4
        have hf : fillUnionOf (done1 ++ rest1, done2 ++ rest2, cs0, n) c
            = (UnionArray_filltags_const (done1 ++ rest1) n c.len cs0.length >>= fun nexttags =>
              UnionArray_fillindex_count (done2 ++ rest2) n c.len >>= fun nextindex =>
              ok (nexttags, nextindex, cs0 ++ [c], n + c.len)) := by
          cases c <;> simp only [isUnion, isEmptyNode, reduceCtorEq, not_true_eq_false] at hu he <;> rfl
        rw [hf, ← h1, UnionArray_filltags_const_ok h3, bind_ok, h1, ← h2,
          UnionArray_fillindex_count_ok h4, bind_ok, huc]
        simp

theorem fold_unions {hs : List Content} (hi : ∀ c ∈ hs, c.Good)
    {done1 rest1 done2 rest2 : List Int} {cs0 : List Content} {n : Nat} (h1 : done1.length = n)
    (h2 : done2.length = n) (h3 : rest1.length = totalLen hs) (h4 : rest2.length = totalLen hs) :
    ∃ T J : List Int, foldR fillUnionOf (done1 ++ rest1, done2 ++ rest2, cs0, n) hs
        = ok (done1 ++ T, done2 ++ J, cs0 ++ hs.flatMap uContents, n + totalLen hs) ∧
      List.Forall₂ (UOk ((cs0 ++ hs.flatMap uContents).map len)) T J ∧
      List.zipWith (uk ((cs0 ++ hs.flatMap uContents).map cv)) T J = flat hs := by
  induction hs generalizing done1 rest1 done2 rest2 cs0 n with
  | nil =>
    simp only [totalLen, List.map_nil, List.sum_nil, List.length_eq_zero_iff] at h3 h4
    subst h3 h4
    exact ⟨[], [], by simp [foldR, totalLen], .nil, rfl⟩
  | cons c hs ih =>
    rw [totalLen_cons] at h3 h4
    obtain ⟨T0, J0, e1, e2, e3, e4, e5⟩ := u_step (hi c List.mem_cons_self)
    obtain ⟨T, J, g1, g2, g3⟩ := ih (fun d hd => hi d (List.mem_cons_of_mem _ hd))
      (done1 := done1 ++ T0.map (· + (cs0.length : Int))) (rest1 := rest1.drop c.len)
      (done2 := done2 ++ J0) (rest2 := rest2.drop c.len) (cs0 := cs0 ++ c.uContents) (n := n + c.len)
      (by simp; omega) (by simp; omega) (by simp; omega) (by simp; omega)
    refine ⟨T0.map (· + (cs0.length : Int)) ++ T, J0 ++ J, ?_, ?_, ?_⟩
    · rw [foldR_cons, e5 _ _ _ _ _ _ h1 h2 (by omega) (by omega), bind_ok, g1]
      simp only [List.flatMap_cons, totalLen_cons, List.append_assoc, Nat.add_assoc]
    · simp only [List.flatMap_cons]
      rw [← List.append_assoc]
      refine List.rel_append ?_ g2
      rw [List.forall₂_map_left_iff]
      refine e3.imp (fun t j h => ?_)
      have := h.shift (pre := cs0.map len) (post := (hs.flatMap uContents).map len)
      simpa using this
    · simp only [List.flatMap_cons, flat_cons]
      rw [← List.append_assoc, List.zipWith_append (by simp; omega), g3, e4]
      congr 1
      rw [List.zipWith_map_left]
      clear e4 e5 g1 e1 e2
      induction e3 with
      | nil => rfl
      | cons h _ ih =>
        simp only [List.zipWith_cons_cons, ih]
        congr 1
        have := uk_shift (pre := cs0.map cv) (d := c.uContents.map cv)
          (post := (hs.flatMap uContents).map cv) h.1 (by have := h.2.2.1; simpa using this) (j := ‹Int›)
        simpa using this

theorem size_uContents (c : Content) : sizeAll c.uContents ≤ c.size := by
  cases c <;> simp [uContents, sizeAll, size]

theorem uContents_input {nu : Without} {c : Content} (h : Input nu c) : ∀ d ∈ c.uContents, Input nu d := by
  intro d hd
  by_cases hu : c.isUnion = true
  · cases c <;> simp only [isUnion, Bool.false_eq_true] at hu
    exact h.child (by simpa [uContents, children] using hd)
  · have : d = c := by
      cases c <;> simp [isUnion, uContents] at hu hd <;> simp [hd]
    subst this; exact h

theorem mergeUnions_ok {nu : Without} {t : Ty} {self : Content} {hs : List Content}
    (hu : self.isUnion = true) (hi : Ins nu t (self :: hs)) :
    (mergeUnions self.params (self :: hs)).Tot nu.union (Out nu t (self :: hs)) := by
  have hnu : ¬ nu.union := by
    have := hi.head.1.nodes.here
    cases self <;> simp [isUnion] at hu; exact this
  obtain ⟨T, J, g1, g2, g3⟩ := fold_unions (hs := self :: hs) (fun c hc => (hi c hc).1.good)
    (done1 := []) (rest1 := alloc (totalLen (self :: hs))) (done2 := [])
    (rest2 := alloc (totalLen (self :: hs))) (cs0 := []) (n := 0) rfl rfl (alloc_length _)
    (alloc_length _)
  simp only [List.nil_append, Nat.zero_add] at g1 g2 g3
  unfold mergeUnions
  dsimp only
  rw [g1, bind_ok]
  dsimp only
  split
  · exact .err hnu
  · have hparams : ((self :: hs).foldl (fun q c => q.merge c.params) self.params).key = self.params.key :=
      Params.foldl_merge_key (fun c hc => by rw [(hi c hc).2.key, hi.head.2.key])
    have hin : ∀ d ∈ (self :: hs).flatMap uContents, Input nu d := by
      intro d hd
      obtain ⟨c, hc, hd⟩ := List.mem_flatMap.mp hd
      exact uContents_input (hi c hc).1 d hd
    have hlen := g2.length_eq
    have hgood : (union ((self :: hs).foldl (fun q c => q.merge c.params) self.params) T J
        ((self :: hs).flatMap uContents)).Good :=
      good_union'.mpr ⟨by omega, fun c hc => (hin c hc).good,
        by rw [List.take_of_length_le (by omega)]; exact g2⟩
    refine .ok ⟨⟨hgood, .mk hnu (fun d hd => (hin d hd).nodes)⟩, ?_, ?_, ?_⟩
    · exact .union (by rw [hparams, hi.head.2.key])
    · rw [cv_union hgood, g3]
    · have h1 : sizeAll self.uContents + 1 ≤ self.size := by
        cases self <;> simp [isUnion] at hu; simp [uContents, size]
      have h2 : sizeAll (hs.flatMap uContents) ≤ sizeAll hs := by
        clear * -
        induction hs with
        | nil => simp [sizeAll]
        | cons c cs ih =>
          simp only [List.flatMap_cons, sizeAll_append, sizeAll]
          have := size_uContents c
          omega
      simp only [size, List.flatMap_cons, sizeAll_append, sizeAll]
      omega

theorem reverse_union_ok {nu : Without} {rec : Content → List Content → R Content} {t : Ty}
    {next c : Content} (hc : c.isUnion = true) (hi : Ins nu t [next, c]) :
    (reverseMerge rec c next).Tot nu.union (Out nu t [next, c]) := by
  have hic := hi c (by simp)
  have hnu : ¬ nu.union := by
    have := hic.1.nodes.here
    cases c <;> simp [isUnion] at hc; exact this
  cases c <;> simp only [isUnion, Bool.false_eq_true] at hc
  rename_i p tags index cs
  obtain ⟨hl, hcs, hf⟩ := good_union'.mp hic.1.good
  simp only [reverseMerge]
  have hal : (alloc ((next.len + tags.length : Nat) : Int)).length = next.len + tags.length :=
    alloc_length _
  generalize alloc ((next.len + tags.length : Nat) : Int) = al at hal
  have f1 := UnionArray_filltags_const_ok (done := []) (rest := al) (n := next.len) (base := 0) (by omega)
  have f2 := UnionArray_fillindex_count_ok (done := []) (rest := al) (n := next.len) (by omega)
  simp only [List.nil_append, List.length_nil] at f1 f2
  rw [f1, bind_ok, f2, bind_ok]
  have f3 := UnionArray_filltags_ok (done := List.replicate next.len ((0 : Nat) : Int))
    (rest := al.drop next.len) (tags := tags) (base := 1) (by simp; omega)
  have f4 := UnionArray_fillindex_ok (done := (List.range next.len).map (fun (i : Nat) => (i : Int)))
    (rest := al.drop next.len) (index := index) (n := tags.length) (by simp; omega) hl
  rw [List.length_replicate] at f3
  rw [List.length_map, List.length_range] at f4
  have hd : (al.drop next.len).drop tags.length = [] := List.drop_eq_nil_of_le (by simp; omega)
  rw [f3, bind_ok, f4, bind_ok, hd, List.append_nil, List.append_nil]
  split
  · exact .err hnu
  · have hparams : (p.merge next.params).key = p.key :=
      Params.merge_key (by have := hic.2.key; simp only [params] at this; rw [this, hi.head.2.key])
    have hcsin : ∀ d ∈ next :: cs, Input nu d := by
      intro d hd
      rcases List.mem_cons.mp hd with rfl | hd
      · exact hi.head.1
      · exact hic.1.child (by simpa [children] using hd)
    have hfor : List.Forall₂ (UOk ((next :: cs).map len))
        (List.replicate next.len ((0 : Nat) : Int) ++ tags.map (· + ((1 : Nat) : Int)))
        ((List.range next.len).map (fun (i : Nat) => (i : Int)) ++ index.take tags.length) := by
      refine List.rel_append ?_ ?_
      · refine List.forall₂_iff_get.mpr ⟨by simp, fun i h1 h2 => ?_⟩
        simp at h1
        simp [UOk, h1]
      · rw [List.forall₂_map_left_iff]
        refine hf.imp (fun t j h => ?_)
        have := h.shift (pre := [next.len]) (post := [])
        simpa using this
    have hgood : (union (p.merge next.params)
        (List.replicate next.len ((0 : Nat) : Int) ++ tags.map (· + ((1 : Nat) : Int)))
        ((List.range next.len).map (fun (i : Nat) => (i : Int)) ++ index.take tags.length)
        (next :: cs)).Good :=
      good_union'.mpr ⟨Nat.le_of_eq hfor.length_eq, fun c hc => (hcsin c hc).good,
        by rw [List.take_of_length_le (Nat.le_of_eq hfor.length_eq.symm)]; exact hfor⟩
    refine .ok ⟨⟨hgood, .mk hnu (fun d hd => (hcsin d hd).nodes)⟩, ?_, ?_, ?_⟩
    · refine .union ?_
      have := hic.2.key
      simp only [params] at this
      rw [hparams, this]
    · rw [cv_union hgood, List.zipWith_append (by simp)]
      simp only [flat_cons, flat_nil, List.append_nil]
      congr 1
      · apply List.ext_getElem?
        intro i
        rw [List.getElem?_zipWith]
        by_cases h : i < next.len
        · rw [cv_get h, List.getElem?_replicate, if_pos h, List.getElem?_map, List.getElem?_range h]
          simp [uk, cv_get h]
        · rw [cv_none (by omega), List.getElem?_replicate, if_neg h]
      · rw [cv_union hic.1.good, List.zipWith_map_left,
          List.zipWith_eq_zipWith_take_min (l₁ := tags) (l₂ := index)]
        rw [Nat.min_eq_left hl, List.take_length]
        clear f1 f2 f3 f4 hgood hfor hl hi hic
        generalize index.take tags.length = ix at hf
        clear hd hal
        induction hf with
        | nil => rfl
        | cons h _ ih =>
          simp only [List.zipWith_cons_cons, ih]
          congr 1
          have := uk_shift (pre := [next.cv]) (d := cs.map cv) (post := []) h.1
            (by have := h.2.2.1; simpa using this) (j := ‹Int›)
          simpa using this
    · simp only [size, sizeAll]; omega

end Content
end Awk
