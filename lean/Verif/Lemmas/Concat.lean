import Verif.Lemmas.Simplify
/-
`ak.concatenate` at axis 0.
-/

namespace Awk
open R

namespace Content

theorem MergeNode.mono {no no' : Without} (h1 : no'.union → no.union)
    (h2 : no'.indexed → no.indexed) (h3 : no'.option → no.option) (h4 : no'.complex ↔ no.complex)
    {c : Content} (h : MergeNode no c) : MergeNode no' c := by
  cases c with
  | numpy p d data => exact ⟨h.1, fun ha hk => (h.2 ha hk).trans h4.symm⟩
  | regular p d size zeros => cases d <;> exact h
  | union p tags index cs => exact fun h' => h (h1 h')
  | indexed p index d => exact fun h' => h (h2 h')
  | indexedOption p index d => exact fun h' => h (h3 h')
  | byteMasked p mask vw d => exact fun h' => h (h3 h')
  | bitMasked p mask vw length lsb d => exact fun h' => h (h3 h')
  | unmasked p d => exact fun h' => h (h3 h')
  | _ => exact h

/-- The same, with unions allowed. -/
def _root_.Awk.Content.Without.unions (no : Without) : Without := { no with union := False }

theorem Input.unions {no : Without} {c : Content} (h : Input no c) : Input no.unions c :=
  ⟨h.good, h.nodes.mono (fun _ h => MergeNode.mono (no := no) (no' := no.unions) (fun h' => h'.elim) id id Iff.rfl h)⟩

/-- The union that `merge_as_union` makes. -/
theorem mergeAsUnion_ok {a b : Content} (ha : a.Good) (hb : b.Good) :
    ∃ tags index, mergeAsUnion a b = ok (union {} tags index [a, b]) ∧
      (union {} tags index [a, b]).Good ∧ (union {} tags index [a, b]).cv = a.cv ++ b.cv := by
  unfold mergeAsUnion
  dsimp only
  have hal : (alloc ((a.len + b.len : Nat) : Int)).length = a.len + b.len := alloc_length _
  generalize alloc ((a.len + b.len : Nat) : Int) = al at hal
  have f1 := UnionArray_filltags_const_ok (done := []) (rest := al) (n := a.len) (base := 0) (by omega)
  have f2 := UnionArray_fillindex_count_ok (done := []) (rest := al) (n := a.len) (by omega)
  simp only [List.nil_append, List.length_nil] at f1 f2
  rw [f1, bind_ok, f2, bind_ok]
  have f3 := UnionArray_filltags_const_ok (done := List.replicate a.len ((0 : Nat) : Int))
    (rest := al.drop a.len) (n := b.len) (base := 1) (by simp; omega)
  have f4 := UnionArray_fillindex_count_ok (done := (List.range a.len).map (fun (i : Nat) => (i : Int)))
    (rest := al.drop a.len) (n := b.len) (by simp; omega)
  rw [List.length_replicate] at f3
  rw [List.length_map, List.length_range] at f4
  have hd : (al.drop a.len).drop b.len = [] := List.drop_eq_nil_of_le (by simp; omega)
  rw [f3, bind_ok, f4, bind_ok, hd, List.append_nil, List.append_nil]
  have hg : (union {} (List.replicate a.len ((0 : Nat) : Int) ++ List.replicate b.len ((1 : Nat) : Int))
      ((List.range a.len).map (fun (i : Nat) => (i : Int))
        ++ (List.range b.len).map (fun (i : Nat) => (i : Int))) [a, b]).Good := by
    refine good_union'.mpr ⟨by simp, ?_, ?_⟩
    · intro d hd
      simp only [List.mem_cons, List.not_mem_nil, or_false] at hd
      rcases hd with rfl | rfl
      · exact ha
      · exact hb
    · rw [List.take_of_length_le (by simp)]
      refine List.rel_append ?_ ?_
      · refine List.forall₂_iff_get.mpr ⟨by simp, fun i h1 h2 => ?_⟩
        simp at h1
        simp [UOk, h1]
      · refine List.forall₂_iff_get.mpr ⟨by simp, fun i h1 h2 => ?_⟩
        simp at h1
        simp [UOk, h1]
  refine ⟨_, _, rfl, hg, ?_⟩
  have col : ∀ (cols : List (List Val)) (k : Nat) (c : Content), cols[k]? = some c.cv →
      List.zipWith (uk cols) (List.replicate c.len (k : Int))
        ((List.range c.len).map (fun (i : Nat) => (i : Int))) = c.cv := by
    intro cols k c hk
    apply List.ext_getElem?
    intro i
    rw [List.getElem?_zipWith]
    by_cases h : i < c.len
    · rw [cv_get h, List.getElem?_replicate, if_pos h, List.getElem?_map, List.getElem?_range h]
      simp [uk, hk, cv_get h]
    · rw [cv_none (by omega), List.getElem?_replicate, if_neg h]
  rw [cv_union hg, List.zipWith_append (by simp), col _ 0 a rfl, col _ 1 b rfl]

/-- The neighbours that the code finds mergeable have the same type. -/
def Neighbours (mb : Bool) : List (Content × Ty) → Prop
  | a :: b :: l => (mergeable mb a.1 b.1 = true → a.2 = b.2) ∧ Neighbours mb (b :: l)
  | _ => True

theorem Neighbours.tail {mb : Bool} {a : Content × Ty} {l : List (Content × Ty)}
    (h : Neighbours mb (a :: l)) : Neighbours mb l := by
  cases l with
  | nil => trivial
  | cons b l => exact h.2

theorem mergemany_reverse {no : Without} {t : Ty} {batch : List Content} (hne : batch ≠ [])
    (hi : Ins no t batch) :
    (match batch.reverse with
      | [] => ub
      | b :: bs => mergemany b bs).Tot no.union (Out no t batch.reverse) := by
  have hi' : Ins no t batch.reverse := hi.sub (fun c hc => by simpa using hc)
  cases hb : batch.reverse with
  | nil => simp at hb; exact absurd hb hne
  | cons b bs => rw [hb] at hi'; exact mergemany_ok hi'

/-- The batches of `ak.concatenate`: the last one has a common type. -/
theorem concatBatches_ok {no : Without} (hu : ¬ no.union) {mb : Bool} (xs : List (Content × Ty))
    (hx : ∀ x ∈ xs, Input no x.1 ∧ OfType x.2 x.1) (hn : Neighbours mb xs)
    {last : Content} {rest : List Content} {t : Ty} (hi : Ins no t (last :: rest))
    (hnext : ∀ x, xs.head? = some x → mergeable mb last x.1 = true → Ins no x.2 (last :: rest)) :
    (concatBatches mb (last :: rest) (xs.map Prod.fst)).Sat (fun batch => batch ≠ [] ∧
      (∃ t, Ins no t batch) ∧ flat batch.reverse = flat (last :: rest).reverse ++ flat (xs.map Prod.fst)) := by
  induction xs generalizing last rest t with
  | nil => exact ⟨by simp, ⟨t, hi⟩, by simp⟩
  | cons x xs ih =>
    have hx0 := hx x List.mem_cons_self
    have hxs : ∀ y ∈ xs, Input no y.1 ∧ OfType y.2 y.1 := fun y hy => hx y (List.mem_cons_of_mem _ hy)
    simp only [List.map_cons, concatBatches]
    split
    · rename_i hm
      have hin := hnext x rfl hm
      have hin' : Ins no x.2 (x.1 :: last :: rest) := by
        intro c hc
        rcases List.mem_cons.mp hc with rfl | hc
        · exact hx0
        · exact hin c hc
      refine (ih hxs hn.tail hin' (fun y hy hmy => ?_)).mono (fun b hb => ⟨hb.1, hb.2.1, ?_⟩)
      · cases xs with
        | nil => simp at hy
        | cons z xs =>
          simp only [List.head?_cons, Option.some.injEq] at hy
          subst hy
          rw [← hn.1 hmy]
          exact hin'
      · rw [hb.2.2]; simp
    · refine (mergemany_reverse (by simp) hi).1.bind (fun m hm => ?_)
      obtain ⟨tags, index, h1, h2, h3⟩ := mergeAsUnion_ok hm.input.good hx0.1.good
      rw [h1, bind_ok]
      have hui : Input no (union {} tags index [m, x.1]) := by
        refine ⟨h2, .mk hu (fun d hd => ?_)⟩
        simp only [children, List.mem_cons, List.not_mem_nil, or_false] at hd
        rcases hd with rfl | rfl
        · exact hm.input.nodes
        · exact hx0.1.nodes
      refine (ih (last := union {} tags index [m, x.1]) (rest := [])
        (t := .unknown (Params.key {})) hxs hn.tail ?_ ?_).mono (fun b hb => ⟨hb.1, hb.2.1, ?_⟩)
      · intro c hc
        simp only [List.mem_singleton] at hc
        subst hc
        exact ⟨hui, .union rfl⟩
      · intro y hy hmy c hc
        simp only [List.mem_singleton] at hc
        subst hc
        simp only [mergeable, Params.agree_iff] at hmy
        exact ⟨hui, .union (by rw [hmy, (hxs y (List.mem_of_mem_head? hy)).2.key])⟩
      · rw [hb.2.2]
        simp [h3, hm.cv]

theorem alts_input {no : Without} {c : Content} (h : Input no c) : ∀ d ∈ c.alts, Input no d := by
  intro d hd
  cases c <;> simp only [alts, List.mem_singleton] at hd
  case union p tags index cs => exact h.child (by simpa [children] using hd)
  all_goals subst hd; exact h

/-- `ak.concatenate` of arrays of any types. -/
theorem concatenate0_any {same : Content → Content → Bool}
    (hsame : ∀ a b, same a b = true → a = b) {no : Without} {domerge mb : Bool}
    (hdm : domerge = true → no.indexed ∨ no.option) {x : Content × Ty} {xs : List (Content × Ty)}
    (hx : ∀ y ∈ x :: xs, Input no y.1 ∧ OfType y.2 y.1) (hn : Neighbours mb (x :: xs)) :
    (concatenate0 same domerge mb ((x :: xs).map Prod.fst)).Sat (fun c => c.Good ∧
      c.cv = flat ((x :: xs).map Prod.fst)) := by
  have hx' : ∀ y ∈ x :: xs, Input no.unions y.1 ∧ OfType y.2 y.1 :=
    fun y hy => ⟨(hx y hy).1.unions, (hx y hy).2⟩
  have hi0 : Ins no.unions x.2 [x.1] := by
    intro c hc
    simp only [List.mem_singleton] at hc
    subst hc
    exact hx' x List.mem_cons_self
  simp only [List.map_cons, concatenate0]
  refine (concatBatches_ok (no := no.unions) (fun h => h) xs
    (fun y hy => hx' y (List.mem_cons_of_mem _ hy)) hn.tail hi0 ?_).bind (fun batch hb => ?_)
  · intro y hy hm
    cases xs with
    | nil => simp at hy
    | cons z xs =>
      simp only [List.head?_cons, Option.some.injEq] at hy
      subst hy
      rw [← hn.1 hm]
      exact hi0
  · obtain ⟨hne, ⟨t, hi⟩, hflat⟩ := hb
    refine (mergemany_reverse hne hi).1.bind (fun m hm => ?_)
    have hcv : m.cv = flat (x.1 :: xs.map Prod.fst) := by
      rw [hm.cv, hflat]; simp
    cases m with
    | union p tags index ds =>
      dsimp only
      refine (simplifyUnion_ok hsame (no := no.unions) hdm hm.input.good (fun c hc =>
        alts_input (hm.input.child (by simpa [children] using hc)))).1.mono (fun r hr => ?_)
      exact ⟨hr.1, by rw [hr.2, hcv]⟩
    | _ => exact ⟨hm.input.good, hcv⟩

/-- `ak.concatenate` of arrays of a common type. -/
theorem concatenate0_ok {same : Content → Content → Bool} {no : Without} (hu : no.union)
    {domerge mb : Bool} {t : Ty} {c : Content} {cs : List Content} (hi : Ins no t (c :: cs))
    (hm : List.IsChain (fun a b => mergeable mb a b = true) (c :: cs)) :
    ∃ r, concatenate0 same domerge mb (c :: cs) = ok r ∧ r.Good ∧ r.cv = flat (c :: cs) := by
  have key : ∀ (cs rest : List Content) (last : Content),
      List.IsChain (fun a b => mergeable mb a b = true) (last :: cs) →
      concatBatches mb (last :: rest) cs = ok (cs.reverse ++ last :: rest) := by
    intro cs
    induction cs with
    | nil => intro rest last _; rfl
    | cons x xs ih =>
      intro rest last h
      rw [List.isChain_cons_cons] at h
      simp only [concatBatches]
      rw [if_pos h.1, ih _ _ h.2]
      simp
  simp only [concatenate0]
  rw [key cs [] c hm, bind_ok]
  have hrev : (cs.reverse ++ [c]).reverse = c :: cs := by simp
  rw [hrev]
  dsimp only
  have hmm := mergemany_ok hi
  obtain ⟨m, h⟩ := hmm.2 hu
  have hs := hmm.1
  rw [h] at hs
  have hs : Out no t _ m := hs
  rw [h, bind_ok]
  have hcv : m.cv = flat (c :: cs) := hs.cv
  cases m with
  | union p tags index ds => exact absurd hu hs.input.nodes.here
  | _ => exact ⟨_, rfl, hs.input.good, hcv⟩

/-- `ak.concatenate` of two arrays. -/
theorem concatenate0_two {same : Content → Content → Bool}
    (hsame : ∀ a b, same a b = true → a = b) {no : Without} (hu : no.union)
    (hno : no.indexed ∨ no.option) {domerge mb : Bool} {a b : Content} (ha : Input no a)
    (hb : Input no b) : ∃ r, concatenate0 same domerge mb [a, b] = ok r ∧ r.Good ∧
      r.cv = a.cv ++ b.cv := by
  by_cases hm : mergeable mb a b = true
  · obtain ⟨t, h1, h2⟩ := mergeable_type hno ha.nodes hb.nodes hm
    have := concatenate0_ok (same := same) hu (domerge := domerge) (mb := mb) (t := t) (c := a)
      (cs := [b]) (by
        intro d hd
        simp only [List.mem_cons, List.not_mem_nil, or_false] at hd
        rcases hd with rfl | rfl
        · exact ⟨ha, h1⟩
        · exact ⟨hb, h2⟩) (by simp [hm])
    simpa using this
  · have nounion : ∀ d, Input no d → d.alts = [d] := by
      intro d hd
      cases d <;> try rfl
      exact absurd hu hd.nodes.here
    obtain ⟨tags, index, h1, h2, h3⟩ := mergeAsUnion_ok ha.good hb.good
    simp only [concatenate0, concatBatches]
    rw [if_neg hm]
    have e1 : ∀ c : Content, mergemany c [] = ok c := by
      intro c
      simp [mergemany, mergeFuel, mergemanyF, mergeStep]
    simp only [List.reverse_cons, List.reverse_nil, List.nil_append, e1, bind_ok, h1]
    have := simplifyUnion_ok hsame (no := no) (domerge := domerge) (mb := mb) (fun _ => hno) h2 (by
      intro c hc d hd
      simp only [List.mem_cons, List.not_mem_nil, or_false] at hc
      rcases hc with rfl | rfl
      · exact alts_input ha d hd
      · exact alts_input hb d hd)
    obtain ⟨r, hr⟩ := this.2 ⟨hu, by simp [nounion _ ha, nounion _ hb]⟩
    have hs := this.1
    rw [hr] at hs
    exact ⟨r, hr, hs.1, by rw [hs.2, h3]⟩

end Content
end Awk
