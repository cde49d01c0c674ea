import Verif.Lemmas.MergeRecord
/-
`mergemany` puts the elements of arrays of a common type end to end.
-/

namespace Awk
open R

namespace Content

theorem mu_le {cs ds : List Content} (h : sizeAll cs ≤ sizeAll ds) (hl : cs.length ≤ ds.length) :
    mu cs ≤ mu ds := by
  unfold mu
  have := Nat.mul_le_mul h (Nat.succ_le_succ h)
  simp only [Nat.succ_eq_add_one] at this
  omega

theorem mergeTail_ok {nu : Without} {n : Nat} {rec : Content → List Content → R Content}
    (hrec : RecOk nu n rec) {t : Ty} {heads tail : List Content} {next : Content}
    (ho : Out nu t heads next) (hne : heads ≠ []) (hi : Ins nu t tail)
    (hend : ∀ c, tail.head? = some c → (c.isIndirectNode = true ∧ next.Plain) ∨ c.isUnion = true)
    (hn : mu (heads ++ tail) ≤ n) :
    (mergeTail rec next tail).Tot nu.union (Out nu t (heads ++ tail)) := by
  have hh : 1 ≤ heads.length := by
    cases heads with
    | nil => exact absurd rfl hne
    | cons => simp
  cases tail with
  | nil => simp only [mergeTail, List.append_nil]; exact .ok ho
  | cons c ts =>
    have hpair : Ins nu t [next, c] := by
      intro d hd
      simp only [List.mem_cons, List.not_mem_nil, or_false] at hd
      rcases hd with rfl | rfl
      · exact ⟨ho.input, ho.type⟩
      · exact hi.head
    have hs := ho.size
    have hrev : (reverseMerge rec c next).Tot nu.union (Out nu t [next, c]) := by
      rcases hend c rfl with ⟨h1, h2⟩ | h
      · refine reverse_indexed_ok hrec h1 h2 hpair (Nat.le_trans (mu_le ?_ ?_) hn)
        · simp only [sizeAll, sizeAll_append]; omega
        · simp; omega
      · exact reverse_union_ok h hpair
    simp only [mergeTail]
    refine hrev.bind (fun r hr => ?_)
    have hr2 := hr.size
    simp only [sizeAll] at hr2
    refine (hrec t r ts ?_ ?_).mono id (fun m hm => ?_)
    · intro d hd
      rcases List.mem_cons.mp hd with rfl | hd
      · exact ⟨hr.input, hr.type⟩
      · exact hi.tail d hd
    · refine Nat.lt_of_lt_of_le (mu_lt_length ?_ ?_) hn
      · simp only [sizeAll, sizeAll_append]; omega
      · simp; omega
    · refine ⟨hm.input, hm.type, ?_, ?_⟩
      · rw [hm.cv]; simp [hr.cv, ho.cv]
      · have := hm.size
        simp only [sizeAll, sizeAll_append] at this ⊢; omega

theorem dropWhile_head {α : Type} {p : α → Bool} {l : List α} {a : α}
    (h : (l.dropWhile p).head? = some a) : p a = false := by
  induction l with
  | nil => simp at h
  | cons b l ih =>
    simp only [List.dropWhile_cons] at h
    split at h
    · exact ih h
    · simp only [List.head?_cons, Option.some.injEq] at h; subst h; simpa using ‹¬ p b = true›

theorem takeWhile_all {α : Type} {p : α → Bool} {l : List α} {a : α} (h : a ∈ l.takeWhile p) :
    p a = true := by
  induction l with
  | nil => simp at h
  | cons b l ih =>
    simp only [List.takeWhile_cons] at h
    split at h
    · rcases List.mem_cons.mp h with rfl | h
      · assumption
      · exact ih h
    · simp at h

/-- The ListArray that stands for a list array. -/
theorem asListArray {nu : Without} {t : Ty} {c d : Content} {starts stops : List Int}
    (hl : c.isListNode = true) (h : Input nu c) (ht : OfType t c) (hr : IsRows c starts stops d) :
    Input nu (listArray c.params starts stops d) ∧ OfType t (listArray c.params starts stops d) ∧
      (listArray c.params starts stops d).cv = c.cv ∧
      (listArray c.params starts stops d).size = c.size := by
  have hd : d ∈ c.children := by rw [hr.child]; simp
  have hl1 := hr.lstarts
  have hl2 := hr.lstops
  have hgood : (listArray c.params starts stops d).Good := by
    refine good_listArray.mpr ⟨by omega, h.good.child hd, fun i hi => ?_⟩
    exact (List.forall₂_iff_get.mp hr.pairs).2 i hi (by omega)
  refine ⟨⟨hgood, .mk trivial ?_⟩, ?_, ?_, ?_⟩
  · intro e he
    simp only [children, List.mem_singleton] at he
    subst he; exact h.nodes.child hd
  · refine ht.lift (list_plain hl) (list_plain rfl) rfl ?_
    obtain ⟨t', hb, hch⟩ := ofType_list (Ty.base_ne_opt t) hl ((OfType.plain_iff (list_plain hl) t).mp ht).2
    rw [hb]
    refine .list (c := listArray c.params starts stops d) rfl ?_
    intro e he
    simp only [children, List.mem_singleton] at he
    subst he; exact hch _ hd
  · rw [cv_listArray hgood, hr.cv]
  · have := hr.child
    cases c <;> simp only [isListNode, Bool.false_eq_true] at hl <;>
      simp only [children, List.cons.injEq, and_true] at this <;> simp [size, this]

theorem Out.replace {nu : Without} {t : Ty} {a b : Content} {cs : List Content} {m : Content}
    (h : Out nu t (a :: cs) m) (hcv : a.cv = b.cv) (hs : a.size ≤ b.size) : Out nu t (b :: cs) m := by
  refine ⟨h.input, h.type, ?_, ?_⟩
  · rw [h.cv]; simp [hcv]
  · have := h.size; simp only [sizeAll] at this ⊢; omega

theorem mergeStep_ok {nu : Without} {n : Nat} {rec : Content → List Content → R Content}
    (hrec : RecOk nu n rec) {t : Ty} {self : Content} {others : List Content}
    (hi : Ins nu t (self :: others)) (hn : mu (self :: others) ≤ n) :
    (mergeStep rec self others).Tot nu.union (Out nu t (self :: others)) := by
  unfold mergeStep
  by_cases hem : others.isEmpty = true
  · rw [if_pos hem]
    rw [List.isEmpty_iff] at hem
    subst hem
    exact .ok ⟨hi.head.1, hi.head.2, by simp, by simp [sizeAll]⟩
  · rw [if_neg hem]
    dsimp only
    -- the split of the other arrays
    have hsplit : others = others.takeWhile (fun c => !c.endsHead) ++ others.dropWhile (fun c => !c.endsHead) :=
      List.takeWhile_append_dropWhile.symm
    have hhl : ∀ c ∈ others.takeWhile (fun c => !c.endsHead), c.endsHead = false := fun c hc => by
      simpa using takeWhile_all hc
    have hheadsIns : Ins nu t (self :: others.takeWhile (fun c => !c.endsHead)) :=
      hi.sub (fun c hc => by
        rcases List.mem_cons.mp hc with rfl | hc
        · exact List.mem_cons_self
        · exact List.mem_cons_of_mem _ (((List.takeWhile_prefix _).subset hc)))
    have htailIns : Ins nu t (others.dropWhile (fun c => !c.endsHead)) :=
      hi.sub (fun c hc => List.mem_cons_of_mem _ ((List.dropWhile_suffix _).subset hc))
    have hmuh : mu (self :: others.takeWhile (fun c => !c.endsHead)) ≤ n := by
      refine Nat.le_trans (mu_le ?_ ?_) hn
      · conv_rhs => rw [hsplit]
        simp only [sizeAll, sizeAll_append]; omega
      · have := (List.takeWhile_prefix (fun c => !c.endsHead) (l := others)).length_le
        simp; omega
    -- what is left after the heads are merged
    have fin : ∀ next, Out nu t (self :: others.takeWhile (fun c => !c.endsHead)) next ∧ next.Plain →
        (mergeTail rec next (others.dropWhile (fun c => !c.endsHead))).Tot nu.union (Out nu t (self :: others)) := by
      rintro next ⟨ho, hp⟩
      have := mergeTail_ok hrec ho (by simp) htailIns (fun c hc => ?_)
        (by rw [List.cons_append, ← hsplit]; exact hn)
      · rw [List.cons_append, ← hsplit] at this
        exact this
      · have := dropWhile_head hc
        simp only [Bool.not_eq_false', endsHead, Bool.or_eq_true] at this
        rw [isIndirect_eq, ← isIndirectNode_eq] at this
        exact this.imp (fun h => ⟨h, hp⟩) id
    -- a list array, as a ListArray
    have lists : ∀ (d : Content) (starts stops : List Int), self.isListNode = true →
        Input nu (listArray self.params starts stops d) →
        OfType t (listArray self.params starts stops d) →
        (listArray self.params starts stops d).cv = self.cv →
        (listArray self.params starts stops d).size = self.size →
        (mergeLists rec self.params (listArray self.params starts stops d ::
          others.takeWhile (fun c => !c.endsHead)) >>= fun next =>
          mergeTail rec next (others.dropWhile (fun c => !c.endsHead))).Tot nu.union (Out nu t (self :: others)) := by
      intro d starts stops hl h1 h2 h3 h4
      have hins : Ins nu t (listArray self.params starts stops d :: others.takeWhile (fun c => !c.endsHead)) := by
        intro c hc
        rcases List.mem_cons.mp hc with rfl | hc
        · exact ⟨h1, h2⟩
        · exact hheadsIns.tail c hc
      refine (mergeLists_ok hrec rfl rfl hins hhl ?_).bind (fun next ho => fin next ⟨ho.1.replace h3 (by omega), ho.2⟩)
      refine Nat.le_trans (mu_le ?_ (by simp)) hmuh
      simp only [sizeAll, h4]; omega
    -- option and indexed arrays
    have indirect : self.isIndirectNode = true →
        (mergeIndexed rec self.params (self :: others.takeWhile (fun c => !c.isUnion)) >>= fun next =>
          mergeTail rec next (others.dropWhile (fun c => !c.isUnion))).Tot nu.union (Out nu t (self :: others)) := by
      intro hself
      have hsplit : others = others.takeWhile (fun c => !c.isUnion) ++ others.dropWhile (fun c => !c.isUnion) :=
        List.takeWhile_append_dropWhile.symm
      have hhl : ∀ c ∈ others.takeWhile (fun c => !c.isUnion), c.isUnion = false := fun c hc => by
        simpa using takeWhile_all hc
      refine (mergeIndexed_ok hrec hself (hi.sub (fun c hc => ?_)) hhl ?_).bind (fun next ho => ?_)
      · rcases List.mem_cons.mp hc with rfl | hc
        · exact List.mem_cons_self
        · exact List.mem_cons_of_mem _ (((List.takeWhile_prefix _).subset hc))
      · refine Nat.le_trans (mu_le ?_ ?_) hn
        · conv_rhs => rw [hsplit]
          simp only [sizeAll, sizeAll_append]; omega
        · have := (List.takeWhile_prefix (fun c => !c.isUnion) (l := others)).length_le
          simp; omega
      · have := mergeTail_ok hrec ho.1 (by simp)
          (tail := others.dropWhile (fun c => !c.isUnion))
          (hi.sub (fun c hc => List.mem_cons_of_mem _ ((List.dropWhile_suffix _).subset hc))) (fun c hc => ?_)
          (by rw [List.cons_append, ← hsplit]; exact hn)
        · rw [List.cons_append, ← hsplit] at this
          exact this
        · right; simpa using dropWhile_head hc
    cases self with
    | empty p =>
      cases others with
      | nil => simp at hem
      | cons x xs =>
        dsimp only
        refine (hrec t x xs hi.tail ?_).mono id (fun m hm => ?_)
        · refine Nat.lt_of_lt_of_le (mu_lt_length ?_ (by simp)) hn
          simp only [sizeAll]; omega
        · refine ⟨hm.input, hm.type, ?_, ?_⟩
          · rw [hm.cv]; simp [cv_empty]
          · have := hm.size; simp only [sizeAll] at this ⊢; omega
    | numpy p d data =>
      dsimp only
      obtain ⟨m, h1, h2, h3⟩ := mergeNumpy_ok hheadsIns hhl
      rw [h1, bind_ok]
      exact fin m ⟨h2, h3⟩
    | regular p c size zeros =>
      dsimp only
      rw [regularParts_ok hi.head.1.nodes.here, bind_ok]
      obtain ⟨h1, h2, h3, h4⟩ := asListArray rfl hi.head.1 hi.head.2 (isRows_regular hi.head.1)
      exact lists _ _ _ rfl h1 h2 h3 h4
    | listArray p starts stops c =>
      dsimp only
      exact lists _ _ _ rfl hi.head.1 hi.head.2 rfl rfl
    | listOffset p offsets c =>
      dsimp only
      obtain ⟨h1, h2, h3, h4⟩ := asListArray rfl hi.head.1 hi.head.2 (isRows_listOffset hi.head.1.good)
      exact lists _ _ _ rfl h1 h2 h3 h4
    | record p keys cs n0 =>
      dsimp only
      exact (mergeRecords_ok hrec hheadsIns hhl hmuh).bind fin
    | union p tags index cs => exact mergeUnions_ok rfl hi
    | indexed p index c => exact indirect rfl
    | indexedOption p index c => exact indirect rfl
    | byteMasked p mask vw c => exact indirect rfl
    | bitMasked p mask vw length lsb c => exact indirect rfl
    | unmasked p c => exact indirect rfl

theorem mergemanyF_ok {nu : Without} (n : Nat) : RecOk nu n (mergemanyF n) := by
  induction n with
  | zero => intro t self others _ h; omega
  | succ n ih =>
    intro t self others hi hmu
    exact mergeStep_ok ih hi (by omega)

/-- `mergemany` of arrays of a common type. -/
theorem mergemany_ok {nu : Without} {t : Ty} {self : Content} {others : List Content}
    (hi : Ins nu t (self :: others)) :
    (mergemany self others).Tot nu.union (Out nu t (self :: others)) :=
  mergemanyF_ok _ t self others hi (by simp only [mergeFuel, mu]; omega)

end Content
end Awk
