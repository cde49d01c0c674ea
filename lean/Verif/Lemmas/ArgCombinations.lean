import Verif.Model.ArgCombinations
import Verif.Spec.ArgCombinations
import Verif.Lemmas.Combinations
import Verif.Lemmas.Pad
/-
Lemmas for `ak.argcombinations`.
-/

namespace Awk
open R Spec

theorem mapR_preimage {α β : Type} {f : α → R β} {xs : List α} {ys : List β} (h : mapR f xs = ok ys) {y : β}
    (hy : y ∈ ys) : ∃ x ∈ xs, f x = ok y := by
  rw [mapR_forall₂] at h
  induction h with
  | nil => cases hy
  | cons h _ ih =>
    rcases List.mem_cons.mp hy with rfl | hy
    · exact ⟨_, by simp, h⟩
    · obtain ⟨x, hx, h2⟩ := ih hy
      exact ⟨x, by simp [hx], h2⟩

namespace Val

mutual
theorem mapAxis_twice {g h : Val → Val} (hg : ∀ v, ∃ vs, g v = .list vs) :
    ∀ (a : Nat) (v : Val), mapAxis false h a (mapAxis false g a v) = mapAxis false (fun v => h (g v)) a v
  | _, .null => by simp only [mapAxis]
  | _, .atom x => by simp only [mapAxis]
  | a, .tuple vs => by simp only [mapAxis]; rw [mapAxisList_twice hg a vs]
  | a, .record fs => by simp only [mapAxis]; rw [mapAxisFields_twice hg a fs]
  | a, .list vs => by
    by_cases ha : a ≤ 1
    · obtain ⟨ws, hw⟩ := hg (.list vs)
      simp only [mapAxis, if_pos ha, hw]
    · simp only [mapAxis, if_neg ha]; rw [mapAxisList_twice hg (a - 1) vs]
  | a, .str vs => by
    by_cases ha : a ≤ 1
    · obtain ⟨ws, hw⟩ := hg (.str vs)
      simp only [mapAxis, if_pos ha, hw]
    · simp only [mapAxis, if_neg ha, Bool.false_eq_true, if_false]; rw [mapAxisList_twice hg (a - 1) vs]
  | a, .bytes vs => by
    by_cases ha : a ≤ 1
    · obtain ⟨ws, hw⟩ := hg (.bytes vs)
      simp only [mapAxis, if_pos ha, hw]
    · simp only [mapAxis, if_neg ha, Bool.false_eq_true, if_false]; rw [mapAxisList_twice hg (a - 1) vs]
theorem mapAxisList_twice {g h : Val → Val} (hg : ∀ v, ∃ vs, g v = .list vs) :
    ∀ (a : Nat) (vs : List Val), mapAxisList false h a (mapAxisList false g a vs)
      = mapAxisList false (fun v => h (g v)) a vs
  | _, [] => by simp only [mapAxisList]
  | a, v :: vs => by simp only [mapAxisList]; rw [mapAxis_twice hg a v, mapAxisList_twice hg a vs]
theorem mapAxisFields_twice {g h : Val → Val} (hg : ∀ v, ∃ vs, g v = .list vs) :
    ∀ (a : Nat) (fs : List (String × Val)), mapAxisFields false h a (mapAxisFields false g a fs)
      = mapAxisFields false (fun v => h (g v)) a fs
  | _, [] => by simp only [mapAxisFields]
  | a, (k, v) :: fs => by
    simp only [mapAxisFields]; rw [mapAxis_twice hg a v, mapAxisFields_twice hg a fs]
end

end Val

theorem combine_positions (repl : Bool) (n : Nat) (keys : Option (List String)) (v : Val) :
    combine repl n keys v.positions = argCombine repl n keys v := by
  unfold combine argCombine Val.positions
  simp only [Val.items]
  rw [choose_map, List.map_map]
  rfl

namespace Content

theorem hasAxis_weaken {a : Nat} {c : Content} (h : HasAxis true false a c) : HasAxis true true a c := by
  induction h with
  | here hl => exact .here hl
  | inside hl ha _ ih => exact .inside hl ha ih
  | thru hl _ ih => exact .thru hl ih
  | empty he => cases he

/-- What `combinations` needs to know about the nodes. -/
def CanPick (repl : Bool) (n a : Nat) (c : Content) : Prop :=
  HasAxis true true a c ∧ ListsAt NotString a c ∧ ListsAt (Wide repl n) a c

theorem CanPick.here {repl : Bool} {n : Nat} {c : Content} (hl : c.isListNode = true) (hs : NotString c)
    (hw : Wide repl n c) : CanPick repl n 1 c := ⟨.here hl, .here hl hs, .here hl hw⟩

theorem CanPick.inside {repl : Bool} {n a : Nat} {c : Content} (hl : c.isListNode = true) (ha : 1 ≤ a)
    (h : ∀ d ∈ c.children, CanPick repl n a d) : CanPick repl n (a + 1) c :=
  ⟨.inside hl ha (fun d hd => (h d hd).1), .inside hl ha (fun d hd => (h d hd).2.1),
    .inside hl ha (fun d hd => (h d hd).2.2)⟩

theorem CanPick.thru {repl : Bool} {n a : Nat} {c : Content} (hl : c.isThru true = true)
    (h : ∀ d ∈ c.children, CanPick repl n a d) : CanPick repl n a c :=
  ⟨.thru hl (fun d hd => (h d hd).1), .thru hl (fun d hd => (h d hd).2.1),
    .thru hl (fun d hd => (h d hd).2.2)⟩

theorem CanPick.child {repl : Bool} {n a : Nat} {c : Content} (h : CanPick repl n a c)
    (hl : c.isThru true = true) : ∀ d ∈ c.children, CanPick repl n a d :=
  fun d hd => ⟨hasAxis_child h.1 hl d hd, listsAt_child h.2.1 hl d hd, listsAt_child h.2.2 hl d hd⟩

theorem CanPick.simplify {repl : Bool} {n a : Nat} {c d : Content} {p : Params} {index : List Int}
    (h : CanPick repl n a c) (hd : indexedSimplify true p index c = ok d) : CanPick repl n a d := by
  have key : ∀ o, c.innerIndex = ok (some o) → CanPick repl n a o.2.2 := by
    intro o ho
    cases c <;> simp only [innerIndex] at ho
    case indexed p' i' c' => cases ho; exact h.child rfl _ (by simp [children])
    case indexedOption p' i' c' => cases ho; exact h.child rfl _ (by simp [children])
    case byteMasked =>
      obtain ⟨i', _, h2⟩ := bind_eq_ok.mp ho
      cases h2; exact h.child rfl _ (by simp [children])
    case bitMasked =>
      obtain ⟨i', _, h2⟩ := bind_eq_ok.mp ho
      cases h2; exact h.child rfl _ (by simp [children])
    case unmasked =>
      obtain ⟨i', _, h2⟩ := bind_eq_ok.mp ho
      cases h2; exact h.child rfl _ (by simp [children])
    all_goals cases ho
  unfold indexedSimplify at hd
  obtain ⟨o, h1, h2⟩ := bind_eq_ok.mp hd
  cases o with
  | none =>
    simp only [if_true, ok.injEq] at h2
    subst h2
    exact .thru rfl (by simpa [children] using h)
  | some o =>
    obtain ⟨b, i', c'⟩ := o
    obtain ⟨r, _, h3⟩ := bind_eq_ok.mp h2
    simp only [Bool.true_or, if_true, ok.injEq] at h3
    subst h3
    exact .thru rfl (by simpa [children] using key _ h1)

/-- `local_index` keeps the lists that `combinations` needs. -/
theorem localindexF_canPick {repl : Bool} {n f a : Nat} {c d : Content} (h : c.Good) (hr : c.rank ≤ f)
    (ha : 1 ≤ a) (hx : HasAxis true false a c) (hw : ListsAt (Wide repl n) a c)
    (hd : localindexF f a c = ok d) : CanPick repl n a d := by
  induction f generalizing a c d with
  | zero => exfalso; cases c <;> simp [rank] at hr
  | succ f ih =>
    obtain ⟨b, rfl⟩ : ∃ b, a = b + 1 := ⟨a - 1, by omega⟩
    have hthru : ∀ (self e : Content), self.Good →
        ((∃ p index d, self = indexedOption p index d) ∨ (∃ p mask vw d, self = byteMasked p mask vw d)) →
        self.inner.Good → self.inner.rank ≤ f → HasAxis true false (b + 1) self.inner →
        ListsAt (Wide repl n) (b + 1) self.inner →
        throughOption (localindexF f (b + 1)) self self.inner = ok e → CanPick repl n (b + 1) e := by
      intro self e hg hk hi hr' hx' hw' he
      have ho : self.isOption = true := by
        rcases hk with ⟨p, index, d, rfl⟩ | ⟨p, mask, vw, d, rfl⟩ <;> rfl
      obtain ⟨numnull, h1, _⟩ := nextcarryOutindex_ok hg hk
      obtain ⟨next, h2, h3, h4, h5⟩ := carry_good (inner_good hg) false (shown_good hg ho)
      have h6 : Gathered next self.inner := .inr ⟨_, _, shown_good hg ho, h2⟩
      unfold throughOption at he
      rw [h1, bind_ok] at he
      simp only at he
      rw [h2, bind_ok] at he
      obtain ⟨out, h7, h8⟩ := bind_eq_ok.mp he
      have h4' : next.rank ≤ self.inner.rank := by simpa using h4
      exact (ih h3 (by omega) (by omega) (h6.closed (HasAxis.closed true false) hi _ hx')
        (h6.closed Wide.closed hi _ hw') h7).simplify h8
    cases c <;> simp only [localindexF, rank] at hr hd
    case empty p => exact absurd hx not_hasAxis_empty
    case numpy p dt data => cases hd
    case regular p c size zeros =>
      have hc := good_regular.mp h
      by_cases hb : b = 0
      · subst hb
        rw [if_pos rfl] at hd
        obtain ⟨index, _, h2⟩ := bind_eq_ok.mp hd
        cases h2
        refine .here rfl (by simp [NotString, Content.params]) ?_
        intro p' d' s' z' he
        cases he
        exact listsAt_here hw rfl _ _ _ _ rfl
      · rw [if_neg (by omega)] at hd
        obtain ⟨next, h1, h2⟩ := bind_eq_ok.mp hd
        cases h2
        refine .inside rfl (by omega) (fun d' hd' => ?_)
        simp only [children, List.mem_singleton] at hd'
        subst hd'
        exact ih hc (by omega) (by omega) (hasAxis_below hx (by omega) rfl c (by simp [children]))
          (listsAt_below hw (by omega) rfl c (by simp [children])) h1
    case listArray p starts stops c =>
      obtain ⟨hl, hc, hp⟩ := good_listArray.mp h
      by_cases hb : b = 0
      · subst hb
        rw [if_pos rfl] at hd
        obtain ⟨offsets, _, h2⟩ := bind_eq_ok.mp hd
        unfold listLocalindex at h2
        obtain ⟨_, _, h2⟩ := bind_eq_ok.mp h2
        obtain ⟨_, _, h2⟩ := bind_eq_ok.mp h2
        cases h2
        exact .here rfl (by simp [NotString, Content.params]) (by intro _ _ _ _ he; cases he)
      · rw [if_neg (by omega)] at hd
        obtain ⟨next, h1, h2⟩ := bind_eq_ok.mp hd
        cases h2
        refine .inside rfl (by omega) (fun d' hd' => ?_)
        simp only [children, List.mem_singleton] at hd'
        subst hd'
        exact ih hc (by omega) (by omega) (hasAxis_below hx (by omega) rfl c (by simp [children]))
          (listsAt_below hw (by omega) rfl c (by simp [children])) h1
    case listOffset p offsets c =>
      obtain ⟨hl, hc, hp⟩ := good_listOffset.mp h
      by_cases hb : b = 0
      · subst hb
        rw [if_pos rfl] at hd
        obtain ⟨offsets, _, h2⟩ := bind_eq_ok.mp hd
        unfold listLocalindex at h2
        obtain ⟨_, _, h2⟩ := bind_eq_ok.mp h2
        obtain ⟨_, _, h2⟩ := bind_eq_ok.mp h2
        cases h2
        exact .here rfl (by simp [NotString, Content.params]) (by intro _ _ _ _ he; cases he)
      · rw [if_neg (by omega)] at hd
        obtain ⟨next, h1, h2⟩ := bind_eq_ok.mp hd
        cases h2
        refine .inside rfl (by omega) (fun d' hd' => ?_)
        simp only [children, List.mem_singleton] at hd'
        subst hd'
        exact ih hc (by omega) (by omega) (hasAxis_below hx (by omega) rfl c (by simp [children]))
          (listsAt_below hw (by omega) rfl c (by simp [children])) h1
    case indexed p index c =>
      obtain ⟨c', h1, h2, h3, h4, h5, h6⟩ := project_indexed h
      rw [h1, bind_ok] at hd
      have hc := (good_indexed.mp h).1
      exact ih h2 (by omega) (by omega)
        (h6.closed (HasAxis.closed true false) hc _ (hasAxis_child hx rfl c (by simp [children])))
        (h6.closed Wide.closed hc _ (listsAt_child hw rfl c (by simp [children]))) hd
    case indexedOption p index c =>
      exact hthru (indexedOption p index c) d h (.inl ⟨_, _, _, rfl⟩) (good_indexedOption.mp h).1
        (by simp only [inner]; omega) (hasAxis_child hx rfl c (by simp [children]))
        (listsAt_child hw rfl c (by simp [children])) hd
    case byteMasked p mask vw c =>
      exact hthru (byteMasked p mask vw c) d h (.inr ⟨_, _, _, _, rfl⟩) (good_byteMasked.mp h).2
        (by simp only [inner]; omega) (hasAxis_child hx rfl c (by simp [children]))
        (listsAt_child hw rfl c (by simp [children])) hd
    case bitMasked p mask vw length lsb c =>
      obtain ⟨bm, h1, h2, h3, h4⟩ := toByteMasked_bit h
      rw [h1, bind_ok] at hd
      exact ih h3 (by simp only [rank]; omega) (by omega)
        (.thru rfl (fun d hd => hasAxis_child hx rfl d (by simpa [children] using hd)))
        (.thru rfl (fun d hd => listsAt_child hw rfl d (by simpa [children] using hd))) hd
    case unmasked p c =>
      obtain ⟨next, h1, h2⟩ := bind_eq_ok.mp hd
      cases h2
      refine .thru rfl (fun d' hd' => ?_)
      simp only [children, List.mem_singleton] at hd'
      subst hd'
      exact ih (good_unmasked.mp h) (by omega) (by omega) (hasAxis_child hx rfl c (by simp [children]))
        (listsAt_child hw rfl c (by simp [children])) h1
    case record p keys cs length =>
      obtain ⟨hlen, hcs⟩ := good_record.mp h
      obtain ⟨cs', h1, h2⟩ := bind_eq_ok.mp hd
      cases h2
      refine .thru rfl (fun d' hd' => ?_)
      simp only [children] at hd'
      obtain ⟨c, hc, h3⟩ := mapR_preimage h1 hd'
      exact ih (hcs c hc) (by have := rank_le_rankAll hc; omega) (by omega)
        (hasAxis_child hx rfl c (by simpa [children] using hc))
        (listsAt_child hw rfl c (by simpa [children] using hc)) h3
    case union p tags index cs =>
      obtain ⟨_, hcs, _⟩ := good_union.mp h
      obtain ⟨cs', h1, h2⟩ := bind_eq_ok.mp hd
      cases h2
      refine .thru rfl (fun d' hd' => ?_)
      simp only [children] at hd'
      obtain ⟨c, hc, h3⟩ := mapR_preimage h1 hd'
      exact ih (hcs c hc) (by have := rank_le_rankAll hc; omega) (by omega)
        (hasAxis_child hx rfl c (by simpa [children] using hc))
        (listsAt_child hw rfl c (by simpa [children] using hc)) h3

end Content
end Awk
