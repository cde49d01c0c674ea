import Verif.Lemmas.Moment
import Verif.Lemmas.BcastLists
import Verif.Lemmas.Complete
/-
`ak.moment` of arrays of lists.
-/

namespace Awk
open R

theorem flatMap_map_of {α β γ : Type} {g : α → List β} {h : γ → List β} {m : β → β} :
    ∀ {xs : List α} {ys : List γ}, ys.length = xs.length →
    (∀ j (h1 : j < xs.length) (h2 : j < ys.length), h ys[j] = (g xs[j]).map m) →
    ys.flatMap h = (xs.flatMap g).map m
  | [], [], _, _ => rfl
  | x :: xs, y :: ys, hl, ha => by
    have h0 := ha 0 (by simp) (by simp)
    have hr := flatMap_map_of (xs := xs) (ys := ys) (by simpa using hl) (fun j h1 h2 => by
      exact ha (j + 1) (Nat.succ_lt_succ h1) (Nat.succ_lt_succ h2))
    simp only [List.getElem_cons_zero] at h0
    simp [h0, hr]

namespace Spec

/-- An element-wise function of one array applies to each number. -/
theorem elementwise_leaves {f : List Atom → Atom} {depth : Nat} {vs outs : List Val}
    (h : Applies (fun _ vs outs => ∃ as, vs = as.map Val.atom ∧ outs = [.atom (f as)])
      (fun _ vs => Val.null ∈ vs ∨ ∃ xs, Val.list xs ∈ vs) 1 depth vs outs) :
    ∀ v o, vs = [v] → outs = [o] → o.leaves = v.leaves.map (fun a => f [a]) := by
  induction h with
  | done h =>
    rintro v o rfl rfl
    obtain ⟨as, h1, h2⟩ := h
    match as, h1 with
    | [a], h1 =>
      simp only [List.map_cons, List.map_nil, List.cons.injEq, and_true] at h1 h2
      subst h1 h2
      simp [Val.leaves]
  | null hg h =>
    rintro v o rfl ho
    simp only [List.mem_singleton] at h
    simp only [List.replicate_one, List.cons.injEq, and_true] at ho
    subst h ho
    simp [Val.leaves]
  | list hg n h hl hn ho hm hj ih =>
    rintro v o rfl rfl
    obtain ⟨xs, hx⟩ := hl
    simp only [List.mem_singleton] at hx
    subst hx
    obtain ⟨ys, rfl, hy⟩ := hm o (by simp)
    have hxl := hn xs (by simp)
    simp only [Val.leaves, Val.leavesAll_eq]
    refine flatMap_map_of (by omega) (fun j h1 h2 => ?_)
    have := ih j (by omega) _ _ rfl rfl
    simpa [Val.elem, h1, h2] using this
  | record hg names h hl hr hn ho hm ht hj ih =>
    rcases hg with hg | ⟨xs, hg⟩
    · exact absurd hg h
    · exact absurd hg (hl xs)

end Spec

namespace Content

theorem ListsOf.nodes {f : List Atom → Atom} {dt : DType} {out : Content} (h : ListsOf f dt out) :
    AllNodes TrimNode out ∧ AllNodes FullNode out := by
  obtain ⟨data, ⟨o, rfl⟩ | ⟨s, t, rfl⟩, _⟩ := h <;>
    simp [all_numpy, all_listOffset, all_listArray, TrimNode, FullNode]

/-- A function of the numbers of an array of lists gives an array whose numbers are its values. -/
theorem mapReal_lists (f : Rat → Rat) {fuel : Nat} (hf : 3 ≤ fuel) {c : Content} (hb : UnnamedIn c)
    (hfl : FlatOrLists c) (hbeh : c.hasBehavior = false) (hj : c.isJagged = true) (hn : 0 < c.len) :
    ∃ out, mapReal f fuel c = ok out ∧ out.Good ∧ AllNodes TrimNode out ∧ AllNodes FullNode out ∧
      out.leavesOf = c.leavesOf.map (fun a => .real (f a.asRat)) := by
  obtain ⟨k, rfl⟩ : ∃ k, fuel = k + 3 := ⟨fuel - 3, by omega⟩
  obtain ⟨out, h1, h2, h3, h4⟩ := elementwise_lists (f := fun l => .real (f (l.headD (.int 0)).asRat)) (dt := .float64)
    (k := k) (cs := [c]) hn (by simpa using hb) (by simpa using hfl) (by simpa using hbeh) (by simp)
    (fun i hi => by
      by_cases h : ∃ xs, c.valD i = .list xs
      · obtain ⟨xs, hx⟩ := h
        refine ⟨xs.length, fun d hd ys hy => ?_⟩
        simp only [List.mem_singleton] at hd
        subst hd
        rw [hx] at hy
        simp only [Val.list.injEq] at hy
        rw [hy]
      · refine ⟨0, fun d hd ys hy => ?_⟩
        simp only [List.mem_singleton] at hd
        subst hd
        exact absurd ⟨ys, hy⟩ h) (c0 := c) (by simp) hj
  refine ⟨out, ?_, h2, h4.nodes.1, h4.nodes.2, ?_⟩
  · unfold mapReal
    rw [h1]
    rfl
  · obtain ⟨out', ys, n, h5, h6, h7, h8, _, h9⟩ := elementwise_sound (by simp) (by simpa using hb.bin) h1
    simp only [Item.array.injEq] at h5
    subst h5
    simp only [List.mem_singleton, exists_eq_left] at h8
    subst h8
    rw [leavesOf_toList h2 h6]
    unfold leavesOf
    refine flatMap_map_of (by simpa using h7) (fun j hj1 hj2 => ?_)
    simp only [List.length_range] at hj1
    have := Spec.elementwise_leaves (h9 j hj1) _ _ rfl rfl
    beta_reduce at this
    rw [show (if c.len = 1 then 0 else j) = j by split <;> omega] at this
    simpa [hj2] using this

/-- The sum of an array is the sum of all its numbers. -/
theorem sumReal_good {c : Content} (hg : c.Good) (ht : AllNodes TrimNode c) (hf : AllNodes FullNode c) :
    sumReal c = ok (c.leavesOf.map Atom.asRat).sum := by
  obtain ⟨parts, h1, h2, h3, h4⟩ := allParts_ok c.rank c hg (Nat.le_refl _) ht
  unfold sumReal reduceAll
  have hp := reduceParts_fold Atom.asRat Rat.add_assoc Rat.zero_add Rat.add_zero parts (h4 hf)
  rw [h1, bind_ok]
  refine hp.trans ?_
  congr 1
  rw [← (h2.map Atom.asRat).sum_eq, List.sum, List.foldr_map]

end Content
end Awk
