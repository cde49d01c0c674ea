import Verif.Spec.Combinations
import Mathlib.Data.Nat.Choose.Basic
import Mathlib.Tactic.Linarith
import Mathlib.Tactic.Ring

/-!
# Facts about the picks of a list
-/

namespace Awk.Spec

theorem choose_zero {repl : Bool} {xs : List α} : choose repl 0 xs = [[]] := by simp [choose]

theorem choose_nil {repl : Bool} {n : Nat} : choose repl (n + 1) ([] : List α) = [] := by
  simp [choose]

theorem choose_cons {repl : Bool} {n : Nat} {x : α} {xs : List α} :
    choose repl (n + 1) (x :: xs)
      = (choose repl n (if repl then x :: xs else xs)).map (x :: ·) ++ choose repl (n + 1) xs := by
  rw [choose]

theorem choose_map {repl : Bool} (f : α → β) (n : Nat) (xs : List α) :
    choose repl n (xs.map f) = (choose repl n xs).map (List.map f) := by
  induction n generalizing xs with
  | zero => simp [choose_zero]
  | succ n ih =>
    induction xs with
    | nil => simp [choose_nil]
    | cons x xs ihx =>
      rw [List.map_cons, choose_cons, choose_cons, ihx, List.map_append, List.map_map]
      congr 1
      have h : (if repl = true then f x :: xs.map f else xs.map f)
          = (if repl = true then x :: xs else xs).map f := by split <;> simp
      rw [h, ih, List.map_map]
      rfl

theorem choose_length_false (n : Nat) (xs : List α) :
    (choose false n xs).length = xs.length.choose n := by
  induction n generalizing xs with
  | zero => simp [choose_zero]
  | succ n ih =>
    induction xs with
    | nil => simp [choose_nil]
    | cons x xs ihx =>
      rw [choose_cons]
      simp [ihx, ih, Nat.choose_succ_succ]

theorem choose_length_true (n : Nat) (xs : List α) :
    (choose true n xs).length = xs.length.multichoose n := by
  induction n generalizing xs with
  | zero => simp [choose_zero]
  | succ n ih =>
    induction xs with
    | nil => simp [choose_nil]
    | cons x xs ihx =>
      rw [choose_cons]
      simp [ihx, ih, Nat.multichoose_succ_succ, Nat.add_comm]

/-- The number of picks of `n` items out of `size`. -/
def picks (repl : Bool) (n size : Nat) : Nat :=
  (if repl then size + n - 1 else size).choose n

theorem choose_length {repl : Bool} (n : Nat) (xs : List α) :
    (choose repl n xs).length = picks repl n xs.length := by
  cases repl
  · simp [picks, choose_length_false]
  · simp [picks, choose_length_true, Nat.multichoose_eq]

/-- The order of the positions in a pick. -/
abbrev PickRel (repl : Bool) (x y : Nat) : Prop := if repl then x ≤ y else x < y

theorem mem_choose {repl : Bool} {n : Nat} {xs t : List Nat} (hx : xs.Pairwise (· < ·)) :
    t ∈ choose repl n xs ↔ t.length = n ∧ (∀ x ∈ t, x ∈ xs) ∧ t.Pairwise (PickRel repl) := by
  induction n generalizing xs t with
  | zero =>
    rw [choose_zero, List.mem_singleton]
    constructor
    · rintro rfl; simp
    · rintro ⟨h, _⟩; exact List.length_eq_zero_iff.mp h
  | succ n ih =>
    induction xs generalizing t with
    | nil =>
      rw [choose_nil]
      simp only [List.not_mem_nil, false_iff, not_and]
      intro h1 h2
      cases t with
      | nil => simp at h1
      | cons y t => exact absurd (h2 y List.mem_cons_self) (by simp)
    | cons x xs ihx =>
      obtain ⟨hx1, hx2⟩ := List.pairwise_cons.mp hx
      rw [choose_cons, List.mem_append, ihx hx2, List.mem_map]
      have hsub : (if repl = true then x :: xs else xs).Pairwise (· < ·) := by
        split
        · exact hx
        · exact hx2
      constructor
      · rintro (⟨t', ht', rfl⟩ | ⟨h1, h2, h3⟩)
        · obtain ⟨h1, h2, h3⟩ := (ih hsub).mp ht'
          refine ⟨by simp [h1], ?_, List.pairwise_cons.mpr ⟨?_, h3⟩⟩
          · intro y hy
            rcases List.mem_cons.mp hy with rfl | hy
            · simp
            · have := h2 y hy
              split at this
              · exact this
              · exact List.mem_cons_of_mem _ this
          · intro y hy
            have := h2 y hy
            cases repl
            · simp at this ⊢
              exact hx1 y this
            · simp at this ⊢
              rcases this with rfl | h
              · exact Nat.le_refl _
              · exact (hx1 y h).le
        · exact ⟨h1, fun y hy => List.mem_cons_of_mem _ (h2 y hy), h3⟩
      · rintro ⟨h1, h2, h3⟩
        cases t with
        | nil => simp at h1
        | cons y t =>
          obtain ⟨h4, h5⟩ := List.pairwise_cons.mp h3
          by_cases hy : y = x
          · subst hy
            refine .inl ⟨t, (ih hsub).mpr ⟨by simpa using h1, ?_, h5⟩, rfl⟩
            intro z hz
            have hm := h2 z (List.mem_cons_of_mem _ hz)
            have hr := h4 z hz
            cases repl
            · simp only [PickRel, Bool.false_eq_true, if_false] at hr ⊢
              rcases List.mem_cons.mp hm with rfl | hm
              · omega
              · exact hm
            · simpa using hm
          · refine .inr ⟨h1, ?_, h3⟩
            have hyx : y ∈ xs := by
              rcases List.mem_cons.mp (h2 y List.mem_cons_self) with h | h
              · exact absurd h hy
              · exact h
            intro z hz
            rcases List.mem_cons.mp hz with rfl | hz
            · exact hyx
            · rcases List.mem_cons.mp (h2 z (List.mem_cons_of_mem _ hz)) with rfl | h
              · have h6 := h4 z hz
                have h7 := hx1 y hyx
                cases repl <;> simp [PickRel] at h6 <;> omega
              · exact h

theorem choose_sorted {repl : Bool} {n : Nat} {xs : List Nat} (hx : xs.Pairwise (· < ·)) :
    (choose repl n xs).Pairwise (List.Lex (· < ·)) := by
  induction n generalizing xs with
  | zero => simp [choose_zero]
  | succ n ih =>
    induction xs with
    | nil => simp [choose_nil]
    | cons x xs ihx =>
      obtain ⟨hx1, hx2⟩ := List.pairwise_cons.mp hx
      have hsub : (if repl = true then x :: xs else xs).Pairwise (· < ·) := by
        split
        · exact hx
        · exact hx2
      rw [choose_cons, List.pairwise_append]
      refine ⟨?_, ihx hx2, ?_⟩
      · rw [List.pairwise_map]
        exact (ih hsub).imp (fun h => .cons h)
      · intro s hs t ht
        obtain ⟨s', _, rfl⟩ := List.mem_map.mp hs
        obtain ⟨h1, h2, _⟩ := (mem_choose hx2).mp ht
        cases t with
        | nil => simp at h1
        | cons y t => exact .rel (hx1 y (h2 y List.mem_cons_self))

theorem lex_irrefl (l : List Nat) : ¬ List.Lex (· < ·) l l := by
  induction l with
  | nil => intro h; cases h
  | cons a l ih =>
    intro h
    cases h with
    | rel h => omega
    | cons h => exact ih h

end Awk.Spec
