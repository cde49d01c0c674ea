import Verif.Lemmas.Shape
import Verif.Lemmas.GetitemTop
/-
What `array[[i, j, …]]` returns.
-/

namespace Awk
open R

namespace Content

/-- `array[[i, j, …]]` cuts the gathered elements out of a regular array. -/
theorem getitem_array_inv {c : Content} (hg : c.Good) {idx : List Int} {it : Item}
    (h : getitem [.array [idx.length] idx] c = ok it) :
    ∃ carry d c', InRange carry c.len ∧ c.carry true carry = ok d ∧ d.Good ∧
      d.range 0 idx.length = ok c' ∧ c'.Good ∧ it = .array c' := by
  have hl := c.wrapped_len
  simp only [getitem, List.map_cons, List.map_nil, SliceItem.constructed, bind_eq_ok] at h
  obtain ⟨out, h1, h2⟩ := h
  simp only [next] at h1
  have hr : 2 * c.wrapped.rank = (2 * c.wrapped.rank - 1) + 1 := by
    simp only [wrapped, rank]; omega
  rw [hr] at h1
  simp only [wrapped, stepF] at h1
  rw [if_neg (by simp), ← wrapped, hl] at h1
  simp only [regularNext, regularArray, bind_eq_ok] at h1
  obtain ⟨reg, k1, h1⟩ := h1
  rw [if_pos (show Adv.isFirst none = true from rfl), bind_eq_ok] at h1
  obtain ⟨ca, k2, h1⟩ := h1
  have kt := (RegularArray_getitem_next_array_regularize_tot (toarray := alloc idx.length)
    (flat := idx) (size := c.len) (h := False) (by simp [alloc]) (by simp)).1
  rw [k1, sat_ok] at kt
  obtain ⟨t1, t2⟩ := kt
  have kk := (RegularArray_getitem_next_array_ok (reg := reg) (size := c.len) (n := 1)
    (tocarry := alloc (1 * idx.length)) (toadv := alloc (1 * idx.length)) (by simp [alloc, t1])
    (by simp [alloc, t1])).1
  simp only [Nat.cast_one] at k2
  rw [k2, sat_ok] at kk
  obtain ⟨s1, _, s3, _⟩ := kk
  have hin : InRange ca.1 c.len := by
    intro j hj
    obtain ⟨k, hk, rfl⟩ := List.mem_iff_getElem.mp hj
    obtain ⟨x, e1, r, e2, e3⟩ := s3 0 (by omega) k (by omega)
    obtain ⟨hb, e4⟩ := List.getElem?_eq_some_iff.mp e2
    obtain ⟨q, e5, e6⟩ := t2 k hb
    have hq : q < c.len := by
      cases hi : idx[k]? with
      | none => simp [hi] at e5
      | some a =>
        simp only [hi, Option.bind_some] at e5
        exact regAt_lt e5
    simp only [Nat.zero_mul, Nat.zero_add] at e1
    rw [List.getElem?_eq_getElem hk, Option.some.injEq] at e1
    rw [e1, e3, ← e4, e6]
    simp only [Nat.zero_mul, Nat.cast_zero]
    omega
  obtain ⟨d, g1, g2, _, g4⟩ := carry_good hg true hin
  rw [g1, bind_ok, bind_ok] at h1
  simp only [Option.isNone_none, if_true, arrayWrap, ok.injEq] at h1
  subst h1
  have hdl : d.len = idx.length := by rw [g4.1, s1, t1]; omega
  by_cases hz : idx.length = 0
  · rw [if_pos (by simp [len, hz])] at h2
    simp only [getitemNothing, bind_eq_ok, ok.injEq] at h2
    obtain ⟨c', e1, e2⟩ := h2
    obtain ⟨c'', f1, f2, _⟩ := range_good g2 (a := 0) (b := 0) (Nat.le_refl _) (Nat.zero_le _)
    simp only [Nat.cast_zero] at f1
    rw [f1, ok.injEq] at e1
    exact ⟨_, d, c', hin, g1, g2, by rw [hz]; simpa [e1] using f1, e1 ▸ f2, e2.symm⟩
  · have hone : (regular {} d idx.length 0).len = 1 := by
      simp only [len, hdl]
      split
      · exact Nat.div_self (by omega)
      · omega
    rw [if_neg (by rw [hone]; omega)] at h2
    simp only [getitemAtNowrap, bind_eq_ok, ok.injEq] at h2
    obtain ⟨c', e1, e2⟩ := h2
    obtain ⟨c'', f1, f2, _⟩ := range_good g2 (a := 0) (b := idx.length) (Nat.zero_le _) (by omega)
    simp only [Nat.cast_zero, Int.zero_mul, Int.zero_add, Int.one_mul] at f1 e1
    rw [f1, ok.injEq] at e1
    exact ⟨_, d, c', hin, g1, g2, by simpa [e1] using f1, e1 ▸ f2, e2.symm⟩

end Content
end Awk
