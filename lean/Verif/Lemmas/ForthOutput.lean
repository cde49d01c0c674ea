import Verif.Spec.Forth
/-
An output buffer of the Forth machine represents a list of values.
-/

namespace Awk.Forth
open Awk.R

variable {α : Type}

/-- The first `length_` cells are the values `xs`. -/
def OutRep (b : OutBuf α) (xs : List α) : Prop :=
  b.length = xs.length ∧ ∃ rest, b.cells = xs.map some ++ rest

theorem reservation_ok {resize : Rat} (hr : 1 < resize) (next : Int) :
    ∀ (n : Nat) (r : Int), 1 ≤ r → next - r ≤ n →
      ∃ r', OutBuf.reservation resize next n r = ok r' ∧ r ≤ r' ∧ next ≤ r' := by
  intro n
  induction n with
  | zero =>
    intro r h1 h2
    have : ¬ next > r := by omega
    exact ⟨r, by simp [OutBuf.reservation, this], le_refl _, by omega⟩
  | succ n ih =>
    intro r h1 h2
    by_cases hn : next > r
    · have hc : r + 1 ≤ ⌈(r : Rat) * resize⌉ := by
        rw [Int.add_one_le_iff, Int.lt_ceil]
        have : (0 : Rat) < r := by exact_mod_cast (by omega : 0 < r)
        nlinarith
      obtain ⟨r', h, h', h''⟩ := ih ⌈(r : Rat) * resize⌉ (by omega) (by omega)
      exact ⟨r', by simp [OutBuf.reservation, hn, h], by omega, h''⟩
    · exact ⟨r, by simp [OutBuf.reservation, hn], le_refl _, by omega⟩

/-- After `maybe_resize` there is room, and the old cells are kept. -/
theorem maybeResize_ok {resize : Rat} (hr : 1 < resize) {b : OutBuf α} (hb : b.cells ≠ [])
    (next : Int) : ∃ extra, OutBuf.maybeResize resize next b = ok { b with cells := b.cells ++ extra } ∧
      next ≤ (b.cells ++ extra).length := by
  unfold OutBuf.maybeResize
  have hpos : 1 ≤ b.cells.length := List.length_pos_iff.mpr hb
  split
  · rename_i hn
    obtain ⟨r', h, h', h''⟩ := reservation_ok hr next (next - b.cells.length).toNat b.cells.length
      (by omega) (by omega)
    have : ¬ r' < b.cells.length := by omega
    refine ⟨List.replicate (r'.toNat - b.cells.length) none, by rw [h, bind_ok, if_neg this], ?_⟩
    simp; omega
  · exact ⟨[], by simp, by simp; omega⟩

theorem OutRep.load_last {b : OutBuf α} {xs : List α} {v : α} (h : OutRep b (xs ++ [v])) :
    OutBuf.load b (b.length - 1) = ok v := by
  obtain ⟨h1, rest, h2⟩ := h
  have : b.length - 1 = ((xs.length : Nat) : Int) := by simp at h1; omega
  simp [OutBuf.load, this, h2, rd_nat]

/-- Storing the next value. -/
theorem store_next {b : OutBuf α} {xs : List α} {rest : List (Option α)} {y : Option α} (x : α)
    (h : b.cells = xs.map some ++ y :: rest) :
    OutBuf.store b xs.length x = ok { b with cells := (xs ++ [x]).map some ++ rest } := by
  simp [OutBuf.store, wr, h]

/-- Storing several values one after the other. -/
theorem forN_store {xs : List α} {ys : List α} : ∀ (n : Nat) (b : OutBuf α) (rest : List (Option α)),
    n ≤ ys.length → b.cells = xs.map some ++ rest → n ≤ rest.length →
    forN n (fun i c => rd ys i >>= OutBuf.store c ((xs.length : Int) + i)) b =
      ok { b with cells := (xs ++ ys.take n).map some ++ rest.drop n } := by
  intro n
  induction n with
  | zero => intro b rest _ h _; simp [h]; cases b; simp_all
  | succ n ih =>
    intro b rest hn h hr
    rw [forN_succ, ih b rest (by omega) h (by omega)]
    simp only [bind_ok]
    rw [rd_nat_ok (by omega : n < ys.length), bind_ok]
    have hd : rest.drop n = rest[n] :: rest.drop (n + 1) := List.drop_eq_getElem_cons (by omega)
    have := store_next (b := { b with cells := (xs ++ ys.take n).map some ++ rest.drop n })
      (xs := xs ++ ys.take n) (x := ys[n]) (by rw [hd])
    have hl : ((xs ++ ys.take n).length : Int) = xs.length + n := by
      simp [List.length_take]; omega
    rw [hl] at this
    rw [this]
    have ht : ys.take (n + 1) = ys.take n ++ [ys[n]] := by rw [List.take_append_getElem]
    rw [ht, List.append_assoc]

theorem new_rep {initial : Int} (h : 1 ≤ initial) :
    ∃ b : OutBuf α, OutBuf.new initial = ok b ∧ OutRep b [] ∧ b.cells ≠ [] := by
  refine ⟨⟨List.replicate initial.toNat none, 0⟩, ?_, ⟨rfl, _, rfl⟩, ?_⟩
  · simp [OutBuf.new]; omega
  · simp; omega

theorem OutRep.toList {b : OutBuf α} {xs : List α} (h : OutRep b xs) : b.toList = ok xs := by
  obtain ⟨h1, rest, h2⟩ := h
  unfold OutBuf.toList
  rw [h1, Int.toNat_natCast]
  refine (mapN_eq_ok).mpr ⟨by simp, fun i hi => ?_⟩
  simp [OutBuf.load, h2, rd_nat, List.getElem?_append_left (by simpa using hi : i < (xs.map some).length),
    List.getElem?_eq_getElem hi]

/-- One use of an output buffer follows the specification. -/
theorem OutOp.run_rep {resize : Rat} (hr : 1 < resize) {zero : α} {add : α → α → α}
    {b : OutBuf α} {xs : List α} (h : OutRep b xs) (hb : b.cells ≠ []) (op : OutOp α)
    (hop : ∀ n, op = .rewind n → 0 ≤ n) :
    ∃ b', op.run resize zero add b = ok (b', (Spec.outApply zero add op xs).2) ∧
      OutRep b' (Spec.outApply zero add op xs).1 ∧ b'.cells ≠ [] := by
  have one : ∀ (x : α), ∃ b', (OutBuf.maybeResize resize (b.length + 1)
      { b with length := b.length + 1 } >>= fun b => OutBuf.store b (b.length - 1) x) = ok b' ∧
      OutRep b' (xs ++ [x]) ∧ b'.cells ≠ [] := by
    intro x
    obtain ⟨h1, rest, h2⟩ := h
    obtain ⟨extra, he, hl⟩ := maybeResize_ok hr (b := { b with length := b.length + 1 }) hb (b.length + 1)
    rw [he, bind_ok]
    simp only [h2, List.append_assoc] at hl ⊢
    have hne : rest ++ extra ≠ [] := by
      intro hc; simp only [hc] at hl; simp at hl; omega
    obtain ⟨y, ys, hy⟩ := List.exists_cons_of_ne_nil hne
    have hst := store_next (b := ⟨xs.map some ++ (rest ++ extra), b.length + 1⟩)
      (xs := xs) (rest := ys) (y := y) x (by rw [hy])
    have hi : b.length + 1 - 1 = (xs.length : Int) := by omega
    rw [hi, hst]
    refine ⟨_, rfl, ⟨?_, ys, rfl⟩, by simp⟩
    simp; omega
  cases op with
  | writeOne x =>
    obtain ⟨b', h', hrep, hne⟩ := one x
    exact ⟨b', by simp only [OutOp.run, OutBuf.writeOne]; rw [h']; simp [Spec.outApply], hrep, hne⟩
  | writeAdd x =>
    obtain ⟨b', h', hrep, hne⟩ := one (add (xs.getLast?.getD zero) x)
    refine ⟨b', ?_, hrep, hne⟩
    simp only [OutOp.run, OutBuf.writeAdd, Spec.outApply]
    have hprev : (if b.length ≠ 0 then OutBuf.load b (b.length - 1) else ok zero)
        = ok (xs.getLast?.getD zero) := by
      rcases List.eq_nil_or_concat xs with rfl | ⟨ys, v, rfl⟩
      · have : b.length = 0 := by simpa using h.1
        simp [this]
      · rw [List.concat_eq_append] at h ⊢
        have h0 : b.length ≠ 0 := by have := h.1; simp at this; omega
        rw [if_pos h0, h.load_last]; simp
    rw [hprev, bind_ok, h']; simp
  | writeMany ys =>
    obtain ⟨h1, rest, h2⟩ := h
    obtain ⟨extra, he, hl⟩ := maybeResize_ok hr hb (b.length + ys.length)
    simp only [OutOp.run, OutBuf.writeMany, Spec.outApply, he, bind_ok]
    have := forN_store (xs := xs) (ys := ys) ys.length ⟨b.cells ++ extra, b.length⟩ (rest ++ extra)
      (le_refl _) (by simp [h2]) (by simp [h2] at hl ⊢; omega)
    simp only [h1]
    rw [h1] at this
    rw [this]
    refine ⟨_, rfl, ⟨by simp, _, by simp only [List.take_length]; rfl⟩, ?_⟩
    intro hc
    have : b.cells = [] := by
      simp only [List.take_length] at hc
      have hl' := congrArg List.length hc
      have hbl := congrArg List.length h2
      simp only [List.length_append, List.length_map, List.length_drop, List.length_nil] at hl' hbl
      have : b.cells.length = 0 := by omega
      exact List.length_eq_zero_iff.mp this
    exact hb this
  | rewind n =>
    have hn := hop n rfl
    obtain ⟨h1, rest, h2⟩ := h
    simp only [OutOp.run, OutBuf.rewind, Spec.outApply]
    by_cases hlt : (xs.length : Int) < n
    · rw [if_pos (by omega), if_pos hlt]
      exact ⟨b, rfl, ⟨h1, rest, h2⟩, hb⟩
    · rw [if_neg (by omega), if_neg hlt]
      refine ⟨_, rfl, ⟨?_, (xs.drop (xs.length - n.toNat)).map some ++ rest, ?_⟩, hb⟩
      · simp; omega
      · simp only [h2, ← List.append_assoc, ← List.map_append, List.take_append_drop]
  | dup n =>
    rcases List.eq_nil_or_concat xs with rfl | ⟨ys, v, rfl⟩
    · have : b.length = 0 := by simpa using h.1
      exact ⟨b, by simp [OutOp.run, OutBuf.dup, this, Spec.outApply], h, hb⟩
    · rw [List.concat_eq_append] at h ⊢
      have h0 : b.length ≠ 0 := by have := h.1; simp at this; omega
      simp only [OutOp.run, OutBuf.dup, h0, if_false, Spec.outApply, List.getLast?_append,
        List.getLast?_singleton, Option.some_or]
      by_cases hn : n > 0
      · simp only [hn, if_true]
        obtain ⟨h1, rest, h2⟩ := h
        obtain ⟨extra, he, hl⟩ := maybeResize_ok hr hb (b.length + n)
        rw [he, bind_ok]
        have hrep : OutRep (⟨b.cells ++ extra, b.length⟩ : OutBuf α) (ys ++ [v]) :=
          ⟨h1, rest ++ extra, by simp [h2]⟩
        have hld := hrep.load_last
        simp only at hld ⊢
        rw [hld, bind_ok]
        have := forN_store (xs := ys ++ [v]) (ys := List.replicate n.toNat v) n.toNat
          ⟨b.cells ++ extra, b.length⟩ (rest ++ extra) (by simp) (by simp [h2])
          (by simp [h2, h1] at hl ⊢; omega)
        have heq : (forN n.toNat (fun i c => OutBuf.store c (b.length + i) v)
            (⟨b.cells ++ extra, b.length⟩ : OutBuf α)) =
            forN n.toNat (fun i c => rd (List.replicate n.toNat v) i >>=
              OutBuf.store c (((ys ++ [v]).length : Int) + i)) ⟨b.cells ++ extra, b.length⟩ := by
          apply forN_congr
          intro i hi c
          rw [rd_nat_ok (by simpa using hi)]
          simp [h1]
        rw [heq, this, bind_ok]
        refine ⟨_, rfl, ⟨?_, _, by simp only [List.take_replicate, Nat.min_self]; rfl⟩, by simp⟩
        simp [h1] ; omega
      · simp only [hn, if_false]
        have : n.toNat = 0 := by omega
        exact ⟨b, by simp, by simpa [this] using h, hb⟩

end Awk.Forth
