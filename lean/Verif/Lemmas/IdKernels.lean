import Verif.Model.Identities
import Verif.Lemmas.JaggedMissing
/-
What the kernels of row identities do to the tables.
-/

namespace Awk
open R

/-- Row `j` of a table whose rows are `w` wide. -/
def row (w : Nat) (b : List Int) (j : Nat) : List Int := (b.drop (j * w)).take w

/-- The buffer with `r` written at `a`. -/
def put (b : List Int) (a : Nat) (r : List Int) : List Int := b.take a ++ r ++ b.drop (a + r.length)

theorem put_length {b r : List Int} {a : Nat} (h : a + r.length ≤ b.length) :
    (put b a r).length = b.length := by
  simp [put]; omega

theorem put_getElem? {b r : List Int} {a : Nat} (h : a + r.length ≤ b.length) (k : Nat) :
    (put b a r)[k]? = if a ≤ k ∧ k < a + r.length then r[k - a]? else b[k]? := by
  unfold put
  have hl : (b.take a).length = a := by simp; omega
  by_cases h1 : k < a
  · rw [if_neg (by omega), List.append_assoc, List.getElem?_append_left (by omega), List.getElem?_take,
      if_pos h1]
  · rw [List.append_assoc, List.getElem?_append_right (by omega), hl]
    by_cases h2 : k < a + r.length
    · rw [if_pos ⟨by omega, h2⟩, List.getElem?_append_left (by omega)]
    · rw [if_neg (by omega), List.getElem?_append_right (by omega), List.getElem?_drop]
      congr 1; omega

theorem row_getElem? (w : Nat) (b : List Int) (j k : Nat) :
    (row w b j)[k]? = if k < w then b[j * w + k]? else none := by
  unfold row
  rw [List.getElem?_take]
  split
  · rw [List.getElem?_drop]
  · rfl

theorem row_length {w : Nat} {b : List Int} {j : Nat} (h : (j + 1) * w ≤ b.length) :
    (row w b j).length = w := by
  simp [row]; rw [Nat.succ_mul] at h; omega

theorem row_put {w : Nat} {b r : List Int} {j : Nat} (hr : r.length = w) (h : (j + 1) * w ≤ b.length)
    (j' : Nat) : row w (put b (j * w) r) j' = if j' = j then r else row w b j' := by
  have hb : j * w + r.length ≤ b.length := by rw [Nat.succ_mul] at h; omega
  apply List.ext_getElem?
  intro k
  rw [row_getElem?]
  by_cases hk : k < w
  · rw [if_pos hk, put_getElem? hb]
    by_cases hj : j' = j
    · subst hj
      rw [if_pos ⟨by omega, by omega⟩, if_pos rfl]
      congr 1; omega
    · rw [if_neg hj, if_neg, row_getElem?, if_pos hk]
      rintro ⟨h1, h2⟩
      apply hj
      rcases Nat.lt_trichotomy j' j with h3 | h3 | h3
      · have := Nat.mul_le_mul_right w (show j' + 1 ≤ j by omega)
        rw [Nat.succ_mul] at this; omega
      · exact h3
      · have := Nat.mul_le_mul_right w (show j + 1 ≤ j' by omega)
        rw [Nat.succ_mul] at this; omega
  · rw [if_neg hk]
    symm
    split
    · exact List.getElem?_eq_none (by omega)
    · rw [row_getElem?, if_neg hk]

theorem copyRow_ok {t f : List Int} {to_ from_ : Int} {a b w : Nat} (ha : to_ = (a : Int))
    (hb : from_ = (b : Int)) (h1 : a + w ≤ t.length) (h2 : b + w ≤ f.length) :
    copyRow t f to_ from_ w = ok (put t a ((f.drop b).take w)) := by
  subst ha hb
  unfold copyRow
  have e := forN_fill (n := w) (fun k => rd f ((b : Int) + k)) a t h1
  simp only [Int.natCast_add] at e
  rw [e]
  rw [mapN_ok' (fun k => f.getD (b + k) 0) (fun k hk => by
    rw [← Int.natCast_add, rd_nat_ok (by omega)]
    rw [List.getD_eq_getElem?_getD, List.getElem?_eq_getElem (by omega)]; rfl), bind_ok]
  congr 1
  unfold put
  have e : (List.range w).map (fun k => f.getD (b + k) 0) = (f.drop b).take w := by
    apply List.ext_getElem?
    intro k
    rw [List.getElem?_map, List.getElem?_take]
    by_cases hk : k < w
    · rw [List.getElem?_range hk, if_pos hk, List.getElem?_drop, Option.map_some,
        List.getD_eq_getElem?_getD, List.getElem?_eq_getElem (by omega)]; rfl
    · rw [if_neg hk, List.getElem?_eq_none (by simp; omega)]; rfl
  rw [e]
  congr 2
  simp; omega

theorem nestRow_ok {t f : List Int} {i j w : Nat} {x : Int} (h1 : (j + 1) * (w + 1) ≤ t.length)
    (h2 : (i + 1) * w ≤ f.length) :
    nestRow t f i j w x = ok (put t (j * (w + 1)) (row w f i ++ [x])) := by
  unfold nestRow
  have h2' : i * w + w ≤ f.length := by rw [Nat.succ_mul] at h2; omega
  have h1' : j * (w + 1) + w + 1 ≤ t.length := by rw [Nat.succ_mul] at h1; omega
  rw [copyRow_ok (a := j * (w + 1)) (b := i * w) (by push_cast; rfl) (by push_cast; rfl) (by omega) h2',
    bind_ok, show ((j : Int) * ((w : Int) + 1) + w) = ((j * (w + 1) + w : Nat) : Int) by push_cast; rfl]
  have hl : ((f.drop (i * w)).take w).length = w := by simp; omega
  rw [wr_nat_ok (by rw [put_length (by rw [hl]; omega)]; omega)]
  congr 1
  apply List.ext_getElem?
  intro k
  have hr : (row w f i).length = w := hl
  rw [put_getElem? (by simp [hr]; omega)]
  by_cases hk : k = j * (w + 1) + w
  · subst hk
    rw [List.getElem?_set_self (by rw [put_length (by rw [hl]; omega)]; omega), if_pos
      ⟨by omega, by simp [hr]⟩, List.getElem?_append_right (by omega)]
    simp [hr]
  · rw [List.getElem?_set_ne (by omega), put_getElem? (by rw [hl]; omega)]
    simp only [List.length_append, List.length_singleton, hr, hl]
    by_cases hk2 : j * (w + 1) ≤ k ∧ k < j * (w + 1) + w
    · rw [if_pos hk2, if_pos ⟨hk2.1, by omega⟩, List.getElem?_append_left (by omega)]; rfl
    · rw [if_neg hk2, if_neg (by omega)]

theorem minus_ok {a b : Nat} {t : List Int} (h : b ≤ t.length) :
    forFrom (a : Int) (b : Int) (fun k t => wr t k (-1)) t
      = ok (put t a (List.replicate (b - a) (-1))) := by
  by_cases hab : a ≤ b
  · obtain ⟨l, rfl⟩ : ∃ l, b = a + l := ⟨b - a, by omega⟩
    rw [forFrom_nat]
    have e := forN_fill (n := l) (fun _ => ok (-1 : Int)) a t h
    simp only [bind_ok] at e
    rw [e, mapN_ok, bind_ok, Nat.add_sub_cancel_left]
    simp [put, List.map_const']
  · unfold forFrom
    rw [show ((b : Int) - a).toNat = 0 by omega, forN_zero, show b - a = 0 by omega]
    simp [put]

theorem fillMinus_ok {n : Nat} {t : List Int} (h : t.length = n) :
    forN n (fun (k : Nat) t => wr t (k : Int) (-1)) t = ok (List.replicate n (-1)) := by
  have e := forN_fill_eq (n := n) (f := fun _ => ok (-1 : Int)) (fun _ => -1) h (fun _ _ => rfl)
  simp only [bind_ok] at e
  rw [e]; simp [List.map_const']

/-- Row `i` belongs to an item. -/
def Live (w : Nat) (b : List Int) (i : Nat) : Prop := b[i * w]? ≠ some (-1)

/-- The table `t` (`n` rows, `w'` wide) identifies the items of a content, where the table `f`
(`w` wide) identifies those of the node and `D i j x` says that item `i` holds item `j`. -/
structure Laid (w w' n : Nat) (D : Nat → Nat → List Int → Prop) (f t : List Int) : Prop where
  len : t.length = n * w'
  here : ∀ i j x, D i j x → Live w f i → row w' t j = row w f i ++ x
  gone : ∀ j, j < n → (∀ i x, D i j x → ¬ Live w f i) → t[j * w']? = some (-1)

theorem row_first {w : Nat} (hw : 1 ≤ w) (b : List Int) (j : Nat) : (row w b j)[0]? = b[j * w]? := by
  rw [row_getElem?, if_pos (by omega)]; rfl

theorem row_minus {w n j : Nat} (hj : j < n) : row w (List.replicate (n * w) (-1)) j
    = List.replicate w (-1) := by
  apply List.ext_getElem?
  intro k
  rw [row_getElem?]
  have := Nat.mul_le_mul_right w (show j + 1 ≤ n by omega)
  rw [Nat.succ_mul] at this
  by_cases hk : k < w
  · rw [if_pos hk, List.getElem?_replicate, if_pos (by omega), List.getElem?_replicate, if_pos hk]
  · rw [if_neg hk, List.getElem?_replicate, if_neg hk]

theorem le_mul_of_lt {j n w : Nat} (h : j < n) : (j + 1) * w ≤ n * w := Nat.mul_le_mul_right w h

theorem Laid.of_lists {w n : Nat} {f t : List Int} (hw : 1 ≤ w) {D : Nat → Nat → Int → Prop}
    (hl : t.length = n * (w + 1)) (hD : ∀ i j x, D i j x → (i + 1) * w ≤ f.length)
    (h1 : ∀ i j x, D i j x → row (w + 1) t j = row w f i ++ [x])
    (h2 : ∀ j, j < n → (∀ i x, ¬ D i j x) → t[j * (w + 1)]? = some (-1)) :
    Laid w (w + 1) n (fun i j x => ∃ y, x = [y] ∧ D i j y) f t := by
  refine ⟨hl, ?_, ?_⟩
  · rintro i j _ ⟨y, rfl, hd⟩ _
    exact h1 i j y hd
  · intro j hj hno
    by_cases hex : ∃ i x, D i j x
    · obtain ⟨i, x, hd⟩ := hex
      have hn := hno i [x] ⟨x, rfl, hd⟩
      unfold Live at hn
      rw [← row_first (by omega), h1 i j x hd, List.getElem?_append_left (by
        rw [row_length (hD i j x hd)]; omega), row_first hw]
      exact not_not.mp hn
    · exact h2 j hj (fun i x hd => hex ⟨i, x, hd⟩)

/-! ### Regular lists -/

theorem regular_laid {w size n L : Nat} {t f : List Int} (hw : 1 ≤ w) (ht : t.length = n * (w + 1))
    (hf : f.length = L * w) (hn : L * size ≤ n) (hrest : size ≠ 0 → n = L * size) :
    ∃ t', Identities_from_RegularArray t f size n L w = ok t' ∧
      Laid w (w + 1) n (fun i j x => ∃ y, x = [y] ∧ ∃ k, i < L ∧ k < size ∧ j = i * size + k ∧ y = (k : Int))
        f t' := by
  unfold Identities_from_RegularArray
  have hloop := forN_inv (n := L) (body := fun i t => forN size (fun j t =>
      nestRow t f i (i * size + j) w j) t) (s := t)
    (fun i t => t.length = n * (w + 1) ∧
      ∀ q, q < i * size → row (w + 1) t q = row w f (q / size) ++ [((q % size : Nat) : Int)])
    ⟨ht, by simp⟩ (by
      intro i hi s hs
      have hin := forN_inv (n := size) (body := fun j t => nestRow t f i (i * size + j) w j) (s := s)
        (fun l t => t.length = n * (w + 1) ∧
          ∀ q, q < i * size + l → row (w + 1) t q = row w f (q / size) ++ [((q % size : Nat) : Int)])
        hs (by
          intro l hl s hs
          have hb := Nat.mul_le_mul_right size (show i + 1 ≤ L by omega)
          rw [Nat.succ_mul] at hb
          have hq : i * size + l < n := by omega
          have h1 : (i * size + l + 1) * (w + 1) ≤ s.length := by rw [hs.1]; exact le_mul_of_lt hq
          have h2 : (i + 1) * w ≤ f.length := by rw [hf]; exact le_mul_of_lt hi
          have hr : (row w f i ++ [(l : Int)]).length = w + 1 := by simp [row_length h2]
          have e := nestRow_ok (x := (l : Int)) h1 h2
          push_cast at e
          refine ⟨_, e, ?_, ?_⟩
          · rw [put_length (by rw [hr]; rw [Nat.succ_mul] at h1; omega)]; exact hs.1
          · intro q hq
            rw [row_put hr h1]
            split
            · next h =>
              subst h
              rw [show (i * size + l) / size = i by
                rw [Nat.mul_comm, Nat.mul_add_div (by omega), Nat.div_eq_of_lt hl]; omega,
                show (i * size + l) % size = l by
                  rw [Nat.mul_comm, Nat.mul_add_mod, Nat.mod_eq_of_lt hl]]
            · exact hs.2 q (by omega))
      obtain ⟨s', e, h⟩ := hin
      exact ⟨s', e, by rw [Nat.succ_mul]; exact h⟩)
  obtain ⟨s, e, hsl, hs⟩ := hloop
  rw [e, bind_ok, show (((L : Int) + 1) * size * ((w : Int) + 1)) = (((L + 1) * size * (w + 1) : Nat) : Int) by
    push_cast; rfl, show ((n : Int) * ((w : Int) + 1)) = ((n * (w + 1) : Nat) : Int) by push_cast; rfl,
    minus_ok (by omega)]
  refine ⟨_, rfl, ?_⟩
  by_cases hz : size = 0
  · subst hz
    have et : put s ((L + 1) * 0 * (w + 1)) (List.replicate (n * (w + 1) - (L + 1) * 0 * (w + 1)) (-1))
        = List.replicate (n * (w + 1)) (-1) := by
      simp [put, hsl]
    rw [et]
    refine Laid.of_lists hw (by simp) ?_ ?_ ?_
    · rintro i j x ⟨k, _, hk, _⟩; omega
    · rintro i j x ⟨k, _, hk, _⟩; omega
    · intro j hj _
      rw [← row_first (by omega), row_minus hj]; simp
  · have hn' := hrest hz
    have et : put s ((L + 1) * size * (w + 1)) (List.replicate (n * (w + 1) - (L + 1) * size * (w + 1)) (-1))
        = s := by
      have : n * (w + 1) ≤ (L + 1) * size * (w + 1) := by
        apply Nat.mul_le_mul_right
        rw [Nat.succ_mul]; omega
      rw [show n * (w + 1) - (L + 1) * size * (w + 1) = 0 by omega]
      simp [put]
    rw [et]
    refine Laid.of_lists hw hsl ?_ ?_ ?_
    · rintro i j x ⟨k, hi, hk, rfl, rfl⟩; rw [hf]; exact le_mul_of_lt hi
    · rintro i j x ⟨k, hi, hk, rfl, rfl⟩
      have hb := Nat.mul_le_mul_right size (show i + 1 ≤ L by omega)
      rw [Nat.succ_mul] at hb
      rw [hs _ (by omega), show (i * size + k) / size = i by
        rw [Nat.mul_comm, Nat.mul_add_div (by omega), Nat.div_eq_of_lt hk]; omega,
        show (i * size + k) % size = k by rw [Nat.mul_comm, Nat.mul_add_mod, Nat.mod_eq_of_lt hk]]
    · intro j hj hno
      exfalso
      refine hno (j / size) ((j % size : Nat) : Int) ⟨j % size, ?_, Nat.mod_lt _ (by omega), ?_, rfl⟩
      · exact (Nat.div_lt_iff_lt_mul (by omega)).mpr (by omega)
      · have := Nat.div_add_mod j size
        rw [Nat.mul_comm] at this; omega

end Awk
