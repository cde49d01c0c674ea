import Verif.Lemmas.IdKernels
import Verif.Lemmas.ValD
/-
The tables that the kernels of row identities make for lists and for indexed contents.
-/

namespace Awk
open R

/-! ### Lists with offsets -/

theorem mono_of_step {g : Nat → Nat} {L : Nat} (h : ∀ i, i < L → g i ≤ g (i + 1)) {a b : Nat}
    (hab : a ≤ b) (hb : b ≤ L) : g a ≤ g b := by
  induction b with
  | zero => rw [show a = 0 by omega]
  | succ b ih =>
    rcases Nat.lt_or_ge a (b + 1) with h1 | h1
    · exact Nat.le_trans (ih (by omega) (by omega)) (h b (by omega))
    · rw [show a = b + 1 by omega]

theorem row_put_minus {w a b n j : Nat} {t : List Int} (ht : t.length = n * w) (hb : b ≤ n) :
    row w (put t (a * w) (List.replicate (b * w - a * w) (-1))) j
      = if a ≤ j ∧ j < b then List.replicate w (-1) else row w t j := by
  have hbn := Nat.mul_le_mul_right w hb
  by_cases hab : a ≤ b
  · have habw := Nat.mul_le_mul_right w hab
    apply List.ext_getElem?
    intro k
    rw [row_getElem?]
    by_cases hk : k < w
    · rw [if_pos hk, put_getElem? (by simp; omega)]
      simp only [List.length_replicate]
      by_cases hj : a ≤ j ∧ j < b
      · have h1 := Nat.mul_le_mul_right w hj.1
        have h2 := le_mul_of_lt (w := w) hj.2
        rw [Nat.succ_mul] at h2
        rw [if_pos ⟨by omega, by omega⟩, if_pos hj, List.getElem?_replicate, if_pos (by omega),
          List.getElem?_replicate, if_pos hk]
      · rw [if_neg hj, if_neg, row_getElem?, if_pos hk]
        rintro ⟨h1, h2⟩
        apply hj
        constructor
        · by_contra h3
          have := le_mul_of_lt (w := w) (show j < a by omega)
          rw [Nat.succ_mul] at this; omega
        · by_contra h3
          have := Nat.mul_le_mul_right w (show b ≤ j by omega)
          omega
    · rw [if_neg hk]
      symm
      split
      · rw [List.getElem?_replicate, if_neg hk]
      · rw [row_getElem?, if_neg hk]
  · have : b * w ≤ a * w := Nat.mul_le_mul_right w (by omega)
    rw [if_neg (by omega), show b * w - a * w = 0 by omega]
    simp [put]

theorem listOffset_laid {w n L : Nat} {t f offsets : List Int} (hw : 1 ≤ w)
    (ht : t.length = n * (w + 1)) (hf : f.length = L * w) (g : Nat → Nat)
    (hg : ∀ i, i ≤ L → offsets[i]? = some (g i : Int)) (hn : ∀ i, i ≤ L → g i ≤ n)
    (hm : ∀ i, i < L → g i ≤ g (i + 1)) :
    ∃ t', Identities_from_ListOffsetArray t f offsets n L w = ok t' ∧
      Laid w (w + 1) n (fun i j x => ∃ y, x = [y] ∧ i < L ∧ g i ≤ j ∧ j < g (i + 1) ∧ y = (j : Int) - g i)
        f t' := by
  unfold Identities_from_ListOffsetArray
  have hrd : ∀ i : Nat, i ≤ L → rd offsets (i : Int) = ok (g i : Int) := fun i hi =>
    rd_eq_ok.mpr ⟨by omega, by rw [Int.toNat_natCast]; exact hg i hi⟩
  have hrd0 := hrd 0 (by omega)
  rw [show ((0 : Nat) : Int) = 0 from rfl] at hrd0
  rw [hrd0, bind_ok, hrd L (Nat.le_refl L), bind_ok,
    show (g 0 : Int) * ((w : Int) + 1) = ((g 0 * (w + 1) : Nat) : Int) by push_cast; rfl,
    show (g L : Int) * ((w : Int) + 1) = ((g L * (w + 1) : Nat) : Int) by push_cast; rfl,
    show ((n : Int) * ((w : Int) + 1)) = ((n * (w + 1) : Nat) : Int) by push_cast; rfl]
  have e1 := minus_ok (a := 0 * (w + 1)) (b := g 0 * (w + 1)) (t := t) (by
    rw [ht]; exact Nat.mul_le_mul_right _ (hn 0 (by omega)))
  simp only [Nat.zero_mul, Int.natCast_zero, Nat.sub_zero] at e1
  have hl1 : (put t 0 (List.replicate (g 0 * (w + 1)) (-1))).length = n * (w + 1) := by
    rw [put_length, ht]
    simp; rw [ht]; exact Nat.mul_le_mul_right _ (hn 0 (by omega))
  rw [e1, bind_ok, minus_ok (by rw [hl1]), bind_ok]
  have hrow : ∀ j, row (w + 1) (put (put t 0 (List.replicate (g 0 * (w + 1)) (-1))) (g L * (w + 1))
      (List.replicate (n * (w + 1) - g L * (w + 1)) (-1))) j =
      if g L ≤ j ∧ j < n then List.replicate (w + 1) (-1)
      else if j < g 0 then List.replicate (w + 1) (-1) else row (w + 1) t j := by
    intro j
    rw [row_put_minus hl1 (Nat.le_refl n)]
    have := row_put_minus (a := 0) (b := g 0) (j := j) ht (hn 0 (by omega))
    simp only [Nat.zero_mul, Nat.sub_zero, Nat.zero_le, true_and] at this
    rw [this]
  have hl2 : (put (put t 0 (List.replicate (g 0 * (w + 1)) (-1))) (g L * (w + 1))
      (List.replicate (n * (w + 1) - g L * (w + 1)) (-1))).length = n * (w + 1) := by
    rw [put_length, hl1]
    have := Nat.mul_le_mul_right (w + 1) (hn L (Nat.le_refl L))
    simp; omega
  generalize put (put t 0 (List.replicate (g 0 * (w + 1)) (-1))) (g L * (w + 1))
      (List.replicate (n * (w + 1) - g L * (w + 1)) (-1)) = t2 at hrow hl2
  have hloop := forN_inv (n := L) (body := fun i t =>
      rd offsets i >>= fun start => rd offsets ((i : Int) + 1) >>= fun stop =>
      if start ≠ stop ∧ stop > n then err "max(stop) > len(content)" else
      forFrom start stop (fun j t => nestRow t f i j w (j - start)) t) (s := t2)
    (fun i s => s.length = n * (w + 1) ∧
      (∀ i', i' < i → ∀ j, g i' ≤ j → j < g (i' + 1) →
        row (w + 1) s j = row w f i' ++ [(j : Int) - g i']) ∧
      ∀ j, (j < g 0 ∨ g i ≤ j) → row (w + 1) s j = row (w + 1) t2 j)
    ⟨hl2, fun i' hi' => by omega, fun _ _ => rfl⟩ (by
      intro i hi s hs
      have hgi := hn (i + 1) (by omega)
      rw [hrd i (by omega), bind_ok, show (i : Int) + 1 = ((i + 1 : Nat) : Int) by push_cast; rfl,
        hrd (i + 1) (by omega), bind_ok, if_neg (by omega)]
      obtain ⟨l, hl⟩ : ∃ l, g (i + 1) = g i + l := ⟨g (i + 1) - g i, by have := hm i hi; omega⟩
      rw [hl, forFrom_nat]
      have h2 : (i + 1) * w ≤ f.length := by rw [hf]; exact le_mul_of_lt hi
      have h0i : g 0 ≤ g i := mono_of_step hm (by omega) (by omega)
      obtain ⟨s', e, hsl, h1, h3, h4⟩ := forN_inv (n := l)
        (body := fun k t => nestRow t f i ((g i + k : Nat) : Int) w (((g i + k : Nat) : Int) - g i)) (s := s)
        (fun k s => s.length = n * (w + 1) ∧
          (∀ i', i' < i → ∀ j, g i' ≤ j → j < g (i' + 1) →
            row (w + 1) s j = row w f i' ++ [(j : Int) - g i']) ∧
          (∀ j, g i ≤ j → j < g i + k → row (w + 1) s j = row w f i ++ [(j : Int) - g i]) ∧
          ∀ j, (j < g 0 ∨ g i + k ≤ j) → row (w + 1) s j = row (w + 1) t2 j)
        ⟨hs.1, hs.2.1, fun j h1 h2 => by omega, hs.2.2⟩ (by
          intro k hk s hs
          have hj : g i + k < n := by omega
          have h1 : (g i + k + 1) * (w + 1) ≤ s.length := by rw [hs.1]; exact le_mul_of_lt hj
          have hr : (row w f i ++ [((g i + k : Nat) : Int) - g i]).length = w + 1 := by
            simp [row_length h2]
          refine ⟨_, nestRow_ok h1 h2, ?_, ?_, ?_, ?_⟩
          · rw [put_length (by rw [hr]; rw [Nat.succ_mul] at h1; omega)]; exact hs.1
          · intro i' hi' j h3 h4
            have := mono_of_step hm (show i' + 1 ≤ i by omega) (by omega)
            rw [row_put hr h1, if_neg (by omega)]
            exact hs.2.1 i' hi' j h3 h4
          · intro j h3 h4
            rw [row_put hr h1]
            split
            · next h => rw [h]
            · exact hs.2.2.1 j h3 (by omega)
          · intro j h3
            rw [row_put hr h1, if_neg (by omega)]
            exact hs.2.2.2 j (by omega))
      refine ⟨s', e, hsl, ?_, ?_⟩
      · intro i' hi' j h5 h6
        rcases Nat.lt_or_ge i' i with h7 | h7
        · exact h1 i' h7 j h5 h6
        · have : i' = i := by omega
          subst this
          exact h3 j h5 (by omega)
      · intro j hj
        exact h4 j (by omega))
  obtain ⟨s, e, hsl, h1, h2⟩ := hloop
  refine ⟨s, e, Laid.of_lists hw hsl ?_ ?_ ?_⟩
  · rintro i j x ⟨hi, _⟩; rw [hf]; exact le_mul_of_lt hi
  · rintro i j x ⟨hi, h3, h4, rfl⟩; exact h1 i hi j h3 h4
  · intro j hj hno
    have hout : j < g 0 ∨ g L ≤ j := by
      by_contra h
      have h0 : g 0 ≤ j := by omega
      have hL : j < g L := by omega
      have : ∀ m, m ≤ L → g m ≤ j := by
        intro m
        induction m with
        | zero => intro _; exact h0
        | succ m ih =>
          intro hm'
          by_contra h3
          exact hno m _ ⟨by omega, ih (by omega), by omega, rfl⟩
      have := this L (Nat.le_refl L)
      omega
    rw [← row_first (by omega), h2 j hout, hrow]
    rcases hout with h | h
    · by_cases h3 : g L ≤ j ∧ j < n
      · rw [if_pos h3]; simp
      · rw [if_neg h3, if_pos h]; simp
    · rw [if_pos ⟨h, hj⟩]; simp

/-! ### Lists with starts and stops -/

/-- The table after the items of `Done` have been written. -/
structure NestInv (w n : Nat) (Done : Nat → Nat → Int → Prop) (f t : List Int) : Prop where
  len : t.length = n * (w + 1)
  done : ∀ i j x, Done i j x → 0 ≤ x ∧ (i + 1) * w ≤ f.length ∧ row (w + 1) t j = row w f i ++ [x]
  rest : ∀ j, j < n → (∀ i x, ¬ Done i j x) → row (w + 1) t j = List.replicate (w + 1) (-1)

theorem NestInv.check {w n : Nat} {Done : Nat → Nat → Int → Prop} {f t : List Int}
    (h : NestInv w n Done f t) {j : Nat} (hj : j < n) :
    ∃ x, rd t ((j : Int) * ((w : Int) + 1) + w) = ok x ∧ (x = -1 ↔ ∀ i y, ¬ Done i j y) := by
  have hb : j * (w + 1) + w < t.length := by
    have := le_mul_of_lt (w := w + 1) hj
    rw [h.len]; rw [Nat.succ_mul] at this; omega
  rw [show ((j : Int) * ((w : Int) + 1) + w) = ((j * (w + 1) + w : Nat) : Int) by push_cast; rfl,
    rd_nat_ok hb]
  refine ⟨_, rfl, ?_⟩
  have he : (row (w + 1) t j)[w]? = some t[j * (w + 1) + w] := by
    rw [row_getElem?, if_pos (by omega), List.getElem?_eq_getElem hb]
  constructor
  · intro hx i y hd
    obtain ⟨hy, hl, hr⟩ := h.done i j y hd
    rw [hr, hx, List.getElem?_append_right (by rw [row_length hl]), row_length hl] at he
    simp at he; omega
  · intro hno
    rw [h.rest j hj hno] at he
    simp at he
    exact he.symm

theorem NestInv.write {w n : Nat} {Done : Nat → Nat → Int → Prop} {f t : List Int}
    (h : NestInv w n Done f t) {i j : Nat} {x : Int} (hj : j < n) (hi : (i + 1) * w ≤ f.length)
    (hx : 0 ≤ x) (hno : ∀ i y, ¬ Done i j y) :
    ∃ t', nestRow t f i j w x = ok t' ∧
      NestInv w n (fun i' j' x' => Done i' j' x' ∨ (i' = i ∧ j' = j ∧ x' = x)) f t' := by
  have h1 : (j + 1) * (w + 1) ≤ t.length := by rw [h.len]; exact le_mul_of_lt hj
  have hr : (row w f i ++ [x]).length = w + 1 := by simp [row_length hi]
  refine ⟨_, nestRow_ok h1 hi, ?_, ?_, ?_⟩
  · rw [put_length (by rw [hr]; rw [Nat.succ_mul] at h1; omega)]; exact h.len
  · rintro i' j' x' (hd | ⟨rfl, rfl, rfl⟩)
    · refine ⟨(h.done _ _ _ hd).1, (h.done _ _ _ hd).2.1, ?_⟩
      rw [row_put hr h1, if_neg (by rintro rfl; exact hno _ _ hd)]
      exact (h.done _ _ _ hd).2.2
    · exact ⟨hx, hi, by rw [row_put hr h1, if_pos rfl]⟩
  · intro j' hj' hno'
    rw [row_put hr h1, if_neg (by rintro rfl; exact hno' _ _ (.inr ⟨rfl, rfl, rfl⟩))]
    exact h.rest j' hj' (fun i y hd => hno' i y (.inl hd))

theorem NestInv.congr {w n : Nat} {D D' : Nat → Nat → Int → Prop} {f t : List Int}
    (h : NestInv w n D f t) (he : ∀ i j x, D' i j x ↔ D i j x) : NestInv w n D' f t :=
  ⟨h.len, fun i j x hd => h.done i j x ((he i j x).mp hd),
   fun j hj hno => h.rest j hj (fun i x hd => hno i x ((he i j x).mpr hd))⟩

theorem listArray_laid {w n L : Nat} {t f starts stops : List Int} (hw : 1 ≤ w)
    (ht : t.length = n * (w + 1)) (hf : f.length = L * w) (hs1 : L ≤ starts.length)
    (hs2 : L ≤ stops.length)
    (hp : ∀ i (h : i < L), GoodPair starts[i] stops[i] n) :
    let D : Nat → Nat → Int → Prop := fun i j y => ∃ s e : Int, i < L ∧ starts[i]? = some s ∧
      stops[i]? = some e ∧ s ≤ j ∧ j < e ∧ y = (j : Int) - s
    ∃ t' u, Identities_from_ListArray t f starts stops n L w = ok (t', u) ∧
      (u = true → Laid w (w + 1) n (fun i j x => ∃ y, x = [y] ∧ D i j y) f t') ∧
      (u = false → ∃ i i' j y y', i ≠ i' ∧ D i j y ∧ D i' j y') := by
  intro D
  unfold Identities_from_ListArray
  rw [fillMinus_ok ht, bind_ok]
  let D' : Nat → Nat → Nat → Nat → Int → Prop := fun m l i j y =>
    D i j y ∧ (i < m ∨ (i = m ∧ ∃ s : Int, starts[m]? = some s ∧ (j : Int) < s + l))
  let P : Nat → Nat → List Int × Bool → Prop := fun m l st =>
    (st.2 = true → NestInv w n (D' m l) f st.1) ∧
      (st.2 = false → ∃ i i' j y y', i ≠ i' ∧ D i j y ∧ D i' j y')
  have hD : ∀ i j y, D i j y → i < L := by rintro i j y ⟨s, e, hi, _⟩; exact hi
  have hloop := forN_inv (n := L) (body := fun i (st : List Int × Bool) =>
      if st.2 = false then ok st else
      rd starts i >>= fun start => rd stops i >>= fun stop =>
      if start ≠ stop ∧ stop > n then err "max(stop) > len(content)" else
      forFrom start stop (fun j (st : List Int × Bool) =>
        if st.2 = false then ok st else
        rd st.1 (j * (w + 1) + w) >>= fun x =>
        if x ≠ -1 then ok (st.1, false) else
        nestRow st.1 f i j w (j - start) >>= fun t => ok (t, true)) st)
    (s := (List.replicate (n * (w + 1)) (-1), true)) (fun m st => P m 0 st)
    (by
      refine ⟨fun _ => ⟨by simp, ?_, fun j hj _ => row_minus hj⟩, by simp⟩
      rintro i j y ⟨⟨s, e, hi, h1, h2, h3, h4, h5⟩, h6 | ⟨rfl, s', h6, h7⟩⟩
      · omega
      · rw [h1] at h6; cases h6; omega)
    (by
      rintro i hi ⟨s, u⟩ hP
      cases u with
      | false => exact ⟨(s, false), by simp, ⟨by simp, hP.2⟩⟩
      | true =>
        have hsi : i < starts.length := by omega
        have hei : i < stops.length := by omega
        simp only [Bool.true_eq_false, if_false]
        rw [rd_nat_ok hsi, bind_ok, rd_nat_ok hei, bind_ok]
        have hpi := hp i hi
        have hfi : (i + 1) * w ≤ f.length := by rw [hf]; exact le_mul_of_lt hi
        have hs1i : starts[i]? = some starts[i] := List.getElem?_eq_getElem hsi
        have hs2i : stops[i]? = some stops[i] := List.getElem?_eq_getElem hei
        rw [if_neg (by rcases hpi with h | h <;> omega)]
        rcases hpi with heq | ⟨h0, hle, hen⟩
        · rw [heq]
          unfold forFrom
          rw [Int.sub_self, Int.toNat_zero, forN_zero]
          refine ⟨_, rfl, ?_, by simp⟩
          intro _
          refine (hP.1 rfl).congr ?_
          intro i' j y
          constructor
          · rintro ⟨hd, h6⟩
            refine ⟨hd, ?_⟩
            obtain ⟨s', e', hi', h1, h2, h3, h4, h5⟩ := hd
            rcases h6 with h6 | ⟨rfl, s'', h6, h7⟩
            · left
              by_contra h7
              have : i' = i := by omega
              subst this
              rw [hs1i] at h1; rw [hs2i] at h2; cases h1; cases h2; omega
            · rw [h1] at h6; cases h6; omega
          · rintro ⟨hd, h6⟩
            refine ⟨hd, .inl ?_⟩
            rcases h6 with h6 | ⟨rfl, _⟩ <;> omega
        · obtain ⟨a, ha⟩ : ∃ a : Nat, starts[i] = (a : Int) := ⟨starts[i].toNat, by omega⟩
          obtain ⟨l, hl⟩ : ∃ l : Nat, stops[i] = ((a + l : Nat) : Int) := ⟨(stops[i] - a).toNat, by omega⟩
          rw [ha, hl, forFrom_nat]
          rw [ha] at hs1i
          rw [hl] at hs2i
          obtain ⟨st', e, hst⟩ := forN_inv (n := l) (body := fun k (st : List Int × Bool) =>
              if st.2 = false then ok st else
              rd st.1 (((a + k : Nat) : Int) * (w + 1) + w) >>= fun x =>
              if x ≠ -1 then ok (st.1, false) else
              nestRow st.1 f i ((a + k : Nat) : Int) w (((a + k : Nat) : Int) - (a : Int)) >>= fun t =>
                ok (t, true)) (s := (s, true)) (fun k st => P i k st) hP (by
            rintro k hk ⟨s, u⟩ hP
            cases u with
            | false => exact ⟨(s, false), by simp, ⟨by simp, hP.2⟩⟩
            | true =>
              simp only [Bool.true_eq_false, if_false]
              have hinv := hP.1 rfl
              obtain ⟨x, ex, hx⟩ := hinv.check (j := a + k) (by omega)
              rw [ex, bind_ok]
              have hd0 : D i (a + k) (((a + k : Nat) : Int) - (a : Int)) :=
                ⟨a, ((a + l : Nat) : Int), hi, hs1i, hs2i, by omega, by omega, rfl⟩
              by_cases hx1 : x = -1
              · obtain ⟨t', et, hinv'⟩ := hinv.write (i := i) (x := ((a + k : Nat) : Int) - (a : Int))
                  (show a + k < n by omega) hfi (by omega) (hx.mp hx1)
                rw [if_neg (by simpa using hx1), et, bind_ok]
                refine ⟨_, rfl, fun _ => hinv'.congr ?_, by simp⟩
                intro i' j y
                constructor
                · rintro ⟨hd, h6⟩
                  rcases h6 with h6 | ⟨rfl, s', h6, h7⟩
                  · exact .inl ⟨hd, .inl h6⟩
                  · rw [hs1i] at h6; cases h6
                    by_cases hjk : (j : Int) < (a : Int) + k
                    · exact .inl ⟨hd, .inr ⟨rfl, a, hs1i, hjk⟩⟩
                    · obtain ⟨s', e', hi', h1, h2, h3, h4, h5⟩ := hd
                      rw [hs1i] at h1; cases h1
                      have : j = a + k := by push_cast at h7; omega
                      exact .inr ⟨rfl, this, by rw [h5, this]⟩
                · rintro (⟨hd, h6⟩ | ⟨rfl, rfl, rfl⟩)
                  · refine ⟨hd, ?_⟩
                    rcases h6 with h6 | ⟨rfl, s', h6, h7⟩
                    · exact .inl h6
                    · exact .inr ⟨rfl, s', h6, by push_cast; omega⟩
                  · exact ⟨hd0, .inr ⟨rfl, a, hs1i, by push_cast; omega⟩⟩
              · rw [if_pos (by simpa using hx1)]
                refine ⟨_, rfl, by simp, fun _ => ?_⟩
                have : ∃ i' y, D' i k i' (a + k) y := by
                  by_contra hno
                  exact hx1 (hx.mpr (fun i' y hd => hno ⟨i', y, hd⟩))
                obtain ⟨i', y, hd, h6⟩ := this
                refine ⟨i', i, a + k, y, _, ?_, hd, hd0⟩
                rcases h6 with h6 | ⟨rfl, s', h6, h7⟩
                · omega
                · rw [hs1i] at h6; cases h6; push_cast at h7; omega)
          refine ⟨st', e, ?_, hst.2⟩
          intro hu
          refine (hst.1 hu).congr ?_
          intro i' j y
          constructor
          · rintro ⟨hd, h6⟩
            refine ⟨hd, ?_⟩
            obtain ⟨s', e', hi', h1, h2, h3, h4, h5⟩ := hd
            rcases h6 with h6 | ⟨rfl, s'', h6, h7⟩
            · by_cases h7 : i' < i
              · exact .inl h7
              · have : i' = i := by omega
                subst this
                rw [hs2i] at h2; cases h2
                exact .inr ⟨rfl, a, hs1i, by push_cast at h4; omega⟩
            · rw [h1] at h6; cases h6; omega
          · rintro ⟨hd, h6⟩
            refine ⟨hd, .inl ?_⟩
            rcases h6 with h6 | ⟨rfl, _⟩ <;> omega)
  obtain ⟨⟨s, u⟩, e, h1, h2⟩ := hloop
  refine ⟨s, u, e, ?_, h2⟩
  intro hu
  have hinv := h1 hu
  refine Laid.of_lists hw hinv.len ?_ ?_ ?_
  · intro i j x hd; rw [hf]; exact le_mul_of_lt (hD _ _ _ hd)
  · intro i j x hd; exact (hinv.done i j x ⟨hd, .inl (hD _ _ _ hd)⟩).2.2
  · intro j hj hno
    rw [← row_first (by omega), hinv.rest j hj (fun i x hd => hno i x hd.1)]
    simp

end Awk
