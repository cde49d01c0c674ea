import Verif.Lemmas.IdLists
/-
The tables that the kernels of row identities make for indexed contents, contents of unions and
masked contents.
-/

namespace Awk
open R

/-- One step of the kernels for indexed arrays and unions: row `i` goes to row `g i`. -/
def placeStep (f : List Int) (w : Nat) (g : Nat → Option Nat) (i : Nat) (st : List Int × Bool) :
    R (List Int × Bool) :=
  if st.2 = false then ok st else
  match g i with
  | none => ok st
  | some j =>
    rd st.1 ((j : Int) * w) >>= fun x =>
    if x ≠ -1 then ok (st.1, false) else
    copyRow st.1 f ((j : Int) * w) ((i : Int) * w) w >>= fun t => ok (t, true)

theorem place_laid {w n L : Nat} {t f : List Int} (hw : 1 ≤ w) (hf : f.length = L * w)
    (ht : t = List.replicate (n * w) (-1)) (g : Nat → Option Nat)
    (hg : ∀ i j, i < L → g i = some j → j < n) :
    let D : Nat → Nat → Prop := fun i j => i < L ∧ g i = some j
    ∃ t' u, forN L (placeStep f w g) (t, true) = ok (t', u) ∧
      (u = true → Laid w w n (fun i j x => x = [] ∧ D i j) f t') ∧
      (u = false → ∃ i i' j, i ≠ i' ∧ D i j ∧ D i' j) := by
  intro D
  have hloop := forN_inv (n := L) (body := placeStep f w g) (s := (t, true))
    (fun m st => (st.2 = true → Laid w w n (fun i j x => x = [] ∧ D i j ∧ i < m) f st.1) ∧
      (st.2 = false → ∃ i i' j, i ≠ i' ∧ D i j ∧ D i' j))
    (by
      refine ⟨fun _ => ⟨by rw [ht]; simp, ?_, ?_⟩, by simp⟩
      · rintro i j x ⟨_, _, h⟩; omega
      · intro j hj _
        show t[j * w]? = _
        rw [ht, ← row_first hw, row_minus hj, List.getElem?_replicate, if_pos (by omega)])
    (by
      rintro m hm ⟨s, u⟩ hP
      unfold placeStep
      cases u with
      | false => exact ⟨(s, false), by simp, by simp, hP.2⟩
      | true =>
        simp only [Bool.true_eq_false, if_false]
        have hL := hP.1 rfl
        cases hgm : g m with
        | none =>
          refine ⟨_, rfl, fun _ => ⟨hL.len, ?_, ?_⟩, by simp⟩
          · rintro i j x ⟨hx, hd, hi⟩
            refine hL.here i j x ⟨hx, hd, ?_⟩
            by_contra h
            have : i = m := by omega
            subst this
            rw [hd.2] at hgm; cases hgm
          · intro j hj hno
            exact hL.gone j hj (fun i x ⟨hx, hd, hi⟩ => hno i x ⟨hx, hd, by omega⟩)
        | some j =>
          have hj := hg m j hm hgm
          have hb := le_mul_of_lt (w := w) hj
          rw [Nat.succ_mul] at hb
          have hsl : s.length = n * w := hL.len
          have hjl : j * w < s.length := by omega
          have hmf : (m + 1) * w ≤ f.length := by rw [hf]; exact le_mul_of_lt hm
          have hmf' : m * w + w ≤ f.length := by rw [Nat.succ_mul] at hmf; exact hmf
          have ejw : (j : Int) * (w : Int) = ((j * w : Nat) : Int) := by push_cast; rfl
          have ecopy := copyRow_ok (t := s) (f := f) (a := j * w) (b := m * w) ejw
            (show (m : Int) * (w : Int) = ((m * w : Nat) : Int) by push_cast; rfl) (by omega) hmf'
          dsimp only
          rw [show rd s ((j : Int) * (w : Int)) = ok s[j * w] by rw [ejw, rd_nat_ok hjl], bind_ok]
          by_cases hx : s[j * w] = -1
          · rw [if_neg (by simpa using hx), ecopy, bind_ok]
            have hr : ((f.drop (m * w)).take w).length = w := row_length hmf
            have hrow := row_put hr (show (j + 1) * w ≤ s.length by rw [hsl]; exact le_mul_of_lt hj)
            refine ⟨_, rfl, fun _ => ⟨?_, ?_, ?_⟩, by simp⟩
            · rw [put_length (by rw [hr]; omega)]; exact hL.len
            · rintro i j' x ⟨rfl, hd, hi⟩ hlive
              rw [hrow, List.append_nil]
              by_cases hjj : j' = j
              · subst hjj
                rw [if_pos rfl]
                have : i = m := by
                  by_contra hne
                  have := hL.here i j' [] ⟨rfl, hd, by omega⟩ hlive
                  rw [List.append_nil] at this
                  have h2 := congrArg (·[0]?) this
                  simp only [row_first hw] at h2
                  rw [List.getElem?_eq_getElem hjl, hx] at h2
                  exact hlive h2.symm
                rw [this]; rfl
              · rw [if_neg hjj]
                have := hL.here i j' [] ⟨rfl, hd, by
                  by_contra h
                  have : i = m := by omega
                  subst this
                  have := hd.2
                  rw [hgm] at this; cases this; exact hjj rfl⟩ hlive
                rw [List.append_nil] at this
                exact this
            · intro j' hj' hno
              rw [← row_first hw, hrow]
              by_cases hjj : j' = j
              · subst hjj
                rw [if_pos rfl]
                have := hno m [] ⟨rfl, ⟨hm, hgm⟩, by omega⟩
                exact (row_first hw f m).trans (not_not.mp this)
              · rw [if_neg hjj, row_first hw]
                exact hL.gone j' hj' (fun i x ⟨hx, hd, hi⟩ => hno i x ⟨hx, hd, by omega⟩)
          · rw [if_pos (by simpa using hx)]
            refine ⟨_, rfl, by simp, fun _ => ?_⟩
            have : ∃ i, D i j ∧ i < m := by
              by_contra hno
              have := hL.gone j hj (fun i x ⟨_, hd, hi⟩ => absurd ⟨i, hd, hi⟩ hno)
              dsimp only at this
              rw [List.getElem?_eq_getElem hjl] at this
              exact hx (by simpa using this)
            obtain ⟨i, hd, hi⟩ := this
            exact ⟨i, m, j, by omega, hd, hm, hgm⟩)
  obtain ⟨⟨s, u⟩, e, h1, h2⟩ := hloop
  refine ⟨s, u, e, fun hu => ⟨(h1 hu).len, ?_, ?_⟩, h2⟩
  · rintro i j x ⟨hx, hd⟩ hl
    exact (h1 hu).here i j x ⟨hx, hd, hd.1⟩ hl
  · intro j hj hno
    exact (h1 hu).gone j hj (fun i x ⟨hx, hd, _⟩ => hno i x ⟨hx, hd⟩)

theorem indexed_laid {w n L : Nat} {t f index : List Int} (hw : 1 ≤ w) (ht : t.length = n * w)
    (hf : f.length = L * w) (hl : L ≤ index.length) (hi : ∀ i (h : i < L), index[i] < n) :
    let D : Nat → Nat → Prop := fun i j => i < L ∧ index[i]? = some (j : Int)
    ∃ t' u, Identities_from_IndexedArray t f index n L w = ok (t', u) ∧
      (u = true → Laid w w n (fun i j x => x = [] ∧ D i j) f t') ∧
      (u = false → ∃ i i' j, i ≠ i' ∧ D i j ∧ D i' j) := by
  intro D
  unfold Identities_from_IndexedArray
  rw [fillMinus_ok ht, bind_ok]
  let g : Nat → Option Nat := fun i => (index[i]?).bind (fun x => if x < 0 then none else some x.toNat)
  have hg : ∀ i j, i < L → (g i = some j ↔ index[i]? = some (j : Int)) := by
    intro i j h
    have : i < index.length := by omega
    simp only [g]
    rw [List.getElem?_eq_getElem this, Option.bind_some]
    by_cases hn : index[i] < 0
    · rw [if_pos hn]; simp; omega
    · rw [if_neg hn]; simp; omega
  have e : forN L (fun i (st : List Int × Bool) =>
      if st.2 = false then ok st else
      rd index i >>= fun j =>
      if j ≥ n then err "max(index) > len(content)" else
      if j ≥ 0 then
        rd st.1 (j * w) >>= fun x =>
        if x ≠ -1 then ok (st.1, false) else
        copyRow st.1 f (j * w) (i * w) w >>= fun t => ok (t, true)
      else ok st) (List.replicate (n * w) (-1), true)
      = forN L (placeStep f w g) (List.replicate (n * w) (-1), true) := by
    apply forN_congr
    intro i h st
    unfold placeStep
    have hin : i < index.length := by omega
    have := hi i h
    by_cases hu : st.2 = false
    · rw [if_pos hu, if_pos hu]
    · rw [if_neg hu, if_neg hu, rd_nat_ok hin, bind_ok, if_neg (by omega)]
      by_cases hn : index[i] < 0
      · have : g i = none := by simp only [g]; rw [List.getElem?_eq_getElem hin, Option.bind_some, if_pos hn]
        rw [if_neg (by omega), this]
      · have : g i = some index[i].toNat := by
          simp only [g]; rw [List.getElem?_eq_getElem hin, Option.bind_some, if_neg hn]
        rw [if_pos (by omega), this]
        dsimp only
        rw [Int.toNat_of_nonneg (by omega)]
  rw [e]
  obtain ⟨t', u, e', h1, h2⟩ := place_laid (n := n) hw hf rfl g (fun i j h hgi => by
    have := (hg i j h).mp hgi
    rw [List.getElem?_eq_getElem (show i < index.length by omega)] at this
    have h3 := hi i h
    simp at this; omega)
  refine ⟨t', u, e', fun hu => ⟨(h1 hu).len, ?_, ?_⟩, ?_⟩
  · rintro i j x ⟨hx, hl, hd⟩
    exact (h1 hu).here i j x ⟨hx, hl, (hg i j hl).mpr hd⟩
  · intro j hj hno
    exact (h1 hu).gone j hj (fun i x ⟨hx, hl, hd⟩ => hno i x ⟨hx, hl, (hg i j hl).mp hd⟩)
  · intro hu
    obtain ⟨i, i', j, hne, ⟨a1, a2⟩, b1, b2⟩ := h2 hu
    exact ⟨i, i', j, hne, ⟨a1, (hg i j a1).mp a2⟩, b1, (hg i' j b1).mp b2⟩

theorem union_laid {w n L which : Nat} {t f tags index : List Int} (hw : 1 ≤ w) (ht : t.length = n * w)
    (hf : f.length = L * w) (hl1 : L ≤ tags.length) (hl2 : L ≤ index.length)
    (hi : ∀ i (h : i < L), tags[i] = (which : Int) → 0 ≤ index[i] ∧ index[i] < n) :
    let D : Nat → Nat → Prop := fun i j => i < L ∧ tags[i]? = some (which : Int) ∧ index[i]? = some (j : Int)
    ∃ t' u, Identities_from_UnionArray t f tags index n L w which = ok (t', u) ∧
      (u = true → Laid w w n (fun i j x => x = [] ∧ D i j) f t') ∧
      (u = false → ∃ i i' j, i ≠ i' ∧ D i j ∧ D i' j) := by
  intro D
  unfold Identities_from_UnionArray
  rw [fillMinus_ok ht, bind_ok]
  let g : Nat → Option Nat := fun i => if tags[i]? = some (which : Int) then (index[i]?).map Int.toNat else none
  have hg : ∀ i j, i < L → (g i = some j ↔ tags[i]? = some (which : Int) ∧ index[i]? = some (j : Int)) := by
    intro i j h
    have h1 : i < index.length := by omega
    have h2 : i < tags.length := by omega
    simp only [g]
    by_cases hn : tags[i]? = some (which : Int)
    · have := hi i h (by rw [List.getElem?_eq_getElem h2] at hn; simpa using hn)
      rw [if_pos hn, List.getElem?_eq_getElem h1, Option.map_some]
      simp [hn]; omega
    · rw [if_neg hn]; simp [hn]
  have e : forN L (fun i (st : List Int × Bool) =>
      if st.2 = false then ok st else
      rd tags i >>= fun tag =>
      if tag = which then
        rd index i >>= fun j =>
        if j ≥ n then err "max(index) > len(content)" else
        if j < 0 then err "min(index) < 0" else
        rd st.1 (j * w) >>= fun x =>
        if x ≠ -1 then ok (st.1, false) else
        copyRow st.1 f (j * w) (i * w) w >>= fun t => ok (t, true)
      else ok st) (List.replicate (n * w) (-1), true)
      = forN L (placeStep f w g) (List.replicate (n * w) (-1), true) := by
    apply forN_congr
    intro i h st
    unfold placeStep
    have h1 : i < index.length := by omega
    have h2 : i < tags.length := by omega
    by_cases hu : st.2 = false
    · rw [if_pos hu, if_pos hu]
    · rw [if_neg hu, if_neg hu, rd_nat_ok h2, bind_ok]
      by_cases hn : tags[i] = (which : Int)
      · have hb := hi i h hn
        have : g i = some index[i].toNat := by
          simp only [g]
          rw [if_pos (by rw [List.getElem?_eq_getElem h2, hn]), List.getElem?_eq_getElem h1, Option.map_some]
        rw [if_pos hn, rd_nat_ok h1, bind_ok, if_neg (by omega), if_neg (by omega), this]
        dsimp only
        rw [Int.toNat_of_nonneg (by omega)]
      · have : g i = none := by
          simp only [g]
          rw [if_neg (by rw [List.getElem?_eq_getElem h2]; simpa using hn)]
        rw [if_neg hn, this]
  rw [e]
  obtain ⟨t', u, e', h1, h2⟩ := place_laid (n := n) hw hf rfl g (fun i j h hgi => by
    obtain ⟨h3, h4⟩ := (hg i j h).mp hgi
    rw [List.getElem?_eq_getElem (show i < tags.length by omega)] at h3
    rw [List.getElem?_eq_getElem (show i < index.length by omega)] at h4
    have h5 := hi i h (by simpa using h3)
    simp at h4; omega)
  refine ⟨t', u, e', fun hu => ⟨(h1 hu).len, ?_, ?_⟩, ?_⟩
  · rintro i j x ⟨hx, hl, hd⟩
    exact (h1 hu).here i j x ⟨hx, hl, (hg i j hl).mpr hd⟩
  · intro j hj hno
    exact (h1 hu).gone j hj (fun i x ⟨hx, hl, hd⟩ => hno i x ⟨hx, hl, (hg i j hl).mp hd⟩)
  · intro hu
    obtain ⟨i, i', j, hne, ⟨a1, a2⟩, b1, b2⟩ := h2 hu
    exact ⟨i, i', j, hne, ⟨a1, (hg i j a1).mp a2⟩, b1, (hg i' j b1).mp b2⟩

theorem extend_laid {n L : Nat} {t f : List Int} (ht : t.length = n) (hf : f.length = L) (hl : L ≤ n) :
    ∃ t', Identities_extend t f L n = ok t' ∧
      Laid 1 1 n (fun i j x => x = [] ∧ i < L ∧ i = j) f t' := by
  unfold Identities_extend
  rw [forN_fill0 _ t (by omega), mapN_ok' (fun i => f.getD i 0) (fun i hi => by
    rw [rd_nat_ok (by omega), List.getD_eq_getElem?_getD, List.getElem?_eq_getElem (by omega)]; rfl),
    bind_ok, bind_ok]
  have ef : (List.range L).map (fun i => f.getD i 0) = f := by
    apply List.ext_getElem?
    intro k
    rw [List.getElem?_map]
    by_cases hk : k < L
    · rw [List.getElem?_range hk, Option.map_some, List.getD_eq_getElem?_getD,
        List.getElem?_eq_getElem (by omega)]; rfl
    · rw [List.getElem?_eq_none (by simp; omega), List.getElem?_eq_none (by omega)]; rfl
  rw [ef, minus_ok (by simp; omega)]
  have et : put (f ++ t.drop L) L (List.replicate (n - L) (-1)) = f ++ List.replicate (n - L) (-1) := by
    unfold put
    rw [List.take_append_of_le_length (by omega), List.take_of_length_le (by omega),
      List.drop_eq_nil_of_le (by simp; omega), List.append_nil]
  rw [et]
  refine ⟨_, rfl, by simp [hf]; omega, ?_, ?_⟩
  · rintro i j x ⟨rfl, hi, rfl⟩ _
    rw [List.append_nil]
    apply List.ext_getElem?
    intro k
    rw [row_getElem?, row_getElem?]
    split
    · rw [List.getElem?_append_left (by omega)]
    · rfl
  · intro j hj hno
    rw [Nat.mul_one]
    by_cases hjl : j < L
    · have := hno j [] ⟨rfl, hjl, rfl⟩
      unfold Live at this
      rw [Nat.mul_one] at this
      rw [List.getElem?_append_left (by omega)]
      exact not_not.mp this
    · rw [List.getElem?_append_right (by omega), List.getElem?_replicate, if_pos (by omega)]

theorem new_ok {n : Nat} {t : List Int} (ht : t.length = n) :
    new_Identities t n = ok ((List.range n).map (fun (i : Nat) => (i : Int))) := by
  unfold new_Identities
  have := forN_fill_eq (n := n) (f := fun i => ok (i : Int)) (fun i => (i : Int)) ht (fun _ _ => rfl)
  simp only [bind_ok] at this
  exact this

end Awk
