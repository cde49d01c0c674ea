import Verif.Lemmas.JaggedLists
/-
Ragged slices with missing positions.
-/

namespace Awk
open R Spec

theorem missing_get {q : Nat → Option Int} {N j : Nat} (h : j < N) :
    rd (outIndex q N) (j : Int) = ok (if (q j).isSome then (cnt q j : Int) else -1) := by
  rw [rd_nat_ok (by simpa using h), outIndex_getElem]

theorem forFrom_nat {s l : Nat} (body : Int → σ → R σ) (st : σ) :
    forFrom (s : Int) ((s + l : Nat) : Int) body st
      = forN l (fun i => body ((s + i : Nat) : Int)) st := by
  unfold forFrom
  rw [show (((s + l : Nat) : Int) - (s : Int)).toNat = l by omega]
  congr 1

/-- The number of positions that are not missing in each list. -/
def validIn (q : Nat → Option Int) (g : Nat → Nat) (i : Nat) : Nat :=
  cnt q (sumTo g (i + 1)) - cnt q (sumTo g i)

theorem sumTo_validIn (q : Nat → Option Int) (g : Nat → Nat) (n : Nat) :
    sumTo (validIn q g) n = cnt q (sumTo g n) := by
  induction n with
  | zero => simp [cnt]
  | succ n ih =>
    have := cnt_mono (q := q) (sumTo_mono (f := g) (show n ≤ n + 1 by omega))
    rw [sumTo_succ, ih, validIn]; omega

section
variable {q : Nat → Option Int} {g : Nat → Nat} {M N : Nat}

theorem offs_get (hN : sumTo g M = N) {i : Nat} (hi : i < M) :
    rd (Content.makeStarts (offsTo g M)) (i : Int) = ok ((sumTo g i : Nat) : Int) ∧
    rd (Content.makeStops (offsTo g M)) (i : Int) = ok ((sumTo g i + g i : Nat) : Int) ∧
    sumTo g i + g i ≤ N := by
  obtain ⟨q1, q2, q3, q4⟩ := Content.offsTo_make (f := g) (N := M) (l := N) (by omega)
  obtain ⟨h', e1, e2, _⟩ := q1.eq (i := i) (by omega)
  have e3 := sumTo_mono (f := g) (show i + 1 ≤ M by omega)
  rw [sumTo_succ] at e3
  refine ⟨?_, ?_, by omega⟩
  · rw [rd_nat_ok (by omega), e1, (q4 i hi).1]
  · rw [rd_nat_ok h', e2, (q4 i hi).1, (q4 i hi).2]; simp

theorem numvalid_ok (hN : sumTo g M = N) :
    ListArray_getitem_jagged_numvalid (Content.makeStarts (offsTo g M))
      (Content.makeStops (offsTo g M)) M (outIndex q N) N = ok (cnt q N) := by
  unfold ListArray_getitem_jagged_numvalid
  have inner : ∀ s l, s + l ≤ N → forN l (fun i (numvalid : Nat) =>
      rd (outIndex q N) ((s + i : Nat) : Int) >>= fun m => ok (numvalid + if m ≥ 0 then 1 else 0))
      (cnt q s) = ok (cnt q (s + l)) := by
    intro s l
    induction l with
    | zero => intro _; simp
    | succ l ih =>
      intro hl
      rw [forN_succ, ih (by omega), bind_ok, missing_get (by omega), bind_ok, ← Nat.add_assoc,
        cnt_succ]
      by_cases hq : (q (s + l)).isSome <;> simp [hq]
  suffices key : ∀ m, m ≤ M → forN m (fun i (numvalid : Nat) =>
      rd (Content.makeStarts (offsTo g M)) i >>= fun slicestart =>
      rd (Content.makeStops (offsTo g M)) i >>= fun slicestop =>
      if slicestart ≠ slicestop then
        if slicestop < slicestart then err "jagged slice's stops[i] < starts[i]" else
        if slicestop > N then err "jagged slice's offsets extend beyond its content" else
        forFrom slicestart slicestop (fun j numvalid =>
          rd (outIndex q N) j >>= fun m => ok (numvalid + if m ≥ 0 then 1 else 0)) numvalid
      else ok numvalid) 0 = ok (cnt q (sumTo g m)) by
    rw [key M (Nat.le_refl _), hN]
  intro m
  induction m with
  | zero => intro _; simp [cnt]
  | succ m ih =>
    intro hm
    obtain ⟨h1, h2, h3⟩ := offs_get (g := g) (M := M) hN (i := m) (by omega)
    rw [forN_succ, ih (by omega), bind_ok, h1, bind_ok, h2, bind_ok, sumTo_succ]
    by_cases h0 : g m = 0
    · rw [if_neg (by omega), h0]; rfl
    · rw [if_pos (by omega), if_neg (by omega), if_neg (by omega), forFrom_nat, inner _ _ h3]

theorem shrink_ok (hN : sumTo g M = N) {c0 s0 l0 : List Int} (hc : c0.length = cnt q N)
    (hs : s0.length = M + 1) (hl : l0.length = M + 1) :
    ∃ carry, ListArray_getitem_jagged_shrink c0 s0 l0 (Content.makeStarts (offsTo g M))
      (Content.makeStops (offsTo g M)) M (outIndex q N)
      = ok (carry, offsTo (validIn q g) M, offsTo g M) := by
  unfold ListArray_getitem_jagged_shrink
  have hfirst : (if M = 0 then
      wr s0 0 0 >>= fun tosmall => wr l0 0 0 >>= fun tolarge => ok (tosmall, tolarge)
    else
      rd (Content.makeStarts (offsTo g M)) 0 >>= fun s =>
      wr s0 0 s >>= fun tosmall => wr l0 0 s >>= fun tolarge => ok (tosmall, tolarge))
      = ok (s0.set 0 0, l0.set 0 0) := by
    split
    · rw [wr_ok (by omega) (by omega), bind_ok, wr_ok (by omega) (by omega), bind_ok]; rfl
    · have h1 := (offs_get (g := g) (M := M) hN (i := 0) (by omega)).1
      have h2 : rd (Content.makeStarts (offsTo g M)) 0 = ok 0 := by simpa using h1
      rw [h2, bind_ok, wr_ok (by omega) (by omega), bind_ok, wr_ok (by omega) (by omega), bind_ok]
      rfl
  rw [hfirst, bind_ok]
  have inner : ∀ s l (carry : List Int), carry.length = cnt q N → s + l ≤ N → ∃ carry' : List Int,
      carry'.length = cnt q N ∧
      forN l (fun i (cks : (List Int × Nat) × Int) =>
        rd (outIndex q N) ((s + i : Nat) : Int) >>= fun m =>
        if m ≥ 0 then
          wr cks.1.1 (cks.1.2 : Int) ((s + i : Nat) : Int) >>= fun tocarry =>
            ok ((tocarry, cks.1.2 + 1), cks.2 + 1)
        else ok cks) ((carry, cnt q s), 0)
        = ok ((carry', cnt q (s + l)), (cnt q (s + l) : Int) - (cnt q s : Int)) := by
    intro s l carry hcl
    induction l with
    | zero => intro _; exact ⟨carry, hcl, by simp⟩
    | succ l ih =>
      intro hl
      obtain ⟨carry', i1, i2⟩ := ih (by omega)
      rw [forN_succ, i2, bind_ok, missing_get (by omega), bind_ok, ← Nat.add_assoc, cnt_succ]
      by_cases hq : (q (s + l)).isSome
      · have hlt : cnt q (s + l) < carry'.length := by
          have := cnt_mono (q := q) (show s + l + 1 ≤ N by omega)
          rw [cnt_succ, if_pos hq] at this; omega
        simp only [if_pos hq]
        rw [if_pos (by omega), wr_nat_ok hlt, bind_ok]
        refine ⟨carry'.set (cnt q (s + l)) ((s + l : Nat) : Int), by simpa using i1, ?_⟩
        congr 2; omega
      · simp only [if_neg hq]
        rw [if_neg (by omega)]
        exact ⟨carry', i1, rfl⟩
  suffices key : ∀ m, m ≤ M → ∃ carry small large : List Int,
      forN m (fun i (st : (List Int × Nat) × List Int × List Int) =>
        rd (Content.makeStarts (offsTo g M)) i >>= fun slicestart =>
        rd (Content.makeStops (offsTo g M)) i >>= fun slicestop =>
        rd st.2.1 i >>= fun small => rd st.2.2 i >>= fun large =>
        (if slicestart ≠ slicestop then
          forFrom slicestart slicestop (fun j (cks : (List Int × Nat) × Int) =>
            rd (outIndex q N) j >>= fun m =>
            if m ≥ 0 then
              wr cks.1.1 (cks.1.2 : Int) j >>= fun tocarry => ok ((tocarry, cks.1.2 + 1), cks.2 + 1)
            else ok cks) (st.1, 0) >>= fun cks => ok (cks.1, small + cks.2)
        else ok (st.1, small)) >>= fun cs =>
        wr st.2.1 ((i + 1 : Nat) : Int) cs.2 >>= fun tosmall =>
        wr st.2.2 ((i + 1 : Nat) : Int) (large + (slicestop - slicestart)) >>= fun tolarge =>
        ok (cs.1, tosmall, tolarge)) ((c0, 0), s0.set 0 0, l0.set 0 0)
      = ok ((carry, cnt q (sumTo g m)), small, large) ∧ carry.length = cnt q N ∧
      small.length = M + 1 ∧ large.length = M + 1 ∧
      (∀ j, j ≤ m → small[j]? = some ((cnt q (sumTo g j) : Nat) : Int)) ∧
      ∀ j, j ≤ m → large[j]? = some ((sumTo g j : Nat) : Int) by
    obtain ⟨carry, small, large, h1, h2, h3, h4, h5, h6⟩ := key M (Nat.le_refl _)
    refine ⟨carry, ?_⟩
    rw [h1, bind_ok]
    have ext : ∀ (o : List Int) (f : Nat → Nat), o.length = M + 1 →
        (∀ j, j ≤ M → o[j]? = some ((sumTo f j : Nat) : Int)) → o = offsTo f M := by
      intro o f e1 e2
      apply List.ext_getElem?
      intro j
      by_cases hj : j ≤ M
      · rw [e2 j hj, List.getElem?_eq_getElem (by simp; omega), offsTo_getElem]
      · rw [List.getElem?_eq_none (by omega), List.getElem?_eq_none (by simp; omega)]
    rw [ext small (validIn q g) h3 (fun j hj => by rw [sumTo_validIn]; exact h5 j hj),
      ext large g h4 h6]
  intro m
  induction m with
  | zero =>
    intro _
    refine ⟨c0, s0.set 0 0, l0.set 0 0, by simp [cnt], hc, by simpa using hs, by simpa using hl, ?_, ?_⟩
    · intro j hj
      obtain rfl : j = 0 := by omega
      rw [List.getElem?_set_self (by omega)]; simp [cnt]
    · intro j hj
      obtain rfl : j = 0 := by omega
      rw [List.getElem?_set_self (by omega)]; simp
  | succ m ih =>
    intro hm
    obtain ⟨carry, small, large, h1, h2, h3, h4, h5, h6⟩ := ih (by omega)
    obtain ⟨g1, g2, g3⟩ := offs_get (g := g) (M := M) hN (i := m) (by omega)
    obtain ⟨hb5, e5⟩ := List.getElem?_eq_some_iff.mp (h5 m (Nat.le_refl _))
    obtain ⟨hb6, e6⟩ := List.getElem?_eq_some_iff.mp (h6 m (Nat.le_refl _))
    rw [forN_succ, h1, bind_ok, g1, bind_ok, g2, bind_ok]
    simp only
    rw [rd_nat_ok hb5, bind_ok, rd_nat_ok hb6, bind_ok, e5, e6]
    obtain ⟨carry', i1, i2⟩ := inner (sumTo g m) (g m) carry h2 g3
    have hbody : (if ((sumTo g m : Nat) : Int) ≠ ((sumTo g m + g m : Nat) : Int) then
          forFrom ((sumTo g m : Nat) : Int) ((sumTo g m + g m : Nat) : Int)
            (fun j (cks : (List Int × Nat) × Int) =>
            rd (outIndex q N) j >>= fun m =>
            if m ≥ 0 then
              wr cks.1.1 (cks.1.2 : Int) j >>= fun tocarry => ok ((tocarry, cks.1.2 + 1), cks.2 + 1)
            else ok cks) ((carry, cnt q (sumTo g m)), 0) >>= fun cks =>
              ok (cks.1, ((cnt q (sumTo g m) : Nat) : Int) + cks.2)
        else ok ((carry, cnt q (sumTo g m)), ((cnt q (sumTo g m) : Nat) : Int)))
        = ok ((if g m = 0 then carry else carry', cnt q (sumTo g m + g m)),
          ((cnt q (sumTo g m + g m) : Nat) : Int)) := by
      by_cases h0 : g m = 0
      · rw [if_neg (by omega), if_pos h0, h0]; rfl
      · rw [if_pos (by omega), if_neg h0, forFrom_nat, i2, bind_ok]
        congr 2; simp only; omega
    rw [hbody, bind_ok]
    simp only
    rw [wr_nat_ok (by omega), bind_ok, wr_nat_ok (by omega), bind_ok, sumTo_succ]
    refine ⟨_, _, _, rfl, by split <;> assumption, by simpa using h3, by simpa using h4, ?_, ?_⟩
    · intro j hj
      by_cases he : j = m + 1
      · subst he
        rw [List.getElem?_set_self (by omega), sumTo_succ]
      · rw [List.getElem?_set_ne (by omega)]; exact h5 j (by omega)
    · intro j hj
      by_cases he : j = m + 1
      · subst he
        rw [List.getElem?_set_self (by omega), sumTo_succ]
        congr 1; omega
      · rw [List.getElem?_set_ne (by omega)]; exact h6 j (by omega)

end

/-- The positions and missing positions that a slice shows. -/
structure ShowsMissing (q : Nat → Option Int) (N : Nat) (idx : List Int) (ws : List Val) : Prop where
  len : ws.length = N
  idx_len : idx.length = cnt q N
  miss : ∀ j, j < N → ¬ (q j).isSome → ws[j]? = some .null
  get : ∀ j, j < N → (q j).isSome → ∃ a, idx[cnt q j]? = some a ∧ ws[j]? = some (intVal a)

namespace Content

theorem jaggedMissing_ok {q : Nat → Option Int} {N : Nat} {idx : List Int} {ws : List Val}
    (hw : ShowsMissing q N idx ws) {k : List Int → List Int → Content → R Content}
    (hk : ∀ starts stops lstarts lstops c, k starts stops (listArray {} lstarts lstops c)
      = jaggedArray idx starts stops lstarts lstops c) :
    LhOk true 0 ws (jaggedMissing k false (outIndex q N)) := by
  intro starts stops lstarts lstops c hs hc hr hl
  unfold jaggedMissing
  by_cases hn : starts.length = lstarts.length
  swap
  · rw [if_pos hn]; exact .err (fun hx => hn hx.1)
  rw [if_neg (by simpa using hn)]
  obtain ⟨g, M, rfl, rfl, hM⟩ := hs.all (.inr rfl)
  rw [hw.len] at hM
  obtain ⟨q1, q2, q3, q4⟩ := offsTo_make (f := g) (N := M) (l := ws.length) (by rw [hM, hw.len])
  have hvalid : sumTo (validIn q g) M = cnt q N := by rw [sumTo_validIn, hM]
  obtain ⟨p1, p2, p3, p4⟩ := offsTo_make (f := validIn q g) (N := M) (l := idx.length)
    (by rw [hvalid, hw.idx_len])
  obtain ⟨carry, hsh⟩ := shrink_ok (q := q) (g := g) (M := M) (N := N) hM
    (c0 := alloc (cnt q N : Nat)) (s0 := alloc ((M : Int) + 1)) (l0 := alloc ((M : Int) + 1))
    (alloc_length _)
    (by rw [show (M : Int) + 1 = ((M + 1 : Nat) : Int) by omega, alloc_length])
    (by rw [show (M : Int) + 1 = ((M + 1 : Nat) : Int) by omega, alloc_length])
  rw [q2, outIndex_length, numvalid_ok hM, bind_ok, hsh, bind_ok]
  simp only [Bool.false_eq_true, if_false]
  rw [hk]
  rw [q2] at hn
  have hbelow : ∀ i, i < M → sumTo g i + g i ≤ N := by
    intro i hi
    have := sumTo_mono (f := g) (show i + 1 ≤ M by omega)
    rw [sumTo_succ] at this; omega
  have hvi : ∀ i, cnt q (sumTo g i) + validIn q g i = cnt q (sumTo g i + g i) := by
    intro i
    have := cnt_mono (q := q) (show sumTo g i ≤ sumTo g i + g i by omega)
    rw [validIn, sumTo_succ]; omega
  -- the item of the index at each position
  have hix : ∀ i, i < M → ∀ t, t < g i →
      (ixAt ws (makeStarts (offsTo g M)) (makeStops (offsTo g M)) i)[t]? = ws[sumTo g i + t]? := by
    intro i hi t ht
    rw [ixAt_getElem? (by rw [(q4 i hi).2]; exact ht), (q4 i hi).1]; rfl
  refine (jaggedArray_tot (h := M = lstarts.length ∧ ∀ i, i < lstarts.length →
      (Spec.jagged 0 (ixAt ws (makeStarts (offsTo g M)) (makeStops (offsTo g M)) i)
        (c.seg (startAt lstarts i).toNat (pairLen lstarts lstops i))).isSome) p1 hc hl
    (fun _ => by omega) ?_).bind ?_
  · rintro ⟨_, h2⟩ i hi u hu a ha
    rw [p2] at hi
    rw [(p4 i hi).2] at hu
    rw [(p4 i hi).1, sumTo_validIn] at ha
    obtain ⟨j, j1, j2, j3⟩ := cnt_inv (q := q) (n := sumTo g i + g i) (t := cnt q (sumTo g i) + u)
      (by rw [← hvi]; omega)
    have hge : sumTo g i ≤ j := by
      by_contra hlt
      have := cnt_mono (q := q) (show j + 1 ≤ sumTo g i by omega)
      rw [cnt_succ, if_pos j2] at this; omega
    obtain ⟨a', a1, a2⟩ := hw.get j (by have := hbelow i hi; omega) j2
    rw [j3] at a1
    simp only [Int.toNat_natCast] at ha
    rw [ha] at a1
    injection a1 with a1
    subst a1
    have := h2 i (by omega)
    simp only [Spec.jagged, Option.isSome_map] at this
    have hx := mapM_isSome this (intVal a) (by
      refine List.mem_iff_getElem?.mpr ⟨j - sumTo g i, ?_⟩
      rw [hix i hi _ (by omega), show sumTo g i + (j - sumTo g i) = j by omega, a2])
    rwa [itemAt_int] at hx
  · rintro out ⟨_, o, next, rfl, n1, n2, n3, n4, n5⟩
    simp only
    rw [p2] at n2 n3 n4 n5
    have hps : ∀ i, i ≤ M → sumTo (pairLen (makeStarts (offsTo (validIn q g) M))
        (makeStops (offsTo (validIn q g) M))) i = cnt q (sumTo g i) := by
      intro i hi
      rw [← sumTo_validIn]
      exact sumTo_congr (fun j hj => (p4 j (by omega)).2)
    rw [hps M (Nat.le_refl _), hM] at n3
    rw [rd_offsTo_last, bind_ok, hM, show (0 : Int) = ((0 : Nat) : Int) from rfl,
      idxRange_ok (by omega) (by simp), bind_ok, List.drop_zero,
      List.take_of_length_le (by simp)]
    obtain ⟨c', h1, h2, h3, h4⟩ := indexedSimplify_good (p := {}) (index := outIndex q N) n1 (by
      intro i hi
      rw [outIndex_getElem]
      rw [outIndex_length] at hi
      split
      · rename_i hq
        have := cnt_mono (q := q) (show i + 1 ≤ N by omega)
        rw [cnt_succ, if_pos hq] at this; omega
      · omega)
    rw [h1, bind_ok]
    rw [outIndex_length] at h3
    have hb : sumTo g M ≤ c'.len := by omega
    rw [← hn]
    refine .ok ⟨rfl, good_offsTo h2 hb, by simp [len], ?_⟩
    intro i hi
    rw [valD_offsTo h2 hb hi, wrapList_default]
    simp only [Spec.jagged]
    have hil := ixAt_length q1 (i := i) (by omega)
    rw [(q4 i hi).2] at hil
    rw [mapM_of_get? (ys := c'.seg (sumTo g i) (g i)) (by rw [hil, seg_length]) ?_]
    · rfl
    · intro t ht
      rw [hil] at ht
      have hjN : sumTo g i + t < N := by have := hbelow i hi; omega
      have hv := h4 (sumTo g i + t) (by simpa using hjN)
      rw [outIndex_getElem] at hv
      rw [hix i hi t ht]
      by_cases hq : (q (sumTo g i + t)).isSome
      · obtain ⟨a, a1, a2⟩ := hw.get _ hjN hq
        refine ⟨_, _, a2, by rw [seg_getElem?, if_pos ht], ?_⟩
        rw [if_pos hq, if_neg (by omega)] at hv
        rw [hv, itemAt_int]
        have hm1 := cnt_mono (q := q) (show sumTo g i ≤ sumTo g i + t by omega)
        have hm2 := cnt_mono (q := q) (show sumTo g i + t + 1 ≤ sumTo g i + g i by omega)
        rw [cnt_succ, if_pos hq] at hm2
        have hvi' := hvi i
        obtain ⟨a', b1, b2⟩ := n5 i hi (cnt q (sumTo g i + t) - cnt q (sumTo g i))
          (by rw [(p4 i hi).2]; omega)
        rw [(p4 i hi).1, sumTo_validIn, Int.toNat_natCast, show cnt q (sumTo g i) +
          (cnt q (sumTo g i + t) - cnt q (sumTo g i)) = cnt q (sumTo g i + t) by omega, a1] at b1
        injection b1 with b1
        subst b1
        rw [b2, hps i (by omega), show cnt q (sumTo g i) +
          (cnt q (sumTo g i + t) - cnt q (sumTo g i)) = cnt q (sumTo g i + t) by omega]
        rfl
      · refine ⟨_, _, hw.miss _ hjN hq, by rw [seg_getElem?, if_pos ht], ?_⟩
        rw [if_neg hq, if_pos (by omega)] at hv
        rw [hv]; rfl

end Content
end Awk
