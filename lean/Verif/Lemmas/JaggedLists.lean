import Verif.Lemmas.Jagged
/-
The three kinds of ragged slices on lists.
-/

namespace Awk
open R Spec

/-- An integer of the index. -/
def intVal (i : Int) : Val := .atom (.int i)

theorem ixAt_length {ws : List Val} {starts stops : List Int} (h : Pairs starts stops ws.length)
    {i : Nat} (hi : i < starts.length) : (ixAt ws starts stops i).length = pairLen starts stops i := by
  obtain ⟨_, _, _, h3⟩ := h.eq hi
  rw [ixAt, List.length_take, List.length_drop]
  by_cases h0 : pairLen starts stops i = 0
  · omega
  · have := h3 (by omega); omega

theorem ixAt_getElem? {ws : List Val} {starts stops : List Int} {i t : Nat}
    (ht : t < pairLen starts stops i) :
    (ixAt ws starts stops i)[t]? = ws[(startAt starts i).toNat + t]? := by
  rw [ixAt, List.getElem?_take, if_pos ht, List.getElem?_drop]

theorem mapM_of_get? {f : α → Option β} {xs : List α} {ys : List β} (hl : xs.length = ys.length)
    (h : ∀ i, i < xs.length → ∃ x y, xs[i]? = some x ∧ ys[i]? = some y ∧ f x = some y) :
    xs.mapM f = some ys := by
  refine mapM_of_get hl (fun i hi => ?_)
  obtain ⟨x, y, h1, h2, h3⟩ := h i hi
  obtain ⟨_, h1⟩ := List.getElem?_eq_some_iff.mp h1
  obtain ⟨_, h2⟩ := List.getElem?_eq_some_iff.mp h2
  rw [h1, h2, h3]

namespace Content

theorem pairs_listArray {lstarts lstops : List Int} {c : Content} (hc : c.Good)
    (hl : Pairs lstarts lstops c.len) : (listArray {} lstarts lstops c).Good :=
  good_listArray.mpr ⟨hl.1, hc, fun i hi => hl.2 i hi (by have := hl.1; omega)⟩

theorem pairs_lists {lstarts lstops : List Int} {c : Content} (hc : c.Good)
    (hl : Pairs lstarts lstops c.len) :
    Lists (listArray {} lstarts lstops c) c {} lstarts.length (startAt lstarts)
      (pairLen lstarts lstops) :=
  lists_of_pairs hc (Nat.le_refl _) hl.1 (fun i hi => hl.2 i hi (by have := hl.1; omega))
    (fun i hi => valD_listArray (pairs_listArray hc hl) hi (by have := hl.1; omega))

/-- Integer positions: the buffers of the result. -/
theorem jaggedArray_tot {idx starts stops lstarts lstops : List Int} {c : Content} {h : Prop}
    (hs : Pairs starts stops idx.length) (hc : c.Good) (hl : Pairs lstarts lstops c.len)
    (hlen : h → starts.length = lstarts.length)
    (hh : h → ∀ i, i < starts.length → ∀ t, t < pairLen starts stops i → ∀ a,
      idx[(startAt starts i).toNat + t]? = some a →
        (pyGet? (c.seg (startAt lstarts i).toNat (pairLen lstarts lstops i)) a).isSome) :
    (jaggedArray idx starts stops lstarts lstops c).Tot h (fun out =>
      starts.length = lstarts.length ∧ ∃ o next, out = listOffset {} o next ∧ next.Good ∧
        o.length = starts.length + 1 ∧ next.len = sumTo (pairLen starts stops) starts.length ∧
        (∀ i, i < starts.length → o[i]? = some ((sumTo (pairLen starts stops) i : Nat) : Int) ∧
          o[i + 1]? = some ((sumTo (pairLen starts stops) (i + 1) : Nat) : Int)) ∧
        ∀ i, i < starts.length → ∀ t, t < pairLen starts stops i → ∃ a,
          idx[(startAt starts i).toNat + t]? = some a ∧
          pyGet? (c.seg (startAt lstarts i).toNat (pairLen lstarts lstops i)) a
            = some (next.valD (sumTo (pairLen starts stops) i + t))) := by
  unfold jaggedArray
  by_cases hn : starts.length = lstarts.length
  swap
  · rw [if_pos hn]; exact .err (fun hx => hn (hlen hx))
  rw [if_neg (by simpa using hn), if_neg (by have := hl.1; omega), carrylen_ok hs, bind_ok]
  have hL := pairs_lists hc hl
  refine (apply_tot (h := h) hs hl hn (by
    rw [show (starts.length : Int) + 1 = ((starts.length + 1 : Nat) : Int) by omega, alloc_length])
    (alloc_length _) ?_).bind ?_
  · intro hx i hi t ht a ha
    have := regAt_of_pyGet (hh hx i hi t ht a ha)
    rwa [seg_length] at this
  · rintro ⟨o, idx'⟩ ⟨h1, h2, h3, h4⟩
    simp only at h1 h2 h3 h4 ⊢
    have hin : InRange idx' c.len := by
      intro j hj
      obtain ⟨k, hk, rfl⟩ := List.getElem_of_mem hj
      obtain ⟨i, t, hi, ht, rfl⟩ := sumTo_locate (f := pairLen starts stops) (n := starts.length)
        (j := k) (by omega)
      obtain ⟨x, g1, a, r, g2, g3, g4⟩ := h4 i hi t ht
      obtain ⟨_, g5, g6⟩ := hL.pyGet (by omega) g3
      rw [List.getElem?_eq_getElem hk] at g1
      injection g1 with g1
      rw [g1, g4]; omega
    obtain ⟨c', e1, e2, _, e3⟩ := carry_good hc true hin
    rw [e1, bind_ok]
    refine .ok ⟨hn, o, c', rfl, e2, h1, by rw [e3.1, h2], h3, ?_⟩
    intro i hi t ht
    obtain ⟨x, g1, a, r, g2, g3, g4⟩ := h4 i hi t ht
    obtain ⟨hb, g1⟩ := List.getElem?_eq_some_iff.mp g1
    refine ⟨a, g2, ?_⟩
    rw [(hL.pyGet (by omega) g3).1, e3.valD hb, g1, g4]

theorem itemAt_int (vs : List Val) (a : Int) : itemAt vs (intVal a) = pyGet? vs a := rfl

theorem jaggedArray_ok (b : Bool) (idx : List Int) :
    LhOk b 0 (idx.map intVal) (jaggedArray idx) := by
  intro starts stops lstarts lstops c hs hc _ hl
  have hp : Pairs starts stops idx.length := by simpa using hs.pairs
  refine (jaggedArray_tot hp hc hl (fun hx => hx.1) ?_).mono (fun h => h) ?_
  · rintro ⟨h1, h2⟩ i hi t ht a ha
    have := h2 i (by omega)
    simp only [Spec.jagged, Option.isSome_map] at this
    have hx := mapM_isSome this (intVal a) (by
      refine List.mem_iff_getElem?.mpr ⟨t, ?_⟩
      rw [ixAt_getElem? ht, List.getElem?_map, ha]; rfl)
    rwa [itemAt_int] at hx
  · rintro out ⟨hn, o, next, rfl, h1, h2, h3, h4, h5⟩
    refine ⟨hn, ?_⟩
    have hpair : ∀ i (h : i + 1 < o.length), o[i] = ((sumTo (pairLen starts stops) i : Nat) : Int) ∧
        o[i + 1] = ((sumTo (pairLen starts stops) (i + 1) : Nat) : Int) := by
      intro i hi
      obtain ⟨a1, a2⟩ := h4 i (by omega)
      rw [List.getElem?_eq_getElem (by omega)] at a1 a2
      exact ⟨by injection a1, by injection a2⟩
    have hg : (listOffset {} o next).Good := by
      refine good_listOffset.mpr ⟨by omega, h1, fun i hi => .inr ?_⟩
      obtain ⟨a1, a2⟩ := hpair i hi
      rw [a1, a2, h3]
      have e1 := sumTo_mono (f := pairLen starts stops) (show i ≤ i + 1 by omega)
      have e2 := sumTo_mono (f := pairLen starts stops) (show i + 1 ≤ starts.length by omega)
      omega
    refine ⟨hg, by simp only [len]; omega, ?_⟩
    intro i hi
    obtain ⟨a1, a2⟩ := hpair i (by omega)
    rw [valD_listOffset hg (by omega), a1, a2, sumTo_diff, wrapList_default]
    simp only [Spec.jagged, Int.toNat_natCast]
    have hlen := ixAt_length hs.pairs (i := i) (by omega)
    rw [mapM_of_get? (ys := next.seg (sumTo (pairLen starts stops) i) (pairLen starts stops i))
      (by rw [hlen, seg_length]) ?_]
    · rfl
    · intro t ht
      rw [hlen] at ht
      obtain ⟨a, b1, b2⟩ := h5 i (by omega) t ht
      refine ⟨intVal a, _, ?_, ?_, b2⟩
      · rw [ixAt_getElem? ht, List.getElem?_map, b1]; rfl
      · rw [seg_getElem?, if_pos ht]

/-- The lists that offsets cut from `ws'`. -/
structure Cuts (f : Nat → Nat) (N : Nat) (ws' ws : List Val) : Prop where
  len : ws.length = N
  total : sumTo f N = ws'.length
  get : ∀ i, i < N → ws[i]? = some (.list ((ws'.drop (sumTo f i)).take (f i)))

theorem offsTo_make {f : Nat → Nat} {N l : Nat} (hl : sumTo f N ≤ l) :
    Pairs (makeStarts (offsTo f N)) (makeStops (offsTo f N)) l ∧
      (makeStarts (offsTo f N)).length = N ∧ (makeStops (offsTo f N)).length = N ∧
      ∀ i, i < N → startAt (makeStarts (offsTo f N)) i = ((sumTo f i : Nat) : Int) ∧
        pairLen (makeStarts (offsTo f N)) (makeStops (offsTo f N)) i = f i := by
  obtain ⟨q1, q2, q3⟩ := pairs_make (offsets := offsTo f N) (l := l) (by
    intro i hi
    rw [offsTo_length] at hi
    rw [offsTo_getElem, offsTo_getElem]
    have e1 := sumTo_mono (f := f) (show i ≤ i + 1 by omega)
    have e2 := sumTo_mono (f := f) (show i + 1 ≤ N by omega)
    right; omega)
  refine ⟨q1, by rw [q2, offsTo_length]; rfl, by simp [makeStops], ?_⟩
  intro i hi
  obtain ⟨a1, a2⟩ := q3 i (by rw [offsTo_length]; omega)
  rw [offsTo_getElem] at a1
  rw [offsTo_getElem, offsTo_getElem, sumTo_diff] at a2
  exact ⟨a1, by rw [a2]; rfl⟩

theorem Cuts.sliceAt {b : Bool} {n : Nat} {f : Nat → Nat} {N : Nat} {ws' ws : List Val}
    (h : Cuts f N ws' ws) :
    SliceAt b n ws' (makeStarts (offsTo f N)) (makeStops (offsTo f N)) := by
  obtain ⟨q1, q2, q3, _⟩ := offsTo_make (f := f) (N := N) (l := ws'.length) (by rw [h.total])
  exact ⟨by omega, q1, fun _ => ⟨f, N, rfl, rfl, h.total⟩⟩

theorem Cuts.ixAt {f : Nat → Nat} {N : Nat} {ws' ws : List Val} (h : Cuts f N ws' ws) {i : Nat}
    (hi : i < N) : ∃ v, ws[i]? = some v ∧
      v.items = ixAt ws' (makeStarts (offsTo f N)) (makeStops (offsTo f N)) i := by
  obtain ⟨q1, q2, q3, q4⟩ := offsTo_make (f := f) (N := N) (l := ws'.length) (by rw [h.total])
  refine ⟨_, h.get i hi, ?_⟩
  simp only [Val.items, Awk.ixAt, (q4 i hi).1, (q4 i hi).2, Int.toNat_natCast]

/-- One more level of lists. -/
theorem jaggedDescend_ok {b : Bool} {n : Nat} {f : Nat → Nat} {N : Nat} {ws' ws : List Val}
    {k : List Int → List Int → Content → R Content} (hcut : Cuts f N ws' ws)
    (hk : ∀ (starts stops : List Int) (c : Content), c.Good → Ragged b n c →
      SliceAt b n ws' starts stops → JagOk b n ws' k starts stops c) :
    LhOk b (n + 1) ws (jaggedDescend k (offsTo f N)) := by
  intro starts stops lstarts lstops c hs hc hr hl
  unfold jaggedDescend
  by_cases hn : starts.length = lstarts.length
  swap
  · rw [if_pos hn]; exact .err (fun hx => hn hx.1)
  rw [if_neg (by simpa using hn)]
  obtain ⟨g, M, rfl, rfl, hM⟩ := hs.all (.inl (by omega))
  obtain ⟨q1, q2, q3, q4⟩ := offsTo_make (f := g) (N := M) (l := ws.length) (by rw [hM])
  -- the lengths of the lists agree
  have hlens : (∀ i, i < lstarts.length → (Spec.jagged (n + 1)
      (ixAt ws (makeStarts (offsTo g M)) (makeStops (offsTo g M)) i)
      (c.seg (startAt lstarts i).toNat (pairLen lstarts lstops i))).isSome) →
      ∀ i, i < (makeStarts (offsTo g M)).length →
        pairLen (makeStarts (offsTo g M)) (makeStops (offsTo g M)) i = pairLen lstarts lstops i := by
    intro h i hi
    have := h i (by omega)
    simp only [Spec.jagged] at this
    split at this
    · rename_i he
      rwa [ixAt_length q1 hi, seg_length] at he
    · simp at this
  have hw : (listArray {} lstarts lstops c).Good := pairs_listArray hc hl
  refine (descend_tot q1 hl hn (by
    rw [show ((makeStarts (offsTo g M)).length : Int) + 1
      = (((makeStarts (offsTo g M)).length + 1 : Nat) : Int) by omega, alloc_length]) ?_
    (fun hx => hlens hx.2)).bind ?_
  · intro h0
    rw [(q4 0 (by omega)).1]; rfl
  rintro o ⟨rfl, heq⟩
  rw [q2] at heq
  have hg : ∀ i, i < M → g i = pairLen lstarts lstops i := by
    intro i hi; rw [← heq i hi, (q4 i hi).2]
  rw [q2] at hn
  have hsum : ∀ i, i ≤ M → sumTo (pairLen lstarts lstops) i = sumTo g i :=
    fun i hi => sumTo_congr (fun j hj => (hg j (by omega)).symm)
  obtain ⟨c', e1, e2, e3, e4, e6, e5⟩ := listBroadcast_ok hc (Nat.le_refl _) hl.1
    (fun i hi => hl.2 i hi (by have := hl.1; omega))
  have hoffs : offsTo (pairLen lstarts lstops) lstarts.length
        = offsTo (listArray {} lstarts lstops c).lens lstarts.length :=
      offsTo_congr (fun i hi => (lens_listArray hw hi).symm)
  have hlp : (listArray {} lstarts lstops c).listParts
      = ok (offsTo (pairLen lstarts lstops) lstarts.length, c') := by
    simp only [listParts]
    rw [listArrayCompact_ok hw, bind_ok, ← hoffs, e1, bind_ok]
  rw [hlp, bind_ok]
  simp only
  rw [← hn, hsum M (Nat.le_refl _)] at e4
  have hitem : ∀ i, i < M → ∀ t, t < g i →
      c'.valD (sumTo g i + t) = c.valD ((startAt lstarts i).toNat + t) ∧
      sumTo g i + t < N ∧ ∃ v,
      (ixAt ws (makeStarts (offsTo g M)) (makeStops (offsTo g M)) i)[t]? = some v ∧
      v.items = ixAt ws' (makeStarts (offsTo f N)) (makeStops (offsTo f N)) (sumTo g i + t) := by
    intro i hi t ht
    have h1 := sumTo_mono (f := g) (show i + 1 ≤ M by omega)
    rw [sumTo_succ] at h1
    have hlt : sumTo g i + t < N := by rw [← hcut.len, ← hM]; omega
    refine ⟨?_, hlt, ?_⟩
    · have h2 := e5 i (by omega)
      have h3 := congrArg (fun l => l[t]?) h2
      simp only [seg_getElem?] at h3
      rw [← hg i hi, if_pos ht, if_pos ht, hsum i (by omega)] at h3
      injection h3
    · obtain ⟨v, v1, v2⟩ := hcut.ixAt hlt
      refine ⟨v, ?_, v2⟩
      rw [ixAt_getElem? (by rw [(q4 i hi).2]; exact ht), (q4 i hi).1]
      exact v1
  have hget : ∀ i, i < M → ∀ t, t < g i → ∃ v,
      ((ixAt ws (makeStarts (offsTo g M)) (makeStops (offsTo g M)) i).zip
        (c.seg (startAt lstarts i).toNat (pairLen lstarts lstops i)))[t]?
        = some (v, c'.valD (sumTo g i + t)) ∧
      v.items = ixAt ws' (makeStarts (offsTo f N)) (makeStops (offsTo f N)) (sumTo g i + t) := by
    intro i hi t ht
    obtain ⟨h1, _, v, h2, h3⟩ := hitem i hi t ht
    refine ⟨v, ?_, h3⟩
    rw [List.getElem?_zip_eq_some]
    refine ⟨h2, ?_⟩
    simp only
    rw [seg_getElem?, if_pos (by rw [← hg i hi]; exact ht), h1]
  refine ((hk _ _ c' e2 (Gathered.closed (Ragged.closed b) hc e6 n hr) hcut.sliceAt).mono ?_
    (fun _ h => h)).bind ?_
  · rintro ⟨_, h2⟩
    have hNl := (offsTo_make (f := f) (N := N) (l := ws'.length) (by rw [hcut.total])).2.1
    refine ⟨by rw [hNl, e4, hM, hcut.len], ?_⟩
    intro j hj
    obtain ⟨i, t, hi, ht, rfl⟩ := sumTo_locate (f := g) (n := M) (j := j) (by omega)
    have := h2 i (by omega)
    simp only [Spec.jagged] at this
    rw [if_pos (by rw [ixAt_length q1 (by omega), seg_length, heq i hi]), Option.isSome_map] at this
    obtain ⟨v, v1, v2⟩ := hget i hi t ht
    have := mapM_isSome this _ (List.mem_iff_getElem?.mpr ⟨t, v1⟩)
    rw [← v2]; exact this
  · rintro out ⟨_, hout⟩
    rw [q2, ← hn]
    have hoff : offsTo (pairLen (makeStarts (offsTo g M)) (makeStops (offsTo g M))) M = offsTo g M :=
      offsTo_congr (fun i hi => (q4 i hi).2)
    rw [hoff]
    have hb : sumTo g M ≤ out.len := by rw [← e4]; exact hout.len_le
    refine .ok ⟨rfl, good_offsTo hout.good hb, by simp [len], ?_⟩
    intro i hi
    rw [valD_offsTo hout.good hb hi, wrapList_default]
    simp only [Spec.jagged]
    rw [if_pos (by rw [ixAt_length q1 (by omega), seg_length, heq i hi])]
    have hlz : ((ixAt ws (makeStarts (offsTo g M)) (makeStops (offsTo g M)) i).zip
        (c.seg (startAt lstarts i).toNat (pairLen lstarts lstops i))).length = g i := by
      rw [List.length_zip, ixAt_length q1 (by omega), seg_length, (q4 i hi).2, ← hg i hi, Nat.min_self]
    rw [mapM_of_get? (ys := out.seg (sumTo g i) (g i)) (by rw [hlz, seg_length]) ?_]
    · rfl
    · intro t ht
      rw [hlz] at ht
      obtain ⟨v, v1, v2⟩ := hget i hi t ht
      refine ⟨_, _, v1, by rw [seg_getElem?, if_pos ht], ?_⟩
      simp only
      rw [v2]
      have h1 := sumTo_mono (f := g) (show i + 1 ≤ M by omega)
      rw [sumTo_succ] at h1
      exact hout.val _ (by omega)

end Content
end Awk
