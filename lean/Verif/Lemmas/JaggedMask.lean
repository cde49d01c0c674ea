import Verif.Lemmas.JaggedSlice
/-
Ragged masks as ragged slices.
-/

namespace Awk
open R Spec

/-- The positions of the true values. -/
def truesOf (q : Nat → Bool) (j : Nat) : Option Int := if q j then some (j : Int) else none

theorem range_split {s l L : Nat} (h : s + l ≤ L) :
    List.range L = List.range s ++ ((List.range l).map (s + ·) ++
      (List.range (L - s - l)).map (s + l + ·)) := by
  have h1 : L = s + (l + (L - s - l)) := by omega
  conv_lhs => rw [h1]
  rw [List.range_add, List.range_add, List.map_append, List.map_map]
  congr 3
  funext x
  simp [Nat.add_assoc]

theorem cnt_split {q : Nat → Option Int} {s l : Nat} :
    cnt q (s + l) = cnt q s + ((List.range l).filterMap (fun j => q (s + j))).length := by
  unfold cnt
  rw [List.range_add, List.filterMap_append, List.length_append, List.filterMap_map]
  rfl

/-- The part of the positions that lie in one list. -/
theorem filterMap_slice {q : Nat → Option Int} {s l L : Nat} (h : s + l ≤ L) :
    (((List.range L).filterMap q).drop (cnt q s)).take (cnt q (s + l) - cnt q s)
      = (List.range l).filterMap (fun j => q (s + j)) := by
  rw [range_split h, List.filterMap_append, List.filterMap_append, cnt_split]
  rw [List.drop_left' (by rfl), List.take_left' (by
    rw [List.filterMap_map]; simp only [Nat.add_sub_cancel_left]; rfl), List.filterMap_map]
  rfl

theorem trues_lt {q : Nat → Bool} {e L k : Nat} (he : e ≤ L) {x : Int}
    (hx : ((List.range L).filterMap (truesOf q))[k]? = some x) :
    x < e ↔ k < cnt (truesOf q) e := by
  rw [range_split (s := e) (l := L - e) (by omega)] at hx
  simp only [show L - e - (L - e) = 0 by omega, List.range_zero, List.map_nil, List.append_nil,
    List.filterMap_append] at hx
  by_cases hk : k < cnt (truesOf q) e
  · rw [List.getElem?_append_left hk] at hx
    have := List.mem_of_getElem? hx
    simp only [List.mem_filterMap, List.mem_range, truesOf] at this
    obtain ⟨a, h1, h2⟩ := this
    split at h2
    · simp only [Option.some.injEq] at h2; omega
    · cases h2
  · rw [List.getElem?_append_right (by unfold cnt at hk; omega)] at hx
    have := List.mem_of_getElem? hx
    simp only [List.mem_filterMap, List.mem_map, truesOf] at this
    obtain ⟨a, ⟨b, h1, rfl⟩, h2⟩ := this
    split at h2
    · simp only [Option.some.injEq] at h2; omega
    · cases h2

/-- The inner loop. -/
theorem adjust_while {nz : List Int} {e : Int} {top : Nat} {start : Int} (htop : top ≤ nz.length)
    (hlt : ∀ k (h : k < nz.length), nz[k] < e ↔ k < top) :
    ∀ (fuel k : Nat) (buf : List Int) (count : Nat), buf.length = nz.length → k ≤ top →
      top - k < fuel → ∃ buf' : List Int, buf'.length = nz.length ∧
      whileF fuel
        (fun (s : List Int × Nat × Nat) => decide (s.2.1 < nz.length) &&
          (match nz[s.2.1]? with | some x => decide (x < e) | none => false))
        (fun s => rd nz (s.2.1 : Int) >>= fun x =>
          wr s.1 (s.2.1 : Int) (x - start) >>= fun tononzero =>
          ok (tononzero, s.2.1 + 1, s.2.2 + 1)) (buf, k, count)
        = ok (buf', top, count + (top - k)) ∧
      ∀ i, buf'[i]? = if k ≤ i ∧ i < top then nz[i]?.map (· - start) else buf[i]? := by
  intro fuel
  induction fuel with
  | zero => intro k buf count _ _ h; omega
  | succ fuel ih =>
    intro k buf count hb hk hf
    by_cases hkt : k = top
    · subst hkt
      refine ⟨buf, hb, ?_, fun i => by rw [if_neg (by omega)]⟩
      have hc : (decide (k < nz.length) &&
          (match nz[k]? with | some x => decide (x < e) | none => false)) = false := by
        by_cases h : k < nz.length
        · have := hlt k h
          rw [List.getElem?_eq_getElem h]
          simp only [Bool.and_eq_false_imp, decide_eq_true_eq, decide_eq_false_iff_not]
          intro _ h2; omega
        · simp [h]
      simp only [whileF]
      rw [hc]
      simp
    · have h : k < nz.length := by omega
      have hlt' := (hlt k h).mpr (by omega)
      have hc : (decide (k < nz.length) &&
          (match nz[k]? with | some x => decide (x < e) | none => false)) = true := by
        rw [List.getElem?_eq_getElem h]
        simp [h, hlt']
      obtain ⟨buf', i1, i2, i3⟩ := ih (k + 1) (buf.set k (nz[k] - start)) (count + 1)
        (by simpa using hb) (by omega) (by omega)
      refine ⟨buf', i1, ?_, ?_⟩
      · simp only [whileF]
        rw [hc, if_pos rfl, rd_nat_ok h, bind_ok, wr_nat_ok (by omega), bind_ok, bind_ok, i2]
        congr 3; omega
      · intro i
        rw [i3 i]
        by_cases hi : i = k
        · subst hi
          rw [if_neg (by omega), if_pos (by omega), List.getElem?_set_self (by omega),
            List.getElem?_eq_getElem h]
          rfl
        · rw [List.getElem?_set_ne (by omega)]
          by_cases h1 : k + 1 ≤ i ∧ i < top
          · rw [if_pos h1, if_pos (by omega)]
          · rw [if_neg h1, if_neg (by omega)]

theorem adjust_ok {q : Nat → Bool} {f : Nat → Nat} {N : Nat} {o0 z0 nz : List Int}
    (hnz : nz = (List.range (sumTo f N)).filterMap (truesOf q)) (ho : o0.length = N + 1)
    (hz : z0.length = nz.length) :
    ∃ nz' : List Int, ListOffsetArray_getitem_adjust_offsets o0 z0 (offsTo f N) N nz nz.length
        = ok (offsTo (validIn (truesOf q) f) N, nz') ∧ nz'.length = nz.length ∧
      ∀ i, i < N → (nz'.drop (cnt (truesOf q) (sumTo f i))).take (validIn (truesOf q) f i)
        = (List.range (f i)).filterMap (fun j => if q (sumTo f i + j) then some (j : Int) else none)
      := by
  unfold ListOffsetArray_getitem_adjust_offsets
  have hnl : nz.length = cnt (truesOf q) (sumTo f N) := by rw [hnz]; rfl
  have hr : ∀ i, i ≤ N → rd (offsTo f N) (i : Int) = ok ((sumTo f i : Nat) : Int) := by
    intro i hi
    rw [rd_nat_ok (by rw [offsTo_length]; omega), offsTo_getElem]
  have hr0 : rd (offsTo f N) 0 = ok 0 := by simpa using hr 0 (by omega)
  rw [hr0, bind_ok, wr_ok (by omega) (by omega), bind_ok]
  simp only [Int.toNat_zero]
  have key := forN_inv (n := N) (s := (o0.set 0 0, z0, 0)) (body := fun i (st : List Int × List Int × Nat) =>
    rd (offsTo f N) i >>= fun slicestart =>
    rd (offsTo f N) ((i + 1 : Nat) : Int) >>= fun slicestop =>
    whileF (nz.length + 1)
      (fun (s : List Int × Nat × Nat) =>
        decide (s.2.1 < nz.length) &&
          (match nz[s.2.1]? with | some x => decide (x < slicestop) | none => false))
      (fun s =>
        rd nz (s.2.1 : Int) >>= fun x =>
        wr s.1 (s.2.1 : Int) (x - slicestart) >>= fun tononzero =>
        ok (tononzero, s.2.1 + 1, s.2.2 + 1))
      (st.2.1, st.2.2, 0) >>= fun s =>
    rd st.1 i >>= fun o =>
    wr st.1 ((i + 1 : Nat) : Int) (o + (s.2.2 : Int)) >>= fun tooffsets =>
    ok (tooffsets, s.1, s.2.1))
    (fun m (st : List Int × List Int × Nat) => st.1.length = N + 1 ∧ st.2.1.length = nz.length ∧
      st.2.2 = cnt (truesOf q) (sumTo f m) ∧
      (∀ i, i ≤ m → st.1[i]? = some ((cnt (truesOf q) (sumTo f i) : Nat) : Int)) ∧
      ∀ i, i < m → ∀ k, cnt (truesOf q) (sumTo f i) ≤ k → k < cnt (truesOf q) (sumTo f (i + 1)) →
        st.2.1[k]? = nz[k]?.map (· - ((sumTo f i : Nat) : Int)))
    ⟨by simpa using ho, hz, by simp [cnt], fun i hi => by
      obtain rfl : i = 0 := by omega
      rw [List.getElem?_set_self (by omega)]; simp [cnt], fun i hi => by omega⟩
    (by
      rintro m hm ⟨offs, buf, k⟩ ⟨h1, h2, h3, h4, h5⟩
      dsimp only at h1 h2 h3 h4 h5 ⊢
      subst h3
      have hmono := cnt_mono (q := truesOf q) (sumTo_mono (f := f) (show m ≤ m + 1 by omega))
      have hmono2 := cnt_mono (q := truesOf q) (sumTo_mono (f := f) (show m + 1 ≤ N by omega))
      obtain ⟨buf', g1, g2, g3⟩ := adjust_while (nz := nz) (e := ((sumTo f (m + 1) : Nat) : Int))
        (top := cnt (truesOf q) (sumTo f (m + 1))) (start := ((sumTo f m : Nat) : Int)) (by omega)
        (fun k hk => by
          refine trues_lt (L := sumTo f N) (sumTo_mono (by omega)) ?_
          rw [← hnz]; exact List.getElem?_eq_getElem hk)
        (nz.length + 1) (cnt (truesOf q) (sumTo f m)) buf 0 h2 hmono (by omega)
      rw [hr m (by omega), bind_ok, hr (m + 1) (by omega), bind_ok, g2, bind_ok]
      have ho := h4 m (by omega)
      obtain ⟨hml, ho'⟩ := List.getElem?_eq_some_iff.mp ho
      rw [rd_nat_ok hml, bind_ok, ho', wr_nat_ok (by omega), bind_ok]
      refine ⟨_, rfl, by simpa using h1, g1, rfl, ?_, ?_⟩
      · intro i hi
        dsimp only
        by_cases he : i = m + 1
        · subst he
          rw [List.getElem?_set_self (by omega)]
          congr 1; omega
        · rw [List.getElem?_set_ne (by omega)]
          exact h4 i (by omega)
      · intro i hi k hk1 hk2
        dsimp only
        rw [g3 k]
        by_cases he : i = m
        · subst he
          rw [if_pos ⟨hk1, hk2⟩]
        · have hle := cnt_mono (q := truesOf q) (sumTo_mono (f := f) (show i + 1 ≤ m by omega))
          rw [if_neg (by omega)]
          exact h5 i (by omega) k hk1 hk2)
  obtain ⟨⟨offs, buf, k⟩, e1, e2, e3, e4, e5, e6⟩ := key
  dsimp only at e2 e3 e4 e5 e6
  refine ⟨buf, ?_, e3, ?_⟩
  · refine (congrArg (fun x : R (List Int × List Int × Nat) =>
      x >>= fun st => ok (st.1, st.2.1)) e1).trans ?_
    rw [bind_ok]
    congr 2
    change offs = _
    apply List.ext_getElem (by rw [offsTo_length]; omega)
    intro i hi _
    have := e5 i (by omega)
    rw [List.getElem?_eq_getElem hi] at this
    simp only [Option.some.injEq] at this
    rw [this, offsTo_getElem, sumTo_validIn]
  · intro i hi
    have hle : sumTo f i + f i ≤ sumTo f N := by
      have := sumTo_mono (f := f) (show i + 1 ≤ N by omega)
      rw [sumTo_succ] at this; exact this
    have hs := filterMap_slice (q := truesOf q) hle
    rw [← hnz] at hs
    have hv : validIn (truesOf q) f i = cnt (truesOf q) (sumTo f i + f i) - cnt (truesOf q) (sumTo f i) := by
      rw [validIn, sumTo_succ]
    have hlec := cnt_mono (q := truesOf q) hle
    have : (buf.drop (cnt (truesOf q) (sumTo f i))).take (validIn (truesOf q) f i)
        = ((nz.drop (cnt (truesOf q) (sumTo f i))).take
          (cnt (truesOf q) (sumTo f i + f i) - cnt (truesOf q) (sumTo f i))).map
          (· - ((sumTo f i : Nat) : Int)) := by
      rw [← hv]
      apply List.ext_getElem?
      intro k
      rw [List.getElem?_map, List.getElem?_take, List.getElem?_take]
      split
      · rename_i hk
        rw [List.getElem?_drop, List.getElem?_drop, e6 i hi _ (by omega) (by rw [sumTo_succ]; omega)]
      · rfl
    rw [this, hs, List.map_filterMap]
    congr 1
    funext j
    simp only [truesOf]
    split
    · simp
    · rfl

namespace Content

/-- The booleans of a mask. -/
theorem asslice_bools {f : Nat} :
    ∀ c : Content, c.Good → c.rank ≤ f → RaggedIndex true false 0 c →
      ∃ (q : Nat → Bool) (fb : Bool),
        assliceF f c = ok (.array ((List.range c.len).filterMap (truesOf q)) fb) ∧
        (fb = false → c.len = 0) ∧ ∀ i, i < c.len → c.valD i = .atom (.bool (q i)) := by
  induction f with
  | zero =>
    intro c _ hf
    have : 0 < c.rank := by cases c <;> simp [rank]
    omega
  | succ f ih =>
    intro c hg hf hr
    cases hr with
    | empty => exact ⟨fun _ => false, false, rfl, fun _ => rfl, fun i hi => by simp [len] at hi⟩
    | @numpy _ p dt data h1 =>
      simp only [IndexItems, if_true] at h1
      obtain ⟨rfl, h2⟩ := h1
      set xs := data.map Atom.toInt with hxs
      have hxl : xs.length = data.length := by simp [hxs]
      refine ⟨fun i => xs[i]?.getD 0 != 0, true, ?_, fun h => Bool.noConfusion h, ?_⟩
      · simp only [assliceF]
        rw [if_neg (by decide), if_pos trivial, ← hxs, numtrue_ok (by omega), bind_ok, nonzero_ok (by omega)
          (by rw [alloc_length]), bind_ok]
        congr 2
        unfold trueAt
        simp only [len]
        rw [← List.filterMap_eq_map, List.filterMap_filter]
        apply List.filterMap_congr
        intro i hi
        simp [truesOf]
      · intro i hi
        simp only [len] at hi
        rw [valD_numpy hi]
        obtain ⟨b, hb⟩ := h2 _ (List.getElem_mem hi)
        rw [hb]
        have : xs[i]? = some (Atom.bool b).toInt := by
          rw [hxs, List.getElem?_map, List.getElem?_eq_getElem hi, hb]; rfl
        simp only [this]
        cases b <;> rfl
    | index h1 h2 =>
      cases c <;> simp only [isIndex, Bool.false_eq_true] at h1
      case indexed p index d =>
        obtain ⟨hd, _⟩ := good_indexed.mp hg
        obtain ⟨c', e1, e2, e3, e4, e5, e6⟩ := project_indexed hg
        obtain ⟨q, fb, i1, i2, i3⟩ := ih c' e2 (by simp only [rank] at hf; omega)
          (Gathered.closed (RaggedIndex.closed true) hd e6 (false, 0) (h2 d (by simp [children])))
        refine ⟨q, fb, ?_, fun h => e4.symm.trans (i2 h), fun i hi => ?_⟩
        · simp only [assliceF]; rw [e1, bind_ok, i1, e4]; rfl
        · rw [← e5 i hi]; exact i3 i (by rw [e4]; exact hi)
      case unmasked p d =>
        obtain ⟨q, fb, i1, i2, i3⟩ := ih d (good_unmasked.mp hg) (by simp only [rank] at hf; omega)
          (h2 d (by simp [children]))
        exact ⟨q, fb, by simp only [assliceF]; exact i1, i2, i3⟩

theorem truePositions_seg {c : Content} {q : Nat → Bool} {s l : Nat}
    (h : ∀ i, i < l → c.valD (s + i) = .atom (.bool (q (s + i)))) :
    truePositions (c.seg s l) = ((List.range l).filterMap
      (fun j => if q (s + j) then some (j : Int) else none)).map intVal := by
  unfold truePositions
  rw [List.map_filterMap, seg_length]
  apply List.filterMap_congr
  intro i hi
  rw [List.mem_range] at hi
  rw [seg_getElem?, if_pos hi, h i hi]
  cases q (s + i) <;> rfl

/-- Masks as slices. -/
theorem asslice_mask {f : Nat} :
    ∀ (n : Nat) (c : Content), c.Good → c.rank ≤ f → RaggedIndex true false (n + 1) c →
      ∃ s, assliceF f c = ok s ∧ Shows false (n + 1) s (unmask (n + 1) (c.seg 0 c.len)) ∧
        NotMask s := by
  induction f with
  | zero =>
    intro n c _ hf
    have : 0 < c.rank := by cases c <;> simp [rank]
    omega
  | succ f ih =>
    intro n c hg hf hr
    by_cases hx : isIndex c = true
    · have hch : ∀ d ∈ c.children, RaggedIndex true false (n + 1) d := by
        cases hr with
        | index _ h2 => exact h2
        | _ => simp [isIndex] at hx
      cases c <;> simp only [isIndex, Bool.false_eq_true] at hx
      case indexed p index d =>
        obtain ⟨hd, _⟩ := good_indexed.mp hg
        obtain ⟨c', e1, e2, e3, e4, e5, e6⟩ := project_indexed hg
        obtain ⟨s, i1, i2, i3⟩ := ih n c' e2 (by simp only [rank] at hf; omega)
          (Gathered.closed (RaggedIndex.closed true) hd e6 (false, n + 1)
            (hch d (by simp [children])))
        refine ⟨s, ?_, ?_, i3⟩
        · simp only [assliceF]; rw [e1, bind_ok, i1]
        · rw [e4] at i2
          rw [seg_same (d := c') (fun i hi => by simp only [Nat.zero_add]; rw [e5 i hi])]
          exact i2
      case unmasked p d =>
        obtain ⟨s, i1, i2, i3⟩ := ih n d (good_unmasked.mp hg)
          (by simp only [rank] at hf; omega) (hch d (by simp [children]))
        exact ⟨s, by simp only [assliceF]; exact i1, i2, i3⟩
    · have hx : isIndex c = false := by simpa using hx
      obtain ⟨offsets, d, h1, h2, h3, h4, h5, h6, h7, h8⟩ := asslice_lists hg hr hx hf
      obtain ⟨next, g1, g2, g3, g4, g5, g6⟩ := asslice_view h1 h2 h3 h4
      have hri := g3 (RaggedIndex.closed true) (false, n) h6
      set g := pairLen offsets (offsets.drop 1) with hgd
      have hws : ∀ i, i < c.len → (c.seg 0 c.len)[i]? = some (.list (next.seg (sumTo g i) (g i))) := by
        intro i hi
        rw [seg_getElem?, if_pos hi, Nat.zero_add, h8 i hi, g5 i hi]
      have hle : ∀ i, i < c.len → sumTo g i + g i ≤ next.len := by
        intro i hi
        have := sumTo_mono (f := g) (show i + 1 ≤ c.len by omega)
        rw [sumTo_succ] at this
        omega
      cases n with
      | succ n =>
        obtain ⟨s, i1, i2, i3⟩ := ih n next g1 (by omega) hri
        refine ⟨_, by rw [h7, (g6 _).1 s i1 i3], .jagged i2 ?_, fun idx h => JSlice.noConfusion h⟩
        refine ⟨by simp [unmask], by simp [unmask, g4], fun i hi => ?_⟩
        rw [show unmask (n + 1 + 1) (c.seg 0 c.len)
          = (c.seg 0 c.len).map (fun m => .list (unmask (n + 1) m.items)) from rfl,
          List.getElem?_map, hws i hi]
        simp only [Option.map_some, Val.items, unmask]
        rw [← List.map_drop, ← List.map_take, seg_sub _ (by have := hle i hi; omega), Nat.zero_add]
      | zero =>
        obtain ⟨q, fb, i1, i2, i3⟩ := asslice_bools (f := f) next g1 (by omega) hri
        have hun : ∀ i, i < c.len → (unmask 1 (c.seg 0 c.len))[i]? = some (.list
            (((List.range (g i)).filterMap
              (fun j => if q (sumTo g i + j) then some (j : Int) else none)).map intVal)) := by
          intro i hi
          rw [show unmask (0 + 1) (c.seg 0 c.len)
            = (c.seg 0 c.len).map (fun m => .list (unmask 0 m.items)) from rfl,
            List.getElem?_map, hws i hi]
          simp only [Option.map_some, Val.items, unmask]
          rw [truePositions_seg (q := q) (fun k hk => i3 _ (by have := hle i hi; omega))]
        cases fb with
        | false =>
          have hz := i2 rfl
          rw [hz] at i1
          refine ⟨_, by rw [h7, (g6 _).1 _ i1 (fun idx h => by simp at h)],
            .jagged .array ?_, fun idx h => JSlice.noConfusion h⟩
          refine ⟨by simp [unmask], by rw [← g4, hz]; simp, fun i hi => ?_⟩
          rw [hun i hi]
          have := hle i hi
          rw [show g i = 0 by omega]
          simp
        | true =>
          obtain ⟨nz', a1, a2, a3⟩ := adjust_ok (q := q) (f := g) (N := c.len)
            (o0 := alloc ((c.len + 1 : Nat) : Int))
            (z0 := alloc ((List.range next.len).filterMap (truesOf q)).length)
            (nz := (List.range next.len).filterMap (truesOf q)) (by rw [g4])
            (by rw [alloc_length]) (by rw [alloc_length])
          refine ⟨_, by rw [h7, (g6 _).2 _ i1, a1, bind_ok], .jagged .array ?_,
            fun idx h => JSlice.noConfusion h⟩
          refine ⟨by simp [unmask], ?_, fun i hi => ?_⟩
          · rw [sumTo_validIn, List.length_map, a2, ← g4]; rfl
          · rw [hun i hi, ← List.map_drop, ← List.map_take, sumTo_validIn, a3 i hi]

end Content
end Awk
