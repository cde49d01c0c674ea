import Verif.Lemmas.GetitemTop
import Verif.Spec.Jagged
/-
The kernels of ragged slices.
-/

namespace Awk
open R Spec

/-- The `n` first pairs lie in a buffer of `l` elements. -/
def Pairs (starts stops : List Int) (l : Nat) : Prop :=
  starts.length ≤ stops.length ∧
    ∀ i (h : i < starts.length) (h' : i < stops.length), GoodPair starts[i] stops[i] l

/-- Where list `i` begins. -/
def startAt (starts : List Int) (i : Nat) : Int := starts[i]?.getD 0

theorem Pairs.eq {starts stops : List Int} {l : Nat} (h : Pairs starts stops l) {i : Nat}
    (hi : i < starts.length) :
    ∃ h' : i < stops.length, starts[i] = startAt starts i ∧
      stops[i] = startAt starts i + (pairLen starts stops i : Int) ∧
      (0 < pairLen starts stops i → 0 ≤ startAt starts i ∧
        startAt starts i + (pairLen starts stops i : Int) ≤ l) := by
  have h' : i < stops.length := by have := h.1; omega
  have hp := h.2 i hi h'
  have e : startAt starts i = starts[i] := by simp [startAt, hi]
  have := pairLen_int hi h' hp
  refine ⟨h', e.symm, by omega, fun h0 => ?_⟩
  rw [e]
  rcases hp with hp | hp <;> omega

theorem carrylen_ok {starts stops : List Int} {l : Nat} (h : Pairs starts stops l) :
    ListArray_getitem_jagged_carrylen starts stops starts.length
      = ok ((sumTo (pairLen starts stops) starts.length : Nat) : Int) := by
  unfold ListArray_getitem_jagged_carrylen
  suffices key : ∀ m, m ≤ starts.length → forN m (fun i (carrylen : Int) =>
      rd stops (i : Int) >>= fun stop => rd starts (i : Int) >>= fun start =>
      ok (carrylen + (stop - start))) 0 = ok ((sumTo (pairLen starts stops) m : Nat) : Int) from
    key _ (Nat.le_refl _)
  intro m
  induction m with
  | zero => intro _; simp [sumTo_zero]
  | succ m ih =>
    intro hm
    obtain ⟨h', e1, e2, _⟩ := h.eq (i := m) (by omega)
    rw [forN_succ, ih (by omega), bind_ok, rd_nat_ok h', bind_ok, rd_nat_ok (by omega), bind_ok,
      sumTo_succ, e1, e2]
    congr 1
    omega

/-- Position `t` of list `i` of the slice, in list `i` of the array. -/
def PickAt (sliceindex starts lstarts lstops : List Int) (i t : Nat) (x : Int) : Prop :=
  ∃ a r, sliceindex[(startAt starts i).toNat + t]? = some a ∧
    regAt a (pairLen lstarts lstops i) = some r ∧ x = startAt lstarts i + (r : Int)

/-- One list of `jagged_apply`. -/
theorem jaggedPut_tot {sliceindex : List Int} {start count : Int} {n k0 l s : Nat} {h : Prop}
    (hcount : count = n) {tocarry : List Int} (hs : s + l ≤ sliceindex.length)
    (hk : k0 + l ≤ tocarry.length)
    (hh : h → ∀ t, t < l → ∀ a, sliceindex[s + t]? = some a → (regAt a n).isSome) :
    (forFrom (s : Int) ((s + l : Nat) : Int) (jaggedPut sliceindex start count) (tocarry, k0)).Tot h
      (fun ck => ck.2 = k0 + l ∧ ck.1.length = tocarry.length ∧
        (∀ j, j < k0 → ck.1[j]? = tocarry[j]?) ∧
        ∀ t, t < l → ∃ a r, sliceindex[s + t]? = some a ∧ regAt a n = some r ∧
          ck.1[k0 + t]? = some (start + (r : Int))) := by
  unfold forFrom
  rw [show (((s + l : Nat) : Int) - (s : Int)).toNat = l by omega]
  refine forN_tot (fun t (ck : List Int × Nat) => ck.2 = k0 + t ∧ ck.1.length = tocarry.length ∧
        (∀ j, j < k0 → ck.1[j]? = tocarry[j]?) ∧
        ∀ u, u < t → ∃ a r, sliceindex[s + u]? = some a ∧ regAt a n = some r ∧
          ck.1[k0 + u]? = some (start + (r : Int))) ⟨rfl, rfl, fun _ _ => rfl, fun u hu => by omega⟩ ?_
  rintro t ht ⟨c, k⟩ ⟨h1, h2, h3, h4⟩
  simp only at h1 h2 h3 h4 ⊢
  have hlt : s + t < sliceindex.length := by omega
  have hcc : k < c.length := by rw [h1, h2]; omega
  unfold jaggedPut
  rw [show (s : Int) + (t : Int) = ((s + t : Nat) : Int) by omega, rd_nat_ok hlt, bind_ok]
  simp only
  have hreg := regAt_tot (a := sliceindex[s + t]) (s := start) (n := n) (len := count) hcount
    (h := h) (fun hx => hh hx t ht _ (by simp [hlt]))
  have : (if ¬ (0 ≤ (if sliceindex[s + t] < 0 then sliceindex[s + t] + count else sliceindex[s + t]) ∧
        (if sliceindex[s + t] < 0 then sliceindex[s + t] + count else sliceindex[s + t]) < count)
        then err "index out of range" else
      wr c (k : Int) (start + (if sliceindex[s + t] < 0 then sliceindex[s + t] + count
        else sliceindex[s + t])) >>= fun tocarry => ok (tocarry, k + 1))
      = (if ¬ (0 ≤ (if sliceindex[s + t] < 0 then sliceindex[s + t] + count else sliceindex[s + t]) ∧
        (if sliceindex[s + t] < 0 then sliceindex[s + t] + count else sliceindex[s + t]) < count)
        then err "index out of range" else ok (start + (if sliceindex[s + t] < 0
          then sliceindex[s + t] + count else sliceindex[s + t]))) >>= fun x =>
        wr c (k : Int) x >>= fun tocarry => ok (tocarry, k + 1) := by
    generalize (if sliceindex[s + t] < 0 then sliceindex[s + t] + count else sliceindex[s + t]) = y
    split <;> rfl
  rw [this]
  refine hreg.bind (fun x hx => ?_)
  obtain ⟨r, hr, rfl⟩ := hx
  rw [wr_nat_ok hcc, bind_ok]
  refine .ok ⟨by simp only; omega, by simpa using h2, ?_, ?_⟩
  · intro j hj
    simp only
    rw [List.getElem?_set_ne (by omega)]
    exact h3 j hj
  · intro u hu
    simp only
    by_cases he : u = t
    · subst he
      refine ⟨_, r, List.getElem?_eq_getElem hlt, hr, ?_⟩
      rw [h1, List.getElem?_set_self (by omega)]
    · obtain ⟨a, r', g1, g2, g3⟩ := h4 u (by omega)
      refine ⟨a, r', g1, g2, ?_⟩
      rw [List.getElem?_set_ne (by omega)]
      exact g3

theorem apply_tot {starts stops sliceindex lstarts lstops tooffsets tocarry : List Int} {lc : Nat}
    {h : Prop} (hp : Pairs starts stops sliceindex.length) (hl : Pairs lstarts lstops lc)
    (hn : starts.length = lstarts.length) (ho : tooffsets.length = starts.length + 1)
    (hc : tocarry.length = sumTo (pairLen starts stops) starts.length)
    (hh : h → ∀ i, i < starts.length → ∀ t, t < pairLen starts stops i → ∀ a,
      sliceindex[(startAt starts i).toNat + t]? = some a →
        (regAt a (pairLen lstarts lstops i)).isSome) :
    (ListArray_getitem_jagged_apply tooffsets tocarry starts stops starts.length sliceindex
      sliceindex.length lstarts lstops lc).Tot h (fun oc =>
        oc.1.length = starts.length + 1 ∧ oc.2.length = sumTo (pairLen starts stops) starts.length ∧
        (∀ i, i < starts.length → oc.1[i]? = some ((sumTo (pairLen starts stops) i : Nat) : Int) ∧
          oc.1[i + 1]? = some ((sumTo (pairLen starts stops) (i + 1) : Nat) : Int)) ∧
        ∀ i, i < starts.length → ∀ t, t < pairLen starts stops i → ∃ x,
          oc.2[sumTo (pairLen starts stops) i + t]? = some x ∧
          PickAt sliceindex starts lstarts lstops i t x) := by
  unfold ListArray_getitem_jagged_apply
  set f := pairLen starts stops with hf
  refine (forN_tot (P := fun m (st : List Int × List Int × Nat) =>
      st.1.length = starts.length + 1 ∧ st.2.1.length = sumTo f starts.length ∧
      st.2.2 = sumTo f m ∧
      (∀ i, i < m → st.1[i]? = some ((sumTo f i : Nat) : Int) ∧
          st.1[i + 1]? = some ((sumTo f (i + 1) : Nat) : Int)) ∧
      ∀ i, i < m → ∀ t, t < f i → ∃ x, st.2.1[sumTo f i + t]? = some x ∧
        PickAt sliceindex starts lstarts lstops i t x) (h := h)
      ⟨ho, hc, rfl, fun i hi => by omega, fun i hi => by omega⟩ ?_).bind ?_
  · rintro i hi ⟨o, c, k⟩ ⟨h1, h2, h3, h4, h5⟩
    simp only at h1 h2 h3 h4 h5 ⊢
    obtain ⟨hi', e1, e2, e3⟩ := hp.eq hi
    rw [← hf] at e2 e3
    obtain ⟨hj', g1, g2, g3⟩ := hl.eq (i := i) (by omega)
    rw [rd_nat_ok hi, bind_ok, rd_nat_ok hi', bind_ok, wr_nat_ok (by omega), bind_ok, e1, e2]
    have hmono := sumTo_mono (f := f) (show i + 1 ≤ starts.length by omega)
    rw [sumTo_succ] at hmono
    suffices hin : (if startAt starts i ≠ startAt starts i + (f i : Int) then
        if startAt starts i + (f i : Int) < startAt starts i then
          err "jagged slice's stops[i] < starts[i]" else
        if startAt starts i + (f i : Int) > sliceindex.length then
          err "jagged slice's offsets extend beyond its content" else
        rd lstarts i >>= fun start => rd lstops i >>= fun stop =>
        if stop < start then err "stops[i] < starts[i]" else
        if start ≠ stop ∧ stop > lc then err "stops[i] > len(content)" else
        forFrom (startAt starts i) (startAt starts i + (f i : Int))
          (jaggedPut sliceindex start (stop - start)) (c, k)
      else ok (c, k)).Tot h (fun ck => ck.2 = k + f i ∧ ck.1.length = c.length ∧
        (∀ j, j < k → ck.1[j]? = c[j]?) ∧
        ∀ t, t < f i → ∃ x, ck.1[k + t]? = some x ∧
          PickAt sliceindex starts lstarts lstops i t x) by
      refine hin.bind ?_
      rintro ⟨c', k'⟩ ⟨q1, q2, q3, q4⟩
      simp only at q1 q2 q3 q4 ⊢
      rw [wr_nat_ok (by simp; omega), bind_ok]
      refine .ok ⟨by simpa using h1, by simp only; omega, by simp only; rw [sumTo_succ]; omega, ?_, ?_⟩
      · intro j hj
        simp only
        by_cases he : j = i
        · subst he
          constructor
          · rw [List.getElem?_set_ne (by omega), List.getElem?_set_self (by omega), h3]
          · rw [List.getElem?_set_self (by simp; omega), sumTo_succ, q1, h3]
        · obtain ⟨a1, a2⟩ := h4 j (by omega)
          constructor
          · rw [List.getElem?_set_ne (by omega), List.getElem?_set_ne (by omega), a1]
          · rw [List.getElem?_set_ne (by omega)]
            by_cases he' : j + 1 = i
            · rw [he', List.getElem?_set_self (by omega), h3]
            · rw [List.getElem?_set_ne (by omega), a2]
      · intro j hj t ht
        simp only
        by_cases he : j = i
        · subst he
          obtain ⟨x, a1, a2⟩ := q4 t ht
          exact ⟨x, by rw [← h3]; exact a1, a2⟩
        · obtain ⟨x, a1, a2⟩ := h5 j (by omega) t ht
          refine ⟨x, ?_, a2⟩
          rw [q3 _ (by
            have := sumTo_mono (f := f) (show j + 1 ≤ i by omega)
            rw [sumTo_succ] at this; omega)]
          exact a1
    by_cases hz : f i = 0
    · rw [if_neg (by omega)]
      exact .ok ⟨by simp only; omega, rfl, fun _ _ => rfl, fun t ht => by omega⟩
    · obtain ⟨b1, b2⟩ := e3 (by omega)
      rw [if_pos (by omega), if_neg (by omega), if_neg (by omega), rd_nat_ok (by omega), bind_ok,
        rd_nat_ok hj', bind_ok, g1, g2, if_neg (by omega), if_neg (by omega)]
      obtain ⟨s, hs⟩ : ∃ s : Nat, startAt starts i = s := ⟨(startAt starts i).toNat, by omega⟩
      have hput := jaggedPut_tot (sliceindex := sliceindex) (start := startAt lstarts i)
        (count := startAt lstarts i + (pairLen lstarts lstops i : Int) - startAt lstarts i)
        (n := pairLen lstarts lstops i) (k0 := k) (l := f i) (s := s) (h := h) (by omega)
        (tocarry := c) (by omega) (by omega) (fun hx t ht a ha => hh hx i hi t ht a (by
          rw [hs]; simpa using ha))
      rw [hs, show (s : Int) + (f i : Int) = ((s + f i : Nat) : Int) by omega]
      refine hput.mono (fun h => h) ?_
      rintro ck ⟨p1, p2, p3, p4⟩
      refine ⟨p1, p2, p3, fun t ht => ?_⟩
      obtain ⟨a, r, p5, p6, p7⟩ := p4 t ht
      exact ⟨_, p7, a, r, by rw [hs]; simpa using p5, p6, rfl⟩
  · rintro ⟨o, c, k⟩ ⟨h1, h2, h3, h4, h5⟩
    exact .ok ⟨h1, h2, h4, h5⟩

/-- The offsets of the lists of lists. -/
theorem descend_tot {starts stops lstarts lstops tooffsets : List Int} {l lc : Nat} {h : Prop}
    (hp : Pairs starts stops l) (hl : Pairs lstarts lstops lc)
    (hn : starts.length = lstarts.length) (ho : tooffsets.length = starts.length + 1)
    (h0 : 0 < starts.length → startAt starts 0 = 0)
    (hh : h → ∀ i, i < starts.length → pairLen starts stops i = pairLen lstarts lstops i) :
    (ListArray_getitem_jagged_descend tooffsets starts stops starts.length lstarts lstops).Tot h
      (fun o => o = offsTo (pairLen starts stops) starts.length ∧
        ∀ i, i < starts.length → pairLen starts stops i = pairLen lstarts lstops i) := by
  unfold ListArray_getitem_jagged_descend
  have hfirst : (if starts.length = 0 then wr tooffsets 0 0
      else rd starts 0 >>= fun s => wr tooffsets 0 s) = ok (tooffsets.set 0 0) := by
    split
    · rw [wr_ok (by omega) (by omega)]; rfl
    · have h1 := h0 (by omega)
      rw [rd_ok (by omega) (by omega), bind_ok]
      have : starts[0]'(by omega) = 0 := by
        rw [← h1]; simp [startAt, show 0 < starts.length by omega]
      simp only [Int.toNat_zero]
      rw [this, wr_ok (by omega) (by omega)]; rfl
  rw [hfirst, bind_ok]
  set f := pairLen starts stops with hf
  refine (forN_tot (P := fun m (o : List Int) => o.length = starts.length + 1 ∧
      (∀ i, i ≤ m → o[i]? = some ((sumTo f i : Nat) : Int)) ∧
      ∀ i, i < m → f i = pairLen lstarts lstops i) (h := h) ⟨by simpa using ho, ?_, ?_⟩ ?_).mono
      (fun h => h) ?_
  · intro i hi
    obtain rfl : i = 0 := by omega
    rw [List.getElem?_set_self (by omega)]; rfl
  · intro i hi; omega
  · rintro i hi o ⟨h1, h2, h3⟩
    obtain ⟨hi', e1, e2, e3⟩ := hp.eq hi
    rw [← hf] at e2 e3
    obtain ⟨hj', g1, g2, g3⟩ := hl.eq (i := i) (by omega)
    rw [rd_nat_ok hi', bind_ok, rd_nat_ok hi, bind_ok, rd_nat_ok hj', bind_ok,
      rd_nat_ok (by omega), bind_ok, e1, e2, g1, g2]
    by_cases he : f i = pairLen lstarts lstops i
    · rw [if_neg (by omega)]
      have := h2 i (Nat.le_refl _)
      obtain ⟨hb, hx⟩ := List.getElem?_eq_some_iff.mp this
      rw [rd_nat_ok hb, bind_ok, wr_nat_ok (by omega), hx]
      refine .ok ⟨by simpa using h1, ?_, ?_⟩
      · intro j hj
        by_cases hji : j = i + 1
        · subst hji
          rw [List.getElem?_set_self (by omega), sumTo_succ]
          congr 1; omega
        · rw [List.getElem?_set_ne (by omega)]; exact h2 j (by omega)
      · intro j hj
        by_cases hji : j = i
        · subst hji; exact he
        · exact h3 j (by omega)
    · rw [if_pos (by omega)]
      exact .err (fun hx => he (hh hx i hi))
  · rintro o ⟨h1, h2, h3⟩
    refine ⟨?_, h3⟩
    apply List.ext_getElem?
    intro j
    by_cases hj : j ≤ starts.length
    · rw [h2 j hj, List.getElem?_eq_getElem (by simp; omega), offsTo_getElem]
    · rw [List.getElem?_eq_none (by omega), List.getElem?_eq_none (by simp; omega)]

/-- The bounds of the lists that are not missing. -/
theorem jagged_project_ok {q : Nat → Option Int} {starts stops s0 t0 : List Int} {n : Nat}
    (hn : n ≤ starts.length) (hn' : n ≤ stops.length) (hs : s0.length = cnt q n)
    (ht : t0.length = cnt q n) :
    ∃ rs, MaskedArray_getitem_next_jagged_project (outIndex q n) starts stops s0 t0 n = ok rs ∧
      rs.1.length = cnt q n ∧ rs.2.length = cnt q n ∧
      ∀ i, i < n → (q i).isSome → rs.1[cnt q i]? = starts[i]? ∧ rs.2[cnt q i]? = stops[i]? := by
  unfold MaskedArray_getitem_next_jagged_project
  suffices key : ∀ m, m ≤ n → ∃ rs : List Int × List Int,
      forN m (fun i (st : (List Int × List Int) × Nat) =>
        rd (outIndex q n) i >>= fun j =>
        if j ≥ 0 then
          rd starts i >>= fun start => wr st.1.1 (st.2 : Int) start >>= fun startsOut =>
          rd stops i >>= fun stop => wr st.1.2 (st.2 : Int) stop >>= fun stopsOut =>
          ok ((startsOut, stopsOut), st.2 + 1)
        else ok st) ((s0, t0), 0) = ok (rs, cnt q m) ∧
      rs.1.length = cnt q n ∧ rs.2.length = cnt q n ∧
      ∀ i, i < m → (q i).isSome → rs.1[cnt q i]? = starts[i]? ∧ rs.2[cnt q i]? = stops[i]? by
    obtain ⟨rs, h1, h2⟩ := key n (Nat.le_refl _)
    exact ⟨rs, by rw [h1, bind_ok], h2⟩
  intro m
  induction m with
  | zero => intro _; exact ⟨(s0, t0), by simp [cnt], hs, ht, fun i hi => by omega⟩
  | succ m ih =>
    intro hm
    obtain ⟨rs, h1, h2, h3, h4⟩ := ih (by omega)
    rw [forN_succ, h1, bind_ok, rd_nat_ok (by simp; omega), bind_ok, outIndex_getElem]
    by_cases hq : (q m).isSome
    · have hlt : cnt q m < cnt q n := by
        have := cnt_mono (q := q) hm
        rw [cnt_succ, if_pos hq] at this; omega
      rw [if_pos hq, if_pos (by omega), rd_nat_ok (by omega), bind_ok]
      simp only
      rw [wr_nat_ok (by omega), bind_ok, rd_nat_ok (by omega), bind_ok, wr_nat_ok (by omega), bind_ok]
      refine ⟨(rs.1.set (cnt q m) starts[m], rs.2.set (cnt q m) stops[m]), ?_, by simpa using h2,
        by simpa using h3, ?_⟩
      · rw [cnt_succ, if_pos hq]
      · intro i hi hqi
        simp only
        by_cases he : i = m
        · subst he
          rw [List.getElem?_set_self (by omega), List.getElem?_set_self (by omega)]
          simp [show i < starts.length by omega, show i < stops.length by omega]
        · have hlt' : cnt q i < cnt q m := by
            have := cnt_mono (q := q) (show i + 1 ≤ m by omega)
            rw [cnt_succ, if_pos hqi] at this; omega
          rw [List.getElem?_set_ne (by omega), List.getElem?_set_ne (by omega)]
          exact h4 i (by omega) hqi
    · rw [if_neg hq, if_neg (by omega)]
      refine ⟨rs, ?_, h2, h3, ?_⟩
      · rw [cnt_succ, if_neg hq]; rfl
      · intro i hi hqi
        by_cases he : i = m
        · subst he; exact absurd hqi hq
        · exact h4 i (by omega) hqi

theorem cnt_inv {q : Nat → Option Int} {n t : Nat} (h : t < cnt q n) :
    ∃ i, i < n ∧ (q i).isSome ∧ cnt q i = t := by
  induction n with
  | zero => simp [cnt] at h
  | succ n ih =>
    by_cases hlt : t < cnt q n
    · obtain ⟨i, h1, h2, h3⟩ := ih hlt
      exact ⟨i, by omega, h2, h3⟩
    · rw [cnt_succ] at h
      by_cases hq : (q n).isSome
      · rw [if_pos hq] at h
        exact ⟨n, by omega, hq, by omega⟩
      · rw [if_neg hq] at h; omega

/-- One copy of the offsets. -/
theorem expand_ok {offsets s0 t0 : List Int} {n : Nat} (ho : offsets.length = n + 1)
    (hs : s0.length = n) (ht : t0.length = n) :
    RegularArray_getitem_jagged_expand s0 t0 offsets n 1
      = ok (Content.makeStarts offsets, Content.makeStops offsets) := by
  unfold RegularArray_getitem_jagged_expand
  simp only [forN_succ, forN_zero, bind_ok, Nat.zero_mul, Nat.zero_add]
  suffices key : ∀ m, m ≤ n → forN m (fun j (st : List Int × List Int) =>
      rd offsets j >>= fun start => wr st.1 (j : Int) start >>= fun multistarts =>
      rd offsets ((j + 1 : Nat) : Int) >>= fun stop => wr st.2 (j : Int) stop >>= fun multistops =>
      ok (multistarts, multistops)) (s0, t0)
      = ok (offsets.take m ++ s0.drop m, (offsets.drop 1).take m ++ t0.drop m) by
    rw [key n (Nat.le_refl _)]
    simp only [Content.makeStarts, Content.makeStops]
    rw [List.drop_eq_nil_of_le (by omega), List.drop_eq_nil_of_le (as := t0) (by omega),
      List.append_nil, List.append_nil, List.take_of_length_le (l := offsets.drop 1) (by simp; omega),
      show offsets.length - 1 = n by omega]
  intro m
  induction m with
  | zero => intro _; simp
  | succ m ih =>
    intro hm
    rw [forN_succ, ih (by omega), bind_ok, rd_nat_ok (by omega), bind_ok]
    simp only
    rw [wr_nat_ok (by simp; omega), bind_ok, rd_nat_ok (by omega), bind_ok,
      wr_nat_ok (by simp; omega), bind_ok]
    have key2 : ∀ (xs out : List Int) (x : Int), m < out.length → (hx : xs[m]? = some x) →
        (xs.take m ++ out.drop m).set m x = xs.take (m + 1) ++ out.drop (m + 1) := by
      intro xs out x h1 h2
      obtain ⟨h3, h4⟩ := List.getElem?_eq_some_iff.mp h2
      have := set_at_length (l := xs.take m) (rest := out.drop m) (x := x)
        (by rw [List.length_drop]; omega)
      rw [List.length_take, Nat.min_eq_left (by omega)] at this
      rw [this, List.drop_drop, List.take_succ, h2]
      rfl
    rw [key2 _ _ _ (by omega) (by simp [show m < offsets.length by omega]),
      key2 (offsets.drop 1) t0 _ (by omega) (by
        rw [List.getElem?_drop, List.getElem?_eq_getElem (by omega)]
        congr 2; omega)]

end Awk
