import Verif.Spec.Getitem
import Verif.Lemmas.SliceRange
import Verif.Lemmas.Maps
/-
The kernels of `getitem_next`.
-/

namespace Awk
open R Spec

/-! ### Stepped loops -/

theorem forN_front (n : Nat) (body : Nat → σ → R σ) (s : σ) :
    forN (n + 1) body s = body 0 s >>= fun s => forN n (fun i => body (i + 1)) s := by
  induction n with
  | zero => rw [forN_succ, forN_zero, bind_ok]; cases body 0 s <;> rfl
  | succ n ih =>
    rw [forN_succ, ih, R.bind_assoc]
    rfl

theorem pyRangeLen_step {a b s : Int} (hs : s ≠ 0) {n : Nat} (h : pyRangeLen a b s = n + 1) :
    pyRangeLen (a + s) b s = n := by
  by_cases hp : 0 < s
  · unfold pyRangeLen at h ⊢
    rw [if_pos hp] at h ⊢
    have : (b - (a + s) + s - 1) = (b - a + s - 1) + s * (-1) := by ring
    rw [this, Int.add_mul_ediv_left _ _ (by omega)]
    omega
  · unfold pyRangeLen at h ⊢
    rw [if_neg hp] at h ⊢
    have : (a + s - b + -s - 1) = (a - b + -s - 1) + (-s) * (-1) := by ring
    rw [this, Int.add_mul_ediv_left _ _ (by omega)]
    omega

theorem pyRangeLen_pos_iff {a b s : Int} (hs : s ≠ 0) :
    0 < pyRangeLen a b s ↔ (if 0 < s then a < b else b < a) := by
  unfold pyRangeLen
  split
  · rename_i hp
    rw [Int.lt_toNat, Int.natCast_zero, show ((0 : Int) < (b - a + s - 1) / s) ↔ 1 ≤ (b - a + s - 1) / s
      from Iff.rfl, Int.le_ediv_iff_mul_le hp]
    omega
  · rename_i hp
    rw [Int.lt_toNat, Int.natCast_zero, show ((0 : Int) < (a - b + -s - 1) / -s) ↔ 1 ≤ (a - b + -s - 1) / -s
      from Iff.rfl, Int.le_ediv_iff_mul_le (by omega)]
    omega

theorem pyRangeLen_le_abs {a b s : Int} (hs : s ≠ 0) : pyRangeLen a b s ≤ (b - a).natAbs := by
  unfold pyRangeLen
  split
  · rename_i hp
    rw [Int.toNat_le]
    by_cases h : a < b
    · have : (b - a + s - 1) / s < (b - a) + 1 := by
        rw [Int.ediv_lt_iff_lt_mul hp]
        nlinarith
      omega
    · have : (b - a + s - 1) / s ≤ 0 := by
        have : (b - a + s - 1) / s < 1 := by rw [Int.ediv_lt_iff_lt_mul hp]; omega
        omega
      omega
  · rename_i hp
    rw [Int.toNat_le]
    by_cases h : b < a
    · have : (a - b + -s - 1) / -s < (a - b) + 1 := by
        rw [Int.ediv_lt_iff_lt_mul (by omega)]
        have : (a - b) * 1 ≤ (a - b) * (-s) := Int.mul_le_mul_of_nonneg_left (by omega) (by omega)
        rw [Int.add_mul]
        omega
      omega
    · have : (a - b + -s - 1) / -s ≤ 0 := by
        have : (a - b + -s - 1) / -s < 1 := by rw [Int.ediv_lt_iff_lt_mul (by omega)]; omega
        omega
      omega

/-- A stepped loop runs over `range(a, b, s)`. -/
theorem forStep_eq {a b s : Int} (hs : s ≠ 0) (body : Int → σ → R σ) (st : σ) :
    forStep (decide (s > 0)) a b s body st
      = forN (pyRangeLen a b s) (fun n st => body (a + (n : Int) * s) st) st := by
  unfold forStep
  have key : ∀ (n fuel : Nat) (a : Int) (st : σ), pyRangeLen a b s = n → n ≤ fuel →
      whileF fuel (fun p : Int × σ => if decide (s > 0) then decide (p.1 < b) else decide (p.1 > b))
        (fun p => body p.1 p.2 >>= fun st => ok (p.1 + s, st)) (a, st)
      = forN n (fun i st => body (a + (i : Int) * s) st) st >>= fun st => ok (a + (n : Int) * s, st) := by
    intro n
    induction n with
    | zero =>
      intro fuel a st h _
      have hc : ¬ (if 0 < s then a < b else b < a) := by
        rw [← pyRangeLen_pos_iff hs]; omega
      have hc' : (if decide (s > 0) then decide (a < b) else decide (a > b)) = false := by
        by_cases hp : 0 < s
        · simp only [hp, if_true] at hc; simp [hp]; omega
        · simp only [hp, if_false] at hc; simp [hp]; omega
      cases fuel with
      | zero => simp only [whileF, hc']; simp
      | succ f => simp only [whileF, hc']; simp
    | succ n ih =>
      intro fuel a st h hf
      obtain ⟨f, rfl⟩ : ∃ f, fuel = f + 1 := ⟨fuel - 1, by omega⟩
      have hc : (if 0 < s then a < b else b < a) := by
        rw [← pyRangeLen_pos_iff hs]; omega
      have hc' : (if decide (s > 0) then decide (a < b) else decide (a > b)) = true := by
        by_cases hp : 0 < s
        · simp only [hp, if_true] at hc; simp [hp]; omega
        · simp only [hp, if_false] at hc; simp [hp]; omega
      simp only [whileF, hc', if_true]
      rw [forN_front, R.bind_assoc, R.bind_assoc]
      simp only [Int.natCast_zero, Int.zero_mul, Int.add_zero]
      apply bind_congr'
      intro st' _
      rw [bind_ok, ih f (a + s) st' (pyRangeLen_step hs h) (by omega)]
      have e : ∀ i : Nat, a + s + (i : Int) * s = a + ((i + 1 : Nat) : Int) * s := by
        intro i; push_cast; ring
      simp only [e]
  rw [key _ _ _ _ rfl (pyRangeLen_le_abs hs), R.bind_assoc]
  simp

/-- The items of a stepped loop. -/
theorem forStep_push {a b s : Int} (hs : s ≠ 0) (h : Int → Int) {done rest : List Int}
    (hr : pyRangeLen a b s ≤ rest.length) :
    forStep (decide (s > 0)) a b s (fun j (ck : List Int × Int) =>
      wr ck.1 ck.2 (h j) >>= fun out => ok (out, ck.2 + 1)) (done ++ rest, (done.length : Int))
    = ok (done ++ (pyRange a b s).map h ++ rest.drop (pyRangeLen a b s),
        ((done.length + pyRangeLen a b s : Nat) : Int)) := by
  rw [forStep_eq hs]
  unfold pyRange
  generalize pyRangeLen a b s = n at hr ⊢
  induction n with
  | zero => simp
  | succ n ih =>
    rw [forN_succ, ih (by omega), bind_ok]
    simp only [List.map_map]
    rw [wr_nat_ok (by simp; omega), bind_ok]
    congr 1
    simp only [Prod.mk.injEq]
    constructor
    · rw [List.range_succ, List.map_append, List.set_append_right _ _ (by simp)]
      rw [List.append_assoc]
      simp only [List.length_append, List.length_map, List.length_range]
      have : rest.drop n = rest[n] :: rest.drop (n + 1) := by
        rw [List.getElem_cons_drop]
      rw [List.append_assoc done _ _]
      simp only [Function.comp, List.map_map, List.length_append, List.length_map, List.length_range,
        Nat.sub_self, List.map_cons, List.map_nil, this]
      simp only [List.set_cons_zero, List.append_assoc, List.cons_append, List.nil_append]
    · push_cast; ring

/-- A regularised range selects the positions of the Python slice. -/
theorem regularize_range {start stop : Option Int} (h1 : GoodArg start) (h2 : GoodArg stop)
    {len : Int} (hlen : 0 ≤ len) {step : Int} (hs : step ≠ 0) :
    let r := regularize_rangeslice (sliceArg start) (sliceArg stop) (decide (step > 0))
      (sliceArg start != kSliceNone) (sliceArg stop != kSliceNone) len
    pyRange r.1 r.2 step = pySlicePositions len start stop step := by
  intro r
  have hl : pyRangeLen r.1 r.2 step = pyRangeLen (pyIndices len start stop step).1
      (pyIndices len start stop step).2 step ∧ r.1 = (pyIndices len start stop step).1 := by
    by_cases hp : 0 < step
    · have e : r = ((pyIndices len start stop step).1,
          max (pyIndices len start stop step).1 (pyIndices len start stop step).2) := by
        show regularize_rangeslice _ _ (decide (step > 0)) _ _ _ = _
        rw [show decide (step > 0) = true by simpa using hp, regularize_pos h1 h2 hlen hp]
      rw [e]
      refine ⟨?_, rfl⟩
      have a := nextsize_pos (lo := (pyIndices len start stop step).1)
        (hi := (pyIndices len start stop step).2) hp
      have b := nextsize_pos (lo := (pyIndices len start stop step).1)
        (hi := max (pyIndices len start stop step).1 (pyIndices len start stop step).2) hp
      rw [show max (pyIndices len start stop step).1 (max (pyIndices len start stop step).1
        (pyIndices len start stop step).2) = max (pyIndices len start stop step).1
        (pyIndices len start stop step).2 by omega, a] at b
      exact_mod_cast b.symm
    · have hp : step < 0 := by omega
      have e : r = ((pyIndices len start stop step).1,
          min (pyIndices len start stop step).1 (pyIndices len start stop step).2) := by
        show regularize_rangeslice _ _ (decide (step > 0)) _ _ _ = _
        rw [show decide (step > 0) = false by simp; omega, regularize_neg h1 h2 hlen hp]
      rw [e]
      refine ⟨?_, rfl⟩
      have a := nextsize_neg (lo := (pyIndices len start stop step).1)
        (hi := (pyIndices len start stop step).2) hp
      have b := nextsize_neg (lo := (pyIndices len start stop step).1)
        (hi := min (pyIndices len start stop step).1 (pyIndices len start stop step).2) hp
      rw [show min (pyIndices len start stop step).1 (min (pyIndices len start stop step).1
        (pyIndices len start stop step).2) = min (pyIndices len start stop step).1
        (pyIndices len start stop step).2 by omega, a] at b
      exact_mod_cast b.symm
  unfold pySlicePositions pyRange
  rw [hl.1, hl.2]

theorem pyRange_length (a b s : Int) : (pyRange a b s).length = pyRangeLen a b s := by
  simp [pyRange]

/-- The positions, as natural numbers, that a range selects in a list of `n` items. -/
def rangePos (start stop : Option Int) (step : Int) (n : Nat) : List Int :=
  pySlicePositions n start stop step

theorem ListArray_getitem_next_range_carrylength_ok {starts stops : List Int} {n : Nat}
    {start stop : Option Int} {step : Int} (h1 : GoodArg start) (h2 : GoodArg stop)
    (hs : step ≠ 0) (hn : n ≤ starts.length) (hn' : n ≤ stops.length)
    (hp : ∀ i (h : i < n), starts[i] ≤ stops[i]) :
    ListArray_getitem_next_range_carrylength starts stops n (sliceArg start) (sliceArg stop) step
      = ok ((sumTo (fun i => (rangePos start stop step (pairLen starts stops i)).length) n : Nat) : Int) := by
  unfold ListArray_getitem_next_range_carrylength
  induction n with
  | zero => rfl
  | succ n ih =>
    rw [forN_succ, ih (by omega) (by omega) (fun i hi => hp i (by omega)), bind_ok]
    rw [rd_nat_ok (by omega), bind_ok, rd_nat_ok (by omega), bind_ok]
    have hlen : stops[n] - starts[n] = ((pairLen starts stops n : Nat) : Int) := by
      have := hp n (by omega)
      simp [pairLen, show n < starts.length by omega, show n < stops.length by omega]
      omega
    have hr := regularize_range h1 h2 (len := ((pairLen starts stops n : Nat) : Int)) (by omega) hs
    simp only [hlen]
    rw [forStep_eq hs, sumTo_succ]
    have hl : pyRangeLen (regularize_rangeslice (sliceArg start) (sliceArg stop) (decide (step > 0))
        (sliceArg start != kSliceNone) (sliceArg stop != kSliceNone) (pairLen starts stops n : Nat)).1
        (regularize_rangeslice (sliceArg start) (sliceArg stop) (decide (step > 0))
        (sliceArg start != kSliceNone) (sliceArg stop != kSliceNone) (pairLen starts stops n : Nat)).2
        step = (rangePos start stop step (pairLen starts stops n)).length := by
      rw [← pyRange_length, hr]; rfl
    rw [hl]
    generalize (rangePos start stop step (pairLen starts stops n)).length = m
    generalize sumTo _ n = s
    clear hl hr
    induction m with
    | zero => simp
    | succ m ih => rw [forN_succ, ih, bind_ok]; congr 1

theorem ListArray_getitem_next_range_ok {starts stops tooffsets tocarry : List Int} {n : Nat}
    {start stop : Option Int} {step : Int} (h1 : GoodArg start) (h2 : GoodArg stop)
    (hs : step ≠ 0) (hn : n ≤ starts.length) (hn' : n ≤ stops.length)
    (hp : ∀ i (h : i < n), starts[i] ≤ stops[i]) (ho : tooffsets.length = n + 1)
    (hc : tocarry.length = sumTo (fun i => (rangePos start stop step (pairLen starts stops i)).length) n) :
    ListArray_getitem_next_range tooffsets tocarry starts stops n (sliceArg start) (sliceArg stop) step
      = ok (offsTo (fun i => (rangePos start stop step (pairLen starts stops i)).length) n,
          ((List.range n).map (fun i => (rangePos start stop step (pairLen starts stops i)).map
            (fun x => (starts[i]?.getD 0) + x))).flatten) := by
  unfold ListArray_getitem_next_range
  set f : Nat → Nat := fun i => (rangePos start stop step (pairLen starts stops i)).length with hf
  set S : Nat → List Int := fun i => (rangePos start stop step (pairLen starts stops i)).map
            (fun x => (starts[i]?.getD 0) + x) with hS
  have hSf : ∀ i, (S i).length = f i := fun i => by simp [hS, hf]
  have hfl : ∀ m, (((List.range m).map S).flatten).length = sumTo f m := by
    intro m; rw [flatten_map_length]; exact sumTo_congr (fun i _ => hSf i)
  rw [wr_ok (by omega) (by omega), bind_ok]
  simp only [Int.toNat_zero]
  suffices key : ∀ m, m ≤ n → ∃ o : List Int, forN m (fun i (st : List Int × List Int × Int) =>
      rd stops (i : Int) >>= fun stopi => rd starts (i : Int) >>= fun starti =>
      let r := regularize_rangeslice (sliceArg start) (sliceArg stop) (decide (step > 0))
        (sliceArg start != kSliceNone) (sliceArg stop != kSliceNone) (stopi - starti)
      forStep (decide (step > 0)) r.1 r.2 step (fun j (ck : List Int × Int) =>
        wr ck.1 ck.2 (starti + j) >>= fun tocarry => ok (tocarry, ck.2 + 1)) (st.2.1, st.2.2)
        >>= fun ck =>
      wr st.1 ((i + 1 : Nat) : Int) ck.2 >>= fun tooffsets => ok (tooffsets, ck.1, ck.2))
      (tooffsets.set 0 0, tocarry, 0)
      = ok (o, ((List.range m).map S).flatten ++ tocarry.drop (sumTo f m), ((sumTo f m : Nat) : Int)) ∧
      o.length = n + 1 ∧ ∀ j, j ≤ m → o[j]? = some ((sumTo f j : Nat) : Int) by
    obtain ⟨o, e1, e2, e3⟩ := key n (Nat.le_refl _)
    rw [e1, bind_ok]
    have ho' : o = offsTo f n := by
      apply List.ext_getElem?
      intro j
      by_cases hj : j ≤ n
      · rw [e3 j hj, List.getElem?_eq_getElem (by simp; omega), offsTo_getElem]
      · rw [List.getElem?_eq_none (by omega), List.getElem?_eq_none (by simp; omega)]
    rw [ho', List.drop_eq_nil_of_le (by omega), List.append_nil]
  intro m
  induction m with
  | zero =>
    intro _
    refine ⟨tooffsets.set 0 0, by simp, by simpa using ho, ?_⟩
    intro j hj
    obtain rfl : j = 0 := by omega
    simp [List.getElem?_set, ho]
  | succ m ih =>
    intro hm
    obtain ⟨o, e1, e2, e3⟩ := ih (by omega)
    have hlen : stops[m] - starts[m] = ((pairLen starts stops m : Nat) : Int) := by
      have := hp m (by omega)
      simp [pairLen, show m < starts.length by omega, show m < stops.length by omega]
      omega
    have hr := regularize_range h1 h2 (len := ((pairLen starts stops m : Nat) : Int)) (by omega) hs
    have hle := sumTo_mono (f := f) hm
    rw [sumTo_succ] at hle
    rw [forN_succ, e1, bind_ok, rd_nat_ok (by omega), bind_ok, rd_nat_ok (by omega), bind_ok]
    simp only [hlen]
    have hl := pyRange_length (regularize_rangeslice (sliceArg start) (sliceArg stop) (decide (step > 0))
        (sliceArg start != kSliceNone) (sliceArg stop != kSliceNone) (pairLen starts stops m : Nat)).1
        (regularize_rangeslice (sliceArg start) (sliceArg stop) (decide (step > 0))
        (sliceArg start != kSliceNone) (sliceArg stop != kSliceNone) (pairLen starts stops m : Nat)).2 step
    simp only at hr
    rw [hr] at hl
    have hl' : f m = _ := hl
    have hpush := forStep_push (a := (regularize_rangeslice (sliceArg start) (sliceArg stop) (decide (step > 0))
        (sliceArg start != kSliceNone) (sliceArg stop != kSliceNone) (pairLen starts stops m : Nat)).1)
        (b := (regularize_rangeslice (sliceArg start) (sliceArg stop) (decide (step > 0))
        (sliceArg start != kSliceNone) (sliceArg stop != kSliceNone) (pairLen starts stops m : Nat)).2)
        hs (fun j => starts[m] + j) (done := ((List.range m).map S).flatten)
        (rest := tocarry.drop (sumTo f m)) (by rw [← hl', List.length_drop]; omega)
    rw [hr, ← hl', hfl] at hpush
    rw [hpush, bind_ok]
    rw [wr_nat_ok (by omega), bind_ok]
    refine ⟨o.set (m + 1) ((sumTo f m + f m : Nat) : Int), ?_, by simpa using e2, ?_⟩
    · congr 3
      · rw [List.range_succ, List.map_append, List.flatten_append]
        simp only [List.map_cons, List.map_nil, List.flatten_cons, List.flatten_nil, List.append_nil,
          List.drop_drop, sumTo_succ]
        congr 2
        simp [hS, rangePos, show m < starts.length by omega]
    · intro j hj
      rw [List.getElem?_set]
      split
      · rename_i he; subst he; rw [if_pos (by omega), sumTo_succ]
      · exact e3 j (by omega)

/-! ### Loops that may raise -/

theorem forN_tot {n : Nat} {body : Nat → σ → R σ} {s : σ} {h : Prop} (P : Nat → σ → Prop)
    (h0 : P 0 s) (hstep : ∀ i, i < n → ∀ s, P i s → (body i s).Tot h (P (i + 1))) :
    (forN n body s).Tot h (P n) := by
  induction n with
  | zero => exact .ok h0
  | succ n ih =>
    rw [forN_succ]
    exact (ih (fun i hi => hstep i (by omega))).bind (fun s hs => hstep n (by omega) s hs)

/-- A loop that fills one buffer. -/
theorem fill_tot {n : Nat} {f : Nat → R α} {h : Prop} {P : Nat → α → Prop} {out : List α}
    (hl : out.length = n) (hf : ∀ i, i < n → (f i).Tot h (P i)) :
    (forN n (fun i out => f i >>= fun x => wr out (i : Int) x) out).Tot h
      (fun xs => xs.length = n ∧ ∀ i (h : i < xs.length), P i xs[i]) := by
  refine (forN_tot (fun i xs => xs.length = n ∧ ∀ j (h : j < xs.length), j < i → P j xs[j])
    ⟨hl, fun j _ hj => by omega⟩ ?_).mono (fun h => h) (fun xs hx => ⟨hx.1, fun i hi =>
      hx.2 i hi (by omega)⟩)
  intro i hi xs ⟨h1, h2⟩
  refine (hf i hi).bind (fun x hx => ?_)
  rw [wr_nat_ok (by omega)]
  refine .ok ⟨by simpa using h1, ?_⟩
  intro j hj hji
  rw [List.getElem_set]
  split
  · rename_i he; subst he; exact hx
  · exact h2 j (by simpa using hj) (by omega)

/-- A loop that fills two buffers, the second one with known values. -/
theorem fill2_tot {n : Nat} {f : Nat → R α} {g : Nat → β} {h : Prop} {P : Nat → α → Prop}
    {out1 : List α} {out2 : List β} (hl : out1.length = n) (hl' : out2.length = n)
    (hf : ∀ i, i < n → (f i).Tot h (P i)) :
    (forN n (fun i (st : List α × List β) => f i >>= fun x => wr st.1 (i : Int) x >>= fun a =>
      wr st.2 (i : Int) (g i) >>= fun b => ok (a, b)) (out1, out2)).Tot h
      (fun st => st.1.length = n ∧ st.2.length = n ∧ (∀ i (h : i < st.1.length), P i st.1[i]) ∧
        ∀ i, i < n → st.2[i]? = some (g i)) := by
  refine (forN_tot (fun i st => st.1.length = n ∧ st.2.length = n ∧
    (∀ j (h : j < st.1.length), j < i → P j st.1[j]) ∧ ∀ j, j < i → st.2[j]? = some (g j))
    ⟨hl, hl', fun j _ hj => by omega, fun j hj => by omega⟩ ?_).mono (fun h => h)
      (fun st hx => ⟨hx.1, hx.2.1, fun i hi => hx.2.2.1 i hi (by omega), hx.2.2.2⟩)
  intro i hi st ⟨h1, h2, h3, h4⟩
  refine (hf i hi).bind (fun x hx => ?_)
  rw [wr_nat_ok (by omega), bind_ok, wr_nat_ok (by omega), bind_ok]
  refine .ok ⟨by simpa using h1, by simpa using h2, ?_, ?_⟩
  · intro j hj hji
    simp only [List.getElem_set]
    split
    · rename_i he; subst he; exact hx
    · exact h3 j (by simpa using hj) (by omega)
  · intro j hj
    simp only [List.getElem?_set]
    split
    · rename_i he; subst he; rw [if_pos (by omega)]
    · exact h4 j (by omega)

/-- Nested loops that fill two buffers, the second one with the inner index. -/
theorem nested_tot {n m : Nat} {pre : Nat → R Unit} {f : Nat → Nat → R Int} {h : Prop}
    {P : Nat → Nat → Int → Prop} {out1 out2 : List Int} (hl : out1.length = n * m)
    (hl' : out2.length = n * m) (hpre : ∀ i, i < n → (pre i).Tot h (fun _ => True))
    (hf : ∀ i, i < n → ∀ j, j < m → (f i j).Tot h (P i j)) :
    (forN n (fun i (st : List Int × List Int) => pre i >>= fun _ => forN m (fun j st =>
      f i j >>= fun x => wr st.1 ((i * m + j : Nat) : Int) x >>= fun a =>
      wr st.2 ((i * m + j : Nat) : Int) (j : Int) >>= fun b => ok (a, b)) st) (out1, out2)).Tot h
      (fun st => st.1.length = n * m ∧ st.2.length = n * m ∧
        (∀ i, i < n → ∀ j, j < m → ∃ x, st.1[i * m + j]? = some x ∧ P i j x) ∧
        ∀ i, i < n → ∀ j, j < m → st.2[i * m + j]? = some (j : Int)) := by
  have lt : ∀ i j, i < n → j < m → i * m + j < n * m := by
    intro i j hi hj
    calc i * m + j < i * m + m := by omega
      _ = (i + 1) * m := by ring
      _ ≤ n * m := Nat.mul_le_mul_right _ hi
  have ne : ∀ i j i' j', j < m → j' < m → i * m + j = i' * m + j' → i = i' ∧ j = j' := by
    intro i j i' j' hj hj' he
    have hm : 0 < m := by omega
    have h1 : (i * m + j) / m = i := by
      rw [Nat.add_comm, Nat.add_mul_div_right _ _ hm, Nat.div_eq_of_lt hj]; omega
    have h2 : (i' * m + j') / m = i' := by
      rw [Nat.add_comm, Nat.add_mul_div_right _ _ hm, Nat.div_eq_of_lt hj']; omega
    have : i = i' := by rw [← h1, he, h2]
    subst this
    exact ⟨rfl, by omega⟩
  let Q (i j : Nat) (st : List Int × List Int) : Prop :=
    st.1.length = n * m ∧ st.2.length = n * m ∧
    (∀ i' j', i' < n → j' < m → (i' < i ∨ (i' = i ∧ j' < j)) →
      (∃ x, st.1[i' * m + j']? = some x ∧ P i' j' x) ∧ st.2[i' * m + j']? = some (j' : Int))
  refine (forN_tot (fun i st => Q i 0 st) ⟨hl, hl', fun i' j' _ _ hq => by omega⟩ ?_).mono
    (fun h => h) (fun st hx => ⟨hx.1, hx.2.1, fun i hi j hj => (hx.2.2 i j hi hj (.inl hi)).1,
      fun i hi j hj => (hx.2.2 i j hi hj (.inl hi)).2⟩)
  intro i hi st hst
  refine (hpre i hi).bind (fun _ _ => ?_)
  refine (forN_tot (fun j st => Q i j st) hst ?_).mono (fun h => h) (fun st hx => ⟨hx.1, hx.2.1,
    fun i' j' hi' hj' hq => hx.2.2 i' j' hi' hj' (by omega)⟩)
  intro j hj st ⟨h1, h2, h3⟩
  have hlt := lt i j hi hj
  refine (hf i hi j hj).bind (fun x hx => ?_)
  rw [wr_nat_ok (by omega), bind_ok, wr_nat_ok (by omega), bind_ok]
  refine .ok ⟨by simpa using h1, by simpa using h2, ?_⟩
  intro i' j' hi' hj' hq
  simp only [List.getElem?_set]
  by_cases he : i * m + j = i' * m + j'
  · obtain ⟨rfl, rfl⟩ := ne _ _ _ _ hj hj' he
    simp only [if_true]
    rw [if_pos (by omega), if_pos (by omega)]
    exact ⟨⟨x, rfl, hx⟩, rfl⟩
  · rw [if_neg he, if_neg he]
    refine h3 i' j' hi' hj' ?_
    rcases hq with hq | ⟨rfl, hq⟩
    · exact .inl hq
    · by_cases hjj : j' = j
      · subst hjj; exact absurd rfl he
      · exact .inr ⟨rfl, by omega⟩

/-! ### Positions -/

/-- Item `a` of a list of `n` items that begins at `s`, with C++ bounds checks. -/
theorem regAt_tot {a s : Int} {n : Nat} {len : Int} (hlen : len = n) {h : Prop}
    (hh : h → (regAt a n).isSome) :
    (if ¬ (0 ≤ (if a < 0 then a + len else a) ∧ (if a < 0 then a + len else a) < len)
      then err "index out of range" else ok (s + (if a < 0 then a + len else a))).Tot h
      (fun x => ∃ r, regAt a n = some r ∧ x = s + (r : Int)) := by
  subst hlen
  by_cases hc : 0 ≤ (if a < 0 then a + (n : Int) else a) ∧ (if a < 0 then a + (n : Int) else a) < n
  · rw [if_neg (by simpa using hc)]
    refine .ok ⟨(if a < 0 then a + (n : Int) else a).toNat, ?_, ?_⟩
    · simp only [regAt]; rw [if_pos hc]
    · rw [Int.toNat_of_nonneg hc.1]
  · rw [if_pos hc]
    refine .err ?_
    intro hx
    have := hh hx
    simp only [regAt] at this
    rw [if_neg hc] at this
    simp at this

theorem regAt_lt {a : Int} {n r : Nat} (h : regAt a n = some r) : r < n := by
  unfold regAt at h
  dsimp only at h
  by_cases hc : 0 ≤ (if a < 0 then a + (n : Int) else a) ∧ (if a < 0 then a + (n : Int) else a) < n
  · rw [if_pos hc] at h
    injection h with h; omega
  · rw [if_neg hc] at h; simp at h

theorem pyGet?_regAt {vs : List α} {i : Int} :
    pyGet? vs i = (regAt i vs.length).bind (fun r => vs[r]?) := by
  unfold pyGet? regAt
  by_cases h0 : 0 ≤ i
  · rw [if_pos h0]
    simp only [show ¬ i < 0 by omega, if_false]
    split
    · rfl
    · rw [List.getElem?_eq_none (by omega)]; rfl
  · rw [if_neg h0]
    simp only [show i < 0 by omega, if_true]
    by_cases h1 : 0 ≤ i + vs.length
    · rw [if_pos h1, if_pos ⟨h1, by omega⟩]; rfl
    · rw [if_neg h1, if_neg (by omega)]; rfl

/-! ### The kernels -/

theorem ListArray_getitem_next_at_tot {starts stops tocarry : List Int} {n : Nat} {a : Int}
    {h : Prop} (hn : n ≤ starts.length) (hn' : n ≤ stops.length)
    (hp : ∀ i (h : i < n), starts[i] ≤ stops[i]) (hl : tocarry.length = n)
    (hh : h → ∀ i, i < n → (regAt a (pairLen starts stops i)).isSome) :
    (ListArray_getitem_next_at tocarry starts stops n a).Tot h (fun xs => xs.length = n ∧
      ∀ i (h : i < xs.length), ∃ r, regAt a (pairLen starts stops i) = some r ∧
        xs[i] = starts[i]?.getD 0 + (r : Int)) := by
  unfold ListArray_getitem_next_at
  refine fill_tot (P := fun i x => ∃ r, regAt a (pairLen starts stops i) = some r ∧
    x = starts[i]?.getD 0 + (r : Int)) hl (fun i hi => ?_)
  rw [rd_nat_ok (by omega), bind_ok, rd_nat_ok (by omega), bind_ok]
  have hlen : stops[i] - starts[i] = ((pairLen starts stops i : Nat) : Int) := by
    have := hp i hi
    simp [pairLen, show i < starts.length by omega, show i < stops.length by omega]
    omega
  rw [show starts[i]?.getD 0 = starts[i] by simp [show i < starts.length by omega]]
  exact regAt_tot hlen (fun hx => hh hx i hi)

theorem listArrayAt_tot {start stop a : Int} {n lc : Nat} {h : Prop} (hlen : stop - start = n)
    (hh : h → (regAt a n).isSome) :
    (listArrayAt start stop lc a).Tot h (fun x => ∃ r, regAt a n = some r ∧ x = start + (r : Int)) :=
  regAt_tot hlen hh

theorem listArrayCheck_ok {start stop : Int} {lc : Nat} (h : GoodPair start stop lc) :
    listArrayCheck start stop lc = ok () := by
  unfold listArrayCheck
  rcases h with h | h
  · rw [if_neg (by omega), if_neg (by omega)]
  · rw [if_neg (by omega), if_neg (by omega)]

theorem pairLen_int {starts stops : List Int} {i lc : Nat} (h1 : i < starts.length)
    (h2 : i < stops.length) (hp : GoodPair starts[i] stops[i] lc) :
    stops[i] - starts[i] = ((pairLen starts stops i : Nat) : Int) := by
  have := hp.le
  simp [pairLen, h1, h2]
  omega

theorem ListArray_getitem_next_array_tot {starts stops flat tocarry toadv : List Int} {n lc : Nat}
    {h : Prop} (hn : n ≤ starts.length) (hn' : n ≤ stops.length)
    (hp : ∀ i (h : i < n), GoodPair starts[i] stops[i] lc) (hl : tocarry.length = n * flat.length)
    (hl' : toadv.length = n * flat.length)
    (hh : h → ∀ i, i < n → ∀ j (hj : j < flat.length),
      (regAt flat[j] (pairLen starts stops i)).isSome) :
    (ListArray_getitem_next_array tocarry toadv starts stops flat n flat.length lc).Tot h
      (fun ca => ca.1.length = n * flat.length ∧ ca.2.length = n * flat.length ∧
        (∀ i, i < n → ∀ j, j < flat.length → ∃ x, ca.1[i * flat.length + j]? = some x ∧
          ∃ r, (flat[j]?.bind (fun a => regAt a (pairLen starts stops i))) = some r ∧
            x = starts[i]?.getD 0 + (r : Int)) ∧
        ∀ i, i < n → ∀ j, j < flat.length → ca.2[i * flat.length + j]? = some (j : Int)) := by
  have := nested_tot (n := n) (m := flat.length) (h := h)
    (pre := fun i => rd starts (i : Int) >>= fun start => rd stops (i : Int) >>= fun stop =>
      listArrayCheck start stop lc)
    (f := fun i j => rd starts (i : Int) >>= fun start => rd stops (i : Int) >>= fun stop =>
      rd flat (j : Int) >>= fun a => listArrayAt start stop lc a)
    (P := fun i j x => ∃ r, (flat[j]?.bind (fun a => regAt a (pairLen starts stops i))) = some r ∧
            x = starts[i]?.getD 0 + (r : Int)) (out1 := tocarry) (out2 := toadv) hl hl' ?_ ?_
  · convert this using 1
    unfold ListArray_getitem_next_array
    apply forN_congr
    intro i hi st
    rw [rd_nat_ok (by omega), bind_ok, rd_nat_ok (by omega), bind_ok, bind_ok, bind_ok]
    apply bind_congr'
    intro _ _
    apply forN_congr
    intro j hj st
    rw [bind_ok, bind_ok]
  · intro i hi
    rw [rd_nat_ok (by omega), bind_ok, rd_nat_ok (by omega), bind_ok, listArrayCheck_ok (hp i hi)]
    exact .ok trivial
  · intro i hi j hj
    rw [rd_nat_ok (by omega), bind_ok, rd_nat_ok (by omega), bind_ok, rd_nat_ok hj, bind_ok]
    refine (listArrayAt_tot (pairLen_int (by omega) (by omega) (hp i hi))
      (fun hx => hh hx i hi j hj)).mono (fun h => h) ?_
    rintro x ⟨r, h1, h2⟩
    refine ⟨r, by simpa [hj] using h1, ?_⟩
    rw [h2]; simp [show i < starts.length by omega]

theorem ListArray_getitem_next_array_advanced_tot
    {starts stops flat adv tocarry toadv : List Int} {n lc : Nat} {J : Nat → Nat}
    {h : Prop} (hn : n ≤ starts.length) (hn' : n ≤ stops.length)
    (hp : ∀ i (h : i < n), GoodPair starts[i] stops[i] lc) (hl : tocarry.length = n)
    (hl' : toadv.length = n) (hJ : ∀ i, i < n → adv[i]? = some (J i : Int) ∧ J i < flat.length)
    (hh : h → ∀ i, i < n →
      (flat[J i]?.bind (fun a => regAt a (pairLen starts stops i))).isSome) :
    (ListArray_getitem_next_array_advanced tocarry toadv starts stops flat adv n lc).Tot h
      (fun ca => ca.1.length = n ∧ ca.2.length = n ∧
        (∀ i (h : i < ca.1.length),
          ∃ r, (flat[J i]?.bind (fun a => regAt a (pairLen starts stops i))) = some r ∧
            ca.1[i] = starts[i]?.getD 0 + (r : Int)) ∧
        ∀ i, i < n → ca.2[i]? = some (i : Int)) := by
  unfold ListArray_getitem_next_array_advanced
  refine fill2_tot (g := fun i => (i : Int)) (P := fun i x =>
    ∃ r, (flat[J i]?.bind (fun a => regAt a (pairLen starts stops i))) = some r ∧
            x = starts[i]?.getD 0 + (r : Int)) hl hl' (fun i hi => ?_)
  obtain ⟨hJ1, hJ2⟩ := hJ i hi
  rw [rd_nat_ok (by omega), bind_ok, rd_nat_ok (by omega), bind_ok, listArrayCheck_ok (hp i hi),
    bind_ok, rd_nat, hJ1]
  simp only [bind_ok]
  rw [rd_nat_ok hJ2, bind_ok]
  refine (listArrayAt_tot (pairLen_int (by omega) (by omega) (hp i hi))
    (fun hx => by simpa [hJ2] using hh hx i hi)).mono (fun h => h) ?_
  rintro x ⟨r, h1, h2⟩
  refine ⟨r, by simpa [hJ2] using h1, ?_⟩
  rw [h2]; simp [show i < starts.length by omega]

theorem RegularArray_getitem_next_at_tot {tocarry : List Int} {n size : Nat} {a : Int} {h : Prop}
    (hl : tocarry.length = n) (hh : h → (regAt a size).isSome) :
    (RegularArray_getitem_next_at tocarry a n size).Tot h (fun xs => xs.length = n ∧
      ∀ i (h : i < xs.length), ∃ r, regAt a size = some r ∧
        xs[i] = ((i * size : Nat) : Int) + (r : Int)) := by
  unfold RegularArray_getitem_next_at
  by_cases hc : 0 ≤ (if a < 0 then a + (size : Int) else a) ∧
      (if a < 0 then a + (size : Int) else a) < size
  · simp only
    rw [if_neg (by simpa using hc)]
    refine fill_tot (P := fun i x => ∃ r, regAt a size = some r ∧
      x = ((i * size : Nat) : Int) + (r : Int)) hl (fun i hi => .ok ⟨(if a < 0 then a + (size : Int) else a).toNat, ?_, ?_⟩)
    · simp only [regAt]; rw [if_pos hc]
    · rw [Int.toNat_of_nonneg hc.1]; push_cast; rfl
  · simp only
    rw [if_pos hc]
    refine .err ?_
    intro hx
    have := hh hx
    simp only [regAt] at this
    rw [if_neg hc] at this
    simp at this

theorem RegularArray_getitem_next_array_regularize_tot {toarray flat : List Int} {size : Nat}
    {h : Prop} (hl : toarray.length = flat.length)
    (hh : h → ∀ j (hj : j < flat.length), (regAt flat[j] size).isSome) :
    (RegularArray_getitem_next_array_regularize toarray flat flat.length size).Tot h
      (fun xs => xs.length = flat.length ∧ ∀ j (h : j < xs.length), ∃ r,
        (flat[j]?.bind (fun a => regAt a size)) = some r ∧ xs[j] = (r : Int)) := by
  unfold RegularArray_getitem_next_array_regularize
  refine fill_tot (P := fun j x => ∃ r, (flat[j]?.bind (fun a => regAt a size)) = some r ∧
    x = (r : Int)) hl (fun j hj => ?_)
  rw [rd_nat_ok hj, bind_ok]
  have h0 : ∀ y : Int, ok y = ok (0 + y) := by simp
  dsimp only
  rw [h0]
  refine ((regAt_tot (s := 0) (a := flat[j]) (n := size) rfl (h := h)
    (fun hx => hh hx j hj)).mono (fun h => h) ?_ : R.Tot _ h _)
  rintro x ⟨r, h1, h2⟩
  exact ⟨r, by simpa [hj] using h1, by omega⟩

theorem RegularArray_getitem_next_array_ok {reg tocarry toadv : List Int} {n size : Nat}
    (hl : tocarry.length = n * reg.length) (hl' : toadv.length = n * reg.length) :
    (RegularArray_getitem_next_array tocarry toadv reg n reg.length size).Tot True
      (fun ca => ca.1.length = n * reg.length ∧ ca.2.length = n * reg.length ∧
        (∀ i, i < n → ∀ j, j < reg.length → ∃ x, ca.1[i * reg.length + j]? = some x ∧
          ∃ r, reg[j]? = some r ∧ x = ((i * size : Nat) : Int) + r) ∧
        ∀ i, i < n → ∀ j, j < reg.length → ca.2[i * reg.length + j]? = some (j : Int)) := by
  have := nested_tot (n := n) (m := reg.length) (h := True) (pre := fun _ => ok ())
    (f := fun i j => rd reg (j : Int) >>= fun a => ok ((i : Int) * size + a))
    (P := fun i j x => ∃ r, reg[j]? = some r ∧ x = ((i * size : Nat) : Int) + r)
    (out1 := tocarry) (out2 := toadv) hl hl' (fun _ _ => .ok trivial) ?_
  · exact this
  · intro i hi j hj
    rw [rd_nat_ok hj, bind_ok]
    exact .ok ⟨reg[j], by simp [hj], by push_cast; rfl⟩

theorem RegularArray_getitem_next_array_advanced_ok {reg adv tocarry toadv : List Int}
    {n size : Nat} {J : Nat → Nat} (hl : tocarry.length = n) (hl' : toadv.length = n)
    (hJ : ∀ i, i < n → adv[i]? = some (J i : Int) ∧ J i < reg.length) :
    (RegularArray_getitem_next_array_advanced tocarry toadv adv reg n size).Tot True
      (fun ca => ca.1.length = n ∧ ca.2.length = n ∧
        (∀ i (h : i < ca.1.length), ∃ r, reg[J i]? = some r ∧
          ca.1[i] = ((i * size : Nat) : Int) + r) ∧
        ∀ i, i < n → ca.2[i]? = some (i : Int)) := by
  unfold RegularArray_getitem_next_array_advanced
  refine fill2_tot (g := fun i => (i : Int)) (P := fun i x => ∃ r, reg[J i]? = some r ∧
    x = ((i * size : Nat) : Int) + r) hl hl' (fun i hi => ?_)
  obtain ⟨h1, h2⟩ := hJ i hi
  rw [rd_nat, h1]
  simp only [bind_ok]
  rw [rd_nat_ok h2, bind_ok]
  exact .ok ⟨reg[J i], by simp [h2], by push_cast; rfl⟩

theorem regular_range_carry_ok {n size : Nat} {start stop : Option Int} {step : Int}
    (h1 : GoodArg start) (h2 : GoodArg stop) (hs : step ≠ 0) :
    regular_range_carry n size (sliceArg start) (sliceArg stop) step
      = ok (((rangePos start stop step size).length : Int),
          ((List.range n).map (fun i => (rangePos start stop step size).map
            (fun x => ((i * size : Nat) : Int) + x))).flatten) := by
  unfold regular_range_carry
  rw [if_neg hs]
  have hreg : ∃ hi, regularize_rangeslice (sliceArg start) (sliceArg stop) (decide (step > 0))
      (sliceArg start != kSliceNone) (sliceArg stop != kSliceNone) size
        = ((pyIndices size start stop step).1, hi) ∧
      regular_nextsize (pyIndices size start stop step).1 hi step
        = ((rangePos start stop step size).length : Int) := by
    by_cases h : 0 < step
    · refine ⟨max (pyIndices size start stop step).1 (pyIndices size start stop step).2, ?_, ?_⟩
      · rw [show decide (step > 0) = true by simpa using h]
        exact regularize_pos h1 h2 (by omega) h
      · rw [nextsize_pos h, rangePos, pySlicePositions, pyRange_length]
    · refine ⟨min (pyIndices size start stop step).1 (pyIndices size start stop step).2, ?_, ?_⟩
      · rw [show decide (step > 0) = false by simpa using h]
        exact regularize_neg h1 h2 (by omega) (by omega)
      · rw [nextsize_neg (by omega), rangePos, pySlicePositions, pyRange_length]
  obtain ⟨hi, e1, e2⟩ := hreg
  rw [e1]
  simp only [e2]
  rw [RegularArray_getitem_next_range_eq _ _ _ _ _ _ (by
    simp only [alloc, List.length_replicate]
    rw [← Int.natCast_mul, Int.toNat_natCast]), bind_ok]
  congr 3
  apply List.map_congr_left
  intro i _
  simp only [rangePos, pySlicePositions, pyRange_length]
  simp only [pyRange, List.map_map]
  apply List.map_congr_left
  intro k _
  simp only [Function.comp]
  push_cast
  ring

theorem forN_const {n : Nat} {x : α} {o : Nat} {done rest : List α} {body : Nat → List α → R (List α)}
    (hb : ∀ j, j < n → ∀ out, body j out = wr out ((o + j : Nat) : Int) x)
    (hd : done.length = o) (hr : n ≤ rest.length) :
    forN n body (done ++ rest) = ok (done ++ List.replicate n x ++ rest.drop n) := by
  induction n with
  | zero => simp [forN_zero]
  | succ n ih =>
    rw [forN_succ, ih (fun j hj => hb j (by omega)) (by omega), bind_ok, hb n (by omega),
      wr_nat_ok (by simp; omega)]
    congr 1
    rw [List.set_append_right _ _ (by simp; omega)]
    simp only [List.length_append, List.length_replicate, hd, Nat.sub_self]
    rw [List.drop_eq_getElem_cons (show n < rest.length by omega), List.set_cons_zero,
      List.replicate_succ']
    simp only [List.append_assoc, List.cons_append, List.nil_append]

theorem RegularArray_getitem_next_range_spreadadvanced_ok {toadv adv : List Int} {n k : Nat}
    (hl : toadv.length = n * k) (ha : n ≤ adv.length) :
    RegularArray_getitem_next_range_spreadadvanced toadv adv n k
      = ok (((List.range n).map (fun i => List.replicate k (adv[i]?.getD 0))).flatten) := by
  unfold RegularArray_getitem_next_range_spreadadvanced
  have hsum : ∀ i, sumTo (fun i => (List.replicate k (adv[i]?.getD 0)).length) i = i * k := by
    intro i
    simp only [List.length_replicate]
    exact sumTo_const k i
  refine forN_segments (fun i => List.replicate k (adv[i]?.getD 0)) ?_ ?_
  · intro i hi done rest hd hr
    rw [hsum] at hd
    rw [List.length_replicate] at hr ⊢
    refine forN_const (o := i * k) (fun j hj out => ?_) hd hr
    rw [rd_nat_ok (by omega), bind_ok]
    simp [show i < adv.length by omega]
  · rw [flatten_map_length, hsum, hl]

theorem ListArray_getitem_next_range_counts_ok {f : Nat → Nat} {n : Nat} :
    ListArray_getitem_next_range_counts (offsTo f n) n = ok ((sumTo f n : Nat) : Int) := by
  unfold ListArray_getitem_next_range_counts
  suffices hs : ∀ m, m ≤ n → forN m (fun i total =>
      rd (offsTo f n) ((i + 1 : Nat) : Int) >>= fun hi => rd (offsTo f n) (i : Int) >>= fun lo =>
      ok (total + hi - lo)) (0 : Int) = ok ((sumTo f m : Nat) : Int) from hs n (Nat.le_refl _)
  intro m hm
  induction m with
  | zero => rfl
  | succ m ih =>
    rw [forN_succ, ih (by omega), bind_ok, rd_offsTo (by omega), bind_ok, rd_offsTo (by omega),
      bind_ok, sumTo_succ]
    congr 1; push_cast; ring

theorem ListArray_getitem_next_range_spreadadvanced_ok {toadv adv : List Int} {f : Nat → Nat}
    {n : Nat} (hl : toadv.length = sumTo f n) (ha : n ≤ adv.length) :
    ListArray_getitem_next_range_spreadadvanced toadv adv (offsTo f n) n
      = ok (((List.range n).map (fun i => List.replicate (f i) (adv[i]?.getD 0))).flatten) := by
  unfold ListArray_getitem_next_range_spreadadvanced
  have hsum : ∀ i, sumTo (fun i => (List.replicate (f i) (adv[i]?.getD 0)).length) i = sumTo f i := by
    intro i
    exact sumTo_congr (fun i _ => by simp)
  refine forN_segments (fun i => List.replicate (f i) (adv[i]?.getD 0)) ?_ ?_
  · intro i hi done rest hd hr
    rw [hsum] at hd
    rw [List.length_replicate] at hr ⊢
    rw [rd_offsTo (by omega), bind_ok, rd_offsTo (by omega), bind_ok]
    unfold forI
    rw [show (((sumTo f (i + 1) : Nat) : Int) - ((sumTo f i : Nat) : Int)).toNat = f i by
      rw [sumTo_succ]; omega]
    refine forN_const (o := sumTo f i) (fun j hj out => ?_) hd hr
    rw [rd_nat_ok (by omega)]
    simp only [bind_ok]
    simp [show i < adv.length by omega]
  · rw [flatten_map_length, hsum, hl]

end Awk
