import Verif.Spec.Strided
import Verif.Lemmas.GetitemKernels
/-
Helper lemmas about NumPy arrays with strides: slices by strides.
-/

namespace Awk
open R Spec
namespace Nd

theorem valueAt_same {a b : Nd} (h : b.readItem = a.readItem) : b.valueAt = a.valueAt := by
  funext shape
  induction shape with
  | nil => funext ss pos; simp only [valueAt, h]
  | cons n ns ih =>
    funext ss pos
    cases ss with
    | nil => rfl
    | cons s ss => simp only [valueAt, ih]

theorem valueAt_flat (a : Nd) (d : Int) : (a.flat d).valueAt = a.valueAt := valueAt_same rfl

theorem valueAt_cons {a : Nd} {n : Nat} {ns : List Nat} {s : Int} {ss : List Int} {pos : Int} {v : Val} :
    a.valueAt (n :: ns) (s :: ss) pos = ok v ↔
      ∃ vs : List Val, v = .list vs ∧ vs.length = n ∧
        ∀ i (h : i < vs.length), a.valueAt ns ss (pos + (i : Int) * s) = ok vs[i] := by
  simp only [valueAt, bind_eq_ok, ok.injEq]
  constructor
  · rintro ⟨vs, h, rfl⟩
    obtain ⟨h1, h2⟩ := mapN_eq_ok.mp h
    exact ⟨vs, rfl, h1, h2⟩
  · rintro ⟨vs, rfl, h1, h2⟩
    exact ⟨vs, mapN_eq_ok.mpr ⟨h1, h2⟩, rfl⟩

theorem atHead_eq (i : Int) (n : Nat) :
    (∃ r : Nat, regAt i n = some r ∧ atHead i n = ok (r : Int)) ∨ (regAt i n = none ∧ (atHead i n).IsErr) := by
  unfold atHead regAt
  by_cases h : 0 ≤ (if i < 0 then i + (n : Int) else i) ∧ (if i < 0 then i + (n : Int) else i) < n
  · left
    refine ⟨_, by simp only [h, and_self, if_true]; rfl, ?_⟩
    simp only
    rw [if_neg (by omega), Int.toNat_of_nonneg h.1]
  · right
    refine ⟨by simp only [if_neg h], ?_⟩
    simp only
    rw [if_pos (by omega)]
    exact ⟨_, rfl⟩

theorem rangeHead_ok {start stop : Option Int} {step : Int} {n : Nat} (h1 : GoodArg start)
    (h2 : GoodArg stop) (hs : step ≠ 0) (hs' : step ≠ kSliceNone) :
    ∃ lo : Int, rangeHead start stop step n
        = ok (lo, step, (pySlicePositions n start stop step).length) ∧
      ∀ j (h : j < (pySlicePositions n start stop step).length),
        (pySlicePositions n start stop step)[j] = lo + (j : Int) * step := by
  unfold rangeHead
  simp only [if_neg hs', if_neg hs]
  have hr := regularize_range h1 h2 (len := (n : Int)) (by omega) hs
  simp only at hr
  have key : ∀ lo hi : Int, (0 < step → lo ≤ hi) → (step < 0 → hi ≤ lo) →
      (lo - hi).natAbs / step.natAbs + (if (lo - hi).natAbs % step.natAbs ≠ 0 then 1 else 0)
        = pyRangeLen lo hi step := by
    intro lo hi hp hn
    have cdiv : ∀ x d : Nat, 0 < d → x / d + (if x % d ≠ 0 then 1 else 0) = (x + d - 1) / d := by
      intro x d hd
      have e := Nat.div_add_mod x d
      by_cases hm : x % d = 0
      · simp only [hm, ne_eq, not_true_eq_false, if_false, Nat.add_zero]
        rw [hm, Nat.add_zero] at e
        symm
        rw [Nat.div_eq_iff hd]
        rw [Nat.mul_comm] at e
        omega
      · simp only [hm, ne_eq, not_false_eq_true, if_true]
        have hlt := Nat.mod_lt x hd
        symm
        rw [Nat.div_eq_iff hd]
        have e' : d * (x / d) = x / d * d := Nat.mul_comm _ _
        rw [Nat.add_mul]
        omega
    rw [cdiv _ _ (by omega)]
    unfold pyRangeLen
    by_cases hp' : 0 < step
    · rw [if_pos hp']
      have := hp hp'
      have e1 : hi - lo + step - 1 = (((lo - hi).natAbs + step.natAbs - 1 : Nat) : Int) := by omega
      have e2 : step = ((step.natAbs : Nat) : Int) := by omega
      rw [e1]
      conv_rhs => rw [e2]
      rw [← Int.natCast_ediv, Int.toNat_natCast]
      rw [show ((step.natAbs : Nat) : Int).natAbs = step.natAbs from Int.natAbs_natCast _]
    · rw [if_neg hp']
      have := hn (by omega)
      have e1 : lo - hi + -step - 1 = (((lo - hi).natAbs + step.natAbs - 1 : Nat) : Int) := by omega
      have e2 : -step = ((step.natAbs : Nat) : Int) := by omega
      rw [e1, e2, ← Int.natCast_ediv, Int.toNat_natCast]
  have hb := key (regularize_rangeslice (sliceArg start) (sliceArg stop) (decide (step > 0))
      (sliceArg start != kSliceNone) (sliceArg stop != kSliceNone) n).1
    (regularize_rangeslice (sliceArg start) (sliceArg stop) (decide (step > 0))
      (sliceArg start != kSliceNone) (sliceArg stop != kSliceNone) n).2
    (by
      intro hp
      rw [show decide (step > 0) = true by simpa using hp]
      rw [regularize_pos h1 h2 (by omega) hp]
      simp only; omega)
    (by
      intro hp
      rw [show decide (step > 0) = false by simp; omega]
      rw [regularize_neg h1 h2 (by omega) hp]
      simp only; omega)
  refine ⟨(regularize_rangeslice (sliceArg start) (sliceArg stop) (decide (step > 0))
      (sliceArg start != kSliceNone) (sliceArg stop != kSliceNone) n).1, ?_, ?_⟩
  · rw [hb, ← pyRange_length, hr]
  · intro j hj
    have : ∀ (l : List Int) (e : l = pySlicePositions n start stop step) (h : j < l.length),
        (pySlicePositions n start stop step)[j] = l[j] := by
      intro l e h; subst e; rfl
    rw [this _ hr (by rw [hr]; exact hj)]
    simp [pyRange]

/-- A full range keeps every position. -/
theorem fullRange (n : Nat) : pySlicePositions n none none 1 = (List.range n).map (fun (i : Nat) => (i : Int)) := by
  simp [pySlicePositions, pyRange, pyIndices, pyBound, pyRangeLen]

theorem pySlice_get {vs : List α} {start stop : Option Int} {step : Int} (hs : step ≠ 0) :
    (pySlice vs start stop step).length = (pySlicePositions vs.length start stop step).length ∧
    ∀ j (h : j < (pySlice vs start stop step).length)
      (h' : j < (pySlicePositions vs.length start stop step).length),
      ∃ h'' : ((pySlicePositions vs.length start stop step)[j]).toNat < vs.length,
        (pySlice vs start stop step)[j] = vs[((pySlicePositions vs.length start stop step)[j]).toNat] := by
  unfold pySlice
  have hin : ∀ x ∈ pySlicePositions vs.length start stop step, x.toNat < vs.length := by
    intro x hx
    have := mem_pySlicePositions (by omega) hs hx
    omega
  generalize pySlicePositions vs.length start stop step = ps at *
  have e : ps.filterMap (fun i => vs[i.toNat]?) = ps.attach.map (fun x => vs[x.1.toNat]'(hin x.1 x.2)) := by
    rw [← List.filterMap_eq_map]
    conv_lhs => rw [← List.attach_map_subtype_val ps, List.filterMap_map]
    apply filterMap_congr'
    intro x _
    simp [hin x.1 x.2]
  refine ⟨by rw [e]; simp, ?_⟩
  intro j h h'
  refine ⟨hin _ (List.getElem_mem h'), ?_⟩
  simp [e]

theorem mapM_some {α β : Type} {f : α → Option β} {xs : List α} {ys : List β} (hl : ys.length = xs.length)
    (h : ∀ i (h : i < xs.length) (h' : i < ys.length), f xs[i] = some ys[i]) : xs.mapM f = some ys := by
  induction xs generalizing ys with
  | nil => cases ys with
    | nil => rfl
    | cons y ys => simp at hl
  | cons x xs ih =>
    cases ys with
    | nil => simp at hl
    | cons y ys =>
      have h0 := h 0 (by simp) (by simp)
      simp only [List.getElem_cons_zero] at h0
      have := ih (ys := ys) (by simpa using hl) (fun i h1 h2 => by
        have := h (i + 1) (by simpa using h1) (by simpa using h2)
        simpa using this)
      simp [List.mapM_cons, h0, this]

/-- What a slice by strides of an array with rows of shape `ns` gives: when the slice fits the shape,
an array in the same buffer whose rows are the selections of the rows. -/
def Sliced (a : Nd) (ns : List Nat) (ss : List Int) (items : List SliceItem) (r : R Nd) : Prop :=
  (fitsShape ns items = true ∧
    ∃ (out : Nd) (l0 : Nat) (t0 : Int) (ts : List Int),
      r = ok out ∧ out.shape = l0 :: slicedShape ns true items ∧ out.strides = t0 :: ts ∧
      ts.length = (slicedShape ns true items).length ∧ out.readItem = a.readItem ∧
      ∀ d v, a.valueAt ns ss (a.byteoffset + d) = ok v →
        ∃ w, select items none v = some w ∧
          out.valueAt (slicedShape ns true items) ts (out.byteoffset + d) = ok w) ∨
  (fitsShape ns items = false ∧ r.IsErr)

theorem usedDims_eq (items : List NdItem) : dimlength items = usedDims items := by
  induction items with
  | nil => rfl
  | cons it rest ih =>
    cases it with
    | ellipsis => simpa [dimlength, usedDims] using ih
    | item it => cases it <;> simp [dimlength, usedDims, ih]

/-- A slice that fits uses at most all dimensions. -/
theorem fits_used {k : Nat} {items : List NdItem} {ns : List Nat}
    (h : fitsShape ns (expandWith k items) = true) : usedDims items ≤ ns.length := by
  induction items generalizing ns k with
  | nil => simp [usedDims]
  | cons it rest ih =>
    cases it with
    | ellipsis =>
      simp only [expandWith] at h
      simp only [usedDims]
      revert h
      generalize k = k'
      induction k' generalizing ns with
      | zero => intro h; exact ih (by simpa using h)
      | succ k' ih' =>
        intro h
        cases ns with
        | nil => simp [List.replicate_succ, fitsShape] at h
        | cons n ns =>
          simp only [List.replicate_succ, List.cons_append, fitsShape] at h
          have := ih' h
          simp; omega
    | item it =>
      simp only [expandWith] at h
      cases it with
      | newaxis => simp only [fitsShape] at h; exact ih h
      | «at» i =>
        cases ns with
        | nil => simp [fitsShape] at h
        | cons n ns =>
          simp only [fitsShape, Bool.and_eq_true] at h
          have := ih h.2
          simp [usedDims]; omega
      | range _ _ _ =>
        cases ns with
        | nil => simp [fitsShape] at h
        | cons n ns =>
          simp only [fitsShape] at h
          have := ih h
          simp [usedDims]; omega
      | array _ _ =>
        cases ns with
        | nil => simp [fitsShape] at h
        | cons n ns =>
          simp only [fitsShape, Bool.and_eq_true] at h
          have := ih h.2
          simp [usedDims]; omega

/-- Full ranges in every dimension change nothing. -/
theorem full_fits (ns : List Nat) : fitsShape ns (List.replicate ns.length (.range none none 1)) = true := by
  induction ns with
  | nil => rfl
  | cons n ns ih => simpa [List.replicate_succ, fitsShape] using ih

theorem full_shape (ns : List Nat) (b : Bool) :
    slicedShape ns b (List.replicate ns.length (.range none none 1)) = ns := by
  induction ns with
  | nil => rfl
  | cons n ns ih => simp [List.replicate_succ, slicedShape, ih, fullRange]

theorem full_select {a : Nd} {ns : List Nat} {ss : List Int} {pos : Int} {v : Val} {adv : Option Nat}
    (h : a.valueAt ns ss pos = ok v) :
    select (List.replicate ns.length (.range none none 1)) adv v = some v := by
  induction ns generalizing ss pos v with
  | nil => rfl
  | cons n ns ih =>
    cases ss with
    | nil => simp [valueAt] at h
    | cons s ss =>
      obtain ⟨vs, rfl, hl, hv⟩ := valueAt_cons.mp h
      simp only [List.length_cons, List.replicate_succ, select, selItem, selList]
      have e : pySlice vs none none 1 = vs := by
        have := pySlice_get (vs := vs) (start := none) (stop := none) (step := 1) (by decide)
        apply List.ext_getElem
        · rw [this.1, fullRange]; simp
        · intro i h1 h2
          obtain ⟨_, e⟩ := this.2 i h1 (by rw [← this.1]; exact h1)
          rw [e]
          simp [fullRange]
      rw [e, mapM_some (ys := vs) rfl (fun i h _ => ih (hv i h))]
      rfl

/-- A range by strides, when the rest of the slice is already known. -/
theorem sliced_range {a : Nd} {m n : Nat} {ns : List Nat} {s0 s : Int} {ss : List Int}
    (hsh : a.shape = m :: n :: ns) (hst : a.strides = s0 :: s :: ss) {start stop : Option Int}
    {step : Int} (h1 : GoodArg start) (h2 : GoodArg stop) (hs : step ≠ 0) (hs' : step ≠ kSliceNone)
    {rest : List SliceItem} {length : Nat} {k : Nd → Nat → R Nd}
    (hk : ∀ d l, Sliced (a.flat d) ns ss rest (k (a.flat d) l)) :
    Sliced a (n :: ns) (s :: ss) (.range start stop step :: rest)
      (rangeHead start stop step (a.shape.getD 1 0) >>= fun r =>
        k (a.flat (r.1 * a.strides.getD 1 0)) (length * r.2.2) >>= fun out =>
        ok (afterRange length r.2.2 (a.strides.getD 0 0) (a.strides.getD 1 0 * r.2.1) out)) := by
  obtain ⟨lo, e1, e2⟩ := rangeHead_ok (n := n) h1 h2 hs hs'
  have g1 : a.shape.getD 1 0 = n := by rw [hsh]; rfl
  have g2 : a.strides.getD 1 0 = s := by rw [hst]; rfl
  rw [g1, g2, e1, bind_ok]
  simp only
  have hkk := hk (lo * s) (length * (pySlicePositions n start stop step).length)
  unfold Sliced at hkk ⊢
  simp only [fitsShape, slicedShape]
  rcases hkk with ⟨hf, out, l0, t0, ts, e3, e4, e5, e6, e7, e8⟩ | ⟨hf, e, he⟩
  · rw [e3, bind_ok]
    refine Or.inl ⟨hf, _, length, a.strides.getD 0 0, (s * step) :: ts, rfl, ?_, ?_, ?_, ?_, ?_⟩
    · simp [afterRange, e4]
    · simp [afterRange, e5]
    · simp [e6]
    · exact e7
    · intro d v hv
      obtain ⟨vs, rfl, hl, hv⟩ := valueAt_cons.mp hv
      have hps := pySlice_get (vs := vs) (start := start) (stop := stop) hs
      have hin : ∀ x ∈ pySlicePositions (n : Int) start stop step, 0 ≤ x ∧ x < (n : Int) :=
        fun x hx => mem_pySlicePositions (by omega) hs hx
      have key : ∀ j (h : j < (pySlice vs start stop step).length), ∃ w,
          select rest none (pySlice vs start stop step)[j] = some w ∧
          out.valueAt (slicedShape ns true rest) ts (out.byteoffset + (d + (j : Int) * (s * step))) = ok w := by
        intro j h
        have hj : j < (pySlicePositions vs.length start stop step).length := by rw [← hps.1]; exact h
        obtain ⟨h3, h4⟩ := hps.2 j h hj
        have h5 := hv _ h3
        rw [h4]
        have hj' : j < (pySlicePositions n start stop step).length := by rw [← hl]; exact hj
        have h6 : (pySlicePositions vs.length start stop step)[j] = lo + (j : Int) * step := by
          rw [← e2 j hj']; simp [hl]
        have h7 := hin _ (List.getElem_mem hj')
        rw [e2 j hj'] at h7
        refine e8 _ _ ?_
        rw [valueAt_flat, ← h5]
        congr 1
        rw [h6, Int.toNat_of_nonneg h7.1]
        simp only [flat]
        ring
      refine ⟨.list ((List.range (pySlice vs start stop step).length).map
        (fun j => if h : j < (pySlice vs start stop step).length then (key j h).choose else .null)), ?_, ?_⟩
      · simp only [select, selItem, selList]
        rw [mapM_some (ys := (List.range (pySlice vs start stop step).length).map
          (fun j => if h : j < (pySlice vs start stop step).length then (key j h).choose else .null))
          (by simp)]
        · rfl
        · intro j h h'
          simp only [List.getElem_map, List.getElem_range, dif_pos h]
          exact (key j h).choose_spec.1
      · rw [show (afterRange length (pySlicePositions n start stop step).length (a.strides.getD 0 0)
          (s * step) out).valueAt = out.valueAt from valueAt_same rfl]
        rw [valueAt_cons]
        refine ⟨_, rfl, by simp [hps.1, hl], ?_⟩
        intro j h
        have h' : j < (pySlice vs start stop step).length := by simpa using h
        simp only [List.getElem_map, List.getElem_range, dif_pos h']
        have := (key j h').choose_spec.2
        rw [← this]
        simp only [afterRange]
        congr 1
        ring
  · exact Or.inr ⟨hf, e, by rw [he]; rfl⟩

theorem bystrides_sliced : ∀ (fuel : Nat) (items : List NdItem) (a : Nd) (m : Nat) (ns : List Nat)
    (s0 : Int) (ss : List Int) (length : Nat) (shape : List Nat), items.length + a.shape.length ≤ fuel →
    a.shape = m :: ns → a.strides = s0 :: ss → ss.length = ns.length →
    (∀ it ∈ items, NdItemOk shape it) → isAdvanced items = false →
    Sliced a ns ss (expandEllipsis ns.length items) (a.bystrides items length) := by
  intro fuel
  induction fuel with
  | zero => intro items a m ns s0 ss length shape hf hsh; simp [hsh] at hf
  | succ fuel ih =>
    intro items a m ns s0 ss length shape hf hsh hst hls hok hadv
    have hl : a.shape.length = ns.length + 1 := by rw [hsh]; rfl
    have hflat : ∀ n ns', ns = n :: ns' → ∀ s ss', ss = s :: ss' → ∀ d,
        (a.flat d).shape = (m * n) :: ns' ∧ (a.flat d).strides = s :: ss' := by
      rintro n ns' rfl s ss' rfl d
      simp [flat, hsh, hst]
    cases items with
    | nil =>
      unfold bystrides
      simp only [expandEllipsis, expandWith, Sliced, fitsShape, slicedShape]
      exact Or.inl ⟨trivial, a, m, s0, ss, rfl, hsh, hst, hls, rfl, fun d v h => ⟨v, rfl, h⟩⟩
    | cons it tail =>
      have hokt : ∀ x ∈ tail, NdItemOk shape x := fun x hx => hok x (List.mem_cons_of_mem _ hx)
      have hadvt : isAdvanced tail = false := by
        simp only [isAdvanced, List.any_cons, Bool.or_eq_false_iff] at hadv
        exact hadv.2
      cases it with
      | ellipsis =>
        unfold bystrides
        rw [usedDims_eq]
        by_cases ht : tail = []
        · subst ht
          rw [if_pos (Or.inl (by simp))]
          unfold bystrides
          simp only [expandEllipsis, usedDims, expandWith, List.append_nil, Nat.sub_zero, Sliced,
            full_fits, full_shape]
          exact Or.inl ⟨trivial, a, m, s0, ss, rfl, hsh, hst, hls, rfl, fun d v h => ⟨v, full_select h, h⟩⟩
        · by_cases hd : a.shape.length = usedDims tail + 1
          · rw [if_pos (Or.inr hd)]
            have := ih tail a m ns s0 ss length shape (by simp at hf; omega) hsh hst hls hokt hadvt
            have e : expandEllipsis ns.length (.ellipsis :: tail) = expandEllipsis ns.length tail := by
              simp only [expandEllipsis, usedDims, expandWith]
              rw [show ns.length - usedDims tail = 0 by omega]
              simp
            rw [e]; exact this
          · rw [if_neg (by simp [ht, hd])]
            cases ns with
            | nil =>
              rw [dif_pos (by simp [hl])]
              have hnf : ¬ fitsShape [] (expandEllipsis 0 (.ellipsis :: tail)) = true := by
                intro h
                have := fits_used (k := 0 - usedDims (.ellipsis :: tail)) (items := .ellipsis :: tail) h
                simp [usedDims] at this
                simp [hl] at hd
                omega
              exact Or.inr ⟨Bool.eq_false_iff.mpr hnf, _, rfl⟩
            | cons n ns' =>
              cases ss with
              | nil => simp at hls
              | cons s ss' =>
                rw [dif_neg (by simp [hl])]
                have hrec : ∀ d l, Sliced (a.flat d) ns' ss' (expandEllipsis ns'.length (.ellipsis :: tail))
                    ((a.flat d).bystrides (.ellipsis :: tail) l) := by
                  intro d l
                  obtain ⟨f1, f2⟩ := hflat n ns' rfl s ss' rfl d
                  exact ih _ _ (m * n) ns' s ss' l shape (by
                    rw [f1]; rw [hsh] at hf; simp at hf ⊢; omega) f1 f2 (by simpa using hls) hok hadv
                have := sliced_range (a := a) (length := length) (k := fun b l => b.bystrides (.ellipsis :: tail) l)
                  hsh hst (start := none) (stop := none) (step := 1) (by decide) (by decide) (by decide)
                  (by decide) hrec
                by_cases hgt : usedDims tail ≤ ns'.length
                · have e : expandEllipsis (n :: ns').length (.ellipsis :: tail)
                      = .range none none 1 :: expandEllipsis ns'.length (.ellipsis :: tail) := by
                    simp only [expandEllipsis, usedDims, expandWith, List.length_cons]
                    rw [show ns'.length + 1 - usedDims tail = (ns'.length - usedDims tail) + 1 by omega]
                    simp [List.replicate_succ]
                  rw [e]; exact this
                · have hnf : ¬ fitsShape (n :: ns') (expandEllipsis (n :: ns').length (.ellipsis :: tail)) = true := by
                    intro h
                    have := fits_used (items := .ellipsis :: tail) h
                    simp [usedDims] at this
                    simp [hl] at hd
                    omega
                  have hnf' : ¬ fitsShape ns' (expandEllipsis ns'.length (.ellipsis :: tail)) = true := by
                    intro h
                    have := fits_used (items := .ellipsis :: tail) h
                    simp [usedDims] at this
                    omega
                  rcases this with ⟨h, _⟩ | ⟨_, h⟩
                  · exact absurd h hnf'
                  · exact Or.inr ⟨Bool.eq_false_iff.mpr hnf, h⟩
      | item it =>
        have hexp : ∀ j, usedDims (.item it :: tail) = usedDims tail + j →
            expandEllipsis (ns.length) (.item it :: tail) = it :: expandEllipsis (ns.length - j) tail := by
          intro j hj
          simp only [expandEllipsis, expandWith, hj]
          rw [show ns.length - (usedDims tail + j) = ns.length - j - usedDims tail by omega]
        have hnil : it ≠ .newaxis → ns = [] →
            Sliced a ns ss (expandEllipsis ns.length (.item it :: tail)) (err "too many dimensions in slice") := by
          intro hne hnil
          subst hnil
          simp only [expandEllipsis, expandWith]
          have : ¬ fitsShape [] (it :: expandWith (([] : List Nat).length - usedDims (.item it :: tail)) tail) = true := by
            cases it <;> simp_all [fitsShape]
          exact Or.inr ⟨Bool.eq_false_iff.mpr this, _, rfl⟩
        cases it with
        | array _ _ => simp [isAdvanced] at hadv
        | newaxis =>
          unfold bystrides
          rw [hexp 0 (by simp [usedDims])]
          simp only [Nat.sub_zero]
          have := ih tail a m ns s0 ss length shape (by simp at hf; omega) hsh hst hls hokt hadvt
          simp only [Sliced, fitsShape, slicedShape] at this ⊢
          rcases this with ⟨hfit, out, l0, t0, ts, e3, e4, e5, e6, e7, e8⟩ | ⟨hfit, e, he⟩
          · rw [e3, bind_ok]
            refine Or.inl ⟨hfit, _, length, t0, t0 :: ts, rfl, ?_, ?_, ?_, e7, ?_⟩
            · simp [afterNewaxis, e4]
            · simp [afterNewaxis, e5]
            · simp [e6]
            · intro d v hv
              obtain ⟨w, h1, h2⟩ := e8 d v hv
              refine ⟨.list [w], by simp [select, h1], ?_⟩
              rw [show (afterNewaxis length out).valueAt = out.valueAt from valueAt_same rfl, valueAt_cons]
              refine ⟨[w], rfl, rfl, ?_⟩
              intro i hi
              obtain rfl : i = 0 := by simpa using hi
              simpa [afterNewaxis] using h2
          · exact Or.inr ⟨hfit, e, by rw [he]; rfl⟩
        | «at» i =>
          unfold bystrides
          cases ns with
          | nil =>
            rw [dif_pos (by simp [hl])]
            exact hnil (by simp) rfl
          | cons n ns' =>
            cases ss with
            | nil => simp at hls
            | cons s ss' =>
              rw [dif_neg (by simp [hl])]
              rw [hexp 1 (by simp [usedDims])]
              simp only [List.length_cons, Nat.add_sub_cancel]
              have g1 : a.shape.getD 1 0 = n := by rw [hsh]; rfl
              have g2 : a.strides.getD 1 0 = s := by rw [hst]; rfl
              rw [g1, g2]
              rcases atHead_eq i n with ⟨r, hr, he⟩ | ⟨hr, he⟩
              · rw [he, bind_ok]
                obtain ⟨f1, f2⟩ := hflat n ns' rfl s ss' rfl ((r : Int) * s)
                have := ih tail (a.flat ((r : Int) * s)) (m * n) ns' s ss' length shape (by
                    rw [f1]; rw [hsh] at hf; simp at hf ⊢; omega) f1 f2 (by simpa using hls) hokt hadvt
                simp only [Sliced, fitsShape, slicedShape, hr, Option.isSome_some, Bool.true_and] at this ⊢
                rcases this with ⟨hfit, out, l0, t0, ts, e3, e4, e5, e6, e7, e8⟩ | ⟨hfit, e, he⟩
                · rw [e3, bind_ok]
                  refine Or.inl ⟨hfit, _, length, t0, ts, rfl, ?_, e5, e6, e7, ?_⟩
                  · simp [afterAt, e4]
                  · intro d v hv
                    obtain ⟨vs, rfl, hvl, hv⟩ := valueAt_cons.mp hv
                    have hrn := regAt_lt hr
                    have hv := hv r (by omega)
                    obtain ⟨w, h1, h2⟩ := e8 d vs[r] (by
                      rw [valueAt_flat, ← hv]
                      congr 1
                      simp only [flat]; ring)
                    refine ⟨w, ?_, ?_⟩
                    · simp only [select, selItem, selList]
                      rw [pyGet?_regAt, hvl, hr]
                      simp [hvl, hrn, h1]
                    · rw [show (afterAt length out).valueAt = out.valueAt from valueAt_same rfl]
                      exact h2
                · exact Or.inr ⟨hfit, e, by rw [he]; rfl⟩
              · obtain ⟨e, he⟩ := he
                exact Or.inr ⟨by simp [fitsShape, hr], e, by rw [he]; rfl⟩
        | range start stop step =>
          unfold bystrides
          cases ns with
          | nil =>
            rw [dif_pos (by simp [hl])]
            exact hnil (by simp) rfl
          | cons n ns' =>
            cases ss with
            | nil => simp at hls
            | cons s ss' =>
              rw [dif_neg (by simp [hl])]
              rw [hexp 1 (by simp [usedDims])]
              simp only [List.length_cons, Nat.add_sub_cancel]
              obtain ⟨k1, k2, k3, k4⟩ := hok _ List.mem_cons_self
              refine sliced_range (a := a) (k := fun b l => b.bystrides tail l) hsh hst k1 k2 k3 k4 ?_
              intro d l
              obtain ⟨f1, f2⟩ := hflat n ns' rfl s ss' rfl d
              exact ih tail (a.flat d) (m * n) ns' s ss' l shape (by
                    rw [f1]; rw [hsh] at hf; simp at hf ⊢; omega) f1 f2 (by simpa using hls) hokt hadvt

end Nd
end Awk
