import Verif.Lemmas.GetitemMask
/-
Property theorems C11, C12, C13, C42 and C51: slices with integers, ranges, integer arrays and
boolean masks.
-/

namespace Awk.Props
open Awk R Spec Content

/-- The object returned by a slice is shown as the value `w` (a list of characters or bytes is
shown as text or bytes). -/
def Shows (it : Item) (w : Val) : Prop := ∃ v, it.toVal = ok v ∧ Alike v w

theorem shows_seg {c : Content} (h : c.validity = ok ()) {vs : List Val} (hv : c.toList = ok vs) :
    c.Good ∧ vs = c.seg 0 c.len := by
  have hg := good_of_validity h
  rw [seg_all hg] at hv
  exact ⟨hg, (R.ok.inj hv).symm⟩

/-- **C13.** A slice with integers, ranges, index arrays and `newaxis` that fits the type of the
array acts level by level: it never leaves a buffer, what it returns is what the specification
`select` gives on the listed values, and it succeeds whenever `select` does and indices into lists
of fixed size are in range. Missing for the full property: items after the one that meets records,
for which it is false (`C13_record_violated`), and unions. -/
theorem C13_getitem_partial (c : Content) (h : c.validity = ok ()) (vs : List Val)
    (hv : c.toList = ok vs) (m : Nat) (items : List SliceItem) (hf : FitsTop false m items c) :
    getitem items c ≠ ub ∧
    (∀ it, getitem items c = ok it → ∃ w, select items none (.list vs) = some w ∧ Shows it w) ∧
    (FitsTop true m items c → ∀ w, select items none (.list vs) = some w →
      ∃ it, getitem items c = ok it ∧ Shows it w) := by
  obtain ⟨hg, rfl⟩ := shows_seg h hv
  have T := getitem_tot hg hf
  refine ⟨?_, ?_, ?_⟩
  · intro hu
    have := T.1
    rw [hu] at this
    exact this
  · intro it hi
    have := T.1
    rw [hi] at this
    obtain ⟨v, w, h1, h2, h3⟩ := this
    exact ⟨w, h2, v, h1, h3⟩
  · intro ht w hw
    obtain ⟨it, hi⟩ := T.2 ⟨ht, by rw [hw]; rfl⟩
    have := T.1
    rw [hi] at this
    obtain ⟨v, w', h1, h2, h3⟩ := this
    rw [hw, Option.some.injEq] at h2
    subst h2
    exact ⟨it, hi, v, h1, h3⟩

/-- **C13, errors.** When an index is out of range in some selected list, the slice raises. -/
theorem C13_out_of_range_raises (c : Content) (h : c.validity = ok ()) (vs : List Val)
    (hv : c.toList = ok vs) (m : Nat) (items : List SliceItem) (hf : FitsTop false m items c)
    (hn : select items none (.list vs) = none) : (getitem items c).IsErr := by
  obtain ⟨h1, h2, _⟩ := C13_getitem_partial c h vs hv m items hf
  cases hr : getitem items c with
  | ok it => obtain ⟨w, hw, _⟩ := h2 it hr; rw [hn] at hw; cases hw
  | err e => exact ⟨e, rfl⟩
  | ub => exact absurd hr h1

/-- `[[[0, 1], [2]], None, [[], [3, 4, 5]]]` as lists of lists with missing lists. -/
def exampleDeep : Content :=
  .indexedOption {} [1, -1, 0] (.listArray {} [3, 1] [5, 3] (.listOffset {} [0, 0, 2, 3, 3, 6]
    (.numpy {} .int64 ((List.range 6).map (fun (i : Nat) => .int i)))))

def ints (xs : List Int) : Val := .list (xs.map (fun x => .atom (.int x)))

example : exampleDeep.validity = ok () := by rfl
example : exampleDeep.toList =
    ok [.list [ints [0, 1], ints [2]], .null, .list [ints [], ints [3, 4, 5]]] := by rfl

/-- `array[:, ::-1, 1:]` -/
def exampleSlice : List SliceItem :=
  [.range none none 1, .range none none (-1), .range (some 1) none 1]

theorem exampleSlice_fits (b : Bool) : FitsTop b 0 exampleSlice exampleDeep := by
  have ok : ∀ start step, GoodArg start → step ≠ 0 → step ≠ kSliceNone →
      ItemOk 0 (.range start none step) :=
    fun start step h1 h2 h3 => ⟨h1, by simp [GoodArg], h2, h3⟩
  refine ⟨ok _ _ (by simp [GoodArg]) (by decide) (by decide), .option (by simp) rfl ?_⟩
  intro d hd
  obtain rfl := List.mem_singleton.mp hd
  refine .list (mode' := .none) rfl (ok _ _ (by simp [GoodArg]) (by decide) (by decide)) rfl ?_ ?_
  · rintro _ _ _ _ _ ⟨⟩
  intro d hd
  obtain rfl := List.mem_singleton.mp hd
  refine .list (mode' := .none) rfl (ok _ _ (by simp [GoodArg, kSliceNone]) (by decide)
    (by decide)) rfl ?_ ?_
  · rintro _ _ _ _ _ ⟨⟩
  · intro _ _; exact .nil

example : select exampleSlice none (.list [.list [ints [0, 1], ints [2]], .null,
    .list [ints [], ints [3, 4, 5]]]) =
    some (.list [.list [ints [], ints [1]], .null, .list [ints [4, 5], ints []]]) := by rfl
example : (getitem [.range none none 1, .range none none (-1)]
    (.listOffset {} [0, 2, 3] (.numpy {} .int64 ([1, 2, 3].map .int))) >>= Item.toVal) =
    ok (.list [ints [2, 1], ints [3]]) := by rfl
example : (getitem [.at 0, .at 1, .at (-1)] exampleDeep >>= Item.toVal) =
    ok (.atom (.int 2)) := by rfl
example : (getitem [.range none none 1, .at 0, .at 0] exampleDeep >>= Item.toVal).IsErr := ⟨_, rfl⟩

/-- **C13 fails** for items after the first one that meets records: `array[:, :, 0]` applies the
`0` one level too high (RecordArray.cpp:1683-1700 slices the fields with the first item only and
the resulting records with the others). -/
def deepRecord : Content :=
  .record {} (some ["x"]) [.listOffset {} [0, 2] (.listOffset {} [0, 2, 4]
    (.numpy {} .int64 ((List.range 4).map (fun (i : Nat) => .int i))))] 1

theorem C13_record_violated :
    deepRecord.validity = ok () ∧
    deepRecord.toList = ok [.record [("x", .list [ints [0, 1], ints [2, 3]])]] ∧
    select [.range none none 1, .range none none 1, .at 0] none
      (.list [.record [("x", .list [ints [0, 1], ints [2, 3]])]]) =
      some (.list [.record [("x", ints [0, 2])]]) ∧
    (getitem [.range none none 1, .range none none 1, .at 0] deepRecord >>= Item.toVal) =
      ok (.list [.record [("x", ints [0, 1])]]) := ⟨by rfl, by rfl, by rfl, by rfl⟩

/-- **C13 fails** for record arrays without fields: a range that meets them loses the records
(RecordArray.cpp:1698 builds the result without a length). -/
theorem C13_no_fields_violated :
    (Content.record {} (some []) [] 3).validity = ok () ∧
    select [.range none none 1, .range none none 1] none (.list [.record [], .record [], .record []]) =
      some (.list [.record [], .record [], .record []]) ∧
    (getitem [.range none none 1, .range none none 1] (.record {} (some []) [] 3) >>= Item.toVal) =
      ok (.list []) := ⟨by rfl, by rfl, by rfl⟩

/-- **C13 (and C10) fail** for the largest step: it means "no step" to the constructor of the
slice, `[0, 1, 2][::2**63 - 1]` is `[0, 1, 2]` instead of `[0]`. -/
theorem C13_step_violated :
    select [.range none none (2 ^ 63 - 1)] none (ints [0, 1, 2]) = some (ints [0]) ∧
    (getitem [.range none none (2 ^ 63 - 1)] (.numpy {} .int64 [.int 0, .int 1, .int 2]) >>=
      Item.toVal) = ok (ints [0, 1, 2]) := ⟨by rfl, by rfl⟩

/-! ### One index array -/

/-- **C11.** `array[[i, j, …]]` shows the elements at those positions, in that order and with
repetitions, negative positions counted from the end; if a position is out of range it raises. -/
theorem C11_getitem_array (c : Content) (h : c.validity = ok ()) (vs : List Val)
    (hv : c.toList = ok vs) (idx : List Int) (hne : idx ≠ []) :
    (∀ ws, idx.mapM (pyGet? vs) = some ws →
      ∃ it, getitem [.array [idx.length] idx] c = ok it ∧ Shows it (.list ws)) ∧
    (idx.mapM (pyGet? vs) = none → (getitem [.array [idx.length] idx] c).IsErr) := by
  have hf : ∀ b, FitsTop b idx.length [.array [idx.length] idx] c :=
    fun b => ⟨⟨rfl, by simp, List.length_pos_of_ne_nil hne⟩, .nil⟩
  refine ⟨fun ws hw => ?_, fun hn => ?_⟩
  · refine (C13_getitem_partial c h vs hv _ _ (hf false)).2.2 (hf true) _ ?_
    rw [select_array, hw, Option.map_some, nest_one (mapM_length hw)]
  · refine C13_out_of_range_raises c h vs hv _ _ (hf false) ?_
    rw [select_array, hn]; rfl

/-- **C11, no positions.** `array[[]]` is an empty array. -/
theorem C11_getitem_no_positions (c : Content) (h : c.validity = ok ()) :
    ∃ c', getitem [.array [0] []] c = ok (.array c') ∧ c'.toList = ok [] := by
  have hg := good_of_validity h
  obtain ⟨d, h1, h2, _, h4⟩ := carry_good hg true (idx := []) (by intro j hj; cases hj)
  have hl := c.wrapped_len
  have e : next [.array [0] []] none c.wrapped = ok (regular {} d 0 0) := by
    simp only [next]
    have : 2 * c.wrapped.rank = (2 * c.wrapped.rank - 1) + 1 := by
      simp only [wrapped, rank]; omega
    rw [this]
    simp only [wrapped, stepF]
    rw [if_neg (by simp), ← wrapped, hl]
    simp only [regularNext, regularArray]
    have k1 : RegularArray_getitem_next_array_regularize (alloc (([] : List Int).length : Nat)) []
        ([] : List Int).length c.len = ok [] := by rfl
    have k2 : RegularArray_getitem_next_array (alloc (((1 : Nat) : Int) * (([] : List Int).length : Int)))
        (alloc (((1 : Nat) : Int) * (([] : List Int).length : Int))) [] 1 ([] : List Int).length c.len
        = ok ([], []) := by rfl
    rw [k1, bind_ok, if_pos (show Adv.isFirst none = true from rfl), k2, bind_ok, h1, bind_ok, bind_ok]
    rfl
  obtain ⟨c', g1, g2, _, g4, _⟩ := range_good h2 (a := 0) (b := 0) (Nat.le_refl _) (Nat.zero_le _)
  refine ⟨c', ?_, ?_⟩
  · unfold getitem
    simp only [List.map_cons, List.map_nil, SliceItem.constructed]
    rw [e, bind_ok, if_pos (by simp [len])]
    simp only [getitemNothing]
    simp only [Nat.cast_zero] at g1
    rw [g1, bind_ok]
  · rw [g2.toList, g4.1]; rfl

example : (getitem [.array [4] [2, -1, 0, 2]] exampleDeep >>= Item.toVal) = ok (.list
    [.list [ints [], ints [3, 4, 5]], .list [ints [], ints [3, 4, 5]], .list [ints [0, 1], ints [2]],
      .list [ints [], ints [3, 4, 5]]]) := by rfl
example : (getitem [.array [2] [0, 3]] exampleDeep).IsErr := ⟨_, rfl⟩

/-! ### Boolean masks -/

/-- **C12.** `array[mask]` with a mask of the length of the array (its entries are bytes, nonzero
for true) keeps exactly the elements whose entry is true, in order. Missing for the full property:
masks that are strided views, for which it is false inside of lists (`C12_strided_violated`). -/
theorem C12_mask_partial (c : Content) (h : c.validity = ok ()) (vs : List Val)
    (hv : c.toList = ok vs) (mask : List Int) (hm : mask.length = vs.length) :
    ∃ it, (maskSlice mask mask.length 1 >>= fun item => getitem [item] c) = ok it ∧
      Shows it (.list (((vs.zip mask).filter (fun p => p.2 ≠ 0)).map Prod.fst)) := by
  rw [maskSlice_ok (Nat.le_refl _), bind_ok]
  have hz : ((vs.zip mask).filter (fun p => p.2 ≠ 0)).map Prod.fst
      = ((List.range mask.length).filter (fun i => mask[i]?.getD 0 != 0)).map
          (fun i => vs[i]?.getD .null) := by
    have hvz : vs.zip mask = (List.range mask.length).map
        (fun i => (vs[i]?.getD .null, mask[i]?.getD 0)) := by
      apply List.ext_getElem
      · simp [hm]
      · intro i h1 h2
        simp only [List.length_map, List.length_range] at h2
        simp [List.getElem?_eq_getElem h2, List.getElem?_eq_getElem (hm ▸ h2)]
    rw [hvz, List.filter_map, List.map_map]
    congr 1
    apply List.filter_congr
    intro i _
    simp [bne]
    by_cases h0 : mask[i]?.getD 0 = 0 <;> simp [h0]
  rw [hz]
  by_cases hne : trueAt mask mask.length = []
  · obtain ⟨c', h1, h2⟩ := C11_getitem_no_positions c h
    have e : (List.range mask.length).filter (fun i => mask[i]?.getD 0 != 0) = [] := by
      simpa [trueAt] using hne
    rw [hne, e]
    refine ⟨_, h1, (match c'.params.arr with
      | .char => .str [] | .byte => .bytes [] | _ => .list []), ?_, .inr ?_⟩
    · simp only [Item.toVal, h2, bind_ok]
      cases c'.params.arr <;> rfl
    · cases c'.params.arr <;> simp [Val.isList, Val.items]
  · refine (C11_getitem_array c h vs hv _ hne).1 _ ?_
    have hall : ∀ i ∈ (List.range mask.length).filter (fun i => mask[i]?.getD 0 != 0),
        i < vs.length := by
      intro i hi
      have := List.mem_range.mp (List.mem_filter.mp hi).1
      omega
    unfold trueAt
    generalize (List.range mask.length).filter (fun i => mask[i]?.getD 0 != 0) = pos at hall ⊢
    induction pos with
    | nil => rfl
    | cons i pos ih =>
      rw [List.map_cons, List.mapM_cons, ih (fun j hj => hall j (List.mem_cons_of_mem _ hj))]
      have hi := hall i List.mem_cons_self
      simp [pyGet?, List.getElem?_eq_getElem hi]

example : (maskSlice [1, 0, 1] 3 1 >>= fun item => getitem [item] exampleDeep >>= Item.toVal) =
    ok (.list [.list [ints [0, 1], ints [2]], .list [ints [], ints [3, 4, 5]]]) := by rfl
example : (maskSlice [0, 0, 0] 3 1 >>= fun item => getitem [item] exampleDeep >>= Item.toVal) =
    ok (.list []) := by rfl

/-- **C12 fails** for a mask that is a strided view, when `NumpyArray::asslice` finds the positions
itself (a mask inside of lists): the kernel counts bytes instead of entries. The mask
`[False, True, False]` is the view `buffer[::2]`; the position of its second entry is given as 2
instead of 1. -/
theorem C12_strided_violated :
    ∃ buffer : List Int, (List.range 3).map (fun i => buffer[2 * i]?) = [some 0, some 1, some 0] ∧
      maskSlice buffer 3 2 = ok (.array [1] [2]) :=
  ⟨[0, 0, 1, 0, 0, 0], by rfl, by rfl⟩

/-! ### N-dimensional index arrays -/

/-- **C42 (two dimensions).** An index array of shape `[n, m]` with any strides `s`, `t`, whose
entries lie in its buffer, selects `array[index[i, j]]` at position `[i, j]`; an entry out of
range raises. Missing for the full property: more dimensions, for which it is false. -/
theorem C42_two_dimensions_partial (c : Content) (h : c.validity = ok ()) (vs : List Val)
    (hv : c.toList = ok vs) (n m : Nat) (hn : 0 < n) (hm : 0 < m) (data : List Int)
    (offset s t : Int) (index : Nat → Nat → Int)
    (hd : ∀ i : Nat, i < n → ∀ j : Nat, j < m →
      0 ≤ offset + i * s + j * t ∧ data[(offset + i * s + j * t).toNat]? = some (index i j)) :
    ∃ flat, ravel data offset [n, m] [s, t] = ok flat ∧
      (∀ w : Nat → Nat → Val, (∀ i < n, ∀ j < m, pyGet? vs (index i j) = some (w i j)) →
        ∃ it, getitem [.array [n, m] flat] c = ok it ∧
          Shows it (.list ((List.range n).map (fun i => .list ((List.range m).map (w i)))))) ∧
      ((∃ i < n, ∃ j < m, pyGet? vs (index i j) = none) →
        (getitem [.array [n, m] flat] c).IsErr) := by
  have hr := ravel_two (data := data) (offset := offset) (s := s) (t := t) (n := n) (m := m)
    (fun i hi j hj => by
      obtain ⟨h1, h2⟩ := hd i hi j hj
      have := (List.getElem?_eq_some_iff.mp h2).1
      omega) []
  have he : ((List.range n).map (fun (i : Nat) => (List.range m).map (fun (j : Nat) =>
      data[(offset + i * s + j * t).toNat]?.getD 0))).flatten
      = ((List.range n).map (fun i => (List.range m).map (index i))).flatten := by
    congr 1
    apply List.map_congr_left
    intro i hi
    apply List.map_congr_left
    intro j hj
    rw [(hd i (List.mem_range.mp hi) j (List.mem_range.mp hj)).2]
    rfl
  rw [he] at hr
  refine ⟨_, hr, ?_⟩
  generalize hfl : ((List.range n).map (fun i => (List.range m).map (index i))).flatten = flat
  have hlen : flat.length = n * m := by
    rw [← hfl]; simp [List.length_flatten, Function.comp_def]
  have hf : ∀ b, FitsTop b (n * m) [.array [n, m] flat] c :=
    fun b => ⟨⟨hlen, by simp, Nat.mul_pos hn hm⟩, .nil⟩
  refine ⟨fun w hw => ?_, fun ⟨i, hi, j, hj, hnone⟩ => ?_⟩
  · refine (C13_getitem_partial c h vs hv _ _ (hf false)).2.2 (hf true) _ ?_
    have hmapM : flat.mapM (pyGet? vs)
        = some ((List.range n).map (fun i => (List.range m).map (w i))).flatten := by
      rw [← hfl]
      clear hfl hlen hf hr he hd
      have row : ∀ i < n, ((List.range m).map (index i)).mapM (pyGet? vs)
          = some ((List.range m).map (w i)) := by
        intro i hi
        have : ∀ k, k ≤ m → ((List.range k).map (index i)).mapM (pyGet? vs)
            = some ((List.range k).map (w i)) := by
          intro k
          induction k with
          | zero => intro _; rfl
          | succ k ih =>
            intro hk
            rw [List.range_succ, List.map_append, List.map_append, List.mapM_append, ih (by omega)]
            simp [hw i hi k (by omega)]
        exact this m (Nat.le_refl _)
      have : ∀ k, k ≤ n → ((List.range k).map (fun i => (List.range m).map (index i))).flatten.mapM
          (pyGet? vs) = some ((List.range k).map (fun i => (List.range m).map (w i))).flatten := by
        intro k
        induction k with
        | zero => intro _; rfl
        | succ k ih =>
          intro hk
          rw [List.range_succ]
          simp only [List.map_append, List.flatten_append, List.map_cons, List.map_nil,
            List.flatten_cons, List.flatten_nil, List.append_nil]
          rw [List.mapM_append, ih (by omega), row k (by omega)]
          rfl
      exact this n (Nat.le_refl _)
    rw [select_array, hmapM, Option.map_some]
    congr 1
    rw [nest]
    congr 1
    apply List.map_congr_left
    intro i hi
    have hi := List.mem_range.mp hi
    rw [List.prod_cons, List.prod_nil, Nat.mul_one]
    have : ((((List.range n).map (fun i => (List.range m).map (w i))).flatten.drop (i * m)).take m)
        = (List.range m).map (w i) := by
      have hs : (List.range n) = List.range i ++ (List.range (n - i)).map (fun k => i + k) := by
        rw [← List.range_add]; congr 1; omega
      rw [hs, List.map_append, List.flatten_append,
        List.drop_append_of_le_length (by simp [List.length_flatten, Function.comp_def]),
        List.drop_of_length_le (by simp [List.length_flatten, Function.comp_def]), List.nil_append]
      obtain ⟨k, hk⟩ : ∃ k, n - i = k + 1 := ⟨n - i - 1, by omega⟩
      rw [hk, List.range_succ_eq_map]
      simp
    rw [this, nest_one (by simp)]
  · refine C13_out_of_range_raises c h vs hv _ _ (hf false) ?_
    rw [select_array]
    cases hmm : flat.mapM (pyGet? vs) with
    | none => rfl
    | some ws =>
      exfalso
      have hmem : index i j ∈ flat := by
        rw [← hfl]
        exact List.mem_flatten.mpr ⟨_, List.mem_map.mpr ⟨i, List.mem_range.mpr hi, rfl⟩,
          List.mem_map.mpr ⟨j, List.mem_range.mpr hj, rfl⟩⟩
      have := mapM_isSome (f := pyGet? vs) (xs := flat) (by rw [hmm]; rfl) _ hmem
      rw [hnone] at this
      cases this

/-- A transposed index array: `[[3, 0], [2, 1]].T`. -/
example : ravel [3, 0, 2, 1] 0 [2, 2] [1, 2] = ok [3, 2, 0, 1] := by rfl
example : (getitem [.array [2, 2] [0, 2, 0, 1]] exampleDeep >>= Item.toVal) = ok (.list [.list
    [.list [ints [0, 1], ints [2]], .list [ints [], ints [3, 4, 5]]],
    .list [.list [ints [0, 1], ints [2]], .null]]) := by rfl

/-- **C42 fails** for three dimensions: the contiguous index array `0, 1, …, 7` of shape
`[2, 2, 2]` is not read in row-major order (the kernel advances by `shape[1]` items per row
instead of by the number of items in a row, and leaves the end of its buffer unwritten). -/
theorem C42_three_dimensions_violated :
    ravel [0, 1, 2, 3, 4, 5, 6, 7] 0 [2, 2, 2] [4, 2, 1] =
      ok ([0, 1, 4, 5, 6, 7] ++ (alloc 8).drop 6) := by rfl

/-! ### Several index arrays -/

/-- **C51 (two arrays).** `array[[i0, i1, …], [j0, j1, …]]` on an array of lists pairs the two
index arrays: it shows `[array[i0][j0], array[i1][j1], …]`, and raises when one of these is out of
range. Larger slices are covered by `C13_getitem_partial`. -/
theorem C51_two_arrays_partial (c : Content) (h : c.validity = ok ()) (hl : c.isListNode = true)
    (vs : List Val) (hv : c.toList = ok vs) (is js : List Int) (hne : is ≠ [])
    (hlen : js.length = is.length) :
    (∀ ws, (is.zip js).mapM (fun p => (pyGet? vs p.1).bind (fun v => pyGet? v.items p.2)) = some ws →
      ∃ it, getitem [.array [is.length] is, .array [js.length] js] c = ok it ∧
        Shows it (.list ws)) ∧
    ((is.zip js).mapM (fun p => (pyGet? vs p.1).bind (fun v => pyGet? v.items p.2)) = none →
      (getitem [.array [is.length] is, .array [js.length] js] c).IsErr) := by
  have hpos := List.length_pos_of_ne_nil hne
  have hf : ∀ b, (b = true → ∀ p d size zeros, c = regular p d size zeros →
      SizeOk (.array [js.length] js) size) →
      FitsTop b is.length [.array [is.length] is, .array [js.length] js] c :=
    fun b hb => ⟨⟨rfl, by simp, hpos⟩,
      .list (mode' := .ident) hl ⟨hlen, by simp [hlen], hpos⟩ rfl hb (fun d _ => .nil)⟩
  have hlist : ∀ v ∈ vs, v.isList = true := by
    obtain ⟨hg, rfl⟩ := shows_seg h hv
    intro v hvm
    obtain ⟨k, hk, rfl⟩ := List.mem_map.mp hvm
    have hk := List.mem_range.mp hk
    rw [Nat.zero_add]
    cases c <;> simp only [isListNode, Bool.false_eq_true] at hl
    case regular p c size zeros =>
      rw [valD_regular (good_regular.mp hg) hk]; simp
    case listArray p starts stops c =>
      have := (good_listArray.mp hg).1
      simp only [len] at hk
      rw [valD_listArray hg hk (by omega)]; simp
    case listOffset p offsets c =>
      simp only [len] at hk
      rw [valD_listOffset hg (by omega)]; simp
  have hsel : select [.array [is.length] is, .array [js.length] js] none (.list vs)
      = ((is.zip js).mapM (fun p => (pyGet? vs p.1).bind (fun v => pyGet? v.items p.2))).map
          .list := by
    have hz : (is.zip js).length = is.length := by simp [hlen]
    have e : select [.array [is.length] is, .array [js.length] js] none (.list vs)
        = ((is.zip js).mapM (fun p => (pyGet? vs p.1).bind
            (fun v => pyGet? v.items p.2))).map (nest [is.length]) := by
      rw [← mapM_range (is.zip js), hz]
      have e1 : select [.array [is.length] is, .array [js.length] js] none (.list vs)
        = ((List.range is.length).mapM (fun j => (is[j]?.bind (pyGet? vs)).bind
            (fun v => select [.array [js.length] js] (some j) v))).map (nest [is.length]) := rfl
      rw [e1]
      congr 1
      apply mapM_congr_mem
      intro k hk
      have hk := List.mem_range.mp hk
      have hk' : k < js.length := by omega
      rw [List.getElem?_eq_getElem hk, Option.bind_some,
        List.getElem?_eq_getElem (by omega : k < (is.zip js).length), Option.bind_some,
        List.getElem_zip]
      simp only
      cases hp : pyGet? vs is[k] with
      | none => rfl
      | some v =>
        have hv := hlist v (pyGet?_mem hp)
        simp only [Option.bind_some]
        have hs : select [.array [js.length] js] (some k) v
            = (js[k]?.bind (pyGet? v.items)).bind (fun w => some w) := by
          cases v <;> simp only [Val.isList, Bool.false_eq_true] at hv <;> rfl
        rw [hs, List.getElem?_eq_getElem hk', Option.bind_some]
        cases pyGet? v.items js[k] <;> rfl
    rw [e]
    cases hm : (is.zip js).mapM (fun p => (pyGet? vs p.1).bind (fun v => pyGet? v.items p.2)) with
    | none => rfl
    | some ws => rw [Option.map_some, Option.map_some, nest_one (by rw [mapM_length hm, hz])]
  have hff := hf false (by simp)
  refine ⟨fun ws hw => ?_, fun hn => ?_⟩
  · refine (C13_getitem_partial c h vs hv _ _ hff).2.2 (hf true ?_) _ (by rw [hsel, hw]; rfl)
    rintro - p d size zeros rfl a ha
    obtain ⟨hg, rfl⟩ := shows_seg h hv
    obtain ⟨k, hk, rfl⟩ := List.mem_iff_getElem.mp ha
    have hmem : (is[k]'(by omega), js[k]) ∈ is.zip js := by
      rw [List.mem_iff_getElem]
      exact ⟨k, by simp; omega, by simp⟩
    have := mapM_isSome (f := fun q : Int × Int =>
      (pyGet? ((regular p d size zeros).seg 0 (regular p d size zeros).len) q.1).bind
      (fun v => pyGet? v.items q.2)) (by rw [hw]; rfl) _ hmem
    simp only at this
    cases hp : pyGet? ((regular p d size zeros).seg 0 (regular p d size zeros).len)
        (is[k]'(by omega)) with
    | none => rw [hp] at this; cases this
    | some v =>
      rw [hp, Option.bind_some, pyGet?_regAt] at this
      have hvm := pyGet?_mem hp
      obtain ⟨i, hi, rfl⟩ := List.mem_map.mp hvm
      have hi := List.mem_range.mp hi
      rw [Nat.zero_add, valD_regular (good_regular.mp hg) hi] at this
      simp only [items_wrapList, seg_length] at this
      cases hr : regAt js[k] size with
      | none => rw [hr] at this; cases this
      | some r => rfl
  · exact C13_out_of_range_raises c h vs hv _ _ hff (by rw [hsel, hn]; rfl)

example : (getitem [.array [3] [0, 1, -1], .array [3] [1, 0, -2]]
    (.listOffset {} [0, 2, 3, 6] (.numpy {} .int64 ([0, 1, 2, 3, 4, 5].map .int))) >>= Item.toVal) =
    ok (ints [1, 2, 4]) := by rfl

/-- **C51 fails** for arrays below a range when there are three of them: the third one is indexed
with positions of the flattened array, outside of its buffer (the `*_array_advanced` kernels write
`toadvanced[i] = i`). Here `array` is `[[[[7]]], [[[8]]]]` and the slice `array[:, [0], [0], [0]]`. -/
theorem C51_three_arrays_violated :
    select [.range none none 1, .array [1] [0], .array [1] [0], .array [1] [0]] none
      (.list [.list [.list [ints [7]]], .list [.list [ints [8]]]]) =
      some (.list [ints [7], ints [8]]) ∧
    getitem [.range none none 1, .array [1] [0], .array [1] [0], .array [1] [0]]
      (.listOffset {} [0, 1, 2] (.listOffset {} [0, 1, 2] (.listOffset {} [0, 1, 2]
        (.numpy {} .int64 [.int 7, .int 8])))) = ub := ⟨by rfl, by rfl⟩

/-- **C51 fails** for lists that may be missing: the second array is not realigned after the
missing lists are dropped. `[[1, 2], None, [3, 4]][[0, 1, 2], [0, 0, 1]]` is `[1, None, 3]` instead
of `[1, None, 4]`. -/
theorem C51_missing_violated :
    select [.array [3] [0, 1, 2], .array [3] [0, 0, 1]] none
      (.list [ints [1, 2], .null, ints [3, 4]]) =
      some (.list [.atom (.int 1), .null, .atom (.int 4)]) ∧
    (getitem [.array [3] [0, 1, 2], .array [3] [0, 0, 1]]
      (.indexedOption {} [0, -1, 1] (.listOffset {} [0, 2, 4]
        (.numpy {} .int64 ([1, 2, 3, 4].map .int)))) >>= Item.toVal) =
      ok (.list [.atom (.int 1), .null, .atom (.int 3)]) := ⟨by rfl, by rfl⟩

/-- **C51 fails** for an empty index array below a range: the list of empty lists is lost. -/
theorem C51_empty_violated :
    select [.range none none 1, .array [0] []] none (.list [ints [1, 2], ints [3, 4]]) =
      some (.list [.list [], .list []]) ∧
    (getitem [.range none none 1, .array [0] []]
      (.listOffset {} [0, 2, 4] (.numpy {} .int64 ([1, 2, 3, 4].map .int))) >>= Item.toVal) =
      ok (.list []) := ⟨by rfl, by rfl⟩

end Awk.Props
