import Verif.Lemmas.ReduceThree
/-
Property theorems C25, C26 and C27: reducers.
-/

namespace Awk.Props
open Awk R Spec Content

/-- The values of a valid array. -/
theorem values_seg {c : Content} (h : c.validity = ok ()) {vs : List Val} (hv : c.toList = ok vs) :
    c.Good ∧ vs = c.seg 0 c.len := by
  have hg := good_of_validity h
  rw [seg_all hg] at hv
  exact ⟨hg, (R.ok.inj hv).symm⟩

/-- **C25.** A reducer at the innermost axis (`axis=-1`, or `n - 1` for `n` dimensions) gives for
each innermost list the reduction of that list's items, and keeps everything outside. It holds for
every reducer that does not return positions, with missing values, indexes and lists of all kinds;
`z` is either true, for arrays whose ListOffsetArrays all begin at offset zero, or false, for
arrays in which only innermost items may be missing. Missing for the full property: records and
unions, and slices of arrays with missing lists, for which it is false
(`C25_sliced_option_violated`). -/
theorem C25_reduce_innermost_partial (red : Reducer) (mask : Bool) (dt : DType) (z : Prop)
    (hr : red.returnsPositions = false) (hid : red.identityOk dt) (c : Content)
    (h : c.validity = ok ()) (vs : List Val) (hv : c.toList = ok vs) (n : Nat) (o : Bool)
    (hn : Nested red dt z True True 1 n o c) (axis : Int) (ha : axis = -1 ∨ axis = (n : Int) - 1) :
    ∃ it, c.reduce red axis mask = ok it ∧
      it.toVal = ok (atDepth (reduceList red mask dt) (n - 1) vs) := by
  obtain ⟨hg, rfl⟩ := values_seg h hv
  exact reduce_ok (base_one hid (by rw [hr]; simp)) (Nat.le_refl 1) hg hn (nested_pos hn)
    (by simpa using ha) trivial

/-- **C27.** `argmin` and `argmax` at the innermost axis give for each innermost list the position
in that list of its first smallest or largest item that is not missing, and None (or -1, if `mask`
is false) if there is none; all ListOffsetArrays begin at offset zero. Missing for the full
property: slices, for which it is false (`C27_sliced_violated`), records and unions, and complex
numbers, for which it is false (`C27_complex_violated`). -/
theorem C27_argmin_argmax_partial (red : Reducer) (mask : Bool) (dt : DType)
    (hr : red = .argmin ∨ red = .argmax) (c : Content)
    (h : c.validity = ok ()) (vs : List Val) (hv : c.toList = ok vs) (n : Nat) (o : Bool)
    (hn : Nested red dt True True True 1 n o c) (axis : Int) (ha : axis = -1 ∨ axis = (n : Int) - 1) :
    ∃ it, c.reduce red axis mask = ok it ∧
      it.toVal = ok (atDepth (reduceList red mask dt) (n - 1) vs) := by
  obtain ⟨hg, rfl⟩ := values_seg h hv
  have hid : red.identityOk dt := by rcases hr with rfl | rfl <;> trivial
  exact reduce_ok (base_one hid (fun _ => trivial)) (Nat.le_refl 1) hg hn (nested_pos hn)
    (by simpa using ha) trivial

/-- **C26.** A reducer at the second innermost axis (`axis=-2`, or `n - 2` for `n` dimensions)
combines in each of the lists at that depth the items at equal positions of its sublists, as if
missing sublists and the missing ends of short ones were not there, and keeps everything outside.
It holds for every reducer that does not return positions, with missing values, indexes and lists of
all kinds, if no group of empty lists precedes one with a nonempty list and, if there are
RegularArrays at that depth (`rg`), if the groups have equally many columns. The conditions cannot
be dropped: `C26_leading_empty_violated` and `C26_regular_violated`. Missing for the full property:
reducing across more than one inner dimension (`C26_reduce_three_partial` is `axis=0` of three
dimensions; it is false from four dimensions on, `C26_four_dimensions_violated`), `argmin` and
`argmax`, and records and unions. -/
theorem C26_reduce_outer_partial (red : Reducer) (mask : Bool) (dt : DType) (z rg : Prop)
    (hr : red.returnsPositions = false) (hid : red.identityOk dt) (c : Content)
    (h : c.validity = ok ()) (vs : List Val) (hv : c.toList = ok vs) (n : Nat) (o : Bool)
    (hn : Nested red dt z True rg 2 n o c) (h2 : 2 ≤ n) (axis : Int)
    (ha : axis = -2 ∨ axis = (n : Int) - 2)
    (hord : Ordered (groupsAt (n - 2) vs)) (hreg : rg → SameLength (groupsAt (n - 2) vs)) :
    ∃ it, c.reduce red axis mask = ok it ∧
      it.toVal = ok (atDepth (reduceAcross red mask dt 1) (n - 2) vs) := by
  obtain ⟨hg, rfl⟩ := values_seg h hv
  exact reduce_ok (base_two hid hr) (by omega) hg hn h2 (by simpa using ha) ⟨hord, hreg⟩

/-- **C26** for `axis=0` of an array of lists of numbers, without conditions on the lengths. -/
theorem C26_reduce_axis0_partial (red : Reducer) (mask : Bool) (dt : DType)
    (hr : red.returnsPositions = false) (hid : red.identityOk dt) (c : Content)
    (h : c.validity = ok ()) (vs : List Val) (hv : c.toList = ok vs) (o : Bool)
    (hn : Nested red dt False True True 2 2 o c) :
    ∃ it, c.reduce red 0 mask = ok it ∧
      it.toVal = ok (.list ((List.range (longest vs)).map (fun j =>
        reduceList red mask dt (column vs j)))) := by
  refine C26_reduce_outer_partial red mask dt False True hr hid c h vs hv 2 o hn (Nat.le_refl 2) 0
    (.inr rfl) ?_ ?_
  · simp [groupsAt, Ordered]
  · intro _ a ha b hb
    simp only [Nat.sub_self, groupsAt, List.mem_singleton] at ha hb
    rw [ha, hb]

/-- **C26** for `axis=0` of three dimensions: items at equal positions of all lists in all sublists at
equal positions are combined, under the same conditions on the columns. -/
theorem C26_reduce_three_partial (red : Reducer) (mask : Bool) (dt : DType) (z rg : Prop)
    (hr : red.returnsPositions = false) (hid : red.identityOk dt) (c : Content)
    (h : c.validity = ok ()) (vs : List Val) (hv : c.toList = ok vs) (o : Bool)
    (hn : Nested red dt z True rg 3 3 o c) (axis : Int) (ha : axis = -3 ∨ axis = 0)
    (hord : Ordered (columns vs)) (hreg : rg → SameLength (columns vs)) :
    ∃ it, c.reduce red axis mask = ok it ∧ it.toVal = ok (reduceAcross red mask dt 2 vs) := by
  obtain ⟨hg, rfl⟩ := values_seg h hv
  exact reduce_ok (base_three hid hr) (by omega) hg hn (Nat.le_refl 3) (by simpa using ha)
    ⟨rfl, by simpa [groupsAt] using ⟨hord, hreg⟩⟩

/-- Numbers of type int64. -/
def int64s (xs : List Int) : Content := .numpy {} .int64 (xs.map .int)

theorem int64s_nested (red : Reducer) (z ix rg : Prop) (k : Nat) (o : Bool) (xs : List Int) :
    Nested red .int64 z ix rg k 1 o (int64s xs) := by
  refine .numpy rfl ?_
  intro x hx
  obtain ⟨i, _, rfl⟩ := List.mem_map.mp hx
  simp [OfType]

/-- `[[[3, None], [1]], None, [[], [2, 1, 1, 5]]]`: a ListOffsetArray in an IndexedOptionArray of a
ListArray, with missing items. -/
def exampleReduce : Content :=
  .indexedOption {} [1, -1, 0] (.listArray {} [2, 0] [4, 2] (.listOffset {} [0, 2, 3, 3, 7]
    (.byteMasked {} [1, 0, 1, 1, 1, 1, 1] true (int64s [3, 0, 1, 2, 1, 1, 5]))))

example : exampleReduce.validity = ok () := by rfl

theorem exampleReduce_nested (red : Reducer) (rg : Prop) (k : Nat) :
    Nested red .int64 True True rg k 3 true exampleReduce :=
  .indexedOption (.inl trivial) (.listArray (by simp) (.listOffset (by simp) (fun _ => rfl)
    (by simp [int64s, Content.len]) (.byteMasked (.inl trivial) (int64s_nested ..))))

def num (i : Int) : Val := .atom (.int i)

example : exampleReduce.toList = ok [.list [.list [num 3, .null], .list [num 1]], .null,
    .list [.list [], .list [num 2, num 1, num 1, num 5]]] := by rfl

example : atDepth (reduceList .sum false .int64) 2 [.list [.list [num 3, .null], .list [num 1]], .null,
    .list [.list [], .list [num 2, num 1, num 1, num 5]]]
      = .list [.list [num 3, num 1], .null, .list [num 0, num 9]] := by rfl

example : atDepth (reduceList .argmin true .int64) 2 [.list [.list [num 3, .null], .list [num 1]], .null,
    .list [.list [], .list [num 2, num 1, num 1, num 5]]]
      = .list [.list [num 0, num 0], .null, .list [.null, num 1]] := by rfl

example : Ordered (groupsAt 1 [.list [.list [num 3, .null], .list [num 1]], .null,
    .list [.list [], .list [num 2, num 1, num 1, num 5]]]) := by
  simp [Ordered, groupsAt, Val.items]

example : atDepth (reduceAcross .sum false .int64 1) 1 [.list [.list [num 3, .null], .list [num 1]], .null,
    .list [.list [], .list [num 2, num 1, num 1, num 5]]]
      = .list [.list [num 4, num 0], .null, .list [num 2, num 1, num 1, num 5]] := by rfl

/-- `[[1, 2], None, [3], [4, None, 6]]` -/
def exampleColumns : Content :=
  .indexedOption {} [0, -1, 1, 2] (.listOffset {} [0, 2, 3, 6]
    (.byteMasked {} [1, 1, 1, 1, 0, 1] true (int64s [1, 2, 3, 4, 5, 6])))

example : exampleColumns.validity = ok () := by rfl

example (red : Reducer) : Nested red .int64 False True True 2 2 true exampleColumns :=
  .indexedOption (.inr (Nat.le_refl 2)) (.listOffset (by simp) (fun h => h.elim)
    (by simp [int64s, Content.len]) (.byteMasked (.inr (by omega)) (int64s_nested ..)))

example : exampleColumns.toList = ok [.list [num 1, num 2], .null, .list [num 3],
    .list [num 4, .null, num 6]] := by rfl

example : reduceAcross .sum false .int64 1 [.list [num 1, num 2], .null, .list [num 3],
    .list [num 4, .null, num 6]] = .list [num 8, num 2, num 6] := by rfl

example : Ordered (columns [.list [.list [num 3, .null], .list [num 1]], .null,
    .list [.list [], .list [num 2, num 1, num 1, num 5]]]) := by
  simp [Ordered, columns, column, longest, Val.items, List.range, List.range.loop]

example : reduceAcross .sum false .int64 2 [.list [.list [num 3, .null], .list [num 1]], .null,
    .list [.list [], .list [num 2, num 1, num 1, num 5]]]
      = .list [.list [num 3, num 0], .list [num 3, num 1, num 1, num 5]] := by rfl

/-- **C26 fails** when the first columns have only empty lists: the sum of `[[[], []], [[1, 2], [3, 4]]]`
at `axis=1` comes out as `[[4, 6], []]` instead of `[[], [4, 6]]`, and the sum of `[[[], [1]]]` at
`axis=0` as `[[1], []]` instead of `[[], [1]]`, because the starts and stops are filled in for the
groups that have items, in order (awkward_ListOffsetArray_reduce_nonlocal_outstartsstops_64.cpp). -/
theorem C26_leading_empty_violated :
    let c := Content.listOffset {} [0, 2, 4] (.listOffset {} [0, 0, 0, 2, 4] (int64s [1, 2, 3, 4]))
    let d := Content.listOffset {} [0, 2] (.listOffset {} [0, 0, 1] (int64s [1]))
    c.validity = ok () ∧ d.validity = ok () ∧
    c.toList = ok [.list [.list [], .list []], .list [.list [num 1, num 2], .list [num 3, num 4]]] ∧
    d.toList = ok [.list [.list [], .list [num 1]]] ∧
    atDepth (reduceAcross .sum false .int64 1) 1
      [.list [.list [], .list []], .list [.list [num 1, num 2], .list [num 3, num 4]]]
      = .list [.list [], .list [num 4, num 6]] ∧
    reduceAcross .sum false .int64 2 [.list [.list [], .list [num 1]]] = .list [.list [], .list [num 1]] ∧
    (∃ it, c.reduce .sum 1 false = ok it ∧ it.toVal = ok (.list [.list [num 4, num 6], .list []])) ∧
    ∃ it, d.reduce .sum 0 false = ok it ∧ it.toVal = ok (.list [.list [num 1], .list []]) := by
  exact ⟨rfl, rfl, rfl, rfl, rfl, rfl, ⟨_, rfl, rfl⟩, _, rfl, rfl⟩

/-- **C26 fails** for regular dimensions in lists of different lengths: the sum of `[[], [[1, 2], [3, 4]]]`
at `axis=1` raises instead of giving `[[], [4, 6]]` (RegularArray.cpp, `reduce_next`, which converts the
result to a RegularArray). -/
theorem C26_regular_violated :
    let c := Content.listOffset {} [0, 0, 2] (.regular {} (int64s [1, 2, 3, 4]) 2 0)
    c.validity = ok () ∧ c.toList = ok [.list [], .list [.list [num 1, num 2], .list [num 3, num 4]]] ∧
    (c.reduce .sum 1 false).IsErr := by
  exact ⟨rfl, rfl, _, rfl⟩

/-- **C26 fails** from four dimensions on: the sum of a single item `[[[1], [2]], [[3], [4]]]` at
`axis=0` is not that item, and raises if the dimensions are regular. When a second dimension is
merged, the groups no longer come in order, which
awkward_ListOffsetArray_reduce_nonlocal_findgaps_64.cpp and outstartsstops_64.cpp rely on. -/
theorem C26_four_dimensions_violated :
    let c := Content.listOffset {} [0, 2] (.listOffset {} [0, 2, 4] (.listOffset {} [0, 1, 2, 3, 4]
      (int64s [1, 2, 3, 4])))
    let d := Content.regular {} (.regular {} (.regular {} (int64s [1, 2, 3, 4]) 1 0) 2 0) 2 0
    let item := [.list [.list [num 1], .list [num 2]], .list [.list [num 3], .list [num 4]]]
    c.validity = ok () ∧ d.validity = ok () ∧
    c.toList = ok [.list item] ∧ d.toList = ok [.list item] ∧
    reduceAcross .sum false .int64 3 [.list item] = .list item ∧
    (∃ it, c.reduce .sum 0 false = ok it ∧ it.toVal
      = ok (.list [.list [.list [num 1], .list []], .list [.list [num 2, num 3], .list [num 4]]])) ∧
    (d.reduce .sum 0 false).IsErr := by
  exact ⟨rfl, rfl, rfl, rfl, rfl, ⟨_, rfl, rfl⟩, _, rfl⟩

/-- **C27 fails** at an outer axis with a missing list: the largest item of each column of
`[[1, 2], None, [3, 4]]` is at position 2, and the result is 1 (IndexedArray.cpp, `reduce_next`, whose
shifts ListOffsetArray.cpp:1432-1451 does not use). -/
theorem C27_missing_list_violated :
    let c := Content.indexedOption {} [0, -1, 1] (.listOffset {} [0, 2, 4] (int64s [1, 2, 3, 4]))
    c.validity = ok () ∧ c.toList = ok [.list [num 1, num 2], .null, .list [num 3, num 4]] ∧
    reduceAcross .argmax true .int64 1 [.list [num 1, num 2], .null, .list [num 3, num 4]]
      = .list [num 2, num 2] ∧
    ∃ it, c.reduce .argmax 0 true = ok it ∧ it.toVal = ok (.list [num 1, num 1]) := by
  exact ⟨rfl, rfl, rfl, _, rfl, rfl⟩

/-- `array[2:]` of lists with a missing one. -/
def slicedOption : Content :=
  .listOffset {} [2, 3] (.indexedOption {} [0, -1, 1] (.listOffset {} [0, 1, 2] (int64s [5, 6])))

/-- **C25 fails** for a slice of an array of lists of option-type lists: it raises, because the
starts handed down do not begin at zero (IndexedArray.cpp:2262-2268). -/
theorem C25_sliced_option_violated :
    slicedOption.validity = ok () ∧ slicedOption.toList = ok [.list [.list [num 6]]] ∧
    (slicedOption.reduce .sum (-1) false).IsErr := by
  exact ⟨rfl, rfl, _, rfl⟩

/-- **C25 fails** for an IndexedArray of records of lists: it raises (IndexedArray.cpp:2276-2281). -/
theorem C25_indexed_record_violated :
    let c := Content.indexed {} [1, 0] (.record {} none [.listOffset {} [0, 1, 3] (int64s [7, 8, 9])] 2)
    c.validity = ok () ∧
    c.toList = ok [.tuple [.list [num 8, num 9]], .tuple [.list [num 7]]] ∧
    (c.reduce .sum (-1) false).IsErr := by
  exact ⟨rfl, rfl, _, rfl⟩

/-- **C27 fails** for a sliced array: the best item of `[3, 1, 2]` is at position 1, but the
position is counted from the beginning of the buffer before slicing, which gives -1
(ListOffsetArray.cpp:1489-1493). -/
theorem C27_sliced_violated :
    (Content.listOffset {} [2, 5] (int64s [9, 9, 3, 1, 2])).validity = ok () ∧
    (Content.listOffset {} [2, 5] (int64s [9, 9, 3, 1, 2])).toList = ok [.list [num 3, num 1, num 2]] ∧
    reduceList .argmin true .int64 [num 3, num 1, num 2] = num 1 ∧
    ∃ it, (Content.listOffset {} [2, 5] (int64s [9, 9, 3, 1, 2])).reduce .argmin (-1) true = ok it ∧
      it.toVal = ok (.list [num (-1)]) := by
  exact ⟨rfl, rfl, rfl, _, rfl, rfl⟩

/-- **C27 fails** for complex numbers: the largest of `[1+0j, 3+0j, 2+0j]` is at position 1, and the
kernel returns 2; with a second list it reads out of bounds
(awkward_reduce_argmax_complex.cpp:18-21). -/
theorem C27_complex_violated :
    reduce_argmax_complex [0] [1, 0, 3, 0, 2, 0] [0, 0, 0] 3 1 = ok [2] ∧
    reduce_argmax_complex [0, 0] [1, 0, 3, 0, 2, 0, 5, 0] [0, 0, 1, 1] 4 2 = ub := by
  exact ⟨by decide +kernel, by decide +kernel⟩

end Awk.Props
