import Verif.Lemmas.SortAgree
/-
Property theorems C28: sort and argsort.
-/

namespace Awk.Props
open Awk R Spec Content

/-- A number. -/
local notation "num " n => Val.atom (Atom.int n)

theorem sort_values {c : Content} (h : c.validity = ok ()) {vs : List Val} (hv : c.toList = ok vs) :
    c.Good ∧ vs = c.seg 0 c.len := by
  have hg := good_of_validity h
  rw [seg_all hg] at hv
  exact ⟨hg, (R.ok.inj hv).symm⟩

/-- **C28**, sort. `sort` at the innermost axis (`axis=-1`, or `n - 1` for `n` dimensions) gives for
each innermost list a reordering of that list that is ascending, or descending, with its missing
values last, and keeps everything outside. It holds for booleans, integers and reals, lists of all
kinds, indexes and missing values, with both algorithms; with `stable=False` the innermost lists must
be shorter than 2⁴⁸. All ListOffsetArrays begin at offset zero, lists are missing only at the top
level and numbers only below it: otherwise it is false (`C28_sliced_violated`,
`C28_missing_lists_violated`, `C28_missing_numbers_violated`). Missing for the full property: records,
for which it is false (`C28_records_violated`), and unions. -/
theorem C28_sort_partial (std : StdSort) (ascending stable : Bool) (dt : DType) (c : Content)
    (h : c.validity = ok ()) (vs : List Val) (hv : c.toList = ok vs) (n : Nat) (o : Bool)
    (hn : Nested .sum dt True True True 1 n o c) (hs : SortableTop stable (n - 1) vs)
    (axis : Int) (ha : axis = -1 ∨ axis = (n : Int) - 1) :
    ∃ x ys, c.sort std axis ascending stable = ok (.array x) ∧ x.toList = ok ys ∧
      AtDepth (Sorted ascending) (n - 1) vs ys := by
  obtain ⟨hg, rfl⟩ := sort_values h hv
  obtain ⟨x, ys, h1, h2, h3⟩ := sortTop_ok (a := { arg := false, ascending, stable, std }) hg hn ha hs
  refine ⟨x, ys, h1, h2, ?_⟩
  have : LeafRel { arg := false, ascending, stable, std } = Sorted ascending := by
    funext xs ys; simp [LeafRel]
  rw [this] at h3
  exact h3

/-- **C28**, argsort. `argsort` at the innermost axis gives for each innermost list the positions of
its items in ascending or descending order; with `stable=True` equal items keep their order. Positions
count the items that are not missing, and there is a None at the end for each missing value. The
conditions are those of `C28_sort_partial`. -/
theorem C28_argsort_partial (std : StdSort) (ascending stable : Bool) (dt : DType) (c : Content)
    (h : c.validity = ok ()) (vs : List Val) (hv : c.toList = ok vs) (n : Nat) (o : Bool)
    (hn : Nested .sum dt True True True 1 n o c) (hs : SortableTop stable (n - 1) vs)
    (axis : Int) (ha : axis = -1 ∨ axis = (n : Int) - 1) :
    ∃ x is, c.argsort std axis ascending stable = ok (.array x) ∧ x.toList = ok is ∧
      AtDepth (ArgSorted ascending stable) (n - 1) vs is := by
  obtain ⟨hg, rfl⟩ := sort_values h hv
  obtain ⟨x, ys, h1, h2, h3⟩ := sortTop_ok (a := { arg := true, ascending, stable, std }) hg hn ha hs
  refine ⟨x, ys, h1, h2, ?_⟩
  have : LeafRel { arg := true, ascending, stable, std } = ArgSorted ascending stable := by
    funext xs ys; simp [LeafRel]
  rw [this] at h3
  exact h3

/-- **C28**, agreement: in each innermost list without missing values, the items at the positions
given by `argsort` are the items given by `sort`, `array[argsort(array)] == sort(array)`. The two
calls may use different algorithms. With missing values it is false (`C28_argsort_missing_violated`). -/
theorem C28_agreement_partial (std std' : StdSort) (ascending stable stable' : Bool) (dt : DType)
    (c : Content) (h : c.validity = ok ()) (vs : List Val) (hv : c.toList = ok vs) (n : Nat) (o : Bool)
    (hn : Nested .sum dt True True True 1 n o c) (hs : SortableTop stable (n - 1) vs)
    (hs' : SortableTop stable' (n - 1) vs) (axis : Int) (ha : axis = -1 ∨ axis = (n : Int) - 1) :
    ∃ x is y ys, c.argsort std axis ascending stable = ok (.array x) ∧ x.toList = ok is ∧
      c.sort std' axis ascending stable' = ok (.array y) ∧ y.toList = ok ys ∧
      Taken (n - 1) vs is ys := by
  obtain ⟨x, is, h1, h2, h3⟩ := C28_argsort_partial std ascending stable dt c h vs hv n o hn hs axis ha
  obtain ⟨y, ys, k1, k2, k3⟩ := C28_sort_partial std' ascending stable' dt c h vs hv n o hn hs' axis ha
  refine ⟨x, is, y, ys, h1, h2, k1, k2, taken_depth (dt := dt) ?_ h3 k3⟩
  obtain ⟨hg, rfl⟩ := sort_values h hv
  intro v hv
  obtain ⟨i, hi, rfl⟩ := mem_seg.mp hv
  rw [Nat.zero_add]
  exact nums_typed hn hg i hi

/-- `[[3, None, 1], None, [2]]`. -/
def sortSample : Content :=
  .indexedOption {} [0, -1, 1] (.listOffset {} [0, 3, 4]
    (.indexedOption {} [0, -1, 1, 2] (.numpy {} .int64 [.int 3, .int 1, .int 2])))

theorem sortSample_nested : Nested .sum .int64 True True True 1 2 true sortSample :=
  .indexedOption (.inl trivial) (.listOffset (by simp) (fun _ => rfl) (by simp [Content.len])
    (.indexedOption (.inl trivial) (.numpy rfl (by simp [OfType]))))

example : ∃ vs, sortSample.validity = ok () ∧ sortSample.toList = ok vs ∧ SortableTop false (2 - 1) vs ∧
    SortableTop true (2 - 1) vs := by
  refine ⟨[.list [num 3, .null, num 1], .null, .list [num 2]], rfl, rfl, ?_, ?_⟩
  · intro v hv
    simp only [List.mem_cons, List.not_mem_nil, or_false] at hv
    rcases hv with rfl | rfl | rfl <;> simp [Sortable, Val.items]
  · intro v hv
    simp only [List.mem_cons, List.not_mem_nil, or_false] at hv
    rcases hv with rfl | rfl | rfl <;> simp [Sortable, Val.items]

/-- An implementation of `std::sort`: insertion sort. -/
def insertionSort : StdSort := fun lt xs => xs.foldr (insertBy lt) []

/-- The results for the sample. -/
example : ∃ x y, sortSample.sort insertionSort (-1) true true = ok (.array x) ∧
    x.toList = ok [.list [num 1, num 3, .null], .null, .list [num 2]] ∧
    sortSample.argsort insertionSort (-1) true false = ok (.array y) ∧
    y.toList = ok [.list [num 1, num 0, .null], .null, .list [num 0]] :=
  ⟨_, _, rfl, rfl, rfl, rfl⟩

/-- **C28 fails** for slices: `ak.sort(ak.Array([[5], [3, 1]])[1:])` keeps the offsets `[1, 3]`, over a
content that begins at offset 1 (ListOffsetArray.cpp:1851-1880), so the result cannot be read. -/
theorem C28_sliced_violated :
    let c := Content.listOffset {} [1, 3] (.numpy {} .int64 [.int 5, .int 3, .int 1])
    c.validity = ok () ∧ c.toList = ok [.list [num 3, num 1]] ∧
    ∃ x, c.sort insertionSort (-1) true true = ok (.array x) ∧ x.toList.IsErr := by
  exact ⟨rfl, rfl, _, rfl, _, rfl⟩

/-- **C28 fails** for missing numbers at the top level: `ak.sort([3, None, 1])` is `[1, 3]`, because
the first list of a result whose lists have the lengths of `starts` is taken. -/
theorem C28_missing_numbers_violated :
    let c := Content.indexedOption {} [0, -1, 1] (.numpy {} .int64 [.int 3, .int 1])
    c.validity = ok () ∧ c.toList = ok [num 3, .null, num 1] ∧
    ∃ x, c.sort insertionSort (-1) true true = ok (.array x) ∧ x.toList = ok [num 1, num 3] ∧
      ¬ Sorted true [num 3, .null, num 1] [num 1, num 3] := by
  refine ⟨rfl, rfl, _, rfl, rfl, ?_⟩
  rintro ⟨zs, h1, _, h3⟩
  have h4 := congrArg List.length h3
  have h5 := h1.length_eq
  simp [present] at h4 h5
  omega

/-- **C28 fails** for missing lists inside of lists: `ak.sort([[[3, 1], None]])` cannot be read, because
a dimension is added (IndexedArray.cpp:2395-2493). -/
theorem C28_missing_lists_violated :
    let c := Content.listOffset {} [0, 2] (.indexedOption {} [0, -1] (.listOffset {} [0, 2]
      (.numpy {} .int64 [.int 3, .int 1])))
    c.validity = ok () ∧ c.toList = ok [.list [.list [num 3, num 1], .null]] ∧
    ∃ x, c.sort insertionSort (-1) true true = ok (.array x) ∧ x.toList.IsErr := by
  exact ⟨rfl, rfl, _, rfl, _, rfl⟩

/-- **C28 fails** for lists of records: `ak.sort([[{"0": 3}, {"0": 1}]])` cannot be read, because the
RecordArray gets the number of lists as its length (RecordArray.cpp:1602-1640). -/
theorem C28_records_violated :
    let c := Content.listOffset {} [0, 2] (.record {} none [.numpy {} .int64 [.int 3, .int 1]] 2)
    c.validity = ok () ∧ c.toList = ok [.list [.tuple [num 3], .tuple [num 1]]] ∧
    ∃ x, c.sort insertionSort (-1) true true = ok (.array x) ∧ x.toList.IsErr := by
  exact ⟨rfl, rfl, _, rfl, _, rfl⟩

/-- **C28 fails**, agreement, for lists with missing values: `ak.argsort([[None, 3, 1]])` is
`[[1, 0, None]]`, positions among the numbers, and the items of `[None, 3, 1]` at 1 and 0 are not 1
and 3. -/
theorem C28_argsort_missing_violated :
    let c := Content.listOffset {} [0, 3] (.indexedOption {} [-1, 0, 1] (.numpy {} .int64 [.int 3, .int 1]))
    c.validity = ok () ∧ c.toList = ok [.list [.null, num 3, num 1]] ∧
    (∃ x, c.argsort insertionSort (-1) true true = ok (.array x) ∧
      x.toList = ok [.list [num 1, num 0, .null]]) ∧
    (∃ x, c.sort insertionSort (-1) true true = ok (.array x) ∧
      x.toList = ok [.list [num 1, num 3, .null]]) ∧
    itemsAt [.null, num 3, num 1] [num 1, num 0, .null] ≠ [num 1, num 3, .null] := by
  refine ⟨rfl, rfl, ⟨_, rfl, rfl⟩, ⟨_, rfl, rfl⟩, ?_⟩
  simp [itemsAt]

end Awk.Props
