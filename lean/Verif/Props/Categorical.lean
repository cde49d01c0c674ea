import Verif.Lemmas.Categorical
/-
C74-C75: categorical arrays.
-/

namespace Awk
open R

namespace Props
open Content

/-- C74: `to_categorical` of an array of lists, missing values, numbers and strings has the same values, and
its categories are different from each other. -/
theorem C74_to_categorical_partial (c : Content) (hv : c.validity = ok ()) (h : AllNodes CatNode c) :
    ∃ e, toCategorical c = ok e ∧ e.toList = c.toList ∧
      ∃ d us, e.categories = some d ∧ d.toList = ok us ∧ us.Nodup := by
  obtain ⟨e, h1, h2⟩ := categorical_ok hv h 1
  exact ⟨e, h1, h2.toList (good_of_validity hv), h2.cats⟩

/-- C74: `from_categorical` keeps the values of every array. -/
theorem C74_from_categorical (c : Content) (hv : c.validity = ok ()) :
    ∃ e, fromCategorical c = ok e ∧ e.toList = c.toList ∧ (AllNodes OneLabel c → e.categories = none) := by
  have hg := good_of_validity hv
  obtain ⟨e, h1, h2⟩ := apply_maps (from_applies hg 1) hg
  refine ⟨e, h1, ?_, fun h => from_unlabelled h 1 h1⟩
  rw [hg.toList, h2.good.toList, h2.exact trivial]
  congr 1
  exact List.map_congr_left (fun i hi => h2.val i (List.mem_range.mp hi))

/-- `[["one", "two"], [], ["two", None]]`, with ASCII codes of one letter. -/
def lettersArray : Content :=
  .listOffset {} [0, 2, 2, 4] (.indexedOption {} [0, 1, 2, -1]
    (.listOffset { arr := .string } [0, 1, 2, 3] (.numpy { arr := .char } .uint8 [.int 97, .int 98, .int 98])))

example : lettersArray.validity = ok () := by decide +kernel
example : AllNodes CatNode lettersArray := by
  unfold lettersArray
  refine allNodes_iff.mpr ⟨trivial, fun d hd => ?_⟩
  simp only [children, List.mem_singleton] at hd; subst hd
  refine allNodes_iff.mpr ⟨⟨by decide, by decide⟩, fun d hd => ?_⟩
  simp only [children, List.mem_singleton] at hd; subst hd
  refine allNodes_iff.mpr ⟨trivial, fun d hd => ?_⟩
  simp only [children, List.mem_singleton] at hd; subst hd
  exact allNodes_iff.mpr ⟨by simp [CatNode, Atom.kind], fun d hd => by simp [children] at hd⟩
example : toCategorical lettersArray = ok (.listOffset {} [0, 2, 2, 4] (.indexedOption { arr := .categorical } [0, 1, 1, -1]
    (.listOffset { arr := .string } [0, 1, 2] (.numpy { arr := .char } .uint8 [.int 97, .int 98, .int 98])))) := by rfl
example : AllNodes OneLabel (Content.indexed { arr := .categorical } [0, 0, 1] (intArray [5, 6])) :=
  allNodes_iff.mpr ⟨fun _ => rfl, fun d hd => by
    simp only [children, List.mem_singleton] at hd; subst hd
    exact allNodes_iff.mpr ⟨trivial, fun d hd => by simp [intArray, children] at hd⟩⟩
example : (Content.indexed { arr := .categorical } [0, 0, 1] (intArray [5, 6])).validity = ok () := by decide +kernel

/-- C74 is violated by records: "records can be categories" (categorical.py:196-197), but they cannot be
hashed, because line 22 calls `hash` with two arguments. -/
theorem C74_records_violated :
    let c := Content.record {} (some ["x"]) [intArray [1, 1]] 2
    c.validity = ok () ∧ (toCategorical c).IsErr :=
  ⟨by decide +kernel, ⟨_, rfl⟩⟩

/-- C74 is violated by unions: `1` and `True` are equal in Python, so they become one category and
`[True, 1]` becomes `[True, True]`. -/
theorem C74_union_violated :
    let c := Content.union {} [0, 1] [0, 0] [.numpy {} .bool [.bool true], intArray [1]]
    c.validity = ok () ∧ c.toList = ok [.atom (.bool true), .atom (.int 1)] ∧
      (toCategorical c >>= fun e => e.toList) = ok [.atom (.bool true), .atom (.bool true)] :=
  ⟨by decide +kernel, R.lists (by decide +kernel), R.lists (by decide +kernel)⟩

/-- C74 is violated by masks that are shorter than what they mask: lines 254-256 raise an IndexError. -/
theorem C74_mask_violated :
    let c := Content.byteMasked {} [1] true (intArray [1, 2])
    c.validity = ok () ∧ c.toList = ok [.atom (.int 1)] ∧ (toCategorical c).IsErr :=
  ⟨by decide +kernel, R.lists (by decide +kernel), ⟨_, rfl⟩⟩

/-- C74 is violated by arrays with nothing but missing values: line 242 raises an IndexError. -/
theorem C74_all_missing_violated :
    let c := Content.indexedOption {} [-1, -1] (intArray [])
    c.validity = ok () ∧ c.toList = ok [.null, .null] ∧ (toCategorical c).IsErr :=
  ⟨by decide +kernel, R.lists (by decide +kernel), ⟨_, rfl⟩⟩

/-- C75: `==` of categorical arrays compares the values of the rows, if missing values are stored as -1. -/
theorem C75_equal_partial (same : Bool) (oneIndex twoIndex : List Int) (oneList twoList : List Val)
    (hs : same = true → Val.pyEqList oneList twoList = true)
    (ho : ∀ v ∈ oneList, v.Category) (ht : ∀ v ∈ twoList, v.Category)
    (hd : twoList.Pairwise (fun y z => y.pyEq z = false))
    (hoi : ∀ i ∈ oneIndex, -1 ≤ i ∧ i < oneList.length) (hti : ∀ i ∈ twoIndex, -1 ≤ i ∧ i < twoList.length)
    (hl : oneIndex.length = twoIndex.length) :
    categoricalEqual same oneIndex twoIndex oneList twoList
      = ok (List.zipWith (fun i j => (Val.categoryAt oneList i).pyEq (Val.categoryAt twoList j)) oneIndex twoIndex) :=
  categoricalEqual_ok hs ho ht hd hoi hti hl

/-- Numbers as categories. -/
def categoryInts (is : List Int) : List Val := is.map (fun i => Val.atom (.int i))

example : (∀ v ∈ categoryInts [5, 7], v.Category) ∧ (∀ v ∈ categoryInts [7, 9, 5], v.Category) ∧
    (categoryInts [7, 9, 5]).Pairwise (fun y z => y.pyEq z = false) ∧
    categoricalEqual false [0, 1, -1, 1, -1] [2, 0, -1, 1, 2] (categoryInts [5, 7]) (categoryInts [7, 9, 5])
      = ok [true, true, true, false, false] := by
  refine ⟨by simp [categoryInts, Val.Category], by simp [categoryInts, Val.Category], by decide +kernel, by rfl⟩

/-- C75 is violated when missing values are stored as another negative number, which is valid everywhere
else: line 85 takes it for a position from the end, and `None == 5` is True. -/
theorem C75_missing_violated :
    (Content.indexedOption { arr := .categorical } [-2] (intArray [5])).toList = ok [.null] ∧
    (Content.indexedOption { arr := .categorical } [0] (intArray [5, 6])).toList = ok [.atom (.int 5)] ∧
    categoricalEqual false [-2] [0] (categoryInts [5]) (categoryInts [5, 6]) = ok [true] :=
  ⟨R.lists (by decide +kernel), R.lists (by decide +kernel), by rfl⟩

/-- C75 is violated also if the categories are the same: two missing values are not equal if they are stored
as different numbers. -/
theorem C75_missing_same_violated :
    categoricalEqual true [-1] [-2] (categoryInts [5]) (categoryInts [5]) = ok [false] ∧
    categoricalEqual true [-1] [-1] (categoryInts [5]) (categoryInts [5]) = ok [true] :=
  ⟨by rfl, by rfl⟩

/-- C75 is violated by categories that are records. -/
theorem C75_records_violated :
    (categoricalEqual false [0] [0] [.record [("x", .atom (.int 1))]] [.record [("x", .atom (.int 2))]]).IsErr :=
  ⟨_, rfl⟩

end Props
end Awk
