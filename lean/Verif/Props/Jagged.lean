import Verif.Lemmas.JaggedMask
import Verif.Lemmas.ValEq
import Verif.Props.Getitem
/-
Property theorems C14 and C56: slices with ragged integer arrays and ragged masks.
-/

namespace Awk.Props
open Awk R Spec Content

/-- Slicing the array `c` with `index` does on the listed values what the ragged index `ix` does:
it never leaves a buffer, and it returns `jagged (n + 1) ix vs` or raises when that is not defined,
because two lists have different lengths or a position is out of range. -/
def SlicesLike (n : Nat) (index c : Content) (ix vs : List Val) : Prop :=
  (∀ w, Spec.jagged (n + 1) ix vs = some w → ∃ it, getitemJagged index c = ok it ∧ Shows it w) ∧
  (Spec.jagged (n + 1) ix vs = none → (getitemJagged index c).IsErr)

theorem slicesLike {b : Bool} {n : Nat} {index c : Content} {ix : List Val} {s : JSlice}
    (hs : index.asslice = ok s) (hw : Awk.Shows b (n + 1) s ix) (hc : c.Good) (hr : Ragged b n c) :
    SlicesLike n index c ix (c.seg 0 c.len) := by
  have T := getitemSlice_ok hw hc hr
  have he : getitemJagged index c = getitemSlice s c := by
    unfold getitemJagged
    rw [hs, bind_ok]
  rw [SlicesLike, he]
  have h1 := T.1
  constructor
  · intro w hw
    obtain ⟨it, hi⟩ := T.2 (by rw [hw]; rfl)
    rw [hi] at h1
    obtain ⟨v, w', g1, g2, g3⟩ := h1
    rw [hw, Option.some.injEq] at g2
    subst g2
    exact ⟨it, hi, v, g1, g3⟩
  · intro hn
    cases hr : getitemSlice s c with
    | ok it =>
      rw [hr] at h1
      obtain ⟨v, w', g1, g2, g3⟩ := h1
      rw [hn] at g2; cases g2
    | err e => exact ⟨e, rfl⟩
    | ub => rw [hr] at h1; exact h1.elim

/-- **C14.** `array[index]` with a ragged integer array, nested to any depth, selects in every list
of the array the positions found in the corresponding list of the index, negative ones counted from
the end; it raises when the lengths of two corresponding lists differ or a position is out of range.
Missing lists of the array stay missing, and records are sliced in all their fields. Missing for the
full property: missing lists above the innermost level, for which it is false
(`C14_nested_missing_violated`), lists of unknown type and records without fields (also false, see
below), unions, and lists of fixed size in the index. -/
theorem C14_lists_partial (n : Nat) (index c : Content) (hi : index.validity = ok ())
    (hc : c.validity = ok ()) (hri : RaggedIndex false false (n + 1) index) (hrc : Ragged false n c)
    (ix vs : List Val) (hix : index.toList = ok ix) (hvs : c.toList = ok vs) :
    SlicesLike n index c ix vs := by
  obtain ⟨hgi, rfl⟩ := shows_seg hi hix
  obtain ⟨hgc, rfl⟩ := shows_seg hc hvs
  obtain ⟨s, h1, h2, _⟩ := asslice_ok false (n + 1) index hgi (Nat.le_refl _) hri
  exact slicesLike h1 h2 hgc hrc

/-- **C14, missing positions.** A missing position selects a missing value, in the list where it
stands. Missing for the full property: arrays that may have missing lists, for which it is false
(`C14_missing_both_violated`), and missing lists in the index (`C14_missing_lists_violated`). -/
theorem C14_missing_partial (n : Nat) (index c : Content) (hi : index.validity = ok ())
    (hc : c.validity = ok ()) (hri : RaggedIndex false true (n + 1) index) (hrc : Ragged true n c)
    (ix vs : List Val) (hix : index.toList = ok ix) (hvs : c.toList = ok vs) :
    SlicesLike n index c ix vs := by
  obtain ⟨hgi, rfl⟩ := shows_seg hi hix
  obtain ⟨hgc, rfl⟩ := shows_seg hc hvs
  obtain ⟨s, h1, h2, _⟩ := asslice_ok true (n + 1) index hgi (Nat.le_refl _) hri
  exact slicesLike h1 h2 hgc hrc

/-- **C56.** `array[mask]` with a ragged mask selects in every list of the array the items at the
positions where the corresponding list of the mask holds true. Missing for the full property: as in
`C14_lists_partial`, and masks with missing values. -/
theorem C56_mask_partial (n : Nat) (index c : Content) (hi : index.validity = ok ())
    (hc : c.validity = ok ()) (hri : RaggedIndex true false (n + 1) index) (hrc : Ragged false n c)
    (ms vs : List Val) (hix : index.toList = ok ms) (hvs : c.toList = ok vs) :
    SlicesLike n index c (unmask (n + 1) ms) vs := by
  obtain ⟨hgi, rfl⟩ := shows_seg hi hix
  obtain ⟨hgc, rfl⟩ := shows_seg hc hvs
  obtain ⟨s, h1, h2, _⟩ := asslice_mask n index hgi (Nat.le_refl _) hri
  exact slicesLike h1 h2 hgc hrc

/-! ### Examples -/

/-- `[[[0, 1], [2]], None, [[], [3, 4, 5]]]` of the examples of C13, without the missing list. -/
def deepLists : Content :=
  .listArray {} [3, 1] [5, 3] (.listOffset {} [0, 0, 2, 3, 3, 6]
    (.numpy {} .int64 ((List.range 6).map (fun (i : Nat) => .int i))))

/-- The array has two levels of lists. -/
theorem deepLists_ragged (b : Bool) : Ragged b 1 deepLists := by
  refine .list rfl (by simp [PlainList, params, deepLists]) ?_
  intro d hd
  obtain rfl := List.mem_singleton.mp hd
  exact .last rfl (by simp [PlainList, params])

/-- `[[[], [0, -2, 0]], [[0, -2], []]]`, with missing positions when `miss` holds. -/
def exampleIndex (miss : Bool) : Content :=
  .listOffset {} [1, 3, 5] (.listOffset {} [0, 1, 1, 4, 6, 6]
    (if miss then .indexedOption {} [0, 1, -1, 0, 0, -1] (.numpy {} .int32 ([0, -2].map .int))
     else .numpy {} .int32 ([5, 0, -2, 0, 0, -2].map .int)))

theorem exampleIndex_ragged (miss : Bool) : RaggedIndex false miss 2 (exampleIndex miss) := by
  unfold exampleIndex
  refine .listOffset (by simp [len]) (by simp [PlainList]) (.listOffset ?_ (by simp [PlainList]) ?_)
  · cases miss <;> simp [len]
  · cases miss
    · exact .numpy ⟨rfl, by simp⟩
    · refine .missing rfl rfl ?_
      intro d hd
      obtain rfl := List.mem_singleton.mp hd
      exact .numpy ⟨rfl, by simp⟩

example : deepLists.validity = ok () := by rfl
example : deepLists.toList = ok [.list [ints [], ints [3, 4, 5]], .list [ints [0, 1], ints [2]]] := by
  rfl
example : (exampleIndex false).validity = ok () := by rfl
example : (exampleIndex true).validity = ok () := by rfl
example : (exampleIndex false).toList =
    ok [.list [ints [], ints [0, -2, 0]], .list [ints [0, -2], ints []]] := by rfl
example : Spec.jagged 2 [.list [ints [], ints [0, -2, 0]], .list [ints [0, -2], ints []]]
    [.list [ints [], ints [3, 4, 5]], .list [ints [0, 1], ints [2]]] =
    some (.list [.list [ints [], ints [3, 4, 3]], .list [ints [0, 0], ints []]]) := by rfl
example : (getitemJagged (exampleIndex false) deepLists >>= Item.toVal) =
    ok (.list [.list [ints [], ints [3, 4, 3]], .list [ints [0, 0], ints []]]) := R.gives (by decide +kernel)
example : (getitemJagged (exampleIndex true) deepLists >>= Item.toVal) =
    ok (.list [.list [ints [], .list [.atom (.int 4), .null, .atom (.int 3)]],
      .list [.list [.atom (.int 0), .null], ints []]]) := R.gives (by decide +kernel)

/-- Missing lists at the innermost level: `[[1, 2, 3], None, [4, 5]]`. -/
def exampleMissing : Content :=
  .indexedOption {} [1, -1, 0] (.listOffset {} [0, 2, 5]
    (.numpy {} .int64 ([4, 5, 1, 2, 3].map .int)))

example : Ragged false 0 exampleMissing :=
  .option rfl rfl (by
    intro d hd
    obtain rfl := List.mem_singleton.mp hd
    exact .last rfl (by simp [PlainList, params]))
example : (getitemJagged (.listOffset {} [0, 1, 2, 4] (.numpy {} .int64 ([-1, 7, 1, 1].map .int)))
    exampleMissing >>= Item.toVal) = ok (.list [ints [3], .null, ints [5, 5]]) := R.gives (by decide +kernel)

/-- A mask `[[True, False, True], [], [False, True]]`. -/
def exampleMask : Content :=
  .listOffset {} [1, 4, 4, 6] (.numpy {} .bool ([true, true, false, true, false, true].map .bool))

example : RaggedIndex true false 1 exampleMask :=
  .listOffset (by simp [len]) (by simp [PlainList]) (.numpy ⟨rfl, by simp⟩)
example : exampleMask.validity = ok () := by rfl
example : (getitemJagged exampleMask exampleMissing >>= Item.toVal) =
    ok (.list [ints [1, 3], .null, ints [5]]) := R.gives (by decide +kernel)
example : exampleMask.toList = ok [.list [.atom (.bool true), .atom (.bool false), .atom (.bool true)],
    .list [], .list [.atom (.bool false), .atom (.bool true)]] := by rfl
example : unmask 1 [.list [.atom (.bool true), .atom (.bool false), .atom (.bool true)],
    .list [], .list [.atom (.bool false), .atom (.bool true)]] =
    [ints [0, 2], ints [], ints [1]] := by rfl

/-- A record of lists. -/
example : Ragged false 0 (.record {} (some ["x", "y"]) [.listOffset {} [0, 2] (.empty {}),
    .indexed {} [0] (.listOffset {} [0, 1] (.empty {}))] 1) := by
  refine .record (by simp) (by simp) ?_
  intro d hd
  simp only [List.mem_cons, List.not_mem_nil, or_false] at hd
  rcases hd with rfl | rfl
  · exact .last rfl (by simp [PlainList, params])
  · refine .index rfl ?_
    intro d hd
    obtain rfl := List.mem_singleton.mp hd
    exact .last rfl (by simp [PlainList, params])

/-! ### Violations -/

/-- **C14 fails** for missing positions in arrays with missing lists: `[None, [5, 6]]` sliced with
`[[0], [None, 1]]` gives an array that cannot be read (ListArray.cpp:1901-1965: the
index of the missing positions still counts the positions that belonged to the missing list). -/
theorem C14_missing_both_violated :
    let c := Content.indexedOption {} [-1, 0] (.listOffset {} [0, 2] (.numpy {} .int64 [.int 5, .int 6]))
    let index := Content.listOffset {} [0, 1, 3]
      (.indexedOption {} [0, -1, 1] (.numpy {} .int64 [.int 0, .int 1]))
    c.validity = ok () ∧ index.validity = ok () ∧
    c.toList = ok [.null, ints [5, 6]] ∧
    index.toList = ok [ints [0], .list [.null, .atom (.int 1)]] ∧
    Spec.jagged 1 [ints [0], .list [.null, .atom (.int 1)]] [.null, ints [5, 6]] =
      some (.list [.null, .list [.null, .atom (.int 6)]]) ∧
    (getitemJagged index c >>= Item.toVal).IsErr :=
  ⟨by rfl, by rfl, R.lists (by decide +kernel), R.lists (by decide +kernel), by rfl,
    R.raises (by decide +kernel)⟩

/-- **C14 fails** for missing lists above the innermost level: `[None, [[5, 6]]]` sliced with
`[[[0]], [[1]]]` raises, since the lists of the index that belong to missing lists are dropped from
the starts and stops but not from the content. -/
theorem C14_nested_missing_violated :
    let c := Content.indexedOption {} [-1, 0] (.listOffset {} [0, 1] (.listOffset {} [0, 2]
      (.numpy {} .int64 [.int 5, .int 6])))
    let index := Content.listOffset {} [0, 1, 2] (.listOffset {} [0, 1, 2]
      (.numpy {} .int64 [.int 0, .int 1]))
    c.validity = ok () ∧ index.validity = ok () ∧
    c.toList = ok [.null, .list [ints [5, 6]]] ∧
    index.toList = ok [.list [ints [0]], .list [ints [1]]] ∧
    Spec.jagged 2 [.list [ints [0]], .list [ints [1]]] [.null, .list [ints [5, 6]]] =
      some (.list [.null, .list [ints [6]]]) ∧
    (getitemJagged index c).IsErr :=
  ⟨by rfl, by rfl, R.lists (by decide +kernel), R.lists (by decide +kernel), by rfl,
    R.raises (by decide +kernel)⟩

/-- **C14 fails** for missing lists in the index: the lists of the array are looked up in its
content without its offsets. `[[[3, 4], [5, 6]], [[7, 8], [9, 10]]]` sliced with
`[[[0], None], [None, [1]]]` gives items of other lists, `1` and `8` instead of `3` and `10`. -/
theorem C14_missing_lists_violated :
    let c := Content.listOffset {} [1, 3, 5] (.listOffset {} [0, 2, 4, 6, 8, 10]
      (.numpy {} .int64 ((List.range 10).map (fun (i : Nat) => .int (i + 1)))))
    let index := Content.listOffset {} [0, 2, 4] (.indexedOption {} [0, -1, -1, 1]
      (.listOffset {} [0, 1, 2] (.numpy {} .int64 [.int 0, .int 1])))
    c.validity = ok () ∧ index.validity = ok () ∧
    c.toList = ok [.list [ints [3, 4], ints [5, 6]], .list [ints [7, 8], ints [9, 10]]] ∧
    index.toList = ok [.list [ints [0], .null], .list [.null, ints [1]]] ∧
    (getitemJagged index c >>= Item.toVal) =
      ok (.list [.list [ints [1], .null], .list [.null, ints [8]]]) :=
  ⟨by rfl, by rfl, R.lists (by decide +kernel), R.lists (by decide +kernel),
    R.gives (by decide +kernel)⟩

/-- **C14 fails** for lists of unknown type: `[[], []]` sliced with `[[], []]`, an index with one
more level of lists, raises (EmptyArray.cpp:714-752). -/
theorem C14_unknown_violated :
    let c := Content.listOffset {} [0, 0, 0] (.empty {})
    let index := Content.listOffset {} [0, 0, 0] (.listOffset {} [0] (.numpy {} .int64 []))
    c.validity = ok () ∧ index.validity = ok () ∧
    c.toList = ok [.list [], .list []] ∧ index.toList = ok [.list [], .list []] ∧
    Spec.jagged 2 [.list [], .list []] [.list [], .list []] =
      some (.list [.list [], .list []]) ∧
    (getitemJagged index c).IsErr :=
  ⟨by rfl, by rfl, R.lists (by decide +kernel), R.lists (by decide +kernel), by rfl,
    R.raises (by decide +kernel)⟩

/-- **C14 fails** for an index whose integers are a strided view: the positions are read from the
buffer one after the other. The view `[0, 1]` is `buffer[::2]` of `[0, 7, 1, 7]`, and the slice
uses the positions `0` and `7`. -/
theorem C14_strided_violated :
    ∃ buffer : List Int, (List.range 2).map (fun i => buffer[2 * i]?) = [some 0, some 1] ∧
      stridedAsslice buffer 0 2 2 = ok [0, 7] :=
  ⟨[0, 7, 1, 7], by rfl, by rfl⟩

end Awk.Props
