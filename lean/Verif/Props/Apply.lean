import Verif.Lemmas.ApplyLevel
import Verif.Lemmas.ValEq
import Verif.Props.List
/-
Property theorems C62 (`ak.is_none` with an axis), C63 (`ak.singletons`) and C64 (`ak.from_regular` and
`ak.to_regular` with an axis).
-/

namespace Awk.Props
open Awk Awk.Spec Awk.R Awk.Content

/-- **C62 (partial).** `is_none(array, axis)` says of every element at the given depth whether it is
missing; everything around these elements keeps its structure. Missing: an option over a union of options (`C62_nested_violated`); axes deeper than the array should raise (`C62_too_deep_violated`). -/
theorem C62_is_none_partial (c : Content) (h : c.validity = ok ()) (axis : Nat) (hd : Deep axis c)
    (h1 : AllNodes OnceUnion c) (vs : List Val) (hv : c.toList = ok vs) :
    ∃ d, c.isNone axis = ok d ∧ d.toList = ok (vs.map (Val.mapDepth Val.missing axis)) := by
  have hg := good_of_validity h
  obtain ⟨e, g1, g2⟩ := isNone_ok hg (once_of_validity h h1) hd
  exact ⟨e, g1, toList_maps hg g2 hv⟩

/-- **C62 (partial).** A negative axis counts from the innermost level, if every branch is equally
deep; see `C62_negative_violated`. -/
theorem C62_negative_partial (c : Content) (n j : Nat) (hu : Uniform n c) (h1 : 1 ≤ j) (hj : j ≤ n) :
    c.isNone (-(j : Int)) = c.isNone ((n - j : Nat) : Int) := by
  unfold isNone
  apply apply_congr
  simp only [isNoneGet, hu.axisWrap h1 hj, axisWrap_nat, bind_ok]

/-- `[[{x: 1}, None], None, [None, {x: 2}]]` -/
def missingExample : Content :=
  .indexedOption {} [0, -1, 1] (.listOffset {} [0, 2, 4]
    (.byteMasked {} [0, 1, 1, 0] false (.record {} (some ["x"])
      [.numpy {} .int64 [.int 1, .int 0, .int 0, .int 2]] 4)))

example : missingExample.validity = ok () := by rfl
example : Deep 1 missingExample :=
  .thru rfl fun d hd => by
    cases List.mem_singleton.mp hd
    exact .list rfl (by decide) (by decide) fun d hd => .zero
example : AllNodes OnceUnion missingExample := by
  refine .mk (fun _ d hd => ?_) fun d hd => ?_ <;> cases List.mem_singleton.mp hd
  · intro h; cases h
  refine .mk (fun h => by cases h) fun d hd => ?_
  cases List.mem_singleton.mp hd
  refine .mk (fun _ d hd => ?_) fun d hd => ?_ <;> cases List.mem_singleton.mp hd
  · intro h; cases h
  refine .mk (fun h => by cases h) fun d hd => ?_
  cases List.mem_singleton.mp hd
  exact .mk (fun h => by cases h) fun d hd => by cases hd
example : (missingExample.isNone 1 >>= toList) = ok [
    .list [.atom (.bool false), .atom (.bool true)], .null,
    .list [.atom (.bool true), .atom (.bool false)]] := R.lists (by decide +kernel)
example : (missingExample.isNone 0 >>= toList)
    = ok [.atom (.bool false), .atom (.bool true), .atom (.bool false)] := R.lists (by decide +kernel)
example : Uniform 2 missingExample := by
  refine .thru rfl fun d hd => ?_
  cases List.mem_singleton.mp hd
  refine .list rfl (by decide) (by decide) fun d hd => ?_
  cases List.mem_singleton.mp hd
  refine .thru rfl fun d hd => ?_
  cases List.mem_singleton.mp hd
  refine .record (by simp) fun d hd => ?_
  cases List.mem_singleton.mp hd
  exact .numpy

/-- **C62 fails** for an axis that the array does not have: it is returned as it is. -/
theorem C62_too_deep_violated :
    (Content.numpy {} .int64 [.int 1, .int 2]).isNone 1
      = ok (Content.numpy {} .int64 [.int 1, .int 2]) := rfl

/-- **C62 fails** for an option over a union of options, which is valid: only the outer one is looked at (structure.py:2803-2806), so that the missing element is said not to be missing. -/
theorem C62_nested_violated :
    let c := Content.byteMasked {} [0, 0] false (.union {} [0, 0] [0, 1]
      [.indexedOption {} [0, -1] (.numpy {} .int64 [.int 7])])
    c.validity = ok () ∧ c.toList = ok [.atom (.int 7), .null] ∧
    (c.isNone 0 >>= toList) = ok [.atom (.bool false), .atom (.bool false)] :=
  ⟨rfl, rfl, rfl⟩

/-- **C62 fails** for negative axes and records of different depths inside lists: the axis is counted
from the inside of the field but compared with the depth in the whole array (structure.py:2800-2801), so
that it is applied to the lists `x`, not to the numbers in them. -/
theorem C62_negative_violated :
    let c := Content.listOffset {} [0, 1] (.record {} (some ["x", "y"])
      [.listOffset {} [0, 2] (.numpy {} .int64 [.int 1, .int 2]),
        .listOffset {} [0, 1] (.listOffset {} [0, 1] (.numpy {} .int64 [.int 3]))] 1)
    c.validity = ok () ∧
    c.toList = ok [.list [.record [("x", .list [.atom (.int 1), .atom (.int 2)]),
      ("y", .list [.list [.atom (.int 3)]])]]] ∧
    (c.isNone (-1) >>= toList) = ok [.list [.record [("x", .atom (.bool false)),
      ("y", .list [.atom (.bool false)])]]] :=
  ⟨rfl, rfl, R.lists (by decide +kernel)⟩

/-- **C62 fails** for strings, which are lists in this function: the result is not valid. -/
theorem C62_strings_violated :
    let c := Content.listOffset { arr := .string } [0, 1] (.numpy { arr := .char } .uint8 [.int 65])
    c.validity = ok () ∧ ∃ d, c.isNone 1 = ok d ∧ d.validity ≠ ok () := by
  refine ⟨rfl, _, rfl, ?_⟩
  rintro h
  exact nomatch (show R.err _ = R.ok _ from h)

/-- **C63 (partial).** `singletons(array)` makes a list of every element that is there and an empty list
of every element that is missing, at the depth of the missing data. Missing: options below records; options
over unions of options (`C63_nested_violated`); arrays without missing data, which are left as they are
(`C63_no_options_violated`). -/
theorem C63_singletons_partial (c : Content) (h : c.validity = ok ()) (depth : Nat)
    (hd : OptionsAt depth c) (h1 : AllNodes OnceUnion c) (vs : List Val) (hv : c.toList = ok vs) :
    ∃ d, c.singletons = ok d ∧ d.toList = ok (vs.map (Val.mapDepth Val.singleton depth)) := by
  have hg := good_of_validity h
  obtain ⟨e, g1, g2⟩ := singletons_ok hg (once_of_validity h h1) hd
  exact ⟨e, g1, toList_maps hg g2 hv⟩

/-- `[[1, None], [], [None, 2]]` -/
def singletonsExample : Content :=
  .listOffset {} [0, 2, 2, 4] (.bitMasked {} [6] false 4 true
    (.numpy {} .int64 [.int 1, .int 0, .int 0, .int 2]))

example : singletonsExample.validity = ok () := by rfl
example : OptionsAt 1 singletonsExample := .list rfl fun d hd => by
  cases List.mem_singleton.mp hd
  exact .here rfl
example : AllNodes OnceUnion singletonsExample := by
  refine .mk (fun h => by cases h) fun d hd => ?_
  cases List.mem_singleton.mp hd
  refine .mk (fun _ d hd => ?_) fun d hd => ?_ <;> cases List.mem_singleton.mp hd
  · intro h; cases h
  exact .mk (fun h => by cases h) fun d hd => by cases hd
example : (singletonsExample.singletons >>= toList) = ok [
    .list [.list [.atom (.int 1)], .list []], .list [], .list [.list [], .list [.atom (.int 2)]]] :=
  R.lists (by decide +kernel)

/-- **C63 fails** for an array without missing data: its elements are not made into lists. -/
theorem C63_no_options_violated :
    (Content.numpy {} .int64 [.int 1, .int 2]).singletons
      = ok (Content.numpy {} .int64 [.int 1, .int 2]) := rfl

/-- **C63 fails** for an option over a union of options: a missing element is in a list. -/
theorem C63_nested_violated :
    let c := Content.byteMasked {} [0, 0] false (.union {} [0, 0] [0, 1]
      [.indexedOption {} [0, -1] (.numpy {} .int64 [.int 7])])
    c.validity = ok () ∧ c.toList = ok [.atom (.int 7), .null] ∧
    (c.singletons >>= toList) = ok [.list [.atom (.int 7)], .list [.null]] :=
  ⟨rfl, rfl, R.lists (by decide +kernel)⟩

/-- **C64.** `from_regular(array, axis)` keeps the elements, and in the type it only changes the lists
at the given depth, which have any length. -/
theorem C64_from_regular (c : Content) (h : c.validity = ok ()) (axis : Nat) (ha : 1 ≤ axis)
    (vs : List Val) (hv : c.toList = ok vs) :
    ∃ d, c.fromRegular axis = ok d ∧ d.toList = ok vs ∧
      ∀ ts, SameBut ToVar axis (c.type ts) (d.type ts) := by
  have hg := good_of_validity h
  obtain ⟨e, g1, g2, g3⟩ := fromRegular_ok hg ha
  exact ⟨e, g1, by simpa using toList_maps hg g2 hv, g3⟩

/-- **C64 (partial).** `to_regular(array, axis)` keeps the elements, and in the type it only changes the
lists at the given depth, which have a fixed size, if all lists of that depth have the same length.
Missing: lists that cannot be reached have to have that length, too (`C64_hidden_violated`). -/
theorem C64_to_regular_partial (c : Content) (h : c.validity = ok ()) (axis : Nat) (ha : 1 ≤ axis)
    (hl : LevelAt SameLengths axis c) (vs : List Val) (hv : c.toList = ok vs) :
    ∃ d, c.toRegularAxis axis = ok d ∧ d.toList = ok vs ∧
      ∀ ts, SameBut ToFixed axis (c.type ts) (d.type ts) := by
  have hg := good_of_validity h
  have hl' : LevelAt (fun c => OffsetsInRange c ∧ ∀ i, i < c.len → c.lens i = c.lens 0) axis c := by
    clear ha hv h
    induction hl with
    | @here c hn hs =>
      refine .here hn ⟨?_, ?_⟩
      · cases c <;> try exact trivial
        exact hs.1 _ _ _ rfl
      · intro i hi
        have hm : ∀ j, j < c.len → c.valD j ∈ (List.range c.len).map c.valD := fun j hj =>
          List.mem_map_of_mem (List.mem_range.mpr hj)
        exact hs.2 _ hg.toList _ (hm i hi) _ (hm 0 (by omega))
    | @inside c k hn hk _ ih => exact .inside hn hk fun d hd => ih d hd (hg.child hd)
    | @other c k hn _ ih => exact .other hn fun d hd => ih d hd (hg.child hd)
  obtain ⟨e, g1, g2, g3⟩ := toRegularAxis_ok hg ha hl'
  exact ⟨e, g1, by simpa using toList_maps hg g2 hv, g3⟩

/-- **C64 (partial).** `to_regular` raises if two lists have different lengths. -/
theorem C64_raises_partial (c : Content) (h : c.validity = ok ()) (hl : c.isListNode = true)
    (vs : List Val) (hv : c.toList = ok vs)
    (hdiff : ∃ v ∈ vs, ∃ w ∈ vs, v.items.length ≠ w.items.length) :
    (c.toRegularAxis 1).IsErr := by
  have := C20_to_regular_raises c h hl vs hv hdiff
  obtain ⟨s, hs⟩ := this
  refine ⟨s, ?_⟩
  have hget := (toRegular_level (Nat.le_refl 1)).stop c hl
  rw [hs] at hget
  unfold toRegularAxis
  rw [if_neg (by omega)]
  cases c <;> simp only [isListNode, Bool.false_eq_true] at hl <;>
    simp only [apply] <;> rw [show (1 : Int) = ((1 : Nat) : Int) by rfl, hget] <;> rfl

/-- **C64 (partial).** Negative axes count from the innermost level, if every branch is equally deep. -/
theorem C64_negative_partial (c : Content) (n j : Nat) (hu : Uniform n c) (h1 : 1 ≤ j) (hj : j < n) :
    c.fromRegular (-(j : Int)) = c.fromRegular ((n - j : Nat) : Int) ∧
    c.toRegularAxis (-(j : Int)) = c.toRegularAxis ((n - j : Nat) : Int) := by
  refine ⟨?_, ?_⟩
  · unfold fromRegular
    rw [if_neg (by omega), if_neg (by omega)]
    apply apply_congr
    simp only [fromRegularGet, hu.axisWrap h1 (Nat.le_of_lt hj), axisWrap_nat, bind_ok]
  · unfold toRegularAxis
    rw [if_neg (by omega), if_neg (by omega)]
    apply apply_congr
    simp only [toRegularGet, hu.axisWrap h1 (Nat.le_of_lt hj), axisWrap_nat, bind_ok]

/-- `[[[1, 2], [3, 4]], [[5, 6]]]`, with inner lists of size 2. -/
def regularExample : Content :=
  .listOffset {} [0, 2, 3] (.regular {} (.numpy {} .int64 [.int 1, .int 2, .int 3, .int 4, .int 5, .int 6])
    2 0)

/-- The same with inner lists of any size. -/
def varExample : Content :=
  .listOffset {} [0, 2, 3] (.listOffset {} [0, 2, 4, 6]
    (.numpy {} .int64 [.int 1, .int 2, .int 3, .int 4, .int 5, .int 6]))

example : regularExample.validity = ok () := by rfl
example : varExample.validity = ok () := by rfl
example : regularExample.fromRegular 2 = ok varExample := by rfl
example : regularExample.fromRegular (-1) = ok varExample := by rfl
example : LevelAt SameLengths 2 varExample := by
  refine .inside rfl (by omega) fun d hd => ?_
  cases List.mem_singleton.mp hd
  refine .here rfl ⟨?_, ?_⟩
  · rintro p offsets d h o ho
    cases h
    revert o
    decide
  · intro vs hv
    have : vs = [.list [.atom (.int 1), .atom (.int 2)], .list [.atom (.int 3), .atom (.int 4)],
        .list [.atom (.int 5), .atom (.int 6)]] := by
      rw [show (Content.listOffset {} [0, 2, 4, 6] (.numpy {} .int64
        [.int 1, .int 2, .int 3, .int 4, .int 5, .int 6])).toList = ok _ from rfl, ok.injEq] at hv
      exact hv.symm
    subst this
    simp [Val.items]
example : (varExample.toRegularAxis 2 >>= toList) = varExample.toList := by rfl
example : (varExample.toRegularAxis 2 >>= fun d => ok (d.type [])) = ok (regularExample.type []) := by rfl
example : (varExample.toRegularAxis 1).IsErr := ⟨_, rfl⟩
example : Uniform 3 varExample := by
  refine .list rfl (by decide) (by decide) fun d hd => ?_
  cases List.mem_singleton.mp hd
  refine .list rfl (by decide) (by decide) fun d hd => ?_
  cases List.mem_singleton.mp hd
  exact .numpy

/-- **C64 fails** for lists that cannot be reached: `to_regular` raises although all lists of the array
have the same length, because of the list under the missing one. -/
theorem C64_hidden_violated :
    let c := Content.byteMasked {} [0, 1, 0] false (.listOffset {} [0, 2, 3, 5]
      (.numpy {} .int64 [.int 1, .int 2, .int 0, .int 3, .int 4]))
    c.validity = ok () ∧
    c.toList = ok [.list [.atom (.int 1), .atom (.int 2)], .null, .list [.atom (.int 3), .atom (.int 4)]] ∧
    (c.toRegularAxis 1).IsErr :=
  ⟨rfl, rfl, _, rfl⟩

/-- **C64 fails** for an axis that the array does not have: it is returned as it is, and nothing is
raised (structure.py:735-739 only looks for the axis zero). -/
theorem C64_too_deep_violated :
    (Content.numpy {} .int64 [.int 1, .int 2]).toRegularAxis 1
      = ok (Content.numpy {} .int64 [.int 1, .int 2]) := rfl

end Awk.Props
