import Verif.Lemmas.Validity
import Verif.Lemmas.SliceRange
/-
Property theorems C07, C08, C09 and the gather part of C11.
`Content.toList` is what `ak.to_list` shows; `c.validity = ok ()` says that
`ak.validity_error` reports nothing.
-/

namespace Awk.Props
open Awk R Spec

/-- **C07.** If the validity check reports nothing, `to_list` succeeds: reading the whole
array raises nothing and never leaves a buffer. -/
theorem C07_valid_implies_readable (c : Content) (h : c.validity = ok ()) :
    ∃ vs, c.toList = ok vs ∧ vs.length = c.len := by
  obtain ⟨vs, hv⟩ := mapN_isOk (Content.valid_readable h).2
  exact ⟨vs, hv, mapN_length hv⟩

/-- **C07.** The check itself is memory safe, for arbitrary buffer contents: it ends with
"valid" or with an error message. -/
theorem C07_check_is_memory_safe (c : Content) : c.validity = ok () ∨ c.validity.IsErr := by
  have := Content.validity_sat c
  cases h : c.validity with
  | ok a => exact Or.inl rfl
  | err e => exact Or.inr ⟨e, rfl⟩
  | ub => rw [h] at this; exact absurd this (by simp)

/-- Nested lists with missing values, records with an empty-list field, and a union: meets the
hypothesis of the theorems below. -/
def exampleContent : Content :=
  .union {} [0, 1, 0, 1] [0, 1, 2, 0]
    [.listOffset {} [0, 2, 2, 3]
      (.indexedOption {} [2, -1, 0] (.numpy {} .int64 [.int 10, .int 20, .int 30])),
     .record {} (some ["x", "s"])
      [.bitMasked {} [6] true 2 true (.numpy {} .float64 [.real 1, .real 2]),
       .listArray { arr := .string } [1, 0] [3, 0]
         (.numpy { arr := .char } .uint8 [.int 104, .int 105, .int 33])] 2]

example : exampleContent.validity = ok () := by rfl
example : exampleContent.toList = ok
    [.list [.atom (.int 30), .null],
     .record [("x", .atom (.real 2)), ("s", .str [])],
     .list [.atom (.int 10)],
     .record [("x", .null), ("s", .str [.atom (.int 105), .atom (.int 33)])]] := by rfl

/-- **C08.** `array[i]` shows element `i` of `to_list(array)`, counting from the end when `i`
is negative, and raises when there is no such element. -/
theorem C08_getitem_at (c : Content) (h : c.validity = ok ()) (vs : List Val)
    (hv : c.toList = ok vs) (i : Int) :
    match pyGet? vs i with
    | some v => ∃ it, c.getitemAt i = ok it ∧ it.toVal = ok v
    | none => (c.getitemAt i).IsErr := by
  have hl := mapN_length hv
  have key : ∀ k : Nat, k < c.len →
      ∃ it, c.getitemAtNowrap k = ok it ∧ it.toVal = ok (vs[k]?.getD .null) := by
    intro k hk
    obtain ⟨it, h1, h2⟩ := Content.getitemAtNowrap_ok h hk
    refine ⟨it, h1, ?_⟩
    rw [h2, mapN_get hv hk, List.getElem?_eq_getElem (by omega)]
    rfl
  unfold pyGet? Content.getitemAt
  by_cases h0 : 0 ≤ i
  · simp only [h0, if_true, show ¬ i < 0 by omega, if_false]
    by_cases h1 : i < c.len
    · obtain ⟨it, g1, g2⟩ := key i.toNat (by omega)
      rw [List.getElem?_eq_getElem (by omega)] at g2 ⊢
      exact ⟨it, by rw [if_neg (fun hc => hc ⟨trivial, h1⟩)]; exact g1, g2⟩
    · rw [List.getElem?_eq_none (by omega)]
      exact ⟨_, by rw [if_pos (fun hc => h1 hc.2)]⟩
  · simp only [h0, if_false, show i < 0 by omega, if_true]
    by_cases h1 : 0 ≤ i + vs.length
    · rw [if_pos h1]
      obtain ⟨it, g1, g2⟩ := key (i + c.len).toNat (by omega)
      rw [hl, List.getElem?_eq_getElem (by omega)]
      rw [List.getElem?_eq_getElem (by omega)] at g2
      exact ⟨it, by rw [if_neg (by omega)]; exact g1, g2⟩
    · rw [if_neg h1]
      exact ⟨_, by rw [if_pos (by omega)]⟩

example : (exampleContent.getitemAt (-1) >>= Item.toVal)
    = ok (.record [("x", .null), ("s", .str [.atom (.int 105), .atom (.int 33)])]) := by rfl

/-- **C09.** `array[start:stop]` shows Python's slice of `to_list(array)`, for arrays built from
any mixture of node types. -/
theorem C09_getitem_range (c : Content) (h : c.validity = ok ()) (vs : List Val)
    (hv : c.toList = ok vs) (start stop : Option Int)
    (hstart : GoodArg start) (hstop : GoodArg stop) :
    ∃ c', c.getitemRange (sliceArg start) (sliceArg stop) = ok c' ∧
      c'.toList = ok (pySlice vs start stop 1) := by
  have hl := mapN_length hv
  obtain ⟨a, b, h1, h2, h3, h4⟩ := pySlice_one vs start stop
  rw [hl] at h2
  obtain ⟨c', g1, g2, g3, _⟩ := Content.range_ok (Content.valid_readable h).1 h1 h2
  refine ⟨c', ?_, ?_⟩
  · unfold Content.getitemRange
    rw [← hl, regularize_pos hstart hstop (by omega) (by omega : (0:Int) < 1), ← h3]
    exact g1
  · rw [g3.toList, h4, mapN_eq_ok]
    refine ⟨by simp; omega, ?_⟩
    intro i hi
    have hi' : i < b - a := by simp at hi; omega
    rw [mapN_get hv (by omega)]
    simp

example : (exampleContent.getitemRange (sliceArg (some (-3))) (sliceArg (some 3)) >>= Content.toList)
    = ok [.record [("x", .atom (.real 2)), ("s", .str [])], .list [.atom (.int 10)]] := by rfl

/-- **C11 (one array, one dimension).** Picking the rows `idx` from an array, as every
integer-array slice, boolean-mask slice, sort or concatenation does internally, shows exactly
those rows in that order, for every node type and for both the eager and the lazy mode. -/
theorem C11_carry_picks_rows (c : Content) (h : c.validity = ok ()) (vs : List Val)
    (hv : c.toList = ok vs) (lazy : Bool) (idx : List Nat) (hidx : ∀ j ∈ idx, j < c.len) :
    ∃ c', c.carry lazy (idx.map Int.ofNat) = ok c' ∧
      c'.toList = ok (idx.filterMap (fun j => vs[j]?)) := by
  have hl := mapN_length hv
  have hin : InRange (idx.map Int.ofNat) c.len := by
    intro j hj
    obtain ⟨k, hk, rfl⟩ := List.mem_map.mp hj
    have := hidx k hk
    simp only [Int.ofNat_eq_natCast]
    omega
  obtain ⟨c', g1, g2, g3, g4⟩ := Content.carry_ok (Content.valid_readable h).1 lazy hin
  refine ⟨c', g1, ?_⟩
  have he : idx.filterMap (fun j => vs[j]?) = idx.map (fun j => vs[j]?.getD .null) := by
    rw [← List.filterMap_eq_map]
    apply filterMap_congr'
    intro j hj
    have := hidx j hj
    simp only [Function.comp]
    rw [List.getElem?_eq_getElem (by omega)]; rfl
  unfold Content.toList
  rw [he, mapN_eq_ok]
  refine ⟨by simp [g3], ?_⟩
  intro i hi
  have hi' : i < idx.length := by simpa using hi
  have hlt := hidx _ (List.getElem_mem hi')
  rw [g4 i (by simpa using hi)]
  simp only [List.getElem_map, Int.ofNat_eq_natCast, Int.toNat_natCast]
  rw [mapN_get hv hlt, List.getElem?_eq_getElem (by omega)]
  rfl

example : (exampleContent.carry false [3, 2, 2] >>= Content.toList)
    = ok [.record [("x", .null), ("s", .str [.atom (.int 105), .atom (.int 33)])],
          .list [.atom (.int 10)], .list [.atom (.int 10)]] := by rfl

end Awk.Props
