import Verif.Lemmas.Packed
import Verif.Lemmas.ValEq
/-
Property theorems C60: `ak.packed`.
-/

namespace Awk.Props
open Awk Awk.Spec Awk.R Awk.Content

/-- **C60 (partial).** `packed(array)` shows the same values as `array` and has no data that cannot
be reached: lists follow each other from the first item to the last, nothing is gathered through an
index but the items that are not missing, in order, and fields and masked contents are as long as
they must be. The type is kept as well, if the nodes that are rebuilt have no parameters (`bare`).
Missing: unions, lists of fixed size zero, fixed-size strings and masks on records inside of lists;
see `C60_empty_lists_violated`, `C60_strings_violated`, `C60_categories_violated` and
`C60_masked_records_violated`. -/
theorem C60_packed_partial (same : Content → Content → Bool) (bare : Bool) (c : Content)
    (h : c.validity = ok ()) (hp : Packable bare false c) (vs : List Val) (hv : c.toList = ok vs) :
    ∃ d, c.packed same = ok d ∧ d.toList = ok vs ∧ d.Packed ∧
      (bare = true → ∀ typestrs, d.type typestrs = c.type typestrs) := by
  have hg := good_of_validity h
  obtain ⟨d, h1, h2⟩ := packF_ok same (2 * c.rank + 2) (lv := none) hg hp (by omega)
  refine ⟨d, h1, ?_, packedTo_none h2.packed, h2.type⟩
  rw [← hv, hg.toList, h2.good.toList, h2.len]
  congr 1
  exact List.map_congr_left fun i hi => h2.vals i (List.mem_range.mp hi)

/-- Records with lists of records in any order, numbers of which some are missing, and pairs, all
with data that cannot be reached. -/
def packableExample : Content :=
  .record {} (some ["a", "b", "c"])
    [.listArray {} [3, 0] [4, 2] (.record {} (some ["x"]) [.numpy {} .int64
        [.int 0, .int 1, .int 2, .int 3, .int 4]] 4),
     .byteMasked {} [0, 1, 0] false (.numpy {} .int64 [.int 5, .int 6, .int 7, .int 8]),
     .indexedOption {} [2, -1, 0] (.regular {} (.indexed {} [6, 5, 4, 3, 2, 1, 0] (.numpy {} .int64
        [.int 0, .int 1, .int 2, .int 3, .int 4, .int 5, .int 6])) 2 0)] 2

example : packableExample.validity = ok () ∧ Packable true false packableExample := by
  refine ⟨rfl, ?_⟩
  simp [packableExample, Packable, PackableAll, isOption, isOptionOrIndexed]

example : packableExample.toList = ok
    [.record [("a", .list [.record [("x", .atom (.int 3))]]), ("b", .atom (.int 5)),
       ("c", .list [.atom (.int 2), .atom (.int 1)])],
     .record [("a", .list [.record [("x", .atom (.int 0))], .record [("x", .atom (.int 1))]]),
       ("b", .null), ("c", .null)]] := R.lists (by decide +kernel)

/-- What packing makes of it. -/
example : packableExample.packed (fun _ _ => false) = ok
    (.record {} (some ["a", "b", "c"])
      [.listOffset {} [0, 1, 3] (.record {} (some ["x"]) [.numpy {} .int64
          [.int 3, .int 0, .int 1]] 3),
       .byteMasked {} [0, 1] false (.numpy {} .int64 [.int 5, .int 6]),
       .indexedOption {} [0, -1] (.regular {} (.numpy {} .int64 [.int 2, .int 1]) 2 0)] 2) := rfl

/-- Two lists of fixed size zero. -/
def emptyListsExample : Content := .regular {} (.numpy {} .int64 []) 0 2

/-- **C60 (violated).** Two empty lists of fixed size zero are a valid array, but packing it raises
ZeroDivisionError. -/
theorem C60_empty_lists_violated (same : Content → Content → Bool) :
    emptyListsExample.validity = ok () ∧
    emptyListsExample.toList = ok [.list [], .list []] ∧
    (emptyListsExample.packed same).IsErr :=
  ⟨rfl, rfl, _, rfl⟩

/-- Lists of records, of which one is missing: an array without its first list. -/
def maskedRecordsExample : Content :=
  .listOffset {} [1, 3] (.byteMasked {} [0, 1, 0] false (.record {} (some ["x"]) [.numpy {} .int64
    [.int 0, .int 1, .int 2]] 3))

/-- **C60 (violated).** Lists of records behind a mask, without the first of the lists, are a valid
array, but packing it raises AttributeError: gathering the records by an index puts an IndexedArray
under the mask, `simplify` turns both into an IndexedOptionArray, and that has no method
`toIndexedOptionArray64`. -/
theorem C60_masked_records_violated (same : Content → Content → Bool) :
    maskedRecordsExample.validity = ok () ∧
    maskedRecordsExample.toList = ok [.list [.null, .record [("x", .atom (.int 2))]]] ∧
    (maskedRecordsExample.packed same).IsErr :=
  ⟨rfl, rfl, _, rfl⟩

/-- Two strings of two letters. -/
def fixedStringsExample : Content :=
  .regular { arr := .string } (.numpy { arr := .char } .uint8
    [.int 104, .int 105, .int 111, .int 107]) 2 2

/-- **C60 (violated).** Packing an array of strings of a fixed size takes away the parameter that
says that they are strings, so the type is another one. -/
theorem C60_strings_violated (same : Content → Content → Bool) :
    fixedStringsExample.validity = ok () ∧
    ∃ d, fixedStringsExample.packed same = ok d ∧
      fixedStringsExample.type [] = .regular { params := { arr := .string } }
        (.prim { params := { arr := .char } } .uint8) 2 ∧
      d.type [] = .regular {} (.prim { params := { arr := .char } } .uint8) 2 :=
  ⟨rfl, _, rfl, rfl, rfl⟩

/-- Three values of two categories. -/
def categoriesExample : Content :=
  .indexed { arr := .categorical } [1, 0, 1] (.numpy {} .int64 [.int 10, .int 20])

/-- **C60 (violated).** Packing an array of categories makes plain values of them, so the type is
another one. -/
theorem C60_categories_violated (same : Content → Content → Bool) :
    categoriesExample.validity = ok () ∧
    ∃ d, categoriesExample.packed same = ok d ∧
      categoriesExample.type [] = .prim { params := { other := [("__categorical__", "true")] } } .int64 ∧
      d.type [] = .prim {} .int64 :=
  ⟨rfl, _, rfl, rfl, rfl⟩

end Awk.Props
