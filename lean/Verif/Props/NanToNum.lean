import Verif.Lemmas.NanToNum
import Verif.Props.List
import Verif.Props.Zip
import Verif.Props.Complete
/-
C95: `ak.nan_to_num`.
-/

namespace Awk.Props
open R Spec Content

/-- **C95 (partial).** `nan_to_num` replaces each number of the array, whatever lists, records, unions and missing values
surround it, and changes nothing else; the result is valid, and an array of numbers that need no replacement stays the same.
`replace` is the replacement of one number. Missing: strings (`C95_strings_violated`). -/
theorem C95_nan_to_num_partial (replace : Atom → Atom) (c : Content) (vs : List Val) (hv : c.validity = ok ())
    (hl : c.toList = ok vs) (hp : AllNodes (fun d => d.params.arr = .none) c) :
    ∃ out, c.nanToNum replace = ok out ∧ out.validity = ok () ∧ out.toList = ok (vs.map (Val.mapNumbers replace)) ∧
      ((∀ a ∈ vs.flatMap Val.leaves, replace a = a) → out.toList = ok vs) := by
  have hg := good_of_validity hv
  obtain ⟨out, h1, h2⟩ := apply_maps (nanToNum_applies replace hp 1) hg
  have h3 := toList_maps hg h2 hl
  refine ⟨out, h1, validity_iff.mpr ⟨h2.good, (nanToNum_layout replace hp (layout_of_validity hv) 1 out h1).1⟩, h3, fun h => ?_⟩
  rw [h3]
  congr 1
  conv_rhs => rw [← List.map_id vs]
  refine List.map_congr_left (fun v hm => Val.mapNumbers_same v (fun a ha => h a ?_))
  exact List.mem_flatMap.mpr ⟨v, hm, ha⟩

/-- The records with lists meet the hypotheses: here the number 30 is replaced. -/
example : ∃ out, someRecords.nanToNum (fun a => if a = .int 30 then .int 0 else a) = ok out ∧ out.toList = ok
    [.list [.record [("x", .atom (.int 1)), ("y", .list [.atom (.int 10)])],
      .record [("x", .atom (.int 2)), ("y", .list [])]], .null,
      .list [.record [("x", .atom (.int 3)), ("y", .list [.atom (.int 20), .atom (.int 0)])]]] := by
  obtain ⟨out, h1, _, h2, _⟩ := C95_nan_to_num_partial (fun a => if a = .int 30 then .int 0 else a) someRecords
    [.list [.record [("x", .atom (.int 1)), ("y", .list [.atom (.int 10)])],
      .record [("x", .atom (.int 2)), ("y", .list [])]], .null,
      .list [.record [("x", .atom (.int 3)), ("y", .list [.atom (.int 20), .atom (.int 30)])]]] rfl
    (R.lists (by decide +kernel))
    (by simp [someRecords, all_numpy, all_listOffset, all_listArray, all_indexedOption, all_record, intArray, params])
  refine ⟨out, h1, h2.trans ?_⟩
  simp [Val.mapNumbers, Val.mapNumbersList, Val.mapNumbersFields]

/-- **C95 is violated:** `nan_to_num` of a valid array of strings is not valid, whatever the replacement is: the characters
lose the parameter that says what they are. -/
theorem C95_strings_violated (replace : Atom → Atom) :
    twoStrings.validity = ok () ∧ ∃ out, twoStrings.nanToNum replace = ok out ∧ out.validity.IsErr :=
  ⟨rfl, _, rfl, _, rfl⟩

end Awk.Props
