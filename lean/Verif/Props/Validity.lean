import Verif.Lemmas.GetitemValid
import Verif.Props.Content
/-
Property theorems C47: slices of a valid array are valid.
-/

namespace Awk.Props
open Awk R Spec Content

/-- **C47.** `array[start:stop]` of a valid array is a valid array. -/
theorem C47_range (c : Content) (h : c.validity = ok ()) (start stop : Option Int)
    (hstart : GoodArg start) (hstop : GoodArg stop) :
    ∃ c', c.getitemRange (sliceArg start) (sliceArg stop) = ok c' ∧ c'.validity = ok () := by
  obtain ⟨hg, hs⟩ := validity_iff.mp h
  obtain ⟨a, b, h1, h2, h3, _⟩ := pySlice_one ((List.range c.len).map c.valD) start stop
  simp only [List.length_map, List.length_range] at h2
  obtain ⟨c', g1, g2, _⟩ := range_good hg h1 h2
  refine ⟨c', ?_, validity_iff.mpr ⟨g2, (range_layout g1).2 hs⟩⟩
  unfold Content.getitemRange
  have hlen : (c.len : Int) = (((List.range c.len).map c.valD).length : Int) := by simp
  rw [hlen, regularize_pos hstart hstop (by omega) (by omega : (0:Int) < 1), ← h3]
  exact g1

/-- **C47.** `array[[i, j, …]]` of a valid array is a valid array, if no mask lies directly over
an array of records. Missing from the full property: masks over records, for which it is false
(`C47_masked_records_violated`). -/
theorem C47_getitem_array_partial (c : Content) (h : c.validity = ok ())
    (hm : AllNodes MaskNode c) (idx : List Int) (it : Item)
    (hi : getitem [.array [idx.length] idx] c = ok it) :
    ∃ c', it = .array c' ∧ c'.validity = ok () := by
  obtain ⟨hg, hs⟩ := validity_iff.mp h
  obtain ⟨carry, d, c', _, h2, _, h4, h5, h6⟩ := getitem_array_inv hg hi
  exact ⟨c', h6, validity_iff.mpr ⟨h5, (range_layout h4).2 ((carry_layout (.inr hm) h2).2 hs)⟩⟩

/-- **C47.** Gathering elements without making record arrays lazy (as sorting, padding,
concatenating and reducing do) keeps every valid array valid. -/
theorem C47_gather (c : Content) (h : c.validity = ok ()) (idx : List Nat)
    (hidx : ∀ j ∈ idx, j < c.len) :
    ∃ c', c.carry false (idx.map Int.ofNat) = ok c' ∧ c'.validity = ok () := by
  obtain ⟨hg, hs⟩ := validity_iff.mp h
  have hin : InRange (idx.map Int.ofNat) c.len := by
    intro j hj
    obtain ⟨k, hk, rfl⟩ := List.mem_map.mp hj
    have := hidx k hk
    simp only [Int.ofNat_eq_natCast]
    omega
  obtain ⟨c', g1, g2, _⟩ := carry_good hg false hin
  exact ⟨c', g1, validity_iff.mpr ⟨g2, (carry_layout (.inl rfl) g1).2 hs⟩⟩

example : (exampleContent.getitemRange (sliceArg (some (-3))) (sliceArg (some 3)) >>=
    Content.validity) = ok () := by rfl
example : (exampleContent.carry false [3, 2, 2] >>= Content.validity) = ok () := by rfl
/-- A record in lists, with a masked field and a string field. -/
def exampleRows : Content :=
  .listOffset {} [0, 1, 2] (.record {} (some ["x", "s"])
    [.bitMasked {} [6] true 2 true (.numpy {} .float64 [.real 1, .real 2]),
     .listArray { arr := .string } [1, 0] [3, 0]
       (.numpy { arr := .char } .uint8 [.int 104, .int 105, .int 33])] 2)
example : exampleRows.validity = ok () := by rfl
example : AllNodes MaskNode exampleRows := by
  refine .mk trivial fun d hd => ?_
  obtain rfl := List.mem_singleton.mp hd
  refine .mk trivial fun d hd => ?_
  simp only [children, List.mem_cons, List.not_mem_nil, or_false] at hd
  rcases hd with rfl | rfl
  · refine .mk rfl fun d hd => ?_
    obtain rfl := List.mem_singleton.mp hd
    exact .mk trivial (by simp [children])
  · refine .mk trivial fun d hd => ?_
    obtain rfl := List.mem_singleton.mp hd
    exact .mk trivial (by simp [children])
example : (getitem [.array [2] [-1, 0]] exampleRows >>= fun
    | .array c => c.validity
    | _ => err "not an array") = ok () := by rfl

/-- Records under a mask. -/
def maskedRecords : Content :=
  .byteMasked {} [1, 0] true (.record {} (some ["x"]) [.numpy {} .int64 [.int 1, .int 2]] 2)

/-- **C47 fails** for records under a mask: picking rows of the records lazily puts an IndexedArray
under the mask, which `is_valid` rejects as an option type that has not been simplified
(ByteMaskedArray.cpp:774-785, RecordArray.cpp:933-944). -/
theorem C47_masked_records_violated :
    maskedRecords.validity = ok () ∧
    ∃ c', getitem [.array [2] [1, 0]] maskedRecords = ok (.array c') ∧ c'.validity.IsErr :=
  ⟨by rfl, _, by rfl, _, by rfl⟩

end Awk.Props
