import Verif.Lemmas.UniqueStrings
import Verif.Props.SortStrings
/-
Property theorems C30: `is_unique`.
-/

namespace Awk.Props
open Awk R Spec Content

/-- **C30**, numbers. On an array of numbers or booleans of one type, with any indexes, `is_unique`
answers, and the answer is true exactly when no two items are equal. Nones do not count: they may be
repeated. It is false for arrays of lists (`C30_lists_violated`), strings without conditions
(`C30_strings_violated`), records with one field (`C30_record_violated`), sliced indexes
(`C30_sliced_index_violated`) and partitioned arrays (`C30_partitions_violated`). -/
theorem C30_numbers_partial (c : Content) (h : c.validity = ok ()) (vs : List Val) (hv : c.toList = ok vs)
    (dt : DType) (hp : PlainNumbers dt c) : ∃ b, c.isUnique = ok b ∧ (b = true ↔ (present vs).Nodup) := by
  obtain ⟨hg, rfl⟩ := sort_values h hv
  exact isUnique_plain _ hp hg (by omega)

/-- **C30**, strings. `is_unique` tells the truth about strings that are not empty and lie in the first
256 bytes of their buffer (for a ListOffsetArray; otherwise, have 256 bytes together). Without the
conditions it is false (`C30_strings_violated`). -/
theorem C30_strings_partial (c : Content) (h : c.validity = ok ()) (vs : List Val) (hv : c.toList = ok vs)
    (hs : Strings 1 c) (hne : ∀ v ∈ vs, text v ≠ [])
    (hoff : ∀ p offsets d, c = .listOffset p offsets d → ∀ x ∈ offsets, x ≤ 256)
    (htot : (vs.map text).flatten.length ≤ 256) :
    ∃ b, c.isUnique = ok b ∧ (b = true ↔ (vs.map text).Nodup) := by
  obtain ⟨hg, rfl⟩ := sort_values h hv
  have hr : ∃ f, c.rank + 1 = f + 2 := ⟨c.rank - 1, by cases hs <;> simp only [rank] <;> omega⟩
  obtain ⟨f, hf⟩ := hr
  unfold isUnique
  rw [hf]
  exact isUnique_text hs hg hne hoff htot

/-- **C30**, records. If a record array has at least two fields, of numbers or booleans without missing
values, and `is_unique` answers true, no two records are equal. (It does not answer false, but raises.) -/
theorem C30_records_partial (p : Params) (keys : Option (List String)) (fields : List Content) (length : Nat)
    (h : (Content.record p keys fields length).validity = ok ()) (vs : List Val)
    (hv : (Content.record p keys fields length).toList = ok vs)
    (hk : ∀ ks, keys = some ks → ks.length = fields.length) (h2 : 2 ≤ fields.length)
    (hf : ∀ d ∈ fields, (∃ dt, PlainNumbers dt d) ∧ ∀ ws, d.toList = ok ws → .null ∉ ws)
    (hu : (Content.record p keys fields length).isUnique = ok true) : vs.Nodup := by
  obtain ⟨hg, rfl⟩ := sort_values h hv
  obtain ⟨hl, hgf⟩ := good_record.mp hg
  -- some field is unique
  have hex : ∃ d ∈ fields, isUniqueNext (Content.record p keys fields length).rank none d = ok true := by
    by_contra hno
    push Not at hno
    unfold isUnique at hu
    simp only [isUniqueNext] at hu
    rw [if_neg (by cases fields <;> simp at h2 ⊢)] at hu
    obtain ⟨r, hr, hu⟩ := bind_eq_ok.mp hu
    have := unique_fold (rec := isUniqueNext (Content.record p keys fields length).rank none) (by omega) hr hno
    rw [if_neg (by omega)] at hu
    simp at hu
  obtain ⟨d, hd, hud⟩ := hex
  obtain ⟨⟨dt, hpl⟩, hnull⟩ := hf d hd
  have hgd := hgf d hd
  obtain ⟨b, b1, b2⟩ := isUnique_plain _ hpl hgd (show d.rank < (Content.record p keys fields length).rank by
    exact child_rank (by simpa [children] using hd))
  rw [hud, ok.injEq] at b1
  have hnd := b2.mp b1.symm
  have hnull := hnull _ (seg_all hgd)
  have hval : (d.seg 0 d.len).Nodup := by
    refine present_nodup ?_ hnd
    intro v hv
    obtain ⟨i, hi, rfl⟩ := List.mem_iff_getElem.mp hv
    rw [seg_getElem, Nat.zero_add]
    rcases plain_values hpl hgd i (by simpa using hi) with hn | ha
    · exfalso
      apply hnull
      rw [List.mem_iff_getElem]
      exact ⟨i, hi, by rw [seg_getElem, Nat.zero_add, hn]⟩
    · exact ha
  obtain ⟨m, hm, rfl⟩ := List.mem_iff_getElem.mp hd
  rw [List.nodup_iff_injective_get]
  intro i j hij
  have hi : i.1 < length := by have := i.2; simpa [Content.len] using this
  have hj : j.1 < length := by have := j.2; simpa [Content.len] using this
  simp only [List.get_eq_getElem, seg_getElem, Nat.zero_add] at hij
  rw [valD_record hg hi, valD_record hg hj] at hij
  have heq := mkRecord_inj (by simp) (by simpa using hk) hij
  have hcol : fields[m].valD i.1 = fields[m].valD j.1 := by
    have := congrArg (fun l => l[m]?) heq
    simpa [List.getElem?_eq_getElem hm] using this
  have hlm := hl _ (List.getElem_mem hm)
  have := List.nodup_iff_injective_get.mp hval (a₁ := ⟨i.1, by simp; omega⟩) (a₂ := ⟨j.1, by simp; omega⟩)
    (by simp [seg_getElem, hcol])
  apply Fin.ext
  simpa using this

/-! ### The hypotheses can be met -/

/-- `[3, None, 1, 2, None]` and, with the same items, `[3, None, 1, 3, None]`. -/
def uniqueSample (k : Int) : Content :=
  .indexedOption {} [2, -1, 0, k, -1] (.numpy {} .int64 [.int 1, .int 2, .int 3])

theorem uniqueSample_ok (k : Int) : PlainNumbers .int64 (uniqueSample k) :=
  .indexedOption (.numpy rfl (by intro x hx; simp only [List.mem_cons, List.not_mem_nil, or_false] at hx; rcases hx with rfl | rfl | rfl <;> simp [Spec.OfType]))

example : (uniqueSample 1).validity = ok () ∧ (uniqueSample 1).toList
    = ok [.atom (.int 3), .null, .atom (.int 1), .atom (.int 2), .null] ∧ (uniqueSample 1).isUnique = ok true ∧
    (uniqueSample 2).validity = ok () ∧ (uniqueSample 2).isUnique = ok false := ⟨rfl, rfl, by decide +kernel, rfl, by decide +kernel⟩

/-- `["on", "a", "on"]` or, with another last offset, `["on", "a", "o"]`. -/
def uniqueText (n : Int) : Content :=
  .listOffset { arr := .string } [0, 2, 3, n] (.numpy { arr := .char } .uint8 [.int 111, .int 110, .int 97, .int 111, .int 110])

example : (uniqueText 5).validity = ok () ∧ Strings 1 (uniqueText 5) ∧
    (uniqueText 5).toList = ok [strOf [111, 110], strOf [97], strOf [111, 110]] ∧
    (uniqueText 5).isUnique = ok false ∧ (uniqueText 4).isUnique = ok true ∧
    (∀ v ∈ [strOf [111, 110], strOf [97], strOf [111, 110]], text v ≠ []) :=
  ⟨rfl, .listOffsetText ⟨_, _, rfl, .inl ⟨rfl, rfl⟩⟩, rfl, by decide +kernel, by decide +kernel, by
    intro v hv
    simp only [List.mem_cons, List.not_mem_nil, or_false] at hv
    rcases hv with rfl | rfl | rfl <;> decide⟩

/-- `[(1, 5), (1, 6)]`. -/
def uniqueRecords : Content :=
  .record {} none [.numpy {} .int64 [.int 1, .int 1], .numpy {} .int64 [.int 5, .int 6]] 2

example : uniqueRecords.validity = ok () ∧ uniqueRecords.isUnique = ok true ∧
    (∀ d ∈ [Content.numpy {} .int64 [.int 1, .int 1], .numpy {} .int64 [.int 5, .int 6]],
      (∃ dt, PlainNumbers dt d) ∧ ∀ ws, d.toList = ok ws → Val.null ∉ ws) := by
  refine ⟨rfl, by decide +kernel, ?_⟩
  intro d hd
  simp only [List.mem_cons, List.not_mem_nil, or_false] at hd
  have ty : ∀ a b : Int, ∀ x ∈ [Atom.int a, .int b], OfType .int64 x := by
    intro a b x hx
    simp only [List.mem_cons, List.not_mem_nil, or_false] at hx
    rcases hx with rfl | rfl <;> simp [Spec.OfType]
  rcases hd with rfl | rfl
  all_goals
    refine ⟨⟨.int64, .numpy rfl (ty _ _)⟩, ?_⟩
    intro ws hw
    obtain rfl := (R.ok.inj hw)
    simp

/-! ### The property is violated -/

/-- Integers. -/
def i64 (xs : List Int) : Content := .numpy {} .int64 (xs.map .int)

/-- Lists: `[[1], [1]]` is said to be unique and `[[1, 2], [2, 1], [3]]` not to be. -/
theorem C30_lists_violated :
    let c := Content.listOffset {} [0, 1, 2] (i64 [1, 1])
    let d := Content.listOffset {} [0, 2, 4, 5] (i64 [1, 2, 2, 1, 3])
    c.validity = ok () ∧ c.toList = ok [.list [.atom (.int 1)], .list [.atom (.int 1)]] ∧ c.isUnique = ok true ∧
    d.validity = ok () ∧ d.toList = ok [.list [.atom (.int 1), .atom (.int 2)], .list [.atom (.int 2), .atom (.int 1)],
      .list [.atom (.int 3)]] ∧ d.isUnique = ok false :=
  ⟨rfl, rfl, by decide +kernel, rfl, rfl, by decide +kernel⟩

/-- An array of no lists at all is said not to be unique, when the lists have no type. -/
theorem C30_no_lists_violated :
    let c := Content.listOffset {} [0] (.empty {})
    c.validity = ok () ∧ c.toList = ok [] ∧ c.isUnique = ok false := ⟨rfl, rfl, by decide +kernel⟩

/-- Lists of lists: `is_unique` of `[[[], [], []]]` has undefined behaviour. The offsets of the outer
lists are used as positions in the content of the inner lists. -/
theorem C30_nested_lists_violated :
    let c := Content.listOffset {} [0, 3] (.listOffset {} [0, 0, 0, 0] (i64 []))
    c.validity = ok () ∧ c.toList = ok [.list [.list [], .list [], .list []]] ∧ c.isUnique = ub :=
  ⟨rfl, rfl, by decide +kernel⟩

/-- Records with one field: `[{x: 1}, {x: 1}]` is said to be unique. -/
theorem C30_record_violated :
    let c := Content.record {} (some ["x"]) [i64 [1, 1]] 2
    c.validity = ok () ∧ c.toList = ok [.record [("x", .atom (.int 1))], .record [("x", .atom (.int 1))]] ∧
    c.isUnique = ok true := ⟨rfl, rfl, by decide +kernel⟩

set_option maxRecDepth 4000 in
/-- Strings: `["", ""]` is said to be unique and `["", "a"]` not to be; and so are not two different
strings beyond the first 256 bytes of the buffer. -/
theorem C30_strings_violated :
    let str := fun (offsets : List Int) (bytes : List Int) =>
      Content.listOffset { arr := .string } offsets (.numpy { arr := .char } .uint8 (bytes.map .int))
    let far := str [255, 256, 257] (98 :: List.replicate 254 0 ++ [98, 97])
    (str [0, 0, 0] []).validity = ok () ∧ (str [0, 0, 0] []).toList = ok [strOf [], strOf []] ∧
    (str [0, 0, 0] []).isUnique = ok true ∧
    (str [0, 0, 1] [97]).validity = ok () ∧ (str [0, 0, 1] [97]).toList = ok [strOf [], strOf [97]] ∧
    (str [0, 0, 1] [97]).isUnique = ok false ∧
    far.validity = ok () ∧ far.toList = ok [strOf [98], strOf [97]] ∧ far.isUnique = ok false :=
  ⟨rfl, rfl, by decide +kernel, rfl, rfl, by decide +kernel, rfl, by rfl, by decide +kernel⟩

/-- A sliced index: the offset of the index is subtracted from its length, and added again to the
positions. The array with index `[7, 0, 0]`, from position 1, over `[5]` is `[5, 5]`, and said to be
unique. -/
theorem C30_sliced_index_violated :
    let c := Content.indexed {} [0, 0] (i64 [5])
    c.validity = ok () ∧ c.toList = ok [.atom (.int 5), .atom (.int 5)] ∧
    indexedIsUnique (isUniqueNext 3) 1 [0, 0] (i64 [5]) = ok true := ⟨rfl, rfl, by decide +kernel⟩

/-- Partitions: `[1]` and `[1]` together are said to be unique. -/
theorem C30_partitions_violated :
    (i64 [1]).toList = ok [.atom (.int 1)] ∧ partitionedIsUnique [i64 [1], i64 [1]] = ok true :=
  ⟨rfl, by decide +kernel⟩

end Awk.Props
