import Verif.Lemmas.JsonRead
import Verif.Props.Builder
import Verif.Lemmas.ValEq
/-
C57: JSON.
-/

namespace Awk
namespace Props
open R Spec

/-- C57, writing: if an array of any node types shows values that have JSON, then `ak.to_json` writes the
text of exactly these, as one JSON array.

Missing from the full property: integers of 2^63 and more (`C57_uint64_violated`), keys with NUL
(`C57_nul_violated`) and dates; the numbers NaN and infinity. -/
theorem C57_written_partial {names : Option (String × String)} {c : Content} (h : c.validity = ok ())
    (hw : Writable c) {vs : List Val} (hv : c.toList = ok vs) {j : Json}
    (hj : JsonOf names (.list vs) j) : c.tojson names = ok j.events := by
  have hg := Content.good_of_validity h
  rw [Content.seg_all hg] at hv
  cases hv
  exact Content.tojson_events hg (Content.tidy_of_validity h hw) hj

/-- Records of text, tuples and missing values. -/
def jsonExample : Content :=
  .listOffset {} [0, 2, 2, 3] (.record {} (some ["x", "t", "s"])
    [.indexedOption {} [0, -1, 1] (.numpy {} .float64 [.real (1/2), .real 3]),
      .record {} none [.numpy {} .int64 [.int 1, .int (-2), .int 3],
        .numpy {} .bool [.bool true, .bool false, .bool true]] 3,
      .listOffset { arr := .string } [0, 2, 2, 3] (.numpy { arr := .char } .uint8 [.int 104, .int 105, .int 33])]
    3)

example : jsonExample.validity = ok () := by rfl
example : Writable jsonExample := by
  have leaf : ∀ {p dt data}, dt ≠ DType.datetime64 → dt ≠ DType.timedelta64 →
      Writable (.numpy p dt data) := fun h1 h2 =>
    .mk (by rintro p dt data h; cases h; exact ⟨h1, h2⟩) (by simp) (by simp [Content.children])
  have node : ∀ {c : Content}, (∀ p dt data, c ≠ .numpy p dt data) →
      (∀ p ks cs n, c = .record p (some ks) cs n → ks.length = cs.length) →
      (∀ d ∈ c.children, Writable d) → Writable c := fun h1 h2 h3 =>
    .mk (fun p dt data h => absurd h (h1 p dt data)) h2 h3
  refine node (by simp [jsonExample]) (by simp [jsonExample]) ?_
  simp only [jsonExample, Content.children, List.forall_mem_singleton]
  refine node (by simp) (by rintro p ks cs n h; cases h; rfl) ?_
  simp only [Content.children, List.forall_mem_cons, List.not_mem_nil, false_imp_iff, implies_true, and_true]
  refine ⟨node (by simp) (by simp) ?_, node (by simp) (by simp) ?_, node (by simp) (by simp) ?_⟩ <;>
    simp only [Content.children, List.forall_mem_cons, List.not_mem_nil, false_imp_iff, implies_true,
      and_true]
  · exact leaf (by simp) (by simp)
  · exact ⟨leaf (by simp) (by simp), leaf (by simp) (by simp)⟩
  · exact leaf (by simp) (by simp)
example : jsonExample.tojson none = ok
    [.startArray, .startArray,
      .startObject, .key "x", .real (1/2), .key "t", .startObject, .key "0", .int 1, .key "1", .bool true,
        .endObject, .key "s", .str [104, 105], .endObject,
      .startObject, .key "x", .null, .key "t", .startObject, .key "0", .int (-2), .key "1", .bool false,
        .endObject, .key "s", .str [], .endObject,
      .endArray, .startArray, .endArray, .startArray,
      .startObject, .key "x", .real 3, .key "t", .startObject, .key "0", .int 3, .key "1", .bool true,
        .endObject, .key "s", .str [33], .endObject,
      .endArray, .endArray] := by decide +kernel

/-- A tuple is an object with numbers as keys. -/
example : JsonOf none (.list [.tuple [.null, .atom (.bool true)]])
    (.arr [.obj [("0", .null), ("1", .bool true)]]) := by
  refine .list rfl ?_
  intro i h h'
  have : i = 0 := by simpa using h
  subst this
  refine JsonOf.tuple (vs := [.null, .atom (.bool true)]) (js := [.null, .bool true]) rfl ?_
  intro i h h'
  match i, h with
  | 0, _ => exact .null
  | 1, _ => exact .bool true

/-- C57, reading: the text of JSON values is read without an error. If there is one value, the result
shows that value, and otherwise the result is an array that shows all of them in order. Integers may have become
reals, and records may have gained missing fields.

Missing from the full property: integers of 2^63 and more (`C57_uint64_violated`) and keys with NUL
(`C57_nul_violated`), and equal keys in one object (which RapidJSON reads, and which raise an error). -/
theorem C57_read_partial {same : Content → Content → Bool} (hsame : ∀ a b, same a b = true → a = b)
    (cap : Nat → Nat) {js : List Json} (hj : ∀ j ∈ js, j.Ordinary) :
    ∃ it, fromjson same cap (js.map Json.events) = ok it ∧
      (∀ j, js = [j] → ∃ v w, it.toVal = ok v ∧ Alike v w ∧ Shown j.val w) ∧
      (js.length ≠ 1 → ∃ c vs, it = .array c ∧ c.Good ∧ c.toList = ok vs ∧
        List.Forall₂ Shown (js.map Json.val) vs) := by
  have hx : ∀ x ∈ js.map Json.py, x.DistinctKeys ∧ x.OneEncoding true ∧ ∀ b, x.TupleLengths [] b := by
    intro x hx
    obtain ⟨j, hjm, rfl⟩ := List.mem_map.mp hx
    exact Json.py_ok (hj j hjm)
  obtain ⟨b, c, vs, h1, h2, h3, h4, h5, h6⟩ := C01_partial hsame cap (lengths := [])
    (fun x h => (hx x h).1) (fun x h => (hx x h).2.1) (fun x h => (hx x h).2.2 none) (by simp)
  have hmap : (js.map Json.py).map PyVal.val = js.map Json.val := by
    simp [Json.py_val]
  rw [hmap] at h6
  unfold fromjson
  rw [Json.documents_commands hj, h1, bind_ok, h3, bind_ok]
  simp only [List.length_map]
  by_cases hl : js.length = 1
  · rw [if_pos hl]
    obtain ⟨j, rfl⟩ := List.length_eq_one_iff.mp hl
    have hvl := h6.length_eq
    rw [Content.seg_all h4] at h5
    simp only [ok.injEq] at h5
    have hc : c.len = 1 := by
      have := congrArg List.length h5
      simp at this hvl
      omega
    obtain ⟨it, v, g1, g2, g3⟩ := Content.getitemAtNowrap_good h4 (i := 0) (by omega)
    refine ⟨it, g1, ?_, fun h => absurd rfl h⟩
    rintro j' hj'
    cases hj'
    refine ⟨v, _, g2, g3, ?_⟩
    rw [← h5, hc] at h6
    simpa [Content.seg] using h6
  · rw [if_neg hl]
    refine ⟨_, rfl, ?_, fun _ => ⟨c, vs, rfl, h4, h5, h6⟩⟩
    rintro j rfl
    exact absurd rfl hl

/-- C57: writing an array whose elements are JSON values and reading the text gives an array that shows
the same. Integers may have become reals, and records may have gained missing fields.

Missing from the full property: as in `C57_written_partial` and `C57_read_partial`. -/
theorem C57_round_trip_partial {same : Content → Content → Bool}
    (hsame : ∀ a b, same a b = true → a = b) (cap : Nat → Nat) (names : Option (String × String))
    {c : Content} (h : c.validity = ok ()) (hw : Writable c) {js : List Json}
    (hj : ∀ j ∈ js, j.Ordinary) (hv : c.toList = ok (js.map Json.val)) :
    ∃ text c' ws, c.tojson names = ok text ∧ fromjson same cap [text] = ok (.array c') ∧
      c'.toList = ok ws ∧ List.Forall₂ Shown (js.map Json.val) ws := by
  have ho : (Json.arr js).Ordinary := Json.ordinaryAll_iff.mpr hj
  have hval : (Json.arr js).val = .list (js.map Json.val) := by simp [Json.val, Json.valAll_eq]
  have h1 := C57_written_partial h hw hv (hval ▸ Json.jsonOf_val names ho)
  obtain ⟨it, h2, h3, _⟩ := C57_read_partial hsame cap (js := [.arr js]) (by simpa using ho)
  obtain ⟨v, w, g1, g2, g3⟩ := h3 _ rfl
  rw [hval] at g3
  cases g3 with
  | list hl hp =>
    rename_i ws
    have hws : List.Forall₂ Shown (js.map Json.val) ws := by
      rw [List.forall₂_iff_get]
      exact ⟨hl, hp⟩
    have hvl : v.isList = true ∧ v.items = ws := by
      rcases g2 with rfl | ⟨g2, _, g4⟩
      · exact ⟨rfl, rfl⟩
      · exact ⟨g2, g4⟩
    have : ∃ c', it = .array c' ∧ c'.toList = ok ws := by
      cases it with
      | none => cases g1; simp [Val.isList] at hvl
      | scalar a => cases g1; simp [Val.isList] at hvl
      | record d k =>
        unfold fromjson at h2
        obtain ⟨_, _, h2⟩ := bind_eq_ok.mp h2
        obtain ⟨_, _, h2⟩ := bind_eq_ok.mp h2
        obtain ⟨p, keys, cs, n, rfl⟩ := Content.item_record h2
        simp only [Item.toVal, Content.val, bind_eq_ok] at g1
        obtain ⟨_, _, g1⟩ := g1
        cases g1
        cases keys <;> simp [Val.isList, mkRecord] at hvl
      | array c' =>
        simp only [Item.toVal, bind_eq_ok] at g1
        obtain ⟨us, g4, g1⟩ := g1
        refine ⟨c', rfl, ?_⟩
        rw [g4]
        split at g1 <;> cases g1 <;> simpa [Val.items] using hvl.2
    obtain ⟨c', rfl, hc'⟩ := this
    exact ⟨_, c', ws, h1, h2, hc', hws⟩

/-- Values of all kinds, written by `ak.to_json` and read by `ak.from_json`. -/
def jsonValues : List Json :=
  [.null, .int 1, .arr [.int (-3), .real (1/2), .arr []], .str [104, 105],
    .obj [("x", .bool true), ("y", .arr [])], .obj []]

example : ∀ j ∈ jsonValues, j.Ordinary := by
  simp [jsonValues, Json.Ordinary, Json.OrdinaryAll, Json.OrdinaryFields, Json.InInt64, Json.NoNul]

/-- An array that shows JSON values. -/
example : (Content.listOffset {} [0, 2, 2] (.record {} (some ["x", "y"])
      [.numpy {} .int64 [.int 1, .int 2], .numpy {} .bool [.bool true, .bool false]] 2)).toList = ok ([Json.arr [.obj [("x", .int 1), ("y", .bool true)], .obj [("x", .int 2), ("y", .bool false)]],
      Json.arr []].map Json.val) := rfl

/-- C57 does not hold for integers of 2^63 and more: they are written as negative numbers, and read as
negative numbers. -/
theorem C57_uint64_violated (same : Content → Content → Bool) (cap : Nat → Nat) :
    let c : Content := .numpy {} .uint64 [.int (2 ^ 63)]
    c.validity = ok () ∧ c.toList = ok [.atom (.int (2 ^ 63))] ∧
    c.tojson none = ok (Json.arr [.int (-2 ^ 63)]).events ∧
    fromjson same cap [(Json.int (2 ^ 63)).events] = ok (.scalar (.int (-2 ^ 63))) :=
  ⟨rfl, rfl, rfl, rfl⟩

/-- C57 does not hold for keys with the character NUL: two different keys are written as the same key,
and two keys of a text that are different in this way are read as the same, which raises an error. -/
theorem C57_nul_violated (same : Content → Content → Bool) (cap : Nat → Nat) :
    let c : Content := .record {} (some ["a\x00b", "a\x00c"])
      [.numpy {} .int64 [.int 1], .numpy {} .int64 [.int 2]] 1
    c.validity = ok () ∧ c.toList = ok [.record [("a\x00b", .atom (.int 1)), ("a\x00c", .atom (.int 2))]] ∧
    c.tojson none = ok (Json.arr [.obj [("a", .int 1), ("a", .int 2)]]).events ∧
    (fromjson same cap [(Json.obj [("a\x00b", .int 1), ("a\x00c", .int 2)]).events]).IsErr :=
  ⟨rfl, rfl, rfl, ⟨_, rfl⟩⟩

end Props
end Awk
