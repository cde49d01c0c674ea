import Verif.Lemmas.TypeText
import Verif.Props.Types
/-
C59: the text of a type can be read back.
-/

namespace Awk
namespace Props
open R Spec

/-- C59: `ak.types.from_datashape(str(t), high_level)` is `t`, for every type in the language that it
reads, however deep.

Missing from the full property: the types outside of `Readable`, many of which are refused or read as
other types (the theorems `C59_..._violated`). -/
theorem C59_round_trip_partial (json : String → R String) (high : Bool) {t : AkType}
    (h : Readable json high t) : fromDatashape json high t.text = ok t := by
  have h1 := readsAs_readable h (2 * t.text.length + 1) [] (by omega) (by simp)
  rw [List.append_nil] at h1
  unfold fromDatashape
  rw [h1]
  simp

/-- C59: types that are shown in the same way are the same, in this language. -/
theorem C59_text_injective_partial (json : String → R String) (high : Bool) {t u : AkType}
    (ht : Readable json high t) (hu : Readable json high u) (h : t.text = u.text) : t = u := by
  have h1 := C59_round_trip_partial json high ht
  rw [h, C59_round_trip_partial json high hu] at h1
  exact (R.ok.inj h1).symm

/-- C59: text that goes on after the type raises; a bracket could be a part of the type. -/
theorem C59_trailing_partial (json : String → R String) (high : Bool) {t : AkType}
    (h : Readable json high t) (rest : List Tok) (hr : rest ≠ []) (hb : rest.head? ≠ some (.sym '[')) :
    (fromDatashape json high (t.text ++ rest)).IsErr := by
  have h1 := readsAs_readable h (2 * (t.text ++ rest).length + 1) rest (by simp; omega) hb
  unfold fromDatashape
  rw [h1]
  exact ⟨_, by rw [R.bind_ok, if_neg hr]⟩

/-- The type of an array of strings, optional pairs and named records, with a category and a
parameter. -/
def readableExample : AkType :=
  .array {} (.union { params := { other := [("note", "[1, 2]")] } } [
    .list { params := { arr := .string }, typestr := "string" }
      (.prim { params := { arr := .char }, typestr := "char" } .uint8),
    .option {} (.list {} (.record {} none [.prim {} .int64, .unknown {}])),
    .record { params := { recName := some "point" } } (some ["x", "y"])
      [.option {} (.prim {} .float64),
        .regular { params := { other := [("unit", "\"cm\""), ("__categorical__", "true")] } }
          (.prim { params := { other := [("__categorical__", "true")] } } .bool) 2]]) 5

/-- `5 * union[string, option[var * (int64, unknown)], point["x": ?float64, "y":
categorical[type=[2 * categorical[type=bool], parameters={"unit": "cm"}]]],
parameters={"note": [1, 2]}]`. -/
example : readableExample.text =
    [.num 5, .sym '*', .word "union", .sym '[', .word "string", .sym ',',
      .word "option", .sym '[', .word "var", .sym '*', .sym '(', .word "int64", .sym ',',
      .word "unknown", .sym ')', .sym ']', .sym ',',
      .word "point", .sym '[', .quoted "x".toList, .sym ':', .sym '?', .word "float64", .sym ',',
      .quoted "y".toList, .sym ':', .word "categorical", .sym '[', .word "type", .sym '=',
      .sym '[', .num 2, .sym '*', .word "categorical", .sym '[', .word "type", .sym '=',
      .word "bool", .sym ']', .sym ',', .word "parameters", .sym '=', .sym '{',
      .quoted "unit".toList, .sym ':', .value "\"cm\"", .sym '}', .sym ']', .sym ']', .sym ']',
      .sym ',', .word "parameters", .sym '=', .sym '{', .quoted "note".toList, .sym ':',
      .value "[1, 2]", .sym '}', .sym ']'] := by decide +kernel

theorem readable_bare (json : String → R String) (high : Bool) (k : ArrKind) :
    ReadableParams json high { arr := k } :=
  ⟨by simp, by simp, by simp, by simp⟩

example : Readable ok true readableExample := by
  have hc : ReadableParams ok true { other := [("__categorical__", "true")] } :=
    ⟨by simp, by simp, by simp, by simp⟩
  refine .array rfl (.union ⟨by simp, by simp, ?_, by simp⟩ (by simp) ?_)
  · simp [Unescaped]
  · simp only [List.forall_mem_cons]
    refine ⟨.string (readable_bare ..) (by simp [Bare]) rfl,
      .option (readable_bare ..) (.list (readable_bare ..) (.tuple (readable_bare ..) (by simp)
        (by simp) ?_)) (by simp),
      .named ?_ (by decide) rfl (by simp) rfl (by unfold Unescaped; decide) ?_, by simp⟩
    · simp only [List.forall_mem_cons]
      exact ⟨.prim (readable_bare ..) (by simp [ReadablePrimitive]), .unknown (readable_bare ..), by simp⟩
    · unfold RecordName; decide
    · simp only [List.forall_mem_cons]
      refine ⟨.option (readable_bare ..) (.prim (readable_bare ..) (by simp [ReadablePrimitive])) (by simp),
        .regular ⟨by simp, by simp, ?_, by simp⟩ (.prim hc (by simp [ReadablePrimitive])) (by simp [Bare]), by simp⟩
      simp [Unescaped]
example : fromDatashape ok true readableExample.text = ok readableExample := by rfl

/-- Types without categories and names are read at the low level, with lists of fixed size. -/
example : Readable ok false (.list {} (.regular {} (.record {} (some ["a b", "c"])
    [.prim {} .bool, .option {} (.prim {} .uint16)]) 3)) := by
  refine .list (readable_bare ..) (.regular (readable_bare ..) (.record (readable_bare ..) (by simp)
    (by simp) rfl (by unfold Unescaped; decide) ?_) (by simp))
  simp only [List.forall_mem_cons]
  exact ⟨.prim (readable_bare ..) (by simp [ReadablePrimitive]),
    .option (readable_bare ..) (.prim (readable_bare ..) (by simp [ReadablePrimitive])) (by simp), by simp⟩

/-- The type of this array is not read back from its text. -/
def Lost (c : Content) : Prop :=
  ∀ (json : String → R String) (high : Bool),
    fromDatashape json high (c.type defaultTypestrs).text ≠ ok (c.type defaultTypestrs)

/-- C59 fails for numbers that the language has no word for, such as `complex128` and
`datetime64`. -/
theorem C59_numbers_violated :
    ∃ c d : Content, c.validity = ok () ∧ d.validity = ok () ∧
      c.type defaultTypestrs = .prim {} .complex128 ∧
      d.type defaultTypestrs = .prim {} .datetime64 ∧ Lost c ∧ Lost d := by
  refine ⟨.numpy {} .complex128 [], .numpy {} .datetime64 [], rfl, rfl, rfl, rfl, ?_, ?_⟩
  · intro json high h
    exact nomatch (show R.err _ = R.ok _ from h)
  · intro json high h
    exact nomatch (show R.err _ = R.ok _ from h)

/-- C59 fails for records whose name begins like a word of the language (`charge`, `tuple`) or has a
digit or an underscore (`Vector2D`). -/
theorem C59_names_violated :
    ∀ n ∈ ["charge", "tuple", "Vector2D", "my_record"],
      ∃ c : Content, c.validity = ok () ∧
        c.type defaultTypestrs =
          .record { params := { recName := some n } } (some ["x"]) [.prim {} .int64] ∧ Lost c := by
  intro n hn
  refine ⟨.record { recName := some n } (some ["x"]) [.numpy {} .int64 [.int 1]] 1, ?_⟩
  simp only [List.mem_cons, List.not_mem_nil, or_false] at hn
  rcases hn with rfl | rfl | rfl | rfl <;>
    exact ⟨rfl, rfl, fun json high h => nomatch (show R.err _ = R.ok _ from h)⟩

/-- C59 fails for tuples with a name. -/
theorem C59_named_tuple_violated :
    ∃ c : Content, c.validity = ok () ∧
      c.type defaultTypestrs =
        .record { params := { recName := some "point" } } none [.prim {} .int64] ∧ Lost c :=
  ⟨.record { recName := some "point" } none [.numpy {} .int64 [.int 1]] 1, rfl, rfl,
    fun json high h => nomatch (show R.err _ = R.ok _ from h)⟩

/-- C59 fails for records without fields. -/
theorem C59_empty_violated :
    ∀ keys ∈ [none, some []],
      ∃ c : Content, c.validity = ok () ∧ c.type defaultTypestrs = .record {} keys [] ∧ Lost c := by
  intro keys hk
  refine ⟨.record {} keys [] 2, ?_⟩
  simp only [List.mem_cons, List.not_mem_nil, or_false] at hk
  rcases hk with rfl | rfl <;>
    exact ⟨rfl, rfl, fun json high h => nomatch (show R.err _ = R.ok _ from h)⟩

/-- C59 fails for optional lists of fixed size: the low level refuses `option[2 * int64]`, and the
high level takes `2 * int64` for the type of an array of length 2. -/
theorem C59_optional_violated :
    ∃ c : Content, c.validity = ok () ∧
      c.type defaultTypestrs = .option {} (.regular {} (.prim {} .int64) 2) ∧ Lost c := by
  refine ⟨.indexedOption {} [-1, 0] (.regular {} (.numpy {} .int64 [.int 1, .int 2]) 2 1),
    rfl, rfl, ?_⟩
  intro json high h
  cases high with
  | false => exact nomatch (show R.err _ = R.ok _ from h)
  | true => exact nomatch (show R.ok (AkType.option {} (.array {} (.prim {} .int64) 2)) =
      R.ok (AkType.option {} (.regular {} (.prim {} .int64) 2)) from h)

/-- C59 fails for `ak.type` of an array of fixed-size lists, `1 * 2 * int64`: the reader makes an
array of arrays at the high level and a list of lists at the low level. -/
theorem C59_fixed_violated :
    ∃ c : Content, c.validity = ok () ∧
      c.highlevelType defaultTypestrs = .array {} (.regular {} (.prim {} .int64) 2) 1 ∧
      ∀ json high, fromDatashape json high (c.highlevelType defaultTypestrs).text ≠
        ok (c.highlevelType defaultTypestrs) := by
  refine ⟨.regular {} (.numpy {} .int64 [.int 1, .int 2]) 2 1, rfl, rfl, ?_⟩
  intro json high h
  cases high with
  | false => exact nomatch (show R.ok (AkType.regular {} (.regular {} (.prim {} .int64) 2) 1) =
      R.ok (AkType.array {} (.regular {} (.prim {} .int64) 2) 1) from h)
  | true => exact nomatch (show R.ok (AkType.array {} (.array {} (.prim {} .int64) 2) 1) =
      R.ok (AkType.array {} (.regular {} (.prim {} .int64) 2) 1) from h)

/-- C59 fails for strings of fixed size: their type is shown as `string`, like that of other
strings, and is read as that. -/
theorem C59_strings_violated :
    ∃ c d : Content, c.validity = ok () ∧ d.validity = ok () ∧
      (c.type defaultTypestrs).text = (d.type defaultTypestrs).text ∧
      c.type defaultTypestrs ≠ d.type defaultTypestrs ∧ Lost c := by
  refine ⟨.regular { arr := .string } (.numpy { arr := .char } .uint8 [.int 104, .int 105]) 2 1,
    .listOffset { arr := .string } [0, 2] (.numpy { arr := .char } .uint8 [.int 104, .int 105]),
    rfl, rfl, by decide +kernel, ?_, ?_⟩
  · intro h
    exact nomatch (show AkType.regular .. = AkType.list .. from h)
  · intro json high h
    exact nomatch (show R.ok (AkType.list ..) = R.ok (AkType.regular ..) from h)

/-- C59 fails for field names with a quotation mark, which come back with a backslash before it, and
for those with a backslash, which are refused. -/
theorem C59_keys_violated :
    ∃ c d : Content, c.validity = ok () ∧ d.validity = ok () ∧
      c.type defaultTypestrs = .record {} (some ["5\""]) [.prim {} .int64] ∧
      d.type defaultTypestrs = .record {} (some ["a\\b"]) [.prim {} .int64] ∧
      (∀ json high, fromDatashape json high (c.type defaultTypestrs).text =
        ok (.record {} (some ["5\\\""]) [.prim {} .int64])) ∧
      (∀ json high, (fromDatashape json high (d.type defaultTypestrs).text).IsErr) := by
  refine ⟨.record {} (some ["5\""]) [.numpy {} .int64 [.int 1]] 1,
    .record {} (some ["a\\b"]) [.numpy {} .int64 [.int 1]] 1, rfl, rfl, rfl, rfl, ?_, ?_⟩
  · intro json high; rfl
  · intro json high; exact ⟨_, rfl⟩

end Props
end Awk
