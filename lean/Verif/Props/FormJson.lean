import Verif.Lemmas.FormJsonArray
/-
C91: the JSON of a form can be read back.
-/

namespace Awk.Props
open R Form

/-- **C91 (partial).** The form that is read from the JSON of a form, verbose or not, is that form, however deep it is
nested. Missing: see `Form.Proper` and the simplifications of Model/FormJson.lean; names with NUL
(`C91_nul_violated`), sizes of regular lists above 2³¹ (`C91_size_violated`), units of dates (`C91_units_violated`). -/
theorem C91_round_trip_partial (fmt : DType → String) (unfmt : String → Int → R DType) (verbose : Bool) (f : Form)
    (h : f.Proper) (n : Nat) (hn : f.depth < n) : fromJson fmt unfmt n (f.toJson fmt verbose) = ok f :=
  fromJson_toJson f h n hn

/-- **C91, of arrays (partial).** The form of an array can be read from its JSON. Missing: as above. -/
theorem C91_array_partial (fmt : DType → String) (unfmt : String → Int → R DType) (verbose : Bool) (c : Content)
    (h : Content.AllNodes Content.JsonNode c) :
    ∃ n, ∀ m, n ≤ m → fromJson fmt unfmt m (c.form.toJson fmt verbose) = ok c.form :=
  ⟨c.form.depth + 1, fun _ hm => C91_round_trip_partial fmt unfmt verbose _ (Content.form_proper h) _ hm⟩

example : Content.AllNodes Content.JsonNode (.record {} (some ["x", "y"]) [.regular {} (.numpy {} .int64 []) 3 0,
    .union {} [0] [0] [.numpy {} .int64 [.int 1], .empty {}]] 0) := by
  refine .mk ?_ ?_
  · simp [Content.JsonNode, Spec.Json.NoNul]
  · intro d hd
    simp only [Content.children, List.mem_cons, List.not_mem_nil, or_false] at hd
    rcases hd with rfl | rfl
    · refine .mk (by simp [Content.JsonNode]) ?_
      intro d hd
      simp only [Content.children, List.mem_cons, List.not_mem_nil, or_false] at hd
      subst hd
      exact .mk trivial (by simp [Content.children])
    · refine .mk trivial ?_
      intro d hd
      simp only [Content.children, List.mem_cons, List.not_mem_nil, or_false] at hd
      rcases hd with rfl | rfl <;> exact .mk trivial (by simp [Content.children])

/-- Two forms with the same JSON are the same. -/
theorem C91_distinct_partial (fmt : DType → String) (verbose verbose' : Bool) (f g : Form) (hf : f.Proper) (hg : g.Proper)
    (h : f.toJson fmt verbose = g.toJson fmt verbose') : f = g := by
  have h1 := C91_round_trip_partial fmt (fun _ _ => err "") verbose f hf (max f.depth g.depth + 1) (by omega)
  have h2 := C91_round_trip_partial fmt (fun _ _ => err "") verbose' g hg (max f.depth g.depth + 1) (by omega)
  rw [h, h2, ok.injEq] at h1
  exact h1.symm

/-- Names of fields, a union, regular lists, missing values and parameters. -/
def formExample : Form :=
  .record { recName := some "point" } (some ["x", "y"])
    [.listOffset {} .i64 (.indexedOption {} .i32 (.numpy {} .float64 "") "node2") "node1",
     .union {} .i8 .u32 [.regular {} (.numpy { other := [("units", "\"cm\"")] } .int32 "") 3 "",
       .bitMasked {} .u8 true false (.record {} none [] "") ""] ""] "node0"

example : formExample.Proper := by
  simp [formExample, Proper, ProperAll, IndexKind.Wide, Spec.Json.NoNul]

example (verbose : Bool) : fromJson DType.name (fun _ _ => err "") 9 (formExample.toJson DType.name verbose) = ok formExample :=
  C91_round_trip_partial _ _ _ _ (by simp [formExample, Proper, ProperAll, IndexKind.Wide, Spec.Json.NoNul]) _
    (by decide)

/-- **C91 is false for regular lists of 2³¹ or more items**: the size is written, but `fromjson` accepts integers of 32
bits only, and says that the size is missing. -/
theorem C91_size_violated (fmt : DType → String) (unfmt : String → Int → R DType) (verbose : Bool) (n : Nat) :
    (fromJson fmt unfmt (n + 2) ((Form.regular {} (.empty {} "") (2 ^ 31) "").toJson fmt verbose)).IsErr := by
  cases verbose <;> exact ⟨_, rfl⟩

/-- **C91 is false for names of fields with the character NUL**: they end there. -/
theorem C91_nul_violated (fmt : DType → String) (unfmt : String → Int → R DType) (n : Nat) :
    fromJson fmt unfmt (n + 2) ((Form.record {} (some ["a\x00b"]) [.empty {} ""] "").toJson fmt false) =
      ok (.record {} (some ["a"]) [.empty {} ""] "") := by
  have h : cString "a\x00b" = "a" := by decide +kernel
  have h' : cString "a" = "a" := by decide +kernel
  simp only [toJson, List.map_cons, List.map_nil, h]
  simp [fromJson, toJsonAll, toJson, lastMembers, Params.isEmpty, List.lookup, readMeta, mapR, h', classOf]

/-- **C91 is false for dates**: the units, which are part of the format, are lost if the dtype has a name, which
`tojson` writes and `fromjson` prefers. The format of the dtype `datetime64` alone is "M". -/
theorem C91_units_violated (fmt : DType → String) (unfmt : String → Int → R DType) (hf : fmt .datetime64 = "M")
    (verbose : Bool) (p : Params) (key : String) :
    readNumpy fmt unfmt (numpyMembers verbose p .datetime64 "M8[us]" key) = ok (.datetime64, "M") := by
  cases verbose <;>
    simp [readNumpy, numpyMembers, List.lookup, dtypeOfName_name, hf]

/-- **The JSON of a class without a width is undefined behaviour for ListOffsetArrays**, even if the member `offsets` tells
the width: a variable is read that is not initialised. -/
theorem C91_generic_violated (fmt : DType → String) (unfmt : String → Int → R DType) (n : Nat) :
    fromJson fmt unfmt (n + 1) (.obj [("class", .str "ListOffsetArray"), ("offsets", .str "i64"),
      ("content", .str "int64")]) = ub := rfl

/-- The same with a ListArray is read. -/
example (fmt : DType → String) (unfmt : String → Int → R DType) (n : Nat) :
    fromJson fmt unfmt (n + 2) (.obj [("class", .str "ListArray"), ("starts", .str "i64"), ("stops", .str "i64"),
      ("content", .str "int64")]) = ok (.listArray {} .i64 .i64 (.numpy {} .int64 "") "") := rfl

/-- **Misspelled widths are accepted**: any start of a width, also the empty text, is read as that width. -/
theorem C91_width_violated : IndexKind.ofText "" = ok .i8 ∧ IndexKind.ofText "i6" = ok .i64 ∧
    IndexKind.ofText "u" = ok .u8 := ⟨rfl, rfl, rfl⟩

end Awk.Props
