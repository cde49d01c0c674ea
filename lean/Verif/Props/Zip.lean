import Verif.Lemmas.BcastMask
import Verif.Lemmas.ValEq
/-
C66: `zip` and `unzip`. C67: `mask`. C68: element-wise functions.
-/

namespace Awk.Props
open Awk R Content Spec

theorem mapR_toList {l : List Content} (h : ∀ c ∈ l, c.Good) :
    mapR toList l = ok (l.map (fun c => (List.range c.len).map c.valD)) := by
  rw [mapR_forall₂, List.forall₂_map_right_iff]
  exact List.forall₂_same.mpr (fun c hc => (h c hc).toList)

/-- Row `i` of all arrays. -/
theorem rows_eq {cs : List Content} {n i : Nat} (hl : ∀ c ∈ cs, c.len = n ∨ c.len = 1) (hi : i < n) :
    (cs.map (fun c => (List.range c.len).map c.valD)).map
        (fun vs => vs[if vs.length = 1 then 0 else i]?.getD .null)
      = cs.map (fun c => c.valD (if c.len = 1 then 0 else i)) := by
  rw [List.map_map]
  refine List.map_congr_left (fun c hc => ?_)
  have : (if c.len = 1 then 0 else i) < c.len := by
    rcases hl c hc with h | h <;> split <;> omega
  simp only [Function.comp_apply, List.length_map, List.length_range]
  rw [List.getElem?_eq_getElem (by simpa using this)]
  simp

theorem rows_eq_same {cs : List Content} {n i : Nat} (hl : ∀ c ∈ cs, c.len = n) (hi : i < n) :
    (cs.map (fun c => (List.range c.len).map c.valD)).map (fun vs => vs[i]?.getD .null)
      = cs.map (fun c => c.valD i) := by
  rw [List.map_map]
  refine List.map_congr_left (fun c hc => ?_)
  simp only [Function.comp_apply]
  rw [List.getElem?_eq_getElem (by simpa [hl c hc] using hi)]
  simp

/-! ### C66: `zip` and `unzip` -/

/-- **C66, `depth_limit`.** Whatever `zip` returns with a depth limit is an array as long as all of its
inputs, and in every row exactly the values at this depth are combined into records: above it, lists are
combined item by item, and a missing value makes the result missing. Only the part of the arrays above the
depth limit must be free of strings and unions.

Partial: strings and unions above the depth limit. -/
theorem C66_zip_limit_partial (fuel limit : Nat) (p : Params) (keys : Option (List String))
    (cs : List Content) (vss : List (List Val)) (it : Item) (hne : cs ≠ [])
    (hv : ∀ c ∈ cs, c.validity = ok () ∧ Clear true (limit - 1) c)
    (hin : mapR toList cs = ok vss) (h : zipArrays fuel (some (limit : Int)) p keys cs = ok it) :
    ∃ out ys n, it = .array out ∧ out.toList = ok ys ∧ ys.length = n ∧ (∀ vs ∈ vss, vs.length = n) ∧
      ∀ i, i < n → Zipped limit keys (vss.map (fun vs => vs[i]?.getD .null)) (ys[i]?.getD .null) := by
  have hg : ∀ c ∈ cs, c.Good := fun c hc => good_of_validity (hv c hc).1
  rw [mapR_toList hg] at hin
  simp only [ok.injEq] at hin; subst hin
  obtain ⟨out, ys, n, h1, h2, h3, h4, h5⟩ := zipArrays_sound hne (fun c hc => ⟨hg c hc, (hv c hc).2⟩) h
  refine ⟨out, ys, n, h1, h2, h3, ?_, fun i hi => ?_⟩
  · intro vs hvs
    obtain ⟨c, hc, rfl⟩ := List.mem_map.mp hvs
    simpa using h4 c hc
  · rw [rows_eq_same h4 hi]; exact h5 i hi

/-- **C66, no `depth_limit`.** Whatever `zip` returns without a depth limit is an array as long as all of
its inputs, and in every row the values that are not lists are combined into records.

Partial: arrays with strings, categoricals or unions; see the violations below. -/
theorem C66_zip_partial (fuel : Nat) (p : Params) (keys : Option (List String))
    (cs : List Content) (vss : List (List Val)) (it : Item) (hne : cs ≠ [])
    (hv : ∀ c ∈ cs, c.validity = ok () ∧ AllNodes UnmarkedNode c)
    (hin : mapR toList cs = ok vss) (h : zipArrays fuel none p keys cs = ok it) :
    ∃ out ys n, it = .array out ∧ out.toList = ok ys ∧ ys.length = n ∧ (∀ vs ∈ vss, vs.length = n) ∧
      ∀ i, i < n → ZippedAll keys (vss.map (fun vs => vs[i]?.getD .null)) (ys[i]?.getD .null) := by
  have hg : ∀ c ∈ cs, c.Good := fun c hc => good_of_validity (hv c hc).1
  rw [mapR_toList hg] at hin
  simp only [ok.injEq] at hin; subst hin
  obtain ⟨out, ys, n, h1, h2, h3, h4, h5⟩ := zipArrays_default hne (fun c hc => ⟨hg c hc, (hv c hc).2⟩) h
  refine ⟨out, ys, n, h1, h2, h3, ?_, fun i hi => ?_⟩
  · intro vs hvs
    obtain ⟨c, hc, rfl⟩ := List.mem_map.mp hvs
    simpa using h4 c hc
  · rw [rows_eq_same h4 hi]; exact h5 i hi

/-- **C66.** A depth limit below 1 is refused, whatever the arrays are. -/
theorem C66_limit_refused (fuel : Nat) (limit : Int) (p : Params) (keys : Option (List String))
    (cs : List Content) (h : limit ≤ 0) : ∃ m, zipArrays fuel (some limit) p keys cs = err m :=
  ⟨_, by unfold zipArrays; simp [h]; rfl⟩

/-- **C66, `depth_limit=1` and `unzip`.** With depth limit 1, `zip` accepts all valid arrays of the same
length; row `i` of the result is a record (or tuple) of the `i`-th values of the arrays, and `unzip` of it
returns the lists that went in. -/
theorem C66_zip_unzip (fuel n : Nat) (p : Params) (keys : Option (List String))
    (cs : List Content) (vss : List (List Val)) (hne : cs ≠ []) (hf : 2 ≤ fuel)
    (hv : ∀ c ∈ cs, c.validity = ok ()) (hin : mapR toList cs = ok vss)
    (hl : ∀ vs ∈ vss, vs.length = n) (hn : n < 2 ^ 63 - 1)
    (hk : match keys with | some ks => ks.length = cs.length ∧ ks.Nodup | none => cs.length < 2 ^ 31) :
    ∃ out ds, zipArrays fuel (some 1) p keys cs = ok (.array out) ∧
      out.toList = ok ((List.range n).map (fun i => mkRecord keys (vss.map (fun vs => vs[i]?.getD .null)))) ∧
      unzipRecords out = ok ds ∧ mapR toList ds = ok vss := by
  have hg : ∀ c ∈ cs, c.Good := fun c hc => good_of_validity (hv c hc)
  rw [mapR_toList hg] at hin
  simp only [ok.injEq] at hin; subst hin
  have hlen : ∀ c ∈ cs, c.len = n := fun c hc => by
    simpa using hl _ (List.mem_map.mpr ⟨c, hc, rfl⟩)
  obtain ⟨es, h1, h2⟩ := zipArrays_one (p := p) (keys := keys) hne hf hg hlen hn
  have hes : ∀ e ∈ es, e.Good ∧ e.len = n := by
    intro e he
    obtain ⟨c, _, h⟩ := forall₂_mem h2 he
    exact ⟨h.1, h.2.1⟩
  have hrec : (record p keys es n).Good :=
    good_record.mpr ⟨fun e he => by rw [(hes e he).2], fun e he => (hes e he).1⟩
  have hel := h2.length_eq
  have hene : es ≠ [] := by
    rintro rfl
    exact hne (List.length_eq_zero_iff.mp hel)
  obtain ⟨ds, h3, h4⟩ := unzip_record hrec hene
    (fun h => by subst h; rw [← hel]; exact hk)
    (fun ks h => by subst h; rw [← hel]; exact hk)
  refine ⟨_, ds, h1, ?_, h3, ?_⟩
  · rw [hrec.toList]
    simp only [Content.len]
    congr 1
    refine List.map_congr_left (fun i hi => ?_)
    have hi := List.mem_range.mp hi
    rw [valD_record hrec hi, rows_eq_same hlen hi]
    congr 1
    clear h1 h3 h4 hrec hene hel hes hk hne hl hv hg hlen
    induction h2 with
    | nil => rfl
    | cons h _ ih => simp only [List.map_cons, ih, h.2.2 i hi]
  · rw [mapR_toList (fun d hd => by
      obtain ⟨e, _, h⟩ := forall₂_mem h4 hd
      exact h.1)]
    congr 1
    clear h1 h3 hrec hene hel hk hne hl hv hes
    induction h2 generalizing ds with
    | nil => cases h4; rfl
    | @cons c e cs es h h2 ih =>
      cases h4 with
      | @cons _ d _ ds h' h4 =>
        simp only [List.map_cons]
        rw [ih (fun c hc => hg c (by simp [hc])) (fun c hc => hlen c (by simp [hc])) ds h4]
        congr 1
        rw [h'.2.1, hlen c (by simp)]
        refine List.map_congr_left (fun i hi => ?_)
        have hi := List.mem_range.mp hi
        rw [h'.2.2 i hi, h.2.2 i hi]

/-- Two strings, `"ab"` and `"c"`. -/
def twoStrings : Content :=
  listOffset { arr := .string } [0, 2, 3] (numpy { arr := .char } .uint8 [.int 97, .int 98, .int 99])

/-- **C66 is violated:** `zip` of two arrays of strings is not an array as long as the arrays but a single
record, with the whole arrays as its fields. -/
theorem C66_zip_strings_violated : ∃ (c : Content) (vs : List Val), c.validity = ok () ∧ c.toList = ok vs ∧
    vs = [.str [.atom (.int 97), .atom (.int 98)], .str [.atom (.int 99)]] ∧
    ∃ r at_, zipArrays 9 none {} none [c, c] = ok (.record r at_) ∧ r.toList = ok [.tuple [.list vs, .list vs]] :=
  ⟨twoStrings, _, rfl, R.lists (by decide +kernel), rfl, _, _, rfl, R.lists (by decide +kernel)⟩

/-- **C66 is violated:** `zip` takes strings apart if a list of lists happens to have lists as long as the
strings are, although the same strings stay whole beside other lists. -/
theorem C66_zip_characters_violated :
    (∃ out, zipArrays 9 none {} none [twoStrings, listOffset {} [0, 1, 3] (intArray [1, 2, 3])] = ok (.array out) ∧
      out.toList = ok [.list [.tuple [.str [.atom (.int 97), .atom (.int 98)], .atom (.int 1)]],
        .list [.tuple [.str [.atom (.int 99)], .atom (.int 2)], .tuple [.str [.atom (.int 99)], .atom (.int 3)]]]) ∧
    (∃ out, zipArrays 9 none {} none [twoStrings, listOffset {} [0, 2, 3] (intArray [1, 2, 3])] = ok (.array out) ∧
      out.toList = ok [.list [.tuple [.atom (.int 97), .atom (.int 1)], .tuple [.atom (.int 98), .atom (.int 2)]],
        .list [.tuple [.atom (.int 99), .atom (.int 3)]]]) :=
  ⟨⟨_, rfl, R.lists (by decide +kernel)⟩, ⟨_, rfl, R.lists (by decide +kernel)⟩⟩

/-- **C66 is violated:** without a depth limit, lists of categorical values are not combined item by item:
the result has a record of two lists in every row, even if these lists have different lengths. -/
theorem C66_zip_categorical_violated :
    ∃ (a b : Content) (out : Content), a.validity = ok () ∧ b.validity = ok () ∧
      zipArrays 9 none {} none [a, b] = ok (.array out) ∧
      out.toList = ok [.tuple [.list [.atom (.int 5), .atom (.int 6)], .list [.atom (.int 5)]],
        .tuple [.list [.atom (.int 5)], .list [.atom (.int 6), .atom (.int 5)]]] :=
  ⟨listOffset {} [0, 2, 3] (indexed { arr := .categorical } [0, 1, 0] (intArray [5, 6])),
    listOffset {} [0, 1, 3] (indexed { arr := .categorical } [0, 1, 0] (intArray [5, 6])), _, rfl, rfl, rfl,
    R.lists (by decide +kernel)⟩

/-- Lists and numbers, zipped down to the numbers. -/
example : ∃ out, zipArrays 9 none {} (some ["x", "y"])
      [listOffset {} [0, 2, 3] (intArray [1, 2, 3]), intArray [4, 5]] = ok (.array out) ∧
    out.toList = ok [.list [.record [("x", .atom (.int 1)), ("y", .atom (.int 4))],
        .record [("x", .atom (.int 2)), ("y", .atom (.int 4))]],
      .list [.record [("x", .atom (.int 3)), ("y", .atom (.int 5))]]] :=
  ⟨_, rfl, R.lists (by decide +kernel)⟩

example : ∀ c ∈ [listOffset {} [0, 2, 3] (intArray [1, 2, 3]), intArray [4, 5]],
    c.validity = ok () ∧ AllNodes UnmarkedNode c ∧ Clear true 1 c := by
  have hn : ∀ l, AllNodes UnmarkedNode (intArray l) := fun l =>
    .mk ⟨rfl, trivial⟩ (by simp [intArray, children])
  have hc : ∀ b l, Clear true b (intArray l) := fun b l => by
    cases b with
    | zero => exact .zero _
    | succ b => exact .mk trivial (by simp [intArray, children])
  simp only [List.mem_cons, List.not_mem_nil, or_false, forall_eq_or_imp, forall_eq]
  exact ⟨⟨rfl, .mk ⟨rfl, rfl⟩ (by simpa [children] using hn _), .mk rfl (by simpa [children] using hc _ _)⟩,
    rfl, hn _, hc _ _⟩

/-! ### C67: `mask` -/

/-- **C67.** Whatever `mask` returns is an array with the length of the longer input (the only element of
an input of length 1 is repeated). In every row, the value is kept where the boolean is `valid_when` and
missing where it is not; if the mask has lists of booleans, this holds for each item of the lists.

Partial: arrays with fixed-size lists, strings or unions. -/
theorem C67_mask_partial (fuel : Nat) (validWhen : Bool) (c mask : Content) (vs ms : List Val) (it : Item)
    (hc : c.validity = ok () ∧ AllNodes BcastNode c) (hm : mask.validity = ok () ∧ AllNodes BcastNode mask)
    (hvs : c.toList = ok vs) (hms : mask.toList = ok ms) (h : maskArray fuel validWhen c mask = ok it) :
    ∃ out ys, it = .array out ∧ out.toList = ok ys ∧ ys.length = max vs.length ms.length ∧
      (vs.length = ys.length ∨ vs.length = 1) ∧ (ms.length = ys.length ∨ ms.length = 1) ∧
      ∀ i, i < ys.length → Masked validWhen (vs[if vs.length = 1 then 0 else i]?.getD .null)
        (ms[if ms.length = 1 then 0 else i]?.getD .null) (ys[i]?.getD .null) := by
  have hgc := good_of_validity hc.1
  have hgm := good_of_validity hm.1
  rw [hgc.toList] at hvs
  rw [hgm.toList] at hms
  simp only [ok.injEq] at hvs hms; subst hvs; subst hms
  obtain ⟨out, ys, n, h1, h2, h3, h4, h5, h6, h7⟩ := maskArray_sound ⟨hgc, hc.2⟩ ⟨hgm, hm.2⟩ h
  subst h3
  refine ⟨out, ys, h1, h2, by simpa using h4, by simpa using h5.imp id And.left,
    by simpa using h6.imp id And.left, fun i hi => ?_⟩
  have := h7 i hi
  simp only [List.length_map, List.length_range]
  rw [List.getElem?_eq_getElem (show (if c.len = 1 then 0 else i) < _ by
      simp only [List.length_map, List.length_range]; rcases h5 with h | h <;> split <;> omega),
    List.getElem?_eq_getElem (show (if mask.len = 1 then 0 else i) < _ by
      simp only [List.length_map, List.length_range]; rcases h6 with h | h <;> split <;> omega)]
  simpa using this

/-- **C67, flat masks.** A flat array of booleans masks every valid array of the same length, of any type,
and the values that it keeps are those of the array. -/
theorem C67_mask_flat (fuel : Nat) (validWhen : Bool) (c : Content) (p : Params) (data : List Atom)
    (vs : List Val) (hf : 2 ≤ fuel) (hv : c.validity = ok ()) (hvs : c.toList = ok vs)
    (hl : data.length = vs.length) (hn : vs.length < 2 ^ 63 - 1) :
    ∃ out, maskArray fuel validWhen c (numpy p .bool data) = ok (.array out) ∧
      out.toList = ok (List.zipWith (fun v b => if decide (b = .bool true) = validWhen then v else .null) vs data) := by
  have hg := good_of_validity hv
  rw [hg.toList] at hvs
  simp only [ok.injEq] at hvs; subst hvs
  simp only [List.length_map, List.length_range] at hl hn
  obtain ⟨out, h1, h2⟩ := mask_flat (validWhen := validWhen) (p := p) hf hg rfl hl hn
  refine ⟨out, h1, h2.trans ?_⟩
  congr 1
  apply List.ext_getElem
  · simp [hl]
  · intro i h3 h4
    simp only [List.length_map, List.length_range] at h3
    simp [List.getElem?_eq_getElem (show i < data.length by omega)]

/-- **C67.** A flat array of anything but booleans is refused as a mask. -/
theorem C67_mask_type (fuel : Nat) (validWhen : Bool) (c : Content) (p : Params) (dt : DType)
    (data : List Atom) (vs : List Val) (hdt : dt ≠ .bool) (hv : c.validity = ok ()) (hvs : c.toList = ok vs)
    (hl : data.length = vs.length) (hn : vs.length < 2 ^ 63 - 1) :
    ∃ m, maskArray fuel validWhen c (numpy p dt data) = err m := by
  have hg := good_of_validity hv
  rw [hg.toList] at hvs
  simp only [ok.injEq] at hvs; subst hvs
  simp only [List.length_map, List.length_range] at hl hn
  exact mask_refused hdt hg rfl hl hn

/-- Lists of booleans mask the items of lists. -/
example : ∃ out, maskArray 9 true (listOffset {} [0, 2, 3] (intArray [1, 2, 3]))
      (listOffset {} [0, 2, 3] (numpy {} .bool [.bool true, .bool false, .bool true])) = ok (.array out) ∧
    out.toList = ok [.list [.atom (.int 1), .null], .list [.atom (.int 3)]] :=
  ⟨_, rfl, R.lists (by decide +kernel)⟩

example : ∃ out, maskArray 9 false twoStrings (numpy {} .bool [.bool true, .bool false]) = ok (.array out) ∧
    out.toList = ok [.null, .str [.atom (.int 99)]] :=
  ⟨_, rfl, R.lists (by decide +kernel)⟩

/-! ### C68: element-wise functions -/

/-- **C68.** Whatever an element-wise function `f` returns for some arrays is an array with their length
(the only element of an array of length 1 is repeated). In every row, `f` is applied to numbers; lists
must have the same length, are combined item by item and with the values that are not lists; and where a
value is missing the result is missing.

Partial: arrays with fixed-size lists, strings or unions; NumPy's choice of the result's type. -/
theorem C68_elementwise_partial (f : List Atom → Atom) (dt : DType) (fuel : Nat) (cs : List Content)
    (vss : List (List Val)) (it : Item) (hne : cs ≠ [])
    (hv : ∀ c ∈ cs, c.validity = ok () ∧ AllNodes BcastNode c) (hin : mapR toList cs = ok vss)
    (h : elementwise f dt fuel cs = ok it) :
    ∃ out ys, it = .array out ∧ out.toList = ok ys ∧ (∃ vs ∈ vss, vs.length = ys.length) ∧
      (∀ vs ∈ vss, vs.length = ys.length ∨ vs.length = 1) ∧
      ∀ i, i < ys.length → Elementwise f (vss.map (fun vs => vs[if vs.length = 1 then 0 else i]?.getD .null))
        (ys[i]?.getD .null) := by
  have hb : ∀ c ∈ cs, Bin c := fun c hc => ⟨good_of_validity (hv c hc).1, (hv c hc).2⟩
  rw [mapR_toList (fun c hc => (hb c hc).good)] at hin
  simp only [ok.injEq] at hin; subst hin
  obtain ⟨out, ys, n, h1, h2, h3, ⟨c, hc, h4⟩, h5, h6⟩ := elementwise_sound hne hb h
  subst h3
  refine ⟨out, ys, h1, h2, ⟨_, List.mem_map.mpr ⟨c, hc, rfl⟩, by simpa using h4⟩, ?_, fun i hi => ?_⟩
  · intro vs hvs
    obtain ⟨c, hc, rfl⟩ := List.mem_map.mp hvs
    simpa using h5 c hc
  · rw [rows_eq h5 hi]; exact h6 i hi

/-- **C68, flat arrays.** An element-wise function applies to all flat arrays of numbers of the same
length. -/
theorem C68_flat (f : List Atom → Atom) (dt : DType) (fuel n : Nat) (hf : 1 ≤ fuel)
    (ds : List (Params × DType × List Atom)) (hne : ds ≠ []) (hl : ∀ d ∈ ds, d.2.2.length = n) :
    ∃ out, elementwise f dt fuel (ds.map (fun d => numpy d.1 d.2.1 d.2.2)) = ok (.array out) ∧
      out.toList = ok ((List.range n).map (fun i => .atom (f (ds.map (fun d => d.2.2[i]?.getD (.int 0)))))) :=
  elementwise_flat f dt hf ds hne hl

/-- The sum of two integers, for examples. -/
def addInts : List Atom → Atom
  | [.int a, .int b] => .int (a + b)
  | _ => .int 0

/-- **C68 is violated:** an array of lists of fixed size is refused if its content is longer than its
lists need, which is valid, is how slicing leaves arrays, and shows the same lists. -/
theorem C68_trailing_violated :
    ∃ (a b : Content) (vs : List Val), a.validity = ok () ∧ b.validity = ok () ∧ a.toList = ok vs ∧
      b.toList = ok vs ∧ (∃ out, elementwise addInts .int64 9 [a, a] = ok (.array out)) ∧
      ∃ m, elementwise addInts .int64 9 [b, b] = err m :=
  ⟨regular {} (intArray [1, 2]) 2 0, regular {} (intArray [1, 2, 3]) 2 0, [.list [.atom (.int 1), .atom (.int 2)]], rfl, rfl,
    R.lists (by decide +kernel), R.lists (by decide +kernel), ⟨_, rfl⟩, _, rfl⟩

/-- Lists, missing values and a single number. -/
example : ∃ out, elementwise addInts .int64 9
      [listOffset {} [0, 2, 3] (indexedOption {} [0, -1, 1] (intArray [1, 2])), intArray [10]] = ok (.array out) ∧
    out.toList = ok [.list [.atom (.int 11), .null], .list [.atom (.int 12)]] :=
  ⟨_, rfl, R.lists (by decide +kernel)⟩

example : ∀ c ∈ [listOffset {} [0, 2, 3] (indexedOption {} [0, -1, 1] (intArray [1, 2])), intArray [10]],
    c.validity = ok () ∧ AllNodes BcastNode c := by
  have hn : ∀ l, AllNodes BcastNode (intArray l) := fun l => .mk trivial (by simp [intArray, children])
  simp only [List.mem_cons, List.not_mem_nil, or_false, forall_eq_or_imp, forall_eq]
  exact ⟨⟨rfl, .mk rfl (by simpa [children] using .mk trivial (by simpa [children] using hn _))⟩, rfl, hn _⟩

end Awk.Props
