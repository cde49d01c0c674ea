import Verif.Spec.FormJson
import Verif.Lemmas.Json
/-
Lemmas for the JSON of forms.
-/

namespace Awk
open R

theorem dtypeOfName_name (dt : DType) : dtypeOfName dt.name = some dt := by
  cases dt <;> decide +kernel

theorem IndexKind.ofText_text (k : IndexKind) : IndexKind.ofText k.text = ok k := by
  cases k <;> rfl

theorem Params.of_isEmpty {p : Params} (h : p.isEmpty = true) : p = {} := by
  obtain ⟨a, r, o⟩ := p
  simp only [Params.isEmpty, Bool.and_eq_true, decide_eq_true_eq, Option.isNone_iff_eq_none, List.isEmpty_iff] at h
  obtain ⟨⟨rfl, rfl⟩, rfl⟩ := h
  rfl

namespace Form

/-- The members of a form itself, that none of the last members hides. -/
def Own (ms : List (String × FJson)) : Prop :=
  ms.lookup "has_identities" = none ∧ ms.lookup "parameters" = none ∧ ms.lookup "form_key" = none

theorem lookup_own {ms rest : List (String × FJson)} {name : String} {j : FJson} (h : ms.lookup name = some j) :
    (ms ++ rest).lookup name = some j := by
  rw [List.lookup_append, h]
  rfl

theorem readMeta_own {ms : List (String × FJson)} (h : Own ms) {verbose : Bool} {p : Params} {key : String}
    (hk : Spec.Json.NoNul key) : readMeta (ms ++ lastMembers verbose p key) = ok (p, key) := by
  obtain ⟨h1, h2, h3⟩ := h
  unfold readMeta
  simp only [List.lookup_append, h1, h2, h3, Option.none_or]
  cases verbose
  · cases hp : p.isEmpty
    · by_cases hkey : key = ""
      · subst hkey
        simp [lastMembers, hp, List.lookup]
      · simp [lastMembers, hp, hkey, List.lookup, Spec.Json.cString_of hk]
    · have hp' := Params.of_isEmpty hp
      subst hp'
      by_cases hkey : key = ""
      · subst hkey
        simp [lastMembers, hp, List.lookup]
      · simp [lastMembers, hp, hkey, List.lookup, Spec.Json.cString_of hk]
  · by_cases hkey : key = ""
    · subst hkey
      simp [lastMembers, List.lookup]
    · simp [lastMembers, hkey, List.lookup, Spec.Json.cString_of hk]

theorem readKind_own {ms : List (String × FJson)} {name : String} {k : IndexKind} {own : Option IndexKind}
    (h : ms.lookup name = some (.str k.text)) (ho : own = none ∨ own = some k) : readKind ms name own = ok k := by
  unfold readKind
  rw [h]
  simp only [IndexKind.ofText_text, bind_ok]
  rw [if_neg]
  rintro ⟨h1, h2⟩
  rcases ho with rfl | rfl
  · exact absurd h1 (by simp)
  · exact h2 rfl

theorem readMember_own {ms : List (String × FJson)} {name : String} {j : FJson} (h : ms.lookup name = some j) :
    readMember ms name = ok j := by
  unfold readMember
  rw [h]

theorem readBool_own {ms : List (String × FJson)} {name : String} {b : Bool} (h : ms.lookup name = some (.bool b)) :
    readBool ms name = ok b := by
  unfold readBool
  rw [h]

theorem readSize_own {ms : List (String × FJson)} {n : Nat} (h : ms.lookup "size" = some (.int n)) (hn : n < 2 ^ 31) :
    readSize ms = ok n := by
  unfold readSize
  rw [h]
  simp only
  rw [if_pos (by omega)]
  rfl

theorem classOf_list {k : IndexKind} (h : k.Wide) : classOf (className "ListArray" true k) = some (.list (some k)) := by
  rcases h with rfl | rfl | rfl <;> decide +kernel

theorem classOf_listOffset {k : IndexKind} (h : k.Wide) :
    classOf (className "ListOffsetArray" true k) = some (.listOffset (some k)) := by
  rcases h with rfl | rfl | rfl <;> decide +kernel

theorem classOf_indexed {k : IndexKind} (h : k.Wide) :
    classOf (className "IndexedArray" true k) = some (.indexed (some k)) := by
  rcases h with rfl | rfl | rfl <;> decide +kernel

theorem classOf_indexedOption {k : IndexKind} (h : k = .i32 ∨ k = .i64) :
    classOf (className "IndexedOptionArray" false k) = some (.indexedOption (some k)) := by
  rcases h with rfl | rfl <;> decide +kernel

theorem classOf_union {k : IndexKind} (h : k.Wide) :
    classOf (className "UnionArray8_" true k) = some (.union (some k)) := by
  rcases h with rfl | rfl | rfl <;> decide +kernel

theorem map_cString {ks : List String} (h : ∀ k ∈ ks, Spec.Json.NoNul k) : ks.map cString = ks := by
  rw [List.map_congr_left (fun k hk => Spec.Json.cString_of (h k hk)), List.map_id']

theorem length_toJsonAll (fmt : DType → String) (v : Bool) : ∀ cs : List Form, (toJsonAll fmt v cs).length = cs.length
  | [] => rfl
  | c :: cs => by simp [toJsonAll, length_toJsonAll fmt v cs]

theorem mapR_snd {f : FJson → R Form} : ∀ {ks : List String} {js : List FJson}, ks.length = js.length →
    mapR (fun kj : String × FJson => f kj.2) (ks.zip js) = mapR f js
  | [], [], _ => rfl
  | k :: ks, j :: js, h => by
    simp only [List.zip_cons_cons, mapR]
    rw [mapR_snd (by simpa using h)]

variable {fmt : DType → String} {unfmt : String → Int → R DType} {v : Bool}

/-- One class: the members are found, and what is read from them. -/
theorem fromJson_obj {n : Nat} {ms : List (String × FJson)} {s : String} {p : Params} {key : String}
    (hc : ms.lookup "class" = some (.str s)) (hm : Own ms) (hk : Spec.Json.NoNul key) {cls : Class} (hs : classOf s = some cls) :
    (ms ++ lastMembers v p key).lookup "class" = some (.str s) ∧
      readMeta (ms ++ lastMembers v p key) = ok (p, key) ∧ classOf s = some cls :=
  ⟨lookup_own hc, readMeta_own hm hk, hs⟩

mutual
/-- A form is read back. -/
theorem fromJson_toJson : ∀ (f : Form), f.Proper → ∀ n, f.depth < n →
    fromJson fmt unfmt n (f.toJson fmt v) = ok f
  | .empty p key, h, n + 1, _ => by
    have hc : ([("class", FJson.str "EmptyArray")] : List (String × FJson)).lookup "class" = _ := rfl
    have hm := readMeta_own (ms := [("class", FJson.str "EmptyArray")]) ⟨rfl, rfl, rfl⟩ (verbose := v) (p := p) h
    simp only [toJson, fromJson]
    rw [← List.singleton_append, lookup_own hc]
    simp only [hm, bind_ok]
    rfl
  | .numpy p dt key, h, n + 1, _ => by
    simp only [toJson]
    split
    · have hm := readMeta_own (ms := ("class", FJson.str "NumpyArray") ::
        ((if v then [("inner_shape", FJson.arr [])] else []) ++
        [("itemsize", FJson.int dt.itemsize), ("format", .str (fmt dt)), ("primitive", .str dt.name)]))
        (by cases v <;> exact ⟨rfl, rfl, rfl⟩) (verbose := v) (p := p) h
      have he : numpyMembers v p dt (fmt dt) key = ("class", FJson.str "NumpyArray") ::
        ((if v then [("inner_shape", FJson.arr [])] else []) ++
        [("itemsize", FJson.int dt.itemsize), ("format", .str (fmt dt)), ("primitive", .str dt.name)]) ++
        lastMembers v p key := by simp [numpyMembers]
      have hp : (numpyMembers v p dt (fmt dt) key).lookup "primitive" = some (.str dt.name) := by
        rw [he]
        apply lookup_own
        cases v <;> rfl
      have hc : (numpyMembers v p dt (fmt dt) key).lookup "class" = some (.str "NumpyArray") := rfl
      simp only [fromJson, hc]
      rw [← he] at hm
      simp only [hm, bind_ok, show classOf "NumpyArray" = some .numpy from rfl, readNumpy, hp, dtypeOfName_name]
    · rename_i hv
      simp only [Bool.or_eq_true, not_or, decide_eq_true_eq, ne_eq, Bool.not_eq_true, Bool.not_eq_false', not_not] at hv
      obtain ⟨⟨_, hp⟩, rfl⟩ := hv
      have := Params.of_isEmpty (p := p) (by simpa using hp)
      subst this
      simp only [fromJson, dtypeOfName_name]
  | .regular p c size key, h, n + 1, hd => by
    obtain ⟨hk, hs, hcp⟩ := h
    have ih := fromJson_toJson c hcp n (by simp only [depth] at hd; omega)
    obtain ⟨h1, h2, h3⟩ := fromJson_obj (v := v) (n := n) (p := p) (ms := [("class", FJson.str "RegularArray"),
      ("content", c.toJson fmt v), ("size", .int size)]) rfl ⟨rfl, rfl, rfl⟩ hk (cls := .regular) rfl
    simp only [toJson, fromJson, h1, h2, h3, bind_ok]
    rw [readMember_own (name := "content") (j := c.toJson fmt v), bind_ok, ih, bind_ok, readSize_own (n := size), bind_ok]
    all_goals first | rfl | exact Or.inr rfl | exact Or.inl rfl | assumption
  | .listArray p starts stops c key, h, n + 1, hd => by
    obtain ⟨hk, hs, rfl, hcp⟩ := h
    have ih := fromJson_toJson c hcp n (by simp only [depth] at hd; omega)
    obtain ⟨h1, h2, h3⟩ := fromJson_obj (v := v) (n := n) (p := p)
      (ms := [("class", FJson.str (className "ListArray" true stops)), ("starts", .str stops.text),
        ("stops", .str stops.text), ("content", c.toJson fmt v)]) rfl ⟨rfl, rfl, rfl⟩ hk (classOf_list hs)
    simp only [toJson, fromJson, h1, h2, h3, bind_ok]
    rw [readKind_own (name := "starts") (k := stops) (own := some stops), bind_ok, readKind_own (name := "stops") (k := stops) (own := some stops), bind_ok, readMember_own (name := "content") (j := c.toJson fmt v), bind_ok, ih, bind_ok]
    all_goals first | rfl | exact Or.inr rfl | exact Or.inl rfl | assumption
  | .listOffset p k c key, h, n + 1, hd => by
    obtain ⟨hk, hs, hcp⟩ := h
    have ih := fromJson_toJson c hcp n (by simp only [depth] at hd; omega)
    obtain ⟨h1, h2, h3⟩ := fromJson_obj (v := v) (n := n) (p := p)
      (ms := [("class", FJson.str (className "ListOffsetArray" true k)), ("offsets", .str k.text),
        ("content", c.toJson fmt v)]) rfl ⟨rfl, rfl, rfl⟩ hk (classOf_listOffset hs)
    simp only [toJson, fromJson, h1, h2, h3, bind_ok]
    rw [readKind_own (name := "offsets") (k := k) (own := some k), bind_ok, readMember_own (name := "content") (j := c.toJson fmt v), bind_ok, ih, bind_ok]
    all_goals first | rfl | exact Or.inr rfl | exact Or.inl rfl | assumption
  | .indexed p k c key, h, n + 1, hd => by
    obtain ⟨hk, hs, hcp⟩ := h
    have ih := fromJson_toJson c hcp n (by simp only [depth] at hd; omega)
    obtain ⟨h1, h2, h3⟩ := fromJson_obj (v := v) (n := n) (p := p)
      (ms := [("class", FJson.str (className "IndexedArray" true k)), ("index", .str k.text),
        ("content", c.toJson fmt v)]) rfl ⟨rfl, rfl, rfl⟩ hk (classOf_indexed hs)
    simp only [toJson, fromJson, h1, h2, h3, bind_ok]
    rw [readKind_own (name := "index") (k := k) (own := some k), bind_ok, readMember_own (name := "content") (j := c.toJson fmt v), bind_ok, ih, bind_ok]
    all_goals first | rfl | exact Or.inr rfl | exact Or.inl rfl | assumption
  | .indexedOption p k c key, h, n + 1, hd => by
    obtain ⟨hk, hs, hcp⟩ := h
    have ih := fromJson_toJson c hcp n (by simp only [depth] at hd; omega)
    obtain ⟨h1, h2, h3⟩ := fromJson_obj (v := v) (n := n) (p := p)
      (ms := [("class", FJson.str (className "IndexedOptionArray" false k)), ("index", .str k.text),
        ("content", c.toJson fmt v)]) rfl ⟨rfl, rfl, rfl⟩ hk (classOf_indexedOption hs)
    simp only [toJson, fromJson, h1, h2, h3, bind_ok]
    rw [readKind_own (name := "index") (k := k) (own := some k), bind_ok, readMember_own (name := "content") (j := c.toJson fmt v), bind_ok, ih, bind_ok]
    all_goals first | rfl | exact Or.inr rfl | exact Or.inl rfl | assumption
  | .byteMasked p k vw c key, h, n + 1, hd => by
    obtain ⟨hk, hcp⟩ := h
    have ih := fromJson_toJson c hcp n (by simp only [depth] at hd; omega)
    obtain ⟨h1, h2, h3⟩ := fromJson_obj (v := v) (n := n) (p := p)
      (ms := [("class", FJson.str "ByteMaskedArray"), ("mask", .str k.text),
        ("content", c.toJson fmt v), ("valid_when", .bool vw)]) rfl ⟨rfl, rfl, rfl⟩ hk (cls := .byteMasked) rfl
    simp only [toJson, fromJson, h1, h2, h3, bind_ok]
    rw [readKind_own (name := "mask") (k := k) (own := none), bind_ok, readMember_own (name := "content") (j := c.toJson fmt v), bind_ok, ih, bind_ok, readBool_own (name := "valid_when") (b := vw), bind_ok]
    all_goals first | rfl | exact Or.inr rfl | exact Or.inl rfl | assumption
  | .bitMasked p k vw lsb c key, h, n + 1, hd => by
    obtain ⟨hk, hcp⟩ := h
    have ih := fromJson_toJson c hcp n (by simp only [depth] at hd; omega)
    obtain ⟨h1, h2, h3⟩ := fromJson_obj (v := v) (n := n) (p := p)
      (ms := [("class", FJson.str "BitMaskedArray"), ("mask", .str k.text),
        ("content", c.toJson fmt v), ("valid_when", .bool vw), ("lsb_order", .bool lsb)]) rfl ⟨rfl, rfl, rfl⟩ hk
      (cls := .bitMasked) rfl
    simp only [toJson, fromJson, h1, h2, h3, bind_ok]
    rw [readKind_own (name := "mask") (k := k) (own := none), bind_ok, readMember_own (name := "content") (j := c.toJson fmt v), bind_ok, ih, bind_ok, readBool_own (name := "valid_when") (b := vw), bind_ok, readBool_own (name := "lsb_order") (b := lsb), bind_ok]
    all_goals first | rfl | exact Or.inr rfl | exact Or.inl rfl | assumption
  | .unmasked p c key, h, n + 1, hd => by
    obtain ⟨hk, hcp⟩ := h
    have ih := fromJson_toJson c hcp n (by simp only [depth] at hd; omega)
    obtain ⟨h1, h2, h3⟩ := fromJson_obj (v := v) (n := n) (p := p)
      (ms := [("class", FJson.str "UnmaskedArray"), ("content", c.toJson fmt v)]) rfl ⟨rfl, rfl, rfl⟩ hk
      (cls := .unmasked) rfl
    simp only [toJson, fromJson, h1, h2, h3, bind_ok]
    rw [readMember_own (name := "content") (j := c.toJson fmt v), bind_ok, ih, bind_ok]
    all_goals first | rfl | exact Or.inr rfl | exact Or.inl rfl | assumption
  | .record p none cs key, h, n + 1, hd => by
    obtain ⟨hk, _, hcp⟩ := h
    have ih := fromJson_toJsonAll cs hcp n (by simp only [depth] at hd; omega)
    obtain ⟨h1, h2, h3⟩ := fromJson_obj (v := v) (n := n) (p := p)
      (ms := [("class", FJson.str "RecordArray"), ("contents", .arr (toJsonAll fmt v cs))]) rfl ⟨rfl, rfl, rfl⟩ hk
      (cls := .record) rfl
    simp only [toJson, fromJson, h1, h2, h3, bind_ok,
      lookup_own (ms := [("class", FJson.str "RecordArray"), ("contents", .arr (toJsonAll fmt v cs))])
        (name := "contents") (j := .arr (toJsonAll fmt v cs)) rfl, ih]
  | .record p (some ks) cs key, h, n + 1, hd => by
    obtain ⟨hk, hks, hcp⟩ := h
    obtain ⟨hl, hn⟩ := hks ks rfl
    have ih := fromJson_toJsonAll cs hcp n (by simp only [depth] at hd; omega)
    have hlen : ks.length = (toJsonAll fmt v cs).length := by rw [length_toJsonAll, hl]
    obtain ⟨h1, h2, h3⟩ := fromJson_obj (v := v) (n := n) (p := p)
      (ms := [("class", FJson.str "RecordArray"), ("contents", .obj (ks.zip (toJsonAll fmt v cs)))]) rfl
      ⟨rfl, rfl, rfl⟩ hk (cls := .record) rfl
    have h4 : (ks.zip (toJsonAll fmt v cs)).map (fun kj => cString kj.1) = ks := by
      rw [show (fun kj : String × FJson => cString kj.1) = cString ∘ Prod.fst from rfl, ← List.map_map, List.map_fst_zip (by omega), map_cString hn]
    simp only [toJson, map_cString hn, fromJson, h1, h2, h3, bind_ok,
      lookup_own (ms := [("class", FJson.str "RecordArray"), ("contents", .obj (ks.zip (toJsonAll fmt v cs)))])
        (name := "contents") (j := .obj (ks.zip (toJsonAll fmt v cs))) rfl, mapR_snd hlen, ih, h4]
  | .union p tags k cs key, h, n + 1, hd => by
    obtain ⟨hk, rfl, hs, hcp⟩ := h
    have ih := fromJson_toJsonAll cs hcp n (by simp only [depth] at hd; omega)
    obtain ⟨h1, h2, h3⟩ := fromJson_obj (v := v) (n := n) (p := p)
      (ms := [("class", FJson.str (className "UnionArray8_" true k)), ("tags", .str IndexKind.i8.text),
        ("index", .str k.text), ("contents", .arr (toJsonAll fmt v cs))]) rfl ⟨rfl, rfl, rfl⟩ hk (classOf_union hs)
    simp only [toJson, fromJson, h1, h2, h3, bind_ok, Option.map_some]
    rw [readKind_own (name := "tags") (k := IndexKind.i8) (own := some IndexKind.i8), bind_ok, readKind_own (name := "index") (k := k) (own := some k), bind_ok, show List.lookup "contents" ([("class", FJson.str (className "UnionArray8_" true k)), ("tags", .str IndexKind.i8.text),
        ("index", .str k.text), ("contents", .arr (toJsonAll fmt v cs))] ++ lastMembers v p key) =
      some (.arr (toJsonAll fmt v cs)) from rfl]
    · simp only [ih, bind_ok]
    all_goals first | rfl | exact Or.inr rfl

theorem fromJson_toJsonAll : ∀ (cs : List Form), ProperAll cs → ∀ n, depthAll cs < n →
    mapR (fromJson fmt unfmt n) (toJsonAll fmt v cs) = ok cs
  | [], _, _, _ => rfl
  | c :: cs, h, n, hd => by
    simp only [depthAll] at hd
    simp only [toJsonAll, mapR]
    rw [fromJson_toJson c h.1 n (by omega), bind_ok, fromJson_toJsonAll cs h.2 n (by omega), bind_ok]
end

end Form
end Awk
