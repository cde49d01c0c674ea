import Verif.Spec.TypeText
/-
Helper lemmas for types as text.
-/

namespace Awk
open R Spec

/-! ### Text in quotes -/

theorem escape_self {s : String} (h : Unescaped s) : escape s = s.toList := by
  unfold escape
  have : ∀ cs : List Char, (∀ c ∈ cs, c ≠ '"' ∧ c ≠ '\\' ∧ 32 ≤ c.toNat) →
      cs.flatMap escapeChar = cs := by
    intro cs
    induction cs with
    | nil => intro _; rfl
    | cons c cs ih =>
      intro h
      obtain ⟨h1, h2, h3⟩ := h c List.mem_cons_self
      rw [List.flatMap_cons, ih (fun d hd => h d (List.mem_cons_of_mem _ hd))]
      have : escapeChar c = [c] := by
        unfold escapeChar
        rw [if_neg h1, if_neg h2, if_pos (by omega)]
      rw [this]; rfl
  exact this _ h

theorem stringOk_self : ∀ {cs : List Char},
    (∀ c ∈ cs, c ≠ '"' ∧ c ≠ '\\' ∧ 32 ≤ c.toNat) → stringOk cs = true
  | [], _ => by simp [stringOk]
  | c :: cs, h => by
    obtain ⟨h1, h2, h3⟩ := h c List.mem_cons_self
    have ih := stringOk_self (cs := cs) (fun d hd => h d (List.mem_cons_of_mem _ hd))
    have h4 : c ≠ '\n' := by rintro rfl; revert h3; decide
    have h5 : c ≠ '\r' := by rintro rfl; revert h3; decide
    rw [stringOk]
    · simp [h1, h4, h5, ih]
    · intro _ _ _ _ _ hc; exact absurd hc h2
    · intro _ _ hc; exact absurd hc h2
    · intro hc; exact absurd hc h2

theorem stringOk_escape {s : String} (h : Unescaped s) : stringOk (escape s) = true := by
  rw [escape_self h]; exact stringOk_self h

theorem readString_escape {s : String} (h : Unescaped s) (rest : List Tok) :
    readString (.quoted (escape s) :: rest) = ok (s, rest) := by
  have h1 := stringOk_escape h
  rw [escape_self h] at h1 ⊢
  simp [readString, h1]

/-! ### Parameters -/

/-- The parameters without the mark of a categorical type. -/
def Params.plain (p : Params) : Params :=
  { p with other := p.other.filter (fun kv => kv.1 ≠ "__categorical__") }

theorem ReadableParams.shape {json : String → R String} {high : Bool} {p : Params}
    (h : ReadableParams json high p) : ∃ q,
      p.other = q ++ (if p.isCategorical then [("__categorical__", "true")] else []) ∧
      (∀ kv ∈ q, kv.1 ≠ "__categorical__") ∧ (p.isCategorical = true → high = true) := by
  by_cases hc : ∃ v, ("__categorical__", v) ∈ p.other
  · obtain ⟨v, hv⟩ := hc
    obtain ⟨rfl, hh, hl⟩ := h.categorical v hv
    obtain ⟨q, hq⟩ := List.getLast?_eq_some_iff.mp hl
    have hd := h.distinct
    rw [hq, List.map_append, List.nodup_append] at hd
    have hne : ∀ kv ∈ q, kv.1 ≠ "__categorical__" := by
      intro kv hkv
      exact hd.2.2 kv.1 (List.mem_map_of_mem hkv) _ (by simp)
    have hcat : p.isCategorical = true := by
      unfold Params.isCategorical
      rw [hq, List.lookup_append]
      have : q.lookup "__categorical__" = none := by
        rw [List.lookup_eq_none_iff]
        intro kv hkv
        simpa using fun h => hne kv hkv h.symm
      rw [this]; decide
    exact ⟨q, by rw [hcat]; exact hq, hne, fun _ => hh⟩
  · have hne : ∀ kv ∈ p.other, kv.1 ≠ "__categorical__" := by
      rintro ⟨k, v⟩ hkv rfl
      exact hc ⟨v, hkv⟩
    have hcat : p.isCategorical = false := by
      unfold Params.isCategorical
      have : p.other.lookup "__categorical__" = none := by
        rw [List.lookup_eq_none_iff]
        intro kv hkv
        simpa using fun h => hne kv hkv h.symm
      rw [this]; decide
    exact ⟨p.other, by simp [hcat], hne, by simp [hcat]⟩

theorem filter_ne_self {q : List (String × String)} {k : String} (h : ∀ kv ∈ q, kv.1 ≠ k) :
    q.filter (fun kv => kv.1 ≠ k) = q := by
  rw [List.filter_eq_self]
  intro kv hkv
  simpa using h kv hkv

theorem ReadableParams.cat_plain {json : String → R String} {high : Bool} {p : Params}
    (h : ReadableParams json high p) : catParams p.isCategorical p.plain = { params := p } := by
  obtain ⟨q, hq, hne, _⟩ := ReadableParams.shape h
  have hf : p.plain = { p with other := q } := by
    unfold Params.plain
    rw [hq, List.filter_append, filter_ne_self hne]
    split <;> simp
  rw [hf]
  unfold catParams
  cases hcat : p.isCategorical with
  | false =>
    rw [hcat] at hq
    simp only [Bool.false_eq_true, if_false, List.append_nil] at hq ⊢
    rw [← hq]
  | true =>
    rw [hcat] at hq
    simp only [if_true] at hq ⊢
    unfold Params.setCategorical Params.setOther
    dsimp only
    rw [filter_ne_self hne, ← hq]

/-- Entries one after another. -/
def addAll (json : String → R String) : List (String × Tok) → Params → R Params
  | [], p => ok p
  | kv :: es, p => setEntry json p kv.1 kv.2 >>= fun q => addAll json es q

theorem addAll_append (json : String → R String) (es fs : List (String × Tok)) (p : Params) :
    addAll json (es ++ fs) p = addAll json es p >>= fun q => addAll json fs q := by
  induction es generalizing p with
  | nil => rfl
  | cons kv es ih =>
    simp only [List.cons_append, addAll, R.bind_assoc]
    exact R.bind_congr' fun q _ => ih q

/-- The text of an entry. -/
def entryText (kv : String × Tok) : List Tok := [.quoted (escape kv.1), .sym ':', kv.2]

theorem readEntries_ok (json : String → R String) : ∀ {es : List (String × Tok)},
    es ≠ [] → (∀ kv ∈ es, Unescaped kv.1) → ∀ (rest : List Tok) (p : Params),
    readEntries json (commas (es.map entryText) ++ .sym '}' :: rest) p =
      addAll json es p >>= fun q => ok (q, rest)
  | [], h, _, _, _ => absurd rfl h
  | [kv], _, hk, rest, p => by
    have h1 := readString_escape (hk kv (by simp)) []
    simp only [List.map_cons, List.map_nil, commas, entryText, List.cons_append, List.nil_append]
    rw [readEntries, h1]
    simp [addAll]
  | kv :: kv' :: es, _, hk, rest, p => by
    have h1 := readString_escape (hk kv (by simp)) []
    have ih := readEntries_ok json (es := kv' :: es) (by simp)
      (fun x hx => hk x (List.mem_cons_of_mem _ hx)) rest
    simp only [List.map_cons, commas, List.cons_append, List.nil_append,
      List.append_assoc] at ih ⊢
    rw [show entryText kv = [.quoted (escape kv.1), .sym ':', kv.2] from rfl]
    simp only [List.cons_append, List.nil_append]
    rw [readEntries, h1]
    simp only [R.bind_ok]
    rw [show addAll json (kv :: kv' :: es) p =
      setEntry json p kv.1 kv.2 >>= fun q => addAll json (kv' :: es) q from rfl, R.bind_assoc]
    exact R.bind_congr' fun q _ => ih q

theorem addAll_other (json : String → R String) : ∀ {q : List (String × String)} {p : Params},
    ((p.other ++ q).map Prod.fst).Nodup →
    (∀ kv ∈ q, kv.1 ≠ "__array__" ∧ kv.1 ≠ "__record__" ∧ json kv.2 = ok kv.2) →
    addAll json (q.map (fun kv => (kv.1, .value kv.2))) p = ok { p with other := p.other ++ q }
  | [], p, _, _ => by simp [addAll]
  | kv :: q, p, hn, h => by
    obtain ⟨h1, h2, h3⟩ := h kv (by simp)
    have hne : ∀ x ∈ p.other, x.1 ≠ kv.1 := by
      intro x hx
      rw [List.map_append, List.nodup_append] at hn
      exact hn.2.2 x.1 (List.mem_map_of_mem hx) _ (by simp)
    simp only [List.map_cons, addAll, setEntry]
    rw [if_neg (by simp [h1, h2]), h3]
    simp only [R.bind_ok]
    unfold Params.setOther
    rw [filter_ne_self hne]
    rw [addAll_other json (by simpa using hn) (fun x hx => h x (List.mem_cons_of_mem _ hx))]
    simp

theorem addAll_arr (json : String → R String) (k : ArrKind) :
    addAll json (k.name.map (fun n => ("__array__", Tok.quoted (escape n)))).toList {} =
      ok { arr := k } := by
  cases k <;> rfl

theorem addAll_entries {json : String → R String} {high : Bool} {p : Params}
    (h : ReadableParams json high p) : addAll json p.entries {} = ok p.plain := by
  unfold Params.entries
  rw [addAll_append, addAll_append, addAll_arr]
  simp only [R.bind_ok]
  have hrec : addAll json (p.recName.map (fun n => ("__record__", Tok.quoted (escape n)))).toList
      { arr := p.arr } =
      ok { arr := p.arr, recName := p.recName } := by
    cases hr : p.recName with
    | none => rfl
    | some n =>
      have h1 := stringOk_escape (h.record n hr)
      rw [escape_self (h.record n hr)] at h1
      simp [addAll, setEntry, h1, escape_self (h.record n hr)]
  rw [hrec]
  simp only [R.bind_ok]
  rw [addAll_other]
  · rfl
  · exact (h.distinct.sublist ((List.filter_sublist (l := p.other)).map _))
  · intro kv hkv
    rw [List.mem_filter] at hkv
    obtain ⟨_, h2, h3, h4⟩ := h.other kv hkv.1 (by simpa using hkv.2)
    exact ⟨h2, h3, h4⟩

theorem unescaped_keys : Unescaped "__array__" ∧ Unescaped "__record__" := by
  unfold Unescaped; decide

theorem entries_unescaped {json : String → R String} {high : Bool} {p : Params}
    (h : ReadableParams json high p) : ∀ kv ∈ p.entries, Unescaped kv.1 := by
  intro kv hkv
  unfold Params.entries at hkv
  rw [List.mem_append, List.mem_append] at hkv
  rcases hkv with (hkv | hkv) | hkv
  · simp only [Option.mem_toList, Option.map_eq_some_iff] at hkv
    obtain ⟨n, _, rfl⟩ := hkv
    exact unescaped_keys.1
  · simp only [Option.mem_toList, Option.map_eq_some_iff] at hkv
    obtain ⟨n, _, rfl⟩ := hkv
    exact unescaped_keys.2
  · obtain ⟨x, hx, rfl⟩ := List.mem_map.mp hkv
    rw [List.mem_filter] at hx
    exact (h.other x hx.1 (by simpa using hx.2)).1

theorem readParams_ok {json : String → R String} {high : Bool} {p : Params}
    (h : ReadableParams json high p) (rest : List Tok) :
    readParams json (p.text ++ rest) = ok (p.plain, rest) := by
  have h1 := addAll_entries h
  unfold readParams Params.text
  simp only [List.cons_append, List.nil_append, List.append_assoc, expect, if_true, R.bind_ok]
  cases he : p.entries with
  | nil =>
    rw [he] at h1
    simp only [List.map_nil, commas, List.nil_append]
    have := R.ok.inj h1
    rw [← this]
  | cons kv es =>
    have h2 := readEntries_ok json (es := p.entries) (by simp [he]) (entries_unescaped h) rest {}
    rw [h1, he] at h2
    simp only [R.bind_ok] at h2
    have hhead : ∃ c l, commas ((kv :: es).map entryText) ++ .sym '}' :: rest =
        Tok.quoted c :: l := by
      cases es with
      | nil => exact ⟨_, _, rfl⟩
      | cons kv' es => exact ⟨_, _, rfl⟩
    have e : (kv :: es).map (fun kv => [Tok.quoted (escape kv.1), .sym ':', kv.2]) =
        (kv :: es).map entryText := rfl
    rw [e]
    obtain ⟨c, l, hl⟩ := hhead
    rw [hl] at h2 ⊢
    exact h2

theorem Params.plain_bare {p : Params} (h : Bare p) : p.plain = {} := by
  obtain ⟨h1, h2, h3⟩ := h
  unfold Params.plain
  have : p.other.filter (fun kv => kv.1 ≠ "__categorical__") = [] := by
    rw [List.filter_eq_nil_iff]
    intro kv hkv
    rw [h3 kv hkv]
    simp
  rw [this, h1, h2]

theorem bare_iff {json : String → R String} {high : Bool} {p : Params}
    (h : ReadableParams json high p) : p.looksEmpty = true ↔ Bare p := by
  obtain ⟨q, hq, hne, _⟩ := ReadableParams.shape h
  unfold Params.looksEmpty Params.isEmpty Params.size Bare
  cases hcat : p.isCategorical with
  | false =>
    rw [hcat] at hq
    simp only [Bool.false_eq_true, if_false, List.append_nil] at hq
    simp only [Bool.and_false, Bool.or_false, Bool.and_eq_true, decide_eq_true_eq,
      Option.isNone_iff_eq_none, List.isEmpty_iff]
    constructor
    · rintro ⟨⟨h1, h2⟩, h3⟩
      exact ⟨h1, h2, by simp [h3]⟩
    · rintro ⟨h1, h2, h3⟩
      refine ⟨⟨h1, h2⟩, ?_⟩
      rw [List.eq_nil_iff_forall_not_mem]
      intro kv hkv
      exact hne kv (hq ▸ hkv) (by rw [h3 kv hkv])
  | true =>
    rw [hcat] at hq
    simp only [if_true] at hq
    simp only [Bool.and_true, Bool.or_eq_true, Bool.and_eq_true, decide_eq_true_eq,
      Option.isNone_iff_eq_none, List.isEmpty_iff]
    rw [hq]
    constructor
    · rintro (⟨_, h3⟩ | h3)
      · simp at h3
      · rw [List.length_append] at h3
        simp only [List.length_singleton] at h3
        have h4 : q = [] := by
          rw [← List.length_eq_zero_iff]; omega
        have h5 : p.arr = .none := by
          refine Classical.byContradiction fun hc => ?_
          rw [if_neg hc] at h3; omega
        have h6 : p.recName = none := by
          refine Classical.byContradiction fun hc => ?_
          rw [h5, if_pos rfl, if_neg hc] at h3; omega
        exact ⟨h5, h6, by simp [h4]⟩
    · rintro ⟨h1, h2, h3⟩
      right
      have h4 : q = [] := by
        rw [List.eq_nil_iff_forall_not_mem]
        intro kv hkv
        exact hne kv hkv (by rw [h3 kv (by simp [hkv])])
      simp [h1, h2, h4]

/-! ### Words -/

theorem lookup_none_of_not_mem {w : String} (h : w ∉ typeWords.map Prod.fst) :
    typeWords.lookup w = none := by
  rw [List.lookup_eq_none_iff]
  intro kv hkv
  rw [bne_iff_ne]
  rintro rfl
  exact h (List.mem_map_of_mem hkv)

theorem typeWords_keys : typeWords.map Prod.fst = reservedWords := by rfl

theorem lexWord_name {n : String} (h : RecordName n) : lexWord n = ok (.name n) := by
  obtain ⟨h1, h2, h3⟩ := h
  unfold lexWord
  have hnot : n ∉ typeWords.map Prod.fst := by
    rw [typeWords_keys]
    intro hn
    exact h3 n hn (List.prefix_refl _)
  rw [lookup_none_of_not_mem hnot]
  have hany : ¬ typeWords.any (fun kw => kw.1.toList.isPrefixOf n.toList) = true := by
    rw [List.any_eq_true]
    rintro ⟨kw, hkw, hp⟩
    refine h3 kw.1 ?_ (by simpa using hp)
    rw [← typeWords_keys]
    exact List.mem_map_of_mem hkw
  dsimp only
  rw [if_neg hany, if_pos]
  refine ⟨h1, ?_⟩
  rw [List.all_eq_true]
  intro c hc
  simpa [isLetter] using h2 c hc

theorem lexWord_prim {dt : DType} (h : ReadablePrimitive dt) : lexWord dt.name = ok (.type dt) := by
  unfold ReadablePrimitive at h
  cases dt <;> first | rfl | (exfalso; revert h; decide)

theorem recordName_shown {n : String} (h : RecordName n) (hk : n ∉ datashapeKeywords) :
    ({ recName := some n } : Params).shownName = some n := by
  have : isName n = true := by
    obtain ⟨h1, h2, _⟩ := h
    unfold isName
    cases hn : n.toList with
    | nil => exact absurd (String.toList_eq_nil_iff.mp hn) h1
    | cons c cs =>
      rw [hn] at h2
      have hc := h2 c (by simp)
      simp only [Bool.and_eq_true, List.all_eq_true]
      refine ⟨?_, ?_⟩
      · simp only [isLetter, Bool.or_eq_true, Bool.and_eq_true, decide_eq_true_eq]
        exact Or.inl hc
      intro d hd
      have hd := h2 d (by simp [hd])
      simp only [isLetter, Bool.or_eq_true, Bool.and_eq_true, decide_eq_true_eq]
      exact Or.inl (Or.inl hd)
  unfold Params.shownName
  dsimp only
  rw [if_pos]
  exact ⟨rfl, this, hk⟩

/-! ### Reading -/

theorem expect_self (t : Tok) (rest : List Tok) : expect t (t :: rest) = ok rest := by
  simp [expect]

theorem readOptions_none (json : String → R String) {rest : List Tok}
    (h : rest.head? ≠ some (.sym '[')) : readOptions json rest = ok ({}, rest) := by
  unfold readOptions
  split
  · exact absurd rfl h
  · rfl

/-- The text of the type is read as the type. -/
def ReadsAs (json : String → R String) (high cat : Bool) (text : List Tok) (t : AkType) : Prop :=
  ∀ (f : Nat) (rest : List Tok), 2 * text.length ≤ f → rest.head? ≠ some (.sym '[') →
    readType json high f cat (text ++ rest) = ok (t, rest)

theorem ReadsAs.wrap {json : String → R String} {high : Bool} {p : Params}
    (hp : ReadableParams json high p) {text : List Tok} {t : AkType}
    (h : ReadsAs json high p.isCategorical text t) :
    ReadsAs json high false (p.wrap text) t := by
  unfold Params.wrap
  obtain ⟨_, _, _, hh⟩ := ReadableParams.shape hp
  cases hcat : p.isCategorical with
  | false => rw [hcat] at h; exact h
  | true =>
    have := hh hcat
    subst this
    rw [hcat] at h
    intro f rest hf hr
    rw [if_pos rfl] at hf ⊢
    simp only [List.cons_append, List.nil_append, List.append_assoc, List.length_cons,
      List.length_append, List.length_nil] at hf ⊢
    cases f with
    | zero => omega
    | succ f =>
      rw [readType]
      have e : lexWord "categorical" = ok (.keyword "categorical") := by rfl
      rw [e]
      simp only [R.bind_ok, expect_self]
      have := h f (.sym ']' :: rest) (by omega) (by simp)
      simp [this, expect_self]

/-- What a word with optional parameters leaves. -/
theorem readOptions_ok {json : String → R String} {high : Bool} {p : Params}
    (hp : ReadableParams json high p) (rest : List Tok) :
    readOptions json (.sym '[' :: (p.text ++ .sym ']' :: rest)) = ok (p.plain, rest) := by
  unfold readOptions
  simp only [readParams_ok hp, R.bind_ok, expect_self]

theorem readsAs_unknown {json : String → R String} {high : Bool} {p : Params}
    (hp : ReadableParams json high p) :
    ReadsAs json high false (AkType.unknown { params := p }).text (.unknown { params := p }) := by
  rw [AkType.text]
  refine ReadsAs.wrap hp ?_
  intro f rest hf hr
  rw [if_neg (by simp)] at hf ⊢
  have e : lexWord "unknown" = ok (.keyword "unknown") := by rfl
  dsimp only at hf ⊢
  have hc := ReadableParams.cat_plain hp
  cases f with
  | zero => split at hf <;> simp at hf
  | succ f =>
    split
    · rename_i hl
      rw [Params.plain_bare ((bare_iff hp).mp hl)] at hc
      simp only [List.cons_append, List.nil_append]
      rw [readType, e]
      simp [readOptions_none json hr, hc]
    · simp only [List.cons_append, List.nil_append, List.append_assoc]
      rw [readType, e]
      simp [readOptions_ok hp, hc]

theorem readsAs_prim {json : String → R String} {high : Bool} {p : Params} {dt : DType}
    (hp : ReadableParams json high p) (hd : ReadablePrimitive dt) :
    ReadsAs json high false (AkType.prim { params := p } dt).text (.prim { params := p } dt) := by
  rw [AkType.text]
  refine ReadsAs.wrap hp ?_
  intro f rest hf hr
  rw [if_neg (by simp)] at hf ⊢
  have e := lexWord_prim hd
  dsimp only at hf ⊢
  have hc := ReadableParams.cat_plain hp
  cases f with
  | zero => split at hf <;> simp at hf
  | succ f =>
    split
    · rename_i hl
      rw [Params.plain_bare ((bare_iff hp).mp hl)] at hc
      simp only [List.cons_append, List.nil_append]
      rw [readType, e]
      simp [readOptions_none json hr, hc]
    · simp only [List.cons_append, List.nil_append, List.append_assoc]
      rw [readType, e]
      simp [readOptions_ok hp, hc]

/-- Parameters with `__array__` and nothing else. -/
theorem bare_array {json : String → R String} {high : Bool} {p : Params} {k : ArrKind}
    (hp : ReadableParams json high p) (hb : Bare { p with arr := .none }) (hk : p.arr = k) :
    (catParams p.isCategorical { arr := k }) = { params := p } := by
  have hc := ReadableParams.cat_plain hp
  have : p.plain = { arr := k } := by
    have h1 := Params.plain_bare hb
    unfold Params.plain at h1 ⊢
    dsimp only at h1
    rw [Params.mk.injEq] at h1
    rw [hk, h1.2.1, h1.2.2]
  rw [← this]; exact hc

theorem readsAs_hardcoded {json : String → R String} {high : Bool} {p : Params} {s : String}
    {t : AkType} (hp : ReadableParams json high p) (e : lexWord s = ok (.hardcoded s))
    (ht : hardcodedType p.isCategorical s = ok t) :
    ReadsAs json high false (p.wrap [.word s]) t := by
  refine ReadsAs.wrap hp ?_
  intro f rest hf hr
  cases f with
  | zero => simp at hf
  | succ f =>
    simp only [List.cons_append, List.nil_append]
    rw [readType, e]
    simp [ht]

theorem readsAs_list {json : String → R String} {high : Bool} {p : Params} {t : AkType}
    (hp : ReadableParams json high p) (h : ReadsAs json high false t.text t) :
    ReadsAs json high false (AkType.list { params := p } t).text (.list { params := p } t) := by
  rw [AkType.text]
  refine ReadsAs.wrap hp ?_
  intro f rest hf hr
  rw [if_neg (by simp)] at hf ⊢
  have e : lexWord "var" = ok (.keyword "var") := by rfl
  dsimp only at hf ⊢
  have hc := ReadableParams.cat_plain hp
  cases f with
  | zero => split at hf <;> simp at hf
  | succ f =>
    split
    · rename_i hl
      rw [if_pos hl] at hf
      rw [Params.plain_bare ((bare_iff hp).mp hl)] at hc
      simp only [List.cons_append, List.nil_append, List.length_cons, List.length_append] at hf ⊢
      rw [readType, e]
      have h1 := h f rest (by omega) hr
      simp [expect_self, h1, hc]
    · rename_i hl
      rw [if_neg hl] at hf
      simp only [List.cons_append, List.nil_append, List.append_assoc, List.length_cons,
        List.length_append] at hf ⊢
      rw [readType]
      have h1 := h f (.sym ',' :: (p.text ++ .sym ']' :: rest)) (by omega) (by simp)
      simp [expect_self, h1, readParams_ok hp, hc]

theorem readsAs_regular {json : String → R String} {high : Bool} {p : Params} {t : AkType} {n : Nat}
    (hp : ReadableParams json high p) (h : ReadsAs json high false t.text t)
    (hb : Bare p → high = false) :
    ReadsAs json high false (AkType.regular { params := p } t n).text
      (.regular { params := p } t n) := by
  rw [AkType.text]
  refine ReadsAs.wrap hp ?_
  intro f rest hf hr
  rw [if_neg (by simp)] at hf ⊢
  dsimp only at hf ⊢
  have hc := ReadableParams.cat_plain hp
  cases f with
  | zero => split at hf <;> simp at hf
  | succ f =>
    split
    · rename_i hl
      rw [if_pos hl] at hf
      have hbare := (bare_iff hp).mp hl
      have hh := hb hbare
      subst hh
      obtain ⟨_, _, _, hcat⟩ := ReadableParams.shape hp
      have hcat : p.isCategorical = false := by simpa using hcat
      rw [Params.plain_bare hbare, hcat] at hc
      rw [hcat]
      simp only [List.cons_append, List.nil_append, List.length_cons, List.length_append] at hf ⊢
      rw [readType]
      have h1 := h f rest (by omega) hr
      have h2 : p = {} := by
        have := congrArg TyMeta.params hc
        exact this.symm
      subst h2
      simp [expect_self, h1]
    · rename_i hl
      rw [if_neg hl] at hf
      simp only [List.cons_append, List.nil_append, List.append_assoc, List.length_cons,
        List.length_append] at hf ⊢
      rw [readType]
      have h1 := h f (.sym ',' :: (p.text ++ .sym ']' :: rest)) (by omega) (by simp)
      simp [expect_self, h1, readParams_ok hp, hc]

theorem AkType.isListType_iff (t : AkType) :
    t.isListType = true ↔ (∃ m u, t = .list m u) ∨ (∃ m u n, t = .regular m u n) := by
  cases t <;> simp [AkType.isListType]

theorem readsAs_option {json : String → R String} {high : Bool} {p : Params} {t : AkType}
    (hp : ReadableParams json high p) (h : ReadsAs json high false t.text t)
    (hb : Bare p → t.isListType = true → high = true) :
    ReadsAs json high false (AkType.option { params := p } t).text (.option { params := p } t) := by
  rw [AkType.text]
  refine ReadsAs.wrap hp ?_
  intro f rest hf hr
  rw [if_neg (by simp)] at hf ⊢
  have e : lexWord "option" = ok (.keyword "option") := by rfl
  dsimp only at hf ⊢
  have hc := ReadableParams.cat_plain hp
  cases f with
  | zero => split at hf <;> try split at hf
            all_goals simp at hf
  | succ f =>
    split
    · rename_i hl
      rw [if_pos hl] at hf
      have hbare := (bare_iff hp).mp hl
      rw [Params.plain_bare hbare] at hc
      split
      · rename_i ht
        rw [if_pos ht] at hf
        have hh := hb hbare ht
        subst hh
        simp only [List.cons_append, List.nil_append, List.append_assoc, List.length_cons,
          List.length_append] at hf ⊢
        rw [readType, e]
        have h1 := h f (.sym ']' :: rest) (by omega) (by simp)
        simp [expect_self, h1, hc]
      · rename_i ht
        rw [if_neg ht] at hf
        simp only [List.cons_append, List.nil_append, List.append_assoc, List.length_cons,
          List.length_append] at hf ⊢
        rw [readType]
        have h1 := h f rest (by omega) hr
        simp [h1, readOptions_none json hr, hc]
    · rename_i hl
      rw [if_neg hl] at hf
      simp only [List.cons_append, List.nil_append, List.append_assoc, List.length_cons,
        List.length_append] at hf ⊢
      rw [readType, e]
      have h1 := h f (.sym ',' :: (p.text ++ .sym ']' :: rest)) (by omega) (by simp)
      simp [expect_self, h1, readParams_ok hp, hc]

theorem readsAs_array {json : String → R String} {t : AkType} {n : Nat}
    (h : ReadsAs json true false t.text t) :
    ReadsAs json true false (AkType.array {} t n).text (.array {} t n) := by
  rw [AkType.text, if_neg (by simp)]
  intro f rest hf hr
  cases f with
  | zero => simp at hf
  | succ f =>
    simp only [List.cons_append, List.nil_append, List.length_cons] at hf ⊢
    rw [readType]
    have h1 := h f rest (by omega) hr
    simp [expect_self, h1]

/-! ### Members -/

theorem AkType.texts_eq (ts : List AkType) : AkType.texts ts = ts.map AkType.text := by
  induction ts with
  | nil => rfl
  | cons t ts ih => rw [AkType.texts, ih]; rfl

theorem commas_cons (x y : List Tok) (xs : List (List Tok)) :
    commas (x :: y :: xs) = x ++ .sym ',' :: commas (y :: xs) := rfl

theorem commas_append_head {x : List Tok} {xs : List (List Tok)} (hx : x ≠ []) (rest : List Tok) :
    (commas (x :: xs) ++ rest).head? = x.head? := by
  cases x with
  | nil => exact absurd rfl hx
  | cons a x =>
    cases xs with
    | nil => rfl
    | cons y xs => rfl

/-- Text that begins like a type. -/
def Begins (text : List Tok) : Prop := text ≠ [] ∧ text.head? ≠ some (.word "parameters")

theorem readTypes_ok {json : String → R String} {high : Bool} : ∀ {ts : List AkType}, ts ≠ [] →
    (∀ t ∈ ts, ReadsAs json high false t.text t ∧ Begins t.text) →
    ∀ (f : Nat) (rest : List Tok), 2 * (commas (ts.map AkType.text)).length + 1 ≤ f →
    rest.head? ≠ some (.sym '[') →
    (rest.head? ≠ some (.sym ',') ∨ ∃ r, rest = .sym ',' :: .word "parameters" :: r) →
    readTypes json high f (commas (ts.map AkType.text) ++ rest) = ok (ts, rest)
  | [], h, _, _, _, _, _, _ => absurd rfl h
  | [t], _, h, f, rest, hf, hr, hs => by
    obtain ⟨h1, _⟩ := h t (by simp)
    cases f with
    | zero => omega
    | succ f =>
      simp only [List.map_cons, List.map_nil, commas] at hf ⊢
      have h2 := h1 f rest (by omega) hr
      rw [readTypes, h2]
      simp only [R.bind_ok]
      rcases hs with hs | ⟨r, rfl⟩
      · split
        · exact absurd rfl hs
        · exact absurd rfl hs
        · rfl
      · rfl
  | t :: t' :: ts, _, h, f, rest, hf, hr, hs => by
    obtain ⟨h1, _⟩ := h t (by simp)
    obtain ⟨_, hb1, hb2⟩ := h t' (by simp)
    cases f with
    | zero => omega
    | succ f =>
      have ih := readTypes_ok (ts := t' :: ts) (by simp)
        (fun x hx => h x (List.mem_cons_of_mem _ hx)) f rest
      simp only [List.map_cons, commas_cons, List.append_assoc, List.cons_append,
        List.length_append, List.length_cons] at hf ih ⊢
      have h2 := h1 f (.sym ',' :: (commas (t'.text :: ts.map AkType.text) ++ rest)) (by omega)
        (by simp)
      rw [readTypes, h2]
      simp only [R.bind_ok]
      have hhead := commas_append_head (xs := ts.map AkType.text) hb1 rest
      rw [← hhead] at hb2
      split
      · rename_i r hr'
        simp only [List.cons.injEq, true_and] at hr'
        rw [hr'] at hb2
        exact absurd rfl hb2
      · rename_i r _ hr'
        simp only [List.cons.injEq, true_and] at hr'
        rw [← hr', ih (by omega) hr hs]
        rfl
      · rename_i _ hno
        exact absurd rfl (hno _)

theorem readFields_ok {json : String → R String} {high : Bool} : ∀ {ks : List String}
    {ts : List AkType}, ts ≠ [] → ks.length = ts.length → (∀ k ∈ ks, Unescaped k) →
    (∀ t ∈ ts, ReadsAs json high false t.text t) →
    ∀ (f : Nat) (rest : List Tok),
    2 * (commas (keyed (some ks) (ts.map AkType.text))).length + 1 ≤ f →
    rest.head? ≠ some (.sym '[') → rest.head? ≠ some (.sym ',') →
    readFields json high f (commas (keyed (some ks) (ts.map AkType.text)) ++ rest) =
      ok (ks, ts, rest)
  | _, [], h, _, _, _, _, _, _, _, _ => absurd rfl h
  | [], _ :: _, _, h, _, _, _, _, _, _, _ => by simp at h
  | [k], [t], _, _, hk, h, f, rest, hf, hr, hs => by
    have h1 := h t (by simp)
    have hk1 := hk k (by simp)
    cases f with
    | zero => omega
    | succ f =>
      simp only [List.map_cons, List.map_nil, keyed, List.zipWith_cons_cons, List.zipWith_nil_left,
        commas, List.cons_append, List.length_cons] at hf ⊢
      have h2 := h1 f rest (by omega) hr
      rw [readFields, readString_escape hk1]
      simp only [R.bind_ok, expect_self, h2]
      split
      · exact absurd rfl hs
      · rfl
  | [_], _ :: _ :: _, _, h, _, _, _, _, _, _, _ => by simp at h
  | _ :: _ :: _, [_], _, h, _, _, _, _, _, _, _ => by simp at h
  | k :: k' :: ks, t :: t' :: ts, _, hl, hk, h, f, rest, hf, hr, hs => by
    have h1 := h t (by simp)
    have hk1 := hk k (by simp)
    cases f with
    | zero => omega
    | succ f =>
      have ih := readFields_ok (ks := k' :: ks) (ts := t' :: ts) (by simp) (by simpa using hl)
        (fun x hx => hk x (List.mem_cons_of_mem _ hx))
        (fun x hx => h x (List.mem_cons_of_mem _ hx)) f rest
      have e : commas (keyed (some (k :: k' :: ks))
          ((t :: t' :: ts).map AkType.text)) ++ rest =
          .quoted (escape k) :: .sym ':' :: (t.text ++ .sym ',' ::
            (commas (keyed (some (k' :: ks)) ((t' :: ts).map AkType.text)) ++ rest)) := by
        simp only [List.map_cons, keyed, List.zipWith_cons_cons, commas_cons, List.cons_append,
          List.append_assoc]
      have el : (commas (keyed (some (k :: k' :: ks)) ((t :: t' :: ts).map AkType.text))).length =
          t.text.length + (commas (keyed (some (k' :: ks))
            ((t' :: ts).map AkType.text))).length + 3 := by
        simp only [List.map_cons, keyed, List.zipWith_cons_cons, commas_cons, List.cons_append,
          List.length_append, List.length_cons]
        omega
      rw [el] at hf
      rw [e]
      have h2 := h1 f (.sym ',' :: (commas (keyed (some (k' :: ks))
        ((t' :: ts).map AkType.text)) ++ rest)) (by omega) (by simp)
      rw [readFields, readString_escape hk1]
      simp only [R.bind_ok, expect_self, h2, ih (by omega) hr hs]

theorem readKeys_ok : ∀ {ks : List String}, ks ≠ [] → (∀ k ∈ ks, Unescaped k) →
    ∀ rest : List Tok,
    readKeys (commas (ks.map (fun k => [Tok.quoted (escape k)])) ++ .sym ']' :: rest) =
      ok (ks, rest)
  | [], h, _, _ => absurd rfl h
  | [k], _, h, rest => by
    have h1 := readString_escape (h k (by simp)) []
    simp only [List.map_cons, List.map_nil, commas, List.cons_append, List.nil_append]
    rw [readKeys, h1]
    rfl
  | k :: k' :: ks, _, h, rest => by
    have h1 := readString_escape (h k (by simp)) []
    have ih := readKeys_ok (ks := k' :: ks) (by simp)
      (fun x hx => h x (List.mem_cons_of_mem _ hx)) rest
    simp only [List.map_cons, commas_cons, List.cons_append, List.nil_append] at ih ⊢
    rw [readKeys, h1]
    simp only [R.bind_ok, ih]

theorem readsAs_union {json : String → R String} {high : Bool} {p : Params} {ts : List AkType}
    (hp : ReadableParams json high p) (hne : ts ≠ [])
    (h : ∀ t ∈ ts, ReadsAs json high false t.text t ∧ Begins t.text) :
    ReadsAs json high false (AkType.union { params := p } ts).text (.union { params := p } ts) := by
  rw [AkType.text, AkType.texts_eq]
  refine ReadsAs.wrap hp ?_
  intro f rest hf hr
  rw [if_neg (by simp)] at hf ⊢
  have e : lexWord "union" = ok (.keyword "union") := by rfl
  dsimp only at hf ⊢
  have hc := ReadableParams.cat_plain hp
  cases f with
  | zero => simp at hf
  | succ f =>
    split
    · rename_i hl
      rw [if_pos hl] at hf
      rw [Params.plain_bare ((bare_iff hp).mp hl)] at hc
      simp only [List.cons_append, List.nil_append, List.append_assoc, List.append_nil,
        List.length_cons, List.length_append, List.length_nil] at hf ⊢
      rw [readType, e]
      have h1 := readTypes_ok hne h f (.sym ']' :: rest) (by omega) (by simp) (Or.inl (by simp))
      simp [expect_self, h1, hc]
    · rename_i hl
      rw [if_neg hl] at hf
      simp only [List.cons_append, List.nil_append, List.append_assoc, List.length_cons,
        List.length_append, List.length_nil] at hf ⊢
      rw [readType, e]
      have h1 := readTypes_ok hne h f (.sym ',' :: (p.text ++ .sym ']' :: rest)) (by omega)
        (by simp) (Or.inr ⟨_, rfl⟩)
      simp [expect_self, h1, readParams_ok hp, hc]

theorem shownName_none {p : Params} (h : ∀ n, ¬ (p = { recName := some n } ∧
    isName n = true ∧ n ∉ datashapeKeywords)) : p.shownName = none := by
  unfold Params.shownName
  cases hr : p.recName with
  | none => rfl
  | some n =>
    dsimp only
    rw [if_neg]
    rintro ⟨h1, h2, h3⟩
    refine h n ⟨?_, h2, h3⟩
    obtain ⟨arr, rn, other⟩ := p
    dsimp only at hr
    subst hr
    unfold Params.size at h1
    simp only [Option.isNone_some, Bool.false_eq_true, if_false] at h1
    have h4 : other = [] := by rw [← List.length_eq_zero_iff]; omega
    have h5 : arr = .none := by
      refine Classical.byContradiction fun hc => ?_
      rw [if_neg hc] at h1; omega
    rw [h4, h5]

theorem readsAs_tuple {json : String → R String} {high : Bool} {p : Params} {ts : List AkType}
    (hp : ReadableParams json high p) (hs : p.shownName = none) (hne : ts ≠ [])
    (h : ∀ t ∈ ts, ReadsAs json high false t.text t ∧ Begins t.text) :
    ReadsAs json high false (AkType.record { params := p } none ts).text
      (.record { params := p } none ts) := by
  rw [AkType.text, AkType.texts_eq]
  refine ReadsAs.wrap hp ?_
  intro f rest hf hr
  rw [if_neg (by simp)] at hf ⊢
  have e : lexWord "tuple" = ok (.keyword "tuple") := by rfl
  unfold AkType.recordText at hf ⊢
  dsimp only at hf ⊢
  rw [hs] at hf ⊢
  dsimp only at hf ⊢
  have hc := ReadableParams.cat_plain hp
  cases f with
  | zero => split at hf <;> simp at hf
  | succ f =>
    split
    · rename_i hl
      rw [if_pos hl] at hf
      rw [Params.plain_bare ((bare_iff hp).mp hl)] at hc
      simp only [List.cons_append, List.nil_append, List.append_assoc,
        List.length_cons, List.length_append, List.length_nil] at hf ⊢
      rw [readType]
      have h1 := readTypes_ok hne h f (.sym ')' :: rest) (by omega) (by simp) (Or.inl (by simp))
      simp [expect_self, h1, hc]
    · rename_i hl
      rw [if_neg hl] at hf
      simp only [List.cons_append, List.nil_append, List.append_assoc, List.length_cons,
        List.length_append, List.length_nil] at hf ⊢
      rw [readType, e]
      have h1 := readTypes_ok hne h f (.sym ']' :: .sym ',' :: (p.text ++ .sym ']' :: rest))
        (by omega) (by simp) (Or.inl (by simp))
      simp [expect_self, h1, readParams_ok hp, hc]

theorem readsAs_record {json : String → R String} {high : Bool} {p : Params} {ks : List String}
    {ts : List AkType} (hp : ReadableParams json high p) (hs : p.shownName = none) (hne : ts ≠ [])
    (hl : ks.length = ts.length) (hk : ∀ k ∈ ks, Unescaped k)
    (h : ∀ t ∈ ts, ReadsAs json high false t.text t ∧ Begins t.text) :
    ReadsAs json high false (AkType.record { params := p } (some ks) ts).text
      (.record { params := p } (some ks) ts) := by
  rw [AkType.text, AkType.texts_eq]
  refine ReadsAs.wrap hp ?_
  intro f rest hf hr
  rw [if_neg (by simp)] at hf ⊢
  have e : lexWord "struct" = ok (.keyword "struct") := by rfl
  unfold AkType.recordText at hf ⊢
  dsimp only at hf ⊢
  rw [hs] at hf ⊢
  dsimp only at hf ⊢
  have hc := ReadableParams.cat_plain hp
  have hkne : ks ≠ [] := by
    rintro rfl
    exact hne (List.length_eq_zero_iff.mp hl.symm)
  cases f with
  | zero => split at hf <;> simp at hf
  | succ f =>
    split
    · rename_i hb
      rw [if_pos hb] at hf
      rw [Params.plain_bare ((bare_iff hp).mp hb)] at hc
      simp only [List.cons_append, List.nil_append, List.append_assoc,
        List.length_cons, List.length_append, List.length_nil] at hf ⊢
      rw [readType]
      have h1 := readFields_ok hne hl hk (fun t ht => (h t ht).1) f (.sym '}' :: rest) (by omega)
        (by simp) (by simp)
      simp [expect_self, h1, hc]
    · rename_i hb
      rw [if_neg hb] at hf
      simp only [List.cons_append, List.nil_append, List.append_assoc, List.length_cons,
        List.length_append, List.length_nil] at hf ⊢
      rw [readType, e]
      have h1 := readTypes_ok hne h f (.sym ']' :: .sym ',' :: (p.text ++ .sym ']' :: rest))
        (by omega) (by simp) (Or.inl (by simp))
      simp [expect_self, readKeys_ok hkne hk, h1, readParams_ok hp, hc, hl]

theorem readsAs_named {json : String → R String} {n : String} {ks : List String}
    {ts : List AkType} (hn : RecordName n) (hnk : n ∉ datashapeKeywords) (hne : ts ≠ [])
    (hl : ks.length = ts.length) (hk : ∀ k ∈ ks, Unescaped k)
    (h : ∀ t ∈ ts, ReadsAs json true false t.text t ∧ Begins t.text) :
    ReadsAs json true false (AkType.record { params := { recName := some n } } (some ks) ts).text
      (.record { params := { recName := some n } } (some ks) ts) := by
  rw [AkType.text, AkType.texts_eq]
  have hw : ∀ text : List Tok, ({ recName := some n } : Params).wrap text = text := fun _ => rfl
  rw [hw]
  intro f rest hf hr
  rw [if_neg (by simp)] at hf ⊢
  unfold AkType.recordText at hf ⊢
  dsimp only at hf ⊢
  rw [recordName_shown hn hnk] at hf ⊢
  dsimp only at hf ⊢
  cases f with
  | zero => simp at hf
  | succ f =>
    simp only [List.cons_append, List.nil_append, List.append_assoc,
      List.length_cons, List.length_append, List.length_nil] at hf ⊢
    rw [readType, lexWord_name hn]
    have h1 := readFields_ok hne hl hk (fun t ht => (h t ht).1) f (.sym ']' :: rest) (by omega)
      (by simp) (by simp)
    simp [expect_self, h1, catParams]

theorem Begins.wrap (p : Params) {text : List Tok} (h : Begins text) : Begins (p.wrap text) := by
  unfold Params.wrap
  split
  · exact ⟨by simp, by simp⟩
  · exact h

theorem begins_cons {t : Tok} {rest : List Tok} (h : t ≠ .word "parameters") :
    Begins (t :: rest) := ⟨by simp, by simpa using h⟩

theorem begins_text {json : String → R String} {high : Bool} {t : AkType}
    (h : Readable json high t) : Begins t.text := by
  cases h with
  | unknown hp =>
    rw [AkType.text]; refine Begins.wrap _ ?_
    rw [if_neg (by simp)]
    split <;> exact begins_cons (by decide)
  | @prim p dt hp hd =>
    rw [AkType.text]; refine Begins.wrap _ ?_
    have : Tok.word dt.name ≠ .word "parameters" := by cases dt <;> decide
    rw [if_neg (by simp)]
    split <;> exact begins_cons this
  | char | byte | string | bytes =>
    rw [AkType.text]; refine Begins.wrap _ ?_
    rw [if_pos (by simp)]
    exact begins_cons (by simp)
  | list hp ht =>
    rw [AkType.text]; refine Begins.wrap _ ?_
    rw [if_neg (by simp)]
    split <;> exact begins_cons (by decide)
  | regular hp ht =>
    rw [AkType.text]; refine Begins.wrap _ ?_
    rw [if_neg (by simp)]
    split <;> exact begins_cons (by simp)
  | option hp ht =>
    rw [AkType.text]; refine Begins.wrap _ ?_
    rw [if_neg (by simp)]
    split <;> try split
    all_goals exact begins_cons (by decide)
  | @named n ks ts hn hnk =>
    rw [AkType.text]; refine Begins.wrap _ ?_
    rw [if_neg (by simp)]
    unfold AkType.recordText
    dsimp only
    rw [recordName_shown hn hnk]
    refine begins_cons ?_
    intro hc
    have : n = "parameters" := by simpa using hc
    subst this
    exact hn.2.2 "parameters" (by decide) (List.prefix_refl _)
  | tuple hp hs =>
    rw [AkType.text]; refine Begins.wrap _ ?_
    rw [if_neg (by simp)]
    unfold AkType.recordText
    dsimp only
    rw [shownName_none hs]
    dsimp only
    split <;> exact begins_cons (by decide)
  | record hp hs =>
    rw [AkType.text]; refine Begins.wrap _ ?_
    rw [if_neg (by simp)]
    unfold AkType.recordText
    dsimp only
    rw [shownName_none hs]
    dsimp only
    split <;> exact begins_cons (by decide)
  | union hp hne =>
    rw [AkType.text]; refine Begins.wrap _ ?_
    rw [if_neg (by simp)]
    exact begins_cons (by decide)
  | array =>
    rw [AkType.text, if_neg (by simp)]
    exact begins_cons (by simp)

theorem readsAs_readable {json : String → R String} {high : Bool} {t : AkType}
    (h : Readable json high t) : ReadsAs json high false t.text t := by
  induction h with
  | unknown hp => exact readsAs_unknown hp
  | prim hp hd => exact readsAs_prim hp hd
  | char hp hb hk =>
    rw [AkType.text, if_pos (by simp)]
    refine readsAs_hardcoded hp (by rfl) ?_
    have := bare_array hp hb hk
    rw [hardcodedType, this]
  | byte hp hb hk =>
    rw [AkType.text, if_pos (by simp)]
    refine readsAs_hardcoded hp (by rfl) ?_
    have := bare_array hp hb hk
    rw [hardcodedType, this]
  | string hp hb hk =>
    rw [AkType.text, if_pos (by simp)]
    refine readsAs_hardcoded hp (by rfl) ?_
    have := bare_array hp hb hk
    rw [hardcodedType, this]
  | bytes hp hb hk =>
    rw [AkType.text, if_pos (by simp)]
    refine readsAs_hardcoded hp (by rfl) ?_
    have := bare_array hp hb hk
    rw [hardcodedType, this]
  | list hp _ ih => exact readsAs_list hp ih
  | regular hp _ hb ih => exact readsAs_regular hp ih hb
  | option hp _ hb ih =>
    exact readsAs_option hp ih (fun h1 h2 => hb h1 ((AkType.isListType_iff _).mp h2))
  | named hn hnk hh hne hl hk hr ih =>
    subst hh
    exact readsAs_named hn hnk hne hl hk (fun t ht => ⟨ih t ht, begins_text (hr t ht)⟩)
  | tuple hp hs hne hr ih =>
    exact readsAs_tuple hp (shownName_none hs) hne
      (fun t ht => ⟨ih t ht, begins_text (hr t ht)⟩)
  | record hp hs hne hl hk hr ih =>
    exact readsAs_record hp (shownName_none hs) hne hl hk
      (fun t ht => ⟨ih t ht, begins_text (hr t ht)⟩)
  | union hp hne hr ih =>
    exact readsAs_union hp hne (fun t ht => ⟨ih t ht, begins_text (hr t ht)⟩)
  | array hh _ ih =>
    subst hh
    exact readsAs_array ih

end Awk
