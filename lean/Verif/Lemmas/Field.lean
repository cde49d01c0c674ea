import Verif.Lemmas.ListOps
import Verif.Model.Field
import Verif.Spec.Shape
/-
Selecting fields of records by name.
-/

namespace Awk
open R

/-! ### Names of fields -/

theorem toString_inj {i j : Nat} (h : toString i = toString j) : i = j := by
  have h' := congrArg String.toList h
  simp only [Nat.toString_eq_repr, Nat.toList_repr] at h'
  have := congrArg (fun l => Nat.ofDigitChars 10 l 0) h'
  simpa only [Nat.ofDigitChars_ten_toDigits] using this

theorem stoi_digits {l : List Char} (hne : l ≠ []) (hd : ∀ c ∈ l, c.isDigit = true)
    (hlt : Nat.ofDigitChars 10 l 0 < 2 ^ 31) : stoi l = ok (Nat.ofDigitChars 10 l 0 : Int) := by
  have key : ∀ (l : List Char) (n : Nat), (∀ c ∈ l, c.isDigit = true) →
      l.foldl (fun (n : Int) c => 10 * n + ((c.toNat : Int) - ('0'.toNat : Int))) (n : Int)
        = (Nat.ofDigitChars 10 l n : Int) := by
    intro l
    induction l with
    | nil => intro n _; rfl
    | cons c l ih =>
      intro n h
      have h1 := h c List.mem_cons_self
      simp only [Char.isDigit, Bool.and_eq_true, decide_eq_true_eq] at h1
      have h48 : 48 ≤ c.toNat := h1.1
      simp only [List.foldl_cons, Nat.ofDigitChars_cons]
      rw [← ih _ (fun c hc => h c (List.mem_cons_of_mem _ hc))]
      congr 1
      have : '0'.toNat = 48 := rfl
      rw [this]
      push_cast
      omega
  obtain ⟨c, t, rfl⟩ := List.exists_cons_of_ne_nil hne
  have hc := hd c List.mem_cons_self
  have hcd := hc
  simp only [Char.isDigit, Bool.and_eq_true, decide_eq_true_eq] at hc
  have h48 : 48 ≤ c.toNat := hc.1
  have h57 : c.toNat ≤ 57 := hc.2
  have hsp : isSpace c = false := by
    unfold isSpace
    have : c ≠ ' ' := by rintro rfl; simp at h48
    simp only [this, decide_false, Bool.false_or]
    have : ¬ c.toNat ≤ 13 := by omega
    simp [this]
  have h1 : (c :: t).dropWhile isSpace = c :: t := by simp [hsp]
  have hm : c ≠ '-' := by rintro rfl; simp at h48
  have hp : c ≠ '+' := by rintro rfl; simp at h48
  have h2 : (c :: t).takeWhile Char.isDigit = c :: t := by
    have tw : ∀ l : List Char, (∀ c ∈ l, c.isDigit = true) → l.takeWhile Char.isDigit = l := by
      intro l
      induction l with
      | nil => intro _; rfl
      | cons a l ih =>
        intro h
        rw [List.takeWhile_cons, if_pos (h a List.mem_cons_self),
          ih fun c hc => h c (List.mem_cons_of_mem _ hc)]
    exact tw _ hd
  have := key (c :: t) 0 hd
  simp only [Nat.cast_zero] at this
  unfold stoi
  simp only [h1, List.head?_cons, Option.some.injEq, hm, hp, or_self, if_false, h2, this]
  rw [if_neg (by simp), if_pos (by omega)]

theorem stoi_toString {i : Nat} (h : i < 2 ^ 31) : stoi (toString i).toList = ok (i : Int) := by
  simp only [Nat.toString_eq_repr, Nat.toList_repr]
  have := stoi_digits (l := Nat.toDigits 10 i) Nat.toDigits_ne_nil
    (fun c hc => Nat.isDigit_of_mem_toDigits (by omega) (by omega) hc)
    (by rw [Nat.ofDigitChars_ten_toDigits]; exact h)
  rw [this, Nat.ofDigitChars_ten_toDigits]

theorem fieldIndex_ok {keys : Option (List String)} {n : Nat} {key : String} {i : Nat}
    (h : Content.Named keys n key i) : fieldIndex keys key n = ok (i : Int) := by
  obtain ⟨hi, h⟩ := h
  unfold fieldIndex
  cases keys with
  | some ks =>
    obtain ⟨h1, h2⟩ := h
    obtain ⟨hb, h1⟩ := List.getElem?_eq_some_iff.mp h1
    have : ks.findIdx? (fun k => k == key) = some i := by
      rw [List.findIdx?_eq_some_iff_getElem]
      refine ⟨hb, by simp [h1], fun j hj => ?_⟩
      have := h2 j hj
      rw [List.getElem?_eq_getElem (by omega)] at this
      simpa using this
    simp only [Option.bind_some, this]
  | none =>
    obtain ⟨rfl, h2⟩ := h
    simp only [Option.bind_none]
    rw [stoi_toString h2, bind_ok, if_neg (by omega)]

theorem lookup_zip {ks : List String} {vs : List Val} {key : String} {i : Nat}
    (h1 : ks[i]? = some key) (h2 : ∀ j, j < i → ks[j]? ≠ some key) (hi : i < vs.length) :
    (ks.zip vs).lookup key = some vs[i] := by
  induction ks generalizing vs i with
  | nil => simp at h1
  | cons k ks ih =>
    cases vs with
    | nil => simp at hi
    | cons v vs =>
      simp only [List.zip_cons_cons, List.lookup_cons]
      cases i with
      | zero =>
        simp only [List.getElem?_cons_zero, Option.some.injEq] at h1
        simp [h1]
      | succ i =>
        have h0 := h2 0 (by omega)
        simp only [List.getElem?_cons_zero, ne_eq, Option.some.injEq] at h0
        have hne : (key == k) = false := by simpa using fun h => h0 h.symm
        rw [hne]
        simp only [List.getElem_cons_succ]
        refine ih (by simpa using h1) (fun j hj => ?_) (by simpa using hi)
        have := h2 (j + 1) (by omega)
        simpa using this

theorem lookup_zipIdx {vs : List Val} {i n : Nat} (hi : i < vs.length) :
    ((vs.zipIdx n).map (fun vi => (toString vi.2, vi.1))).lookup (toString (n + i)) = some vs[i] := by
  induction vs generalizing i n with
  | nil => simp at hi
  | cons v vs ih =>
    simp only [List.zipIdx_cons, List.map_cons, List.lookup_cons]
    cases i with
    | zero => simp
    | succ i =>
      have hne : (toString (n + (i + 1)) == toString n) = false := by
        simp only [beq_eq_false_iff_ne, ne_eq]
        intro h; have := toString_inj h; omega
      rw [hne]
      have := ih (i := i) (n := n + 1) (by simpa using hi)
      rw [show n + 1 + i = n + (i + 1) by omega] at this
      simpa using this

theorem field_mkRecord {keys : Option (List String)} {vs : List Val} {key : String} {i : Nat}
    (h : Content.Named keys vs.length key i) :
    Val.field key (mkRecord keys vs) = vs[i]'h.1 := by
  obtain ⟨hi, h⟩ := h
  cases keys with
  | some ks =>
    simp only [mkRecord, Val.field, Val.named]
    rw [lookup_zip h.1 h.2 hi]; rfl
  | none =>
    obtain ⟨rfl, _⟩ := h
    simp only [mkRecord, Val.field, Val.named]
    have := lookup_zipIdx (n := 0) hi
    simp only [Nat.zero_add] at this
    rw [this]; rfl

namespace Val

theorem selectFieldsList_eq (s : FieldSel) (g : Val → Val) (vs : List Val) :
    selectFieldsList s g vs = vs.map (selectFields s g) := by
  induction vs with
  | nil => rfl
  | cons v vs ih => simp [selectFieldsList, ih]

theorem selectFields_null (s : FieldSel) (g : Val → Val) : selectFields s g .null = .null := by
  simp [selectFields]

theorem selectFields_list (s : FieldSel) (g : Val → Val) {p : Params} (hp : p.arr = .none)
    (vs : List Val) : selectFields s g (wrapList p vs) = .list (vs.map (selectFields s g)) := by
  simp [wrapList, hp, selectFields, selectFieldsList_eq]

theorem selectFields_one (key : String) (g : Val → Val) (keys : Option (List String))
    (vs : List Val) :
    selectFields (.one key) g (mkRecord keys vs) = g (field key (mkRecord keys vs)) := by
  cases keys <;> simp [mkRecord, selectFields]

theorem selectFields_many (names : List String) (g : Val → Val) (keys : Option (List String))
    (vs : List Val) :
    selectFields (.many names) g (mkRecord keys vs)
      = mkRecord (keys.map (fun _ => names))
          (names.map (fun key => g (field key (mkRecord keys vs)))) := by
  cases keys with
  | none => simp [mkRecord, selectFields]
  | some ks =>
    simp only [mkRecord, selectFields, Option.map_some, Val.record.injEq]
    induction names with
    | nil => rfl
    | cons k names ih => simp [ih]

end Val

namespace Content

/-! ### Simplifying -/

theorem indexedSimplify_children {b : Bool} {p : Params} {index : List Int} {c c' : Content}
    (hg : c.Good) (h : indexedSimplify b p index c = ok c') : ∀ d ∈ c'.children, d.Good := by
  simp only [indexedSimplify, bind_eq_ok] at h
  obtain ⟨o, h1, h2⟩ := h
  have hin : ∀ x ix d, o = some (x, ix, d) → d.Good := by
    rintro x ix d rfl
    cases c <;> simp only [innerIndex, bind_eq_ok, ok.injEq, reduceCtorEq, Option.some.injEq,
      Prod.mk.injEq] at h1
    case indexed => exact h1.2.2 ▸ hg.child (by simp [children])
    case indexedOption => exact h1.2.2 ▸ hg.child (by simp [children])
    case byteMasked =>
      obtain ⟨_, _, _, _, rfl⟩ := h1
      exact hg.child (by simp [children])
    case bitMasked =>
      obtain ⟨_, _, _, _, rfl⟩ := h1
      exact hg.child (by simp [children])
    case unmasked =>
      obtain ⟨_, _, _, _, rfl⟩ := h1
      exact hg.child (by simp [children])
  cases o with
  | none =>
    simp only [ok.injEq] at h2; subst h2
    cases b <;> simpa [children] using hg
  | some t =>
    obtain ⟨x, ix, d⟩ := t
    have hd := hin x ix d rfl
    simp only [bind_eq_ok, ok.injEq] at h2
    obtain ⟨r, _, rfl⟩ := h2
    split <;> simpa [children] using hd

theorem simplifyOption_children {c c' : Content} (hg : c.Good) (h : c.simplifyOption = ok c') :
    ∀ d ∈ c'.children, d.Good := by
  cases c <;> simp only [simplifyOption] at h
  case indexed => exact indexedSimplify_children (hg.child (by simp [children])) h
  case indexedOption => exact indexedSimplify_children (hg.child (by simp [children])) h
  case byteMasked =>
    split at h
    · simp only [bind_eq_ok] at h
      obtain ⟨_, _, h⟩ := h
      exact indexedSimplify_children (hg.child (by simp [children])) h
    · simp only [ok.injEq] at h; subst h
      exact fun d hd => hg.child hd
  case bitMasked =>
    split at h
    · simp only [bind_eq_ok] at h
      obtain ⟨_, _, h⟩ := h
      exact indexedSimplify_children (hg.child (by simp [children])) h
    · simp only [ok.injEq] at h; subst h
      exact fun d hd => hg.child hd
  case unmasked p d =>
    have hd : d.Good := hg.child (by simp [children])
    split at h
    · simp only [ok.injEq] at h; subst h
      exact fun d hd' => hd.child hd'
    · simp only [ok.injEq] at h; subst h
      exact fun d hd => hg.child hd
  all_goals simp only [ok.injEq] at h; subst h; exact fun d hd => hg.child hd

/-- `simplify_optiontype` keeps the elements. -/
theorem simplifyOption_good {c : Content} (hg : c.Good) :
    ∃ c', c.simplifyOption = ok c' ∧ c'.Good ∧ c'.len = c.len ∧
      ∀ i, i < c.len → c'.valD i = c.valD i := by
  obtain ⟨c', h1, h2, h3, _⟩ := simplifyOption_ok hg.wf hg.toList
  obtain ⟨h6, h7⟩ := toList_inv h2
  have hlen : c'.len = c.len := by
    have := congrArg List.length h6
    simpa using this.symm
  refine ⟨c', h1, ⟨h3, h7, simplifyOption_children hg h1⟩, hlen, ?_⟩
  intro i hi
  have h8 := congrArg (fun l => l[i]?) h6
  simp only [List.getElem?_map, List.getElem?_range hi, List.getElem?_range (hlen ▸ hi),
    Option.map_some, Option.some.injEq] at h8
  exact h8.symm

/-- Simplifying an array that shows the mapped elements. -/
theorem MapsG.simplify {c n : Content} {F : Val → Val} (h : MapsG True c n F) :
    ∃ c', n.simplifyOption = ok c' ∧ MapsG True c c' F := by
  obtain ⟨c', h1, h2, h3, h4⟩ := simplifyOption_good h.good
  have hl := h.exact trivial
  refine ⟨c', h1, ⟨h2, by omega, fun i hi => ?_⟩, fun _ => by omega⟩
  rw [h4 i (by omega), h.val i hi]

/-! ### Nodes -/

section
variable {F : Val → Val} {p : Params} {c next : Content}

theorem mapsLists_regular {size zeros : Nat} (hc : c.Good)
    (hF : ∀ vs, F (wrapList p vs) = .list (vs.map F)) (h : MapsG True c next F) :
    MapsG True (regular p c size zeros) (regular {} next size (regular p c size zeros).len) F := by
  have hle := h.exact trivial
  have hll : (Content.regular {} next size (Content.regular p c size zeros).len).len
      = (Content.regular p c size zeros).len := by
    simp only [len, hle]
    split <;> rfl
  refine ⟨⟨good_regular.mpr h.good, by omega, ?_⟩, fun _ => hll⟩
  intro i hi
  rw [valD_regular h.good (by omega), valD_regular hc hi, hF, h.seg (regular_bound hi),
    wrapList_default]

theorem mapsLists_listArray {starts stops : List Int} (hg : (listArray p starts stops c).Good)
    (hF : ∀ vs, F (wrapList p vs) = .list (vs.map F)) (h : MapsG True c next F) :
    MapsG True (listArray p starts stops c) (listArray {} starts stops next) F := by
  obtain ⟨hl, hc, hp⟩ := good_listArray.mp hg
  have hg' : (Content.listArray {} starts stops next).Good :=
    good_listArray.mpr ⟨hl, h.good, fun i hi => GoodPair.mono (hp i hi) h.len_le⟩
  refine ⟨⟨hg', Nat.le_refl _, ?_⟩, fun _ => rfl⟩
  intro i hi
  simp only [len] at hi
  rw [valD_listArray hg' hi (by omega), valD_listArray hg hi (by omega), hF,
    h.seg_pair (hp i hi), wrapList_default]

theorem mapsLists_listOffset {offsets : List Int} (hg : (listOffset p offsets c).Good)
    (hF : ∀ vs, F (wrapList p vs) = .list (vs.map F)) (h : MapsG True c next F) :
    MapsG True (listOffset p offsets c) (listOffset {} offsets next) F := by
  obtain ⟨hl, hc, hp⟩ := good_listOffset.mp hg
  have hg' : (Content.listOffset {} offsets next).Good :=
    good_listOffset.mpr ⟨hl, h.good, fun i hi => GoodPair.mono (hp i hi) h.len_le⟩
  refine ⟨⟨hg', Nat.le_refl _, ?_⟩, fun _ => rfl⟩
  intro i hi
  simp only [len] at hi
  rw [valD_listOffset hg' (by omega), valD_listOffset hg (by omega), hF,
    h.seg_pair (hp i (by omega)), wrapList_default]

theorem maps_bitMasked {mask : List Nat} {vw : Bool} {length : Nat} {lsb : Bool}
    (hg : (bitMasked p mask vw length lsb c).Good) (hF : F .null = .null)
    (h : MapsG True c next F) {p' : Params} :
    MapsG True (bitMasked p mask vw length lsb c) (bitMasked p' mask vw length lsb next) F := by
  obtain ⟨hl, hl', hc⟩ := good_bitMasked.mp hg
  have hle := h.len_le
  have hg' : (Content.bitMasked p' mask vw length lsb next).Good :=
    good_bitMasked.mpr ⟨hl, by omega, h.good⟩
  refine ⟨⟨hg', Nat.le_refl _, ?_⟩, fun _ => rfl⟩
  intro i hi
  simp only [len] at hi
  rw [valD_bitMasked hg' hi, valD_bitMasked hg hi]
  split
  · rw [h.val _ (by omega)]
  · exact hF.symm

end

/-! ### The fields survive gathering -/

theorem rangeFields_get {cs cs' : List Content} {a b : Int} (h : rangeFields cs a b = ok cs')
    {i : Nat} {d : Content} (hd : cs[i]? = some d) :
    ∃ d', cs'[i]? = some d' ∧ d.range a b = ok d' := by
  induction cs generalizing cs' i with
  | nil => simp at hd
  | cons c cs ih =>
    simp only [rangeFields, bind_eq_ok, ok.injEq] at h
    obtain ⟨c', h1, ds, h2, rfl⟩ := h
    cases i with
    | zero =>
      simp only [List.getElem?_cons_zero, Option.some.injEq] at hd ⊢
      subst hd
      exact ⟨c', rfl, h1⟩
    | succ i => simpa using ih h2 (by simpa using hd)

theorem carryFields_get {lazy : Bool} {cs cs' : List Content} {idx : List Int}
    (h : carryFields lazy cs idx = ok cs') {i : Nat} {d : Content} (hd : cs[i]? = some d) :
    ∃ d', cs'[i]? = some d' ∧ d.carry lazy idx = ok d' := by
  induction cs generalizing cs' i with
  | nil => simp at hd
  | cons c cs ih =>
    simp only [carryFields, bind_eq_ok, ok.injEq] at h
    obtain ⟨c', h1, ds, h2, rfl⟩ := h
    cases i with
    | zero =>
      simp only [List.getElem?_cons_zero, Option.some.injEq] at hd ⊢
      subst hd
      exact ⟨c', rfl, h1⟩
    | succ i => simpa using ih h2 (by simpa using hd)

/-- A record array whose fields have been replaced one by one. -/
theorem HasFields.record {ss : List FieldSel} {p p' : Params} {keys : Option (List String)}
    {cs cs' : List Content} {n n' : Nat} (h : HasFields ss (record p keys cs n))
    (hl : cs'.length = cs.length)
    (hget : ∀ (i : Nat) (d : Content), cs[i]? = some d → ∃ d', cs'[i]? = some d' ∧
      ∀ ss, HasFields ss d → HasFields ss d') :
    HasFields ss (Content.record p' keys cs' n') := by
  have back : ∀ (i : Nat) (d' : Content), cs'[i]? = some d' → ∃ d, cs[i]? = some d ∧
      ∀ ss, HasFields ss d → HasFields ss d' := by
    intro i d' hd'
    obtain ⟨hb, _⟩ := List.getElem?_eq_some_iff.mp hd'
    obtain ⟨e, he1, he2⟩ := hget i _ (List.getElem?_eq_getElem (show i < cs.length by omega))
    rw [hd', Option.some.injEq] at he1
    exact ⟨_, List.getElem?_eq_getElem (by omega), he1 ▸ he2⟩
  cases h with
  | nil => exact .nil
  | list hl => simp [isListNode] at hl
  | option ho => simp [isOptionOrIndexed] at ho
  | one hn hd h =>
    obtain ⟨d', h1, h2⟩ := hget _ _ hd
    exact .one (hl ▸ hn) h1 (h2 _ h)
  | many h h' =>
    refine .many (fun key hk => ?_) (fun key hk i d' hn hd' => ?_)
    · obtain ⟨i, d, h1, h2⟩ := h key hk
      obtain ⟨d', h3, _⟩ := hget i d h2
      exact ⟨i, d', hl ▸ h1, h3⟩
    · obtain ⟨d, h1, h2⟩ := back i d' hd'
      exact h2 _ (h' key hk i d (hl ▸ hn) h1)

/-- A list or option node whose content has been replaced. -/
theorem HasFields.node {ss : List FieldSel} {c c' : Content} (h : HasFields ss c)
    (hr : c.isRecord = false) (hl : c.isListNode = true → c'.isListNode = true ∧ c'.params = c.params)
    (ho : c.isOptionOrIndexed = true → c'.isOptionOrIndexed = true)
    (hd : ∀ d' ∈ c'.children, ∃ d ∈ c.children, ∀ ss, HasFields ss d → HasFields ss d') :
    HasFields ss c' := by
  cases h with
  | nil => exact .nil
  | list h1 h2 h3 =>
    obtain ⟨g1, g2⟩ := hl h1
    refine .list g1 (g2 ▸ h2) (fun d' hd' => ?_)
    obtain ⟨d, e1, e2⟩ := hd d' hd'
    exact e2 _ (h3 d e1)
  | option h1 h3 =>
    refine .option (ho h1) (fun d' hd' => ?_)
    obtain ⟨d, e1, e2⟩ := hd d' hd'
    exact e2 _ (h3 d e1)
  | one => simp [isRecord] at hr
  | many => simp [isRecord] at hr

theorem HasFields.range {c c' : Content} {a b : Int} (h : c.range a b = ok c') :
    ∀ ss, HasFields ss c → HasFields ss c' := by
  have one : ∀ {d d' : Content}, (∀ ss, HasFields ss d → HasFields ss d') →
      ∀ e' ∈ [d'], ∃ e ∈ [d], ∀ ss, HasFields ss e → HasFields ss e' := by
    intro d d' h e' he'
    simp only [List.mem_singleton] at he'; subst he'
    exact ⟨d, List.mem_singleton_self _, h⟩
  induction c using induct generalizing a b c' with
  | empty p => simp only [Content.range, ok.injEq] at h; subst h; exact fun _ h => h
  | numpy p dt data =>
    intro ss hs
    simp only [Content.range, numpyRange, bind_eq_ok, ok.injEq] at h
    obtain ⟨d, _, rfl⟩ := h
    exact hs.node rfl (fun h => ⟨h, rfl⟩) id (by simp [children])
  | regular p c size zeros ih =>
    intro ss hs
    simp only [Content.range, bind_eq_ok, ok.injEq] at h
    obtain ⟨d, h1, rfl⟩ := h
    exact hs.node rfl (fun h => ⟨rfl, rfl⟩) (fun h => h) (one (ih h1))
  | listArray p starts stops c ih =>
    intro ss hs
    simp only [Content.range, bind_eq_ok, ok.injEq] at h
    obtain ⟨_, _, _, _, rfl⟩ := h
    exact hs.node rfl (fun h => ⟨rfl, rfl⟩) (fun h => h) (one fun _ h => h)
  | listOffset p offsets c ih =>
    intro ss hs
    simp only [Content.range, bind_eq_ok, ok.injEq] at h
    obtain ⟨_, _, rfl⟩ := h
    exact hs.node rfl (fun h => ⟨rfl, rfl⟩) (fun h => h) (one fun _ h => h)
  | indexed p index c ih =>
    intro ss hs
    simp only [Content.range, bind_eq_ok, ok.injEq] at h
    obtain ⟨_, _, rfl⟩ := h
    exact hs.node rfl (by simp [isListNode]) (fun _ => rfl) (one fun _ h => h)
  | indexedOption p index c ih =>
    intro ss hs
    simp only [Content.range, bind_eq_ok, ok.injEq] at h
    obtain ⟨_, _, rfl⟩ := h
    exact hs.node rfl (by simp [isListNode]) (fun _ => rfl) (one fun _ h => h)
  | byteMasked p mask vw c ih =>
    intro ss hs
    simp only [Content.range, bind_eq_ok, ok.injEq] at h
    obtain ⟨_, _, d, h1, rfl⟩ := h
    exact hs.node rfl (by simp [isListNode]) (fun _ => rfl) (one (ih h1))
  | bitMasked p mask vw length lsb c ih =>
    intro ss hs
    simp only [Content.range, bind_eq_ok, ok.injEq] at h
    obtain ⟨_, _, _, _, d, h1, rfl⟩ := h
    exact hs.node rfl (by simp [isListNode]) (fun _ => rfl) (one (ih h1))
  | unmasked p c ih =>
    intro ss hs
    simp only [Content.range, bind_eq_ok, ok.injEq] at h
    obtain ⟨d, h1, rfl⟩ := h
    exact hs.node rfl (by simp [isListNode]) (fun _ => rfl) (one (ih h1))
  | record p keys cs length ih =>
    intro ss hs
    have same : ∀ n', HasFields ss (Content.record p keys cs n') := fun n' =>
      hs.record rfl (fun i d hd => ⟨d, hd, fun _ h => h⟩)
    simp only [Content.range] at h
    split at h
    · simp only [ok.injEq] at h; subst h; exact same _
    · split at h
      · simp only [ok.injEq] at h; subst h; exact same _
      · simp only [bind_eq_ok, ok.injEq] at h
        obtain ⟨cs', h1, rfl⟩ := h
        refine hs.record (rangeFields_length h1) (fun i d hd => ?_)
        obtain ⟨d', e1, e2⟩ := rangeFields_get h1 hd
        exact ⟨d', e1, ih d (List.mem_of_getElem? hd) e2⟩
  | union p tags index cs ih =>
    intro ss hs
    simp only [Content.range, bind_eq_ok, ok.injEq] at h
    obtain ⟨_, _, _, _, rfl⟩ := h
    exact hs.node rfl (by simp [isListNode]) (by simp [isOptionOrIndexed])
      (fun d hd => ⟨d, hd, fun _ h => h⟩)

theorem HasFields.carry {lazy : Bool} {c c' : Content} {idx : List Int}
    (h : c.carry lazy idx = ok c') : ∀ ss, HasFields ss c → HasFields ss c' := by
  have one : ∀ {d d' : Content}, (∀ ss, HasFields ss d → HasFields ss d') →
      ∀ e' ∈ [d'], ∃ e ∈ [d], ∀ ss, HasFields ss e → HasFields ss e' := by
    intro d d' h e' he'
    simp only [List.mem_singleton] at he'; subst he'
    exact ⟨d, List.mem_singleton_self _, h⟩
  have contiguous : ∀ {c c' : Content} {n : Nat}, (if n = c.len then ok c else c.range 0 n) = ok c' →
      ∀ ss, HasFields ss c → HasFields ss c' := by
    intro c c' n h
    split at h
    · simp only [ok.injEq] at h; subst h; exact fun _ h => h
    · exact HasFields.range h
  induction c using induct generalizing idx c' with
  | empty p =>
    simp only [Content.carry] at h
    split at h
    · simp only [ok.injEq] at h; subst h; exact fun _ h => h
    · simp at h
  | numpy p dt data =>
    intro ss hs
    simp only [Content.carry] at h
    split at h
    · exact contiguous h _ hs
    simp only [bind_eq_ok, ok.injEq] at h
    obtain ⟨d, _, rfl⟩ := h
    exact hs.node rfl (fun h => ⟨h, rfl⟩) id (by simp [children])
  | regular p c size zeros ih =>
    intro ss hs
    simp only [Content.carry] at h
    split at h
    · exact contiguous h _ hs
    simp only [bind_eq_ok, ok.injEq] at h
    obtain ⟨_, _, d, h1, rfl⟩ := h
    exact hs.node rfl (fun h => ⟨rfl, rfl⟩) (fun h => h) (one (ih h1))
  | listArray p starts stops c ih =>
    intro ss hs
    simp only [Content.carry] at h
    split at h
    · exact contiguous h _ hs
    split at h
    · simp at h
    simp only [bind_eq_ok, ok.injEq] at h
    obtain ⟨_, _, rfl⟩ := h
    exact hs.node rfl (fun h => ⟨rfl, rfl⟩) (fun h => h) (one fun _ h => h)
  | listOffset p offsets c ih =>
    intro ss hs
    simp only [Content.carry] at h
    split at h
    · exact contiguous h _ hs
    simp only [bind_eq_ok, ok.injEq] at h
    obtain ⟨_, _, rfl⟩ := h
    exact hs.node rfl (fun h => ⟨rfl, rfl⟩) (fun h => h) (one fun _ h => h)
  | indexed p index c ih =>
    intro ss hs
    simp only [Content.carry] at h
    split at h
    · exact contiguous h _ hs
    simp only [bind_eq_ok, ok.injEq] at h
    obtain ⟨_, _, rfl⟩ := h
    exact hs.node rfl (by simp [isListNode]) (fun _ => rfl) (one fun _ h => h)
  | indexedOption p index c ih =>
    intro ss hs
    simp only [Content.carry] at h
    split at h
    · exact contiguous h _ hs
    simp only [bind_eq_ok, ok.injEq] at h
    obtain ⟨_, _, rfl⟩ := h
    exact hs.node rfl (by simp [isListNode]) (fun _ => rfl) (one fun _ h => h)
  | byteMasked p mask vw c ih =>
    intro ss hs
    simp only [Content.carry] at h
    split at h
    · exact contiguous h _ hs
    simp only [byteMaskedCarry, bind_eq_ok, ok.injEq] at h
    obtain ⟨_, _, d, h1, rfl⟩ := h
    exact hs.node rfl (by simp [isListNode]) (fun _ => rfl) (one (ih h1))
  | bitMasked p mask vw length lsb c ih =>
    intro ss hs
    simp only [Content.carry] at h
    split at h
    · exact contiguous h _ hs
    simp only [byteMaskedCarry, bind_eq_ok, ok.injEq] at h
    obtain ⟨_, _, _, _, d, h1, rfl⟩ := h
    exact hs.node rfl (by simp [isListNode]) (fun _ => rfl) (one (ih h1))
  | unmasked p c ih =>
    intro ss hs
    simp only [Content.carry] at h
    split at h
    · exact contiguous h _ hs
    simp only [bind_eq_ok, ok.injEq] at h
    obtain ⟨d, h1, rfl⟩ := h
    exact hs.node rfl (by simp [isListNode]) (fun _ => rfl) (one (ih h1))
  | record p keys cs length ih =>
    intro ss hs
    simp only [Content.carry] at h
    split at h
    · exact contiguous h _ hs
    split at h
    · simp only [ok.injEq] at h; subst h
      cases ss with
      | nil => exact .nil
      | cons s ss => exact .option rfl (by simpa [children] using hs)
    · simp only [bind_eq_ok, ok.injEq] at h
      obtain ⟨cs', h1, rfl⟩ := h
      refine hs.record (carryFields_length h1) (fun i d hd => ?_)
      obtain ⟨d', e1, e2⟩ := carryFields_get h1 hd
      exact ⟨d', e1, ih d (List.mem_of_getElem? hd) e2⟩
  | union p tags index cs ih =>
    intro ss hs
    simp only [Content.carry] at h
    split at h
    · exact contiguous h _ hs
    split at h
    · simp at h
    simp only [bind_eq_ok, ok.injEq] at h
    obtain ⟨_, _, _, _, rfl⟩ := h
    exact hs.node rfl (by simp [isListNode]) (by simp [isOptionOrIndexed])
      (fun d hd => ⟨d, hd, fun _ h => h⟩)

/-! ### Selecting fields -/

theorem mapR_fields {f : String → R Content} {g : String → Nat → Val} {n : Nat} {names : List String}
    (h : ∀ key ∈ names, ∃ d, f key = ok d ∧ d.Good ∧ n ≤ d.len ∧ ∀ i, i < n → d.valD i = g key i) :
    ∃ ds, mapR f names = ok ds ∧ (∀ d ∈ ds, n ≤ d.len ∧ d.Good) ∧
      ∀ i, i < n → ds.map (fun d => d.valD i) = names.map (fun key => g key i) := by
  induction names with
  | nil => exact ⟨[], rfl, by simp, by simp⟩
  | cons k names ih =>
    simp only [List.forall_mem_cons] at h
    obtain ⟨⟨d, h1, h2, h3, h4⟩, h⟩ := h
    obtain ⟨ds, g1, g2, g3⟩ := ih h
    refine ⟨d :: ds, by simp only [mapR]; rw [h1, bind_ok, g1, bind_ok], ?_, ?_⟩
    · simp only [List.forall_mem_cons]; exact ⟨⟨h3, h2⟩, g2⟩
    · intro i hi; simp only [List.map_cons, h4 i hi, g3 i hi]

theorem projectFields_ok (same : Content → Content → Bool) (ss : List FieldSel) {c : Content}
    (hg : c.Good) (h : HasFields ss c) :
    ∃ c', projectFields same ss c = ok c' ∧ MapsG True c c' (Val.project ss) := by
  induction ss generalizing c with
  | nil => exact ⟨c, rfl, ⟨hg, Nat.le_refl _, fun _ _ => rfl⟩, fun _ => rfl⟩
  | cons s ss ihs =>
    simp only [projectFields, Val.project]
    have hnull := Val.selectFields_null s (Val.project ss)
    induction c using induct with
    | empty p => cases h <;> simp_all [isListNode, isOptionOrIndexed]
    | numpy p dt data => cases h <;> simp_all [isListNode, isOptionOrIndexed]
    | union p tags index cs ih => cases h <;> simp_all [isListNode, isOptionOrIndexed]
    | regular p c size zeros ih =>
      have hc := good_regular.mp hg
      cases h with
      | option ho => simp [isOptionOrIndexed] at ho
      | list hl hp hd =>
        obtain ⟨c', h1, h2⟩ := ih hc (hd c (by simp [children]))
        simp only [getitemFields]
        rw [h1, bind_ok]
        exact ⟨_, rfl, mapsLists_regular hc (Val.selectFields_list s _ hp) h2⟩
    | listArray p starts stops c ih =>
      have hc := (good_listArray.mp hg).2.1
      cases h with
      | option ho => simp [isOptionOrIndexed] at ho
      | list hl hp hd =>
        obtain ⟨c', h1, h2⟩ := ih hc (hd c (by simp [children]))
        simp only [getitemFields]
        rw [h1, bind_ok]
        exact ⟨_, rfl, mapsLists_listArray hg (Val.selectFields_list s _ hp) h2⟩
    | listOffset p offsets c ih =>
      have hc := (good_listOffset.mp hg).2.1
      cases h with
      | option ho => simp [isOptionOrIndexed] at ho
      | list hl hp hd =>
        obtain ⟨c', h1, h2⟩ := ih hc (hd c (by simp [children]))
        simp only [getitemFields]
        rw [h1, bind_ok]
        exact ⟨_, rfl, mapsLists_listOffset hg (Val.selectFields_list s _ hp) h2⟩
    | indexed p index c ih =>
      cases h with
      | list hl => simp [isListNode] at hl
      | option ho hd =>
        obtain ⟨c', h1, h2⟩ := ih (hg.child (by simp [children])) (hd c (by simp [children]))
        simp only [getitemFields]
        rw [h1, bind_ok]
        exact (MapsG.indexed hg h2).simplify
    | indexedOption p index c ih =>
      cases h with
      | list hl => simp [isListNode] at hl
      | option ho hd =>
        obtain ⟨c', h1, h2⟩ := ih (hg.child (by simp [children])) (hd c (by simp [children]))
        simp only [getitemFields]
        rw [h1, bind_ok]
        exact (MapsG.indexedOption hg hnull h2).simplify
    | byteMasked p mask vw c ih =>
      cases h with
      | list hl => simp [isListNode] at hl
      | option ho hd =>
        obtain ⟨c', h1, h2⟩ := ih (hg.child (by simp [children])) (hd c (by simp [children]))
        simp only [getitemFields]
        rw [h1, bind_ok]
        exact (MapsG.byteMasked hg hnull h2).simplify
    | bitMasked p mask vw length lsb c ih =>
      cases h with
      | list hl => simp [isListNode] at hl
      | option ho hd =>
        obtain ⟨c', h1, h2⟩ := ih (hg.child (by simp [children])) (hd c (by simp [children]))
        simp only [getitemFields]
        rw [h1, bind_ok]
        exact (maps_bitMasked hg hnull h2).simplify
    | unmasked p c ih =>
      cases h with
      | list hl => simp [isListNode] at hl
      | option ho hd =>
        obtain ⟨c', h1, h2⟩ := ih (hg.child (by simp [children])) (hd c (by simp [children]))
        simp only [getitemFields]
        rw [h1, bind_ok]
        exact (MapsG.unmasked h2).simplify
    | record p keys cs length ih =>
      obtain ⟨hlen, hc⟩ := good_record.mp hg
      have named : ∀ {key : String} {i j : Nat} {d : Content}, Named keys cs.length key i →
          cs[i]? = some d → j < length →
          Val.field key ((Content.record p keys cs length).valD j) = d.valD j := by
        intro key i j d hn hd hj
        rw [valD_record hg hj]
        have hn' : Named keys (cs.map (fun c => c.valD j)).length key i := by simpa using hn
        rw [field_mkRecord hn']
        obtain ⟨hb, hd⟩ := List.getElem?_eq_some_iff.mp hd
        simp [hd]
      have picked : ∀ {key : String} {i : Nat} {d : Content}, Named keys cs.length key i →
          cs[i]? = some d → fieldOfKey keys cs key = ok d := by
        intro key i d hn hd
        obtain ⟨hb, hd⟩ := List.getElem?_eq_some_iff.mp hd
        unfold fieldOfKey
        rw [fieldIndex_ok hn, bind_ok, rd_nat_ok hb, hd]
      cases h with
      | list hl => simp [isListNode] at hl
      | option ho => simp [isOptionOrIndexed] at ho
      | @one key _ _ _ _ _ i d hn hd h =>
        have hm := List.mem_of_getElem? hd
        have hle := hlen d hm
        obtain ⟨e, g1, g2, _, g4, _⟩ := range_good (hc d hm) (Nat.zero_le length) hle
        obtain ⟨c', f1, f2⟩ := ihs g2 (HasFields.range g1 _ h)
        simp only [getitemFields]
        rw [picked hn hd, bind_ok]
        simp only [Nat.cast_zero] at g1
        rw [g1, bind_ok, f1]
        have hel : e.len = length := by simpa using g4.1
        have hfl := f2.exact trivial
        refine ⟨c', rfl, ⟨f2.good, by simp only [len]; omega, ?_⟩, fun _ => by simp only [len]; omega⟩
        intro j hj
        simp only [len] at hj
        rw [f2.val j (by omega), g4.valD (by omega)]
        have := named hn hd hj
        rw [← this.trans (by simp : d.valD j = d.valD (0 + j)), valD_record hg hj,
          Val.selectFields_one]
      | @many names _ _ _ _ _ h h' =>
        obtain ⟨ds, e1, e2, e3⟩ := mapR_fields (names := names)
          (f := fun key => fieldOfKey keys cs key >>= projectFields same ss)
          (g := fun key j => Val.project ss
            (Val.field key ((Content.record p keys cs length).valD j))) (n := length)
          (fun key hk => by
            obtain ⟨i, d, h1, h2⟩ := h key hk
            have hm := List.mem_of_getElem? h2
            obtain ⟨d', g1, g2⟩ := ihs (hc d hm) (h' key hk i d h1 h2)
            have hle := hlen d hm
            have := g2.exact trivial
            refine ⟨d', by rw [picked h1 h2, bind_ok, g1], g2.good, by omega, fun j hj => ?_⟩
            rw [g2.val j (by omega), named h1 h2 hj])
        have hg' : (Content.record {} (keys.map (fun _ => names)) ds length).Good :=
          good_record.mpr ⟨fun d hd => (e2 d hd).1, fun d hd => (e2 d hd).2⟩
        simp only [getitemFields]
        rw [e1, bind_ok]
        refine ⟨_, rfl, ⟨hg', Nat.le_refl _, ?_⟩, fun _ => rfl⟩
        intro j hj
        simp only [len] at hj
        rw [valD_record hg' hj, e3 j hj, valD_record hg hj, Val.selectFields_many]

end Content
end Awk
