import Verif.Lemmas.Field
import Verif.Lemmas.GetitemValid
import Verif.Lemmas.GetitemMask
/-
Selecting fields of one element.
-/

namespace Awk
open R Spec

theorem pyGet?_map {α β : Type} (f : α → β) (xs : List α) (i : Int) :
    pyGet? (xs.map f) i = (pyGet? xs i).map f := by
  simp only [pyGet?, List.length_map, List.getElem?_map]
  split
  · rfl
  · split <;> rfl

theorem pySlice_map {α β : Type} (f : α → β) (xs : List α) (start stop : Option Int) (step : Int) :
    pySlice (xs.map f) start stop step = (pySlice xs start stop step).map f := by
  simp only [pySlice, List.length_map, List.getElem?_map, List.map_filterMap]

namespace Content

/-- An array as an object, up to the kind of list. -/
theorem array_item {c : Content} (h : c.Good) :
    ∃ v, Item.toVal (.array c) = ok v ∧ Alike v (.list (c.seg 0 c.len)) := by
  have hl := seg_all h
  refine ⟨(match c.params.arr with
    | .char => .str (c.seg 0 c.len) | .byte => .bytes (c.seg 0 c.len)
    | _ => .list (c.seg 0 c.len)), ?_, .inr ?_⟩
  · simp only [Item.toVal, hl, bind_ok]
    cases c.params.arr <;> rfl
  · cases c.params.arr <;> simp [Val.isList, Val.items]

/-- What selecting fields of the object `it` should show, if the object shows `v`. -/
def ItemFields (same : Content → Content → Bool) (s : FieldSel) (it : Item) (v : Val) : Prop :=
  (it = .none ∧ v = .null) ∨
  ∃ it' w, it.getitemFields same s = ok it' ∧ it'.toVal = ok w ∧ Alike w (Val.project [s] v)

theorem fields_of_range (same : Content → Content → Bool) {s : FieldSel} {c : Content} {p : Params}
    (hp : p.arr = .none) (hg : c.Good) (h : HasFields [s] c) {a b : Nat} (hab : a ≤ b)
    (hb : b ≤ c.len) :
    ∃ c', c.range a b = ok c' ∧ ItemFields same s (.array c') (wrapList p (c.seg a (b - a))) := by
  obtain ⟨d, h1, h2, _, h3, _⟩ := range_good hg hab hb
  obtain ⟨e, g1, g2⟩ := projectFields_ok same [s] h2 (HasFields.range h1 _ h)
  obtain ⟨w, f1, f2⟩ := array_item g2.good
  have hlen := g2.exact trivial
  refine ⟨d, h1, .inr ⟨.array e, w, ?_, f1, ?_⟩⟩
  · have : d.getitemFields same s ok = ok e := g1
    simp only [Item.getitemFields, this, bind_ok]
  · have : Val.project [s] (wrapList p (c.seg a (b - a))) = .list (e.seg 0 e.len) := by
      simp only [Val.project]
      rw [Val.selectFields_list s _ hp, hlen, g2.toMaps.seg (by omega)]
      congr 1
      simp only [Content.seg, h3.1, List.map_map, Nat.zero_add]
      apply List.map_congr_left
      intro k hk
      simp only [Function.comp]
      rw [h3.valD (List.mem_range.mp hk)]
      rfl
    rw [this]
    exact f2

theorem fields_of_pair (same : Content → Content → Bool) {s : FieldSel} {c : Content} {p : Params}
    (hp : p.arr = .none) (hg : c.Good) (h : HasFields [s] c) {a b : Int} (hab : GoodPair a b c.len) :
    ∃ it, (checkStartStop a b c.len >>= fun (start, stop) =>
      c.range start stop >>= fun c' => ok (Item.array c')) = ok it ∧
      ItemFields same s it (wrapList p (c.seg a.toNat (b - a).toNat)) := by
  by_cases he : a = b
  · subst he
    have hn : ¬ ((c.len : Int) < 0) := by omega
    obtain ⟨c', h1, h2⟩ := fields_of_range same hp hg h (a := 0) (b := 0) (Nat.le_refl 0) (by omega)
    refine ⟨.array c', ?_, by simpa [Content.seg] using h2⟩
    simp only [Nat.cast_zero] at h1
    simp [checkStartStop, hn, h1]
  · rcases hab with h' | ⟨h0, h1, h2⟩
    · exact absurd h' he
    · obtain ⟨a, rfl⟩ := Int.eq_ofNat_of_zero_le h0
      obtain ⟨b, rfl⟩ := Int.eq_ofNat_of_zero_le (h0.trans h1)
      obtain ⟨c', g1, g2⟩ := fields_of_range same hp hg h (a := a) (b := b) (by omega) (by omega)
      refine ⟨.array c', ?_, ?_⟩
      · rw [checkStartStop, if_neg he]
        simp only
        rw [if_neg (by omega), if_neg (by omega), if_neg (by omega), bind_ok]
        simp only [g1, bind_ok]
      · simpa [show ((b : Int) - a).toNat = b - a by omega] using g2

/-- Selecting fields of an element shows the selected fields of its value. -/
theorem getitemAtNowrap_fields (same : Content → Content → Bool) {s : FieldSel} {c : Content}
    (hg : c.Good) (h : HasFields [s] c) {i : Nat} (hi : i < c.len) :
    ∃ it, c.getitemAtNowrap i = ok it ∧ ItemFields same s it (c.valD i) := by
  induction c using induct generalizing i with
  | empty p => simp [len] at hi
  | numpy p dt data => cases h <;> simp_all [isListNode, isOptionOrIndexed]
  | union p tags index cs ih => cases h <;> simp_all [isListNode, isOptionOrIndexed]
  | regular p c size zeros ih =>
    have hc := good_regular.mp hg
    have hb := regular_bound hi
    cases h with
    | option ho => simp [isOptionOrIndexed] at ho
    | list hl hp hd =>
      obtain ⟨c', g1, g2⟩ := fields_of_range same hp hc (hd c (by simp [children]))
        (a := i * size) (b := (i + 1) * size)
        (Nat.mul_le_mul_right _ (by omega)) (by rw [Nat.add_mul]; omega)
      refine ⟨.array c', ?_, ?_⟩
      · simp only [getitemAtNowrap]
        push_cast at g1
        rw [g1, bind_ok]
      · rw [valD_regular hc hi]
        rwa [show (i + 1) * size - i * size = size by rw [Nat.add_mul]; omega] at g2
  | listArray p starts stops c ih =>
    obtain ⟨hl, hc, hp⟩ := good_listArray.mp hg
    simp only [len] at hi
    cases h with
    | option ho => simp [isOptionOrIndexed] at ho
    | list hl' hp' hd =>
      simp only [getitemAtNowrap]
      rw [rd_nat_ok hi, bind_ok, rd_nat_ok (by omega), bind_ok, valD_listArray hg hi (by omega)]
      exact fields_of_pair same hp' hc (hd c (by simp [children])) (hp i hi)
  | listOffset p offsets c ih =>
    obtain ⟨hl, hc, hp⟩ := good_listOffset.mp hg
    simp only [len] at hi
    cases h with
    | option ho => simp [isOptionOrIndexed] at ho
    | list hl' hp' hd =>
      simp only [getitemAtNowrap]
      rw [rd_nat_ok (by omega), bind_ok, rd_nat_ok (by omega), bind_ok,
        valD_listOffset hg (by omega)]
      exact fields_of_pair same hp' hc (hd c (by simp [children])) (hp i (by omega))
  | indexed p index c ih =>
    obtain ⟨hc, hp⟩ := good_indexed.mp hg
    simp only [len] at hi
    have := hp i hi
    cases h with
    | list hl => simp [isListNode] at hl
    | option ho hd =>
      simp only [getitemAtNowrap]
      rw [rd_nat_ok hi, bind_ok, checkIndex, if_neg (by omega), if_neg (by omega), bind_ok,
        valD_indexed hg hi]
      exact ih hc (hd c (by simp [children])) (by omega)
  | indexedOption p index c ih =>
    obtain ⟨hc, hp⟩ := good_indexedOption.mp hg
    simp only [len] at hi
    have := hp i hi
    cases h with
    | list hl => simp [isListNode] at hl
    | option ho hd =>
      simp only [getitemAtNowrap]
      rw [rd_nat_ok hi, bind_ok, valD_indexedOption hg hi]
      by_cases h0 : index[i] < 0
      · simp only [checkIndex, h0, if_true, bind_ok]
        exact ⟨.none, rfl, .inl ⟨rfl, rfl⟩⟩
      · simp only [checkIndex, h0, if_false]
        rw [if_neg (by omega), bind_ok]
        exact ih hc (hd c (by simp [children])) (by omega)
  | byteMasked p mask vw c ih =>
    obtain ⟨hl, hc⟩ := good_byteMasked.mp hg
    simp only [len] at hi
    cases h with
    | list hl => simp [isListNode] at hl
    | option ho hd =>
      simp only [getitemAtNowrap]
      rw [rd_nat_ok hi, bind_ok, valD_byteMasked hg hi]
      simp only [maskOk, List.getElem?_eq_getElem hi, Option.getD_some, decide_eq_true_eq]
      split
      · exact ih hc (hd c (by simp [children])) (by omega)
      · exact ⟨.none, rfl, .inl ⟨rfl, rfl⟩⟩
  | bitMasked p mask vw length lsb c ih =>
    obtain ⟨hm, hl, hc⟩ := good_bitMasked.mp hg
    simp only [len] at hi
    cases h with
    | list hl => simp [isListNode] at hl
    | option ho hd =>
      simp only [getitemAtNowrap]
      rw [bitAt_eq (by omega), bind_ok, valD_bitMasked hg hi]
      split
      · exact ih hc (hd c (by simp [children])) (by omega)
      · exact ⟨.none, rfl, .inl ⟨rfl, rfl⟩⟩
  | unmasked p c ih =>
    cases h with
    | list hl => simp [isListNode] at hl
    | option ho hd => exact ih (good_unmasked.mp hg) (hd c (by simp [children])) hi
  | record p keys cs length ih =>
    obtain ⟨hlen, hc⟩ := good_record.mp hg
    simp only [len] at hi
    refine ⟨_, rfl, .inr ?_⟩
    have h' := h
    cases h with
    | list hl => simp [isListNode] at hl
    | option ho => simp [isOptionOrIndexed] at ho
    | @one key _ _ _ _ _ j d hn hd h =>
      have hm := List.mem_of_getElem? hd
      have hle := hlen d hm
      obtain ⟨it, w, g1, g2, g3⟩ := getitemAtNowrap_good (hc d hm) (i := i) (by omega)
      refine ⟨it, w, ?_, g2, ?_⟩
      · obtain ⟨hb, hd⟩ := List.getElem?_eq_some_iff.mp hd
        simp only [Item.getitemFields, fieldOfKey]
        rw [fieldIndex_ok hn, bind_ok, rd_nat_ok hb, hd, bind_ok, g1]
      · rw [valD_record hg hi]
        simp only [Val.project]
        rw [Val.selectFields_one]
        have hn' : Named keys (cs.map (fun c => c.valD i)).length key j := by simpa using hn
        rw [field_mkRecord hn']
        obtain ⟨hb, hd⟩ := List.getElem?_eq_some_iff.mp hd
        simpa [hd] using g3
    | @many names _ _ _ _ _ =>
      obtain ⟨e, g1, g2⟩ := projectFields_ok same _ hg h'
      have hl := g2.exact trivial
      simp only [len] at hl
      obtain ⟨it, w, f1, f2, f3⟩ := getitemAtNowrap_good g2.good (i := i) (by omega)
      refine ⟨it, w, ?_, f2, ?_⟩
      · have g1' : (Content.record p keys cs length).getitemFields same (.many names) ok = ok e := g1
        simp only [Item.getitemFields]
        rw [g1', bind_ok, f1]
      · rw [g2.val i hi] at f3
        exact f3

end Content
end Awk

namespace Awk
open R Spec
namespace Content

/-- `array[[i, j, …]]` of an array that can be read keeps its fields. -/
theorem getitem_array_fields {c : Content} (hg : c.Good) {idx : List Int} (hne : idx ≠ [])
    {ws : List Val} (hw : idx.mapM (pyGet? (c.seg 0 c.len)) = some ws) :
    ∃ c', getitem [.array [idx.length] idx] c = ok (.array c') ∧ c'.Good ∧ c'.seg 0 c'.len = ws ∧
      ∀ ss, HasFields ss c → HasFields ss c' := by
  have hf : ∀ b, FitsTop b idx.length [.array [idx.length] idx] c :=
    fun b => ⟨⟨rfl, by simp, List.length_pos_of_ne_nil hne⟩, .nil⟩
  have hs : select [.array [idx.length] idx] none (.list (c.seg 0 c.len)) = some (.list ws) := by
    rw [select_array, hw, Option.map_some, nest_one (mapM_length hw)]
  have T := getitem_tot hg (hf false)
  obtain ⟨it, hi⟩ := T.2 ⟨hf true, by rw [hs]; rfl⟩
  have h1 := T.1
  rw [hi] at h1
  obtain ⟨v, w, e1, e2, e3⟩ := h1
  rw [hs, Option.some.injEq] at e2
  subst e2
  obtain ⟨carry, d, c', g1, g2, g3, g4, g5, rfl⟩ := getitem_array_inv hg hi
  refine ⟨c', hi, g5, ?_, fun ss h => HasFields.range g4 _ (HasFields.carry g2 _ h)⟩
  simp only [Item.toVal, seg_all g5, bind_ok] at e1
  rcases e3 with rfl | ⟨_, _, e3⟩
  · revert e1
    cases c'.params.arr <;> simp
  · revert e1
    cases c'.params.arr <;> simp only [ok.injEq] <;> rintro rfl <;> simpa [Val.items] using e3

/-! ### Names that are not there -/

theorem mapR_mem_ok {α β : Type} {f : α → R β} {xs : List α} {ys : List β} (h : mapR f xs = ok ys)
    {x : α} (hx : x ∈ xs) : ∃ y, f x = ok y := by
  induction xs generalizing ys with
  | nil => cases hx
  | cons a xs ih =>
    simp only [mapR, bind_eq_ok] at h
    obtain ⟨y, h1, zs, h2, _⟩ := h
    rcases List.mem_cons.mp hx with rfl | hx
    · exact ⟨y, h1⟩
    · exact ih h2 hx

theorem getitemFieldsAll_mem {same : Content → Content → Bool} {s : FieldSel}
    {k : Content → R Content} {cs ds : List Content} (h : getitemFieldsAll same s k cs = ok ds)
    {c : Content} (hc : c ∈ cs) : ∃ d, getitemFields same s k c = ok d := by
  induction cs generalizing ds with
  | nil => cases hc
  | cons a xs ih =>
    simp only [getitemFieldsAll, bind_eq_ok] at h
    obtain ⟨y, h1, zs, h2, _⟩ := h
    rcases List.mem_cons.mp hc with rfl | hx
    · exact ⟨y, h1⟩
    · exact ih h2 hx

/-- A name that begins with a letter is not a number. -/
theorem stoi_letter {a : Char} {l : List Char} (h : a.isAlpha = true) :
    (stoi (a :: l)).IsErr := by
  have h1 : isSpace a = false := by
    simp only [isSpace, Bool.or_eq_false_iff, decide_eq_false_iff_not]
    constructor
    · rintro rfl; simp [Char.isAlpha, Char.isUpper, Char.isLower] at h
    · simp only [Char.isAlpha, Char.isUpper, Char.isLower, Bool.or_eq_true, Bool.and_eq_true,
        decide_eq_true_eq] at h
      have : 65 ≤ a.toNat := by
        rcases h with h | h
        · exact h.1
        · exact Nat.le_trans (by decide) h.1
      simp only [Bool.and_eq_false_iff, decide_eq_false_iff_not]
      omega
  have hm : a ≠ '-' := by rintro rfl; simp [Char.isAlpha, Char.isUpper, Char.isLower] at h
  have hp : a ≠ '+' := by rintro rfl; simp [Char.isAlpha, Char.isUpper, Char.isLower] at h
  have hd : a.isDigit = false := by
    simp only [Char.isAlpha, Char.isUpper, Char.isLower, Bool.or_eq_true, Bool.and_eq_true,
        decide_eq_true_eq] at h
    have : 65 ≤ a.toNat := by
      rcases h with h | h
      · exact h.1
      · exact Nat.le_trans (by decide) h.1
    simp only [Char.isDigit, Bool.and_eq_false_iff, decide_eq_false_iff_not]
    right
    intro h57
    have : a.toNat ≤ 57 := h57
    omega
  refine ⟨"stoi", ?_⟩
  unfold stoi
  simp only [List.dropWhile_cons, h1, List.head?_cons, Option.some.injEq, hm, hp, or_self, if_false,
    List.takeWhile_cons, hd, Bool.false_eq_true, if_true]

theorem fieldIndex_unknown {keys : Option (List String)} {n : Nat} {key : String}
    (hk : ∃ a l, key.toList = a :: l ∧ a.isAlpha = true)
    (h : ∀ ks, keys = some ks → key ∉ ks) : (fieldIndex keys key n).IsErr := by
  obtain ⟨a, l, h1, h2⟩ := hk
  obtain ⟨e, he⟩ := stoi_letter (l := l) h2
  have hn : keys.bind (fun ks => ks.findIdx? (fun k => k == key)) = none := by
    cases keys with
    | none => rfl
    | some ks =>
      simp only [Option.bind_some, List.findIdx?_eq_none_iff, beq_eq_false_iff_ne]
      intro x hx hxk
      exact h ks rfl (hxk ▸ hx)
  refine ⟨e, ?_⟩
  unfold fieldIndex
  rw [hn]
  simp only [h1, he, bind_err]

end Content
end Awk
