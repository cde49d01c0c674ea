import Verif.Lemmas.GetitemStep
/-
The whole slice: `Content::getitem` puts the array into a list of one, applies the items and takes
the first element.
-/

namespace Awk
open R Spec

namespace Spec

theorem Alike.refl (v : Val) : Alike v v := .inl rfl

end Spec

/-- A selection that succeeds on a list stays inside it. -/
theorem sizeOk_of_selList {wrap : List Val → Val} {k : Option Nat → Val → Option Val}
    {vs : List Val} {it : SliceItem} (h : (selList wrap k none vs it).isSome) :
    SizeOk it vs.length := by
  have pg : ∀ a : Int, (pyGet? vs a).isSome → (regAt a vs.length).isSome := by
    intro a ha
    rw [pyGet?_regAt] at ha
    cases hr : regAt a vs.length with
    | none => simp [hr] at ha
    | some r => rfl
  cases it with
  | newaxis => trivial
  | range a b s => trivial
  | «at» a =>
    simp only [selList, Option.isSome_bind] at h
    apply pg
    cases hp : pyGet? vs a with
    | none => simp [hp] at h
    | some v => rfl
  | array shape flat =>
    intro a ha
    simp only [selList, Option.isSome_map] at h
    obtain ⟨j, hj, rfl⟩ := List.mem_iff_getElem.mp ha
    have := (mapM_isSome h) j (List.mem_range.mpr hj)
    apply pg
    simp only [List.getElem?_eq_getElem hj, Option.bind_some] at this
    cases hp : pyGet? vs flat[j] with
    | none => simp [hp] at this
    | some v => rfl

theorem ItemOk.constructed {m : Nat} {it : SliceItem} (h : ItemOk m it) : it.constructed = it := by
  cases it <;> simp only [SliceItem.constructed]
  rw [if_neg h.2.2.2]

theorem Fits.constructed {b : Bool} {m : Nat} {mode : Mode} {items : List SliceItem} {c : Content}
    (h : Fits b m mode items c) : items.map SliceItem.constructed = items := by
  induction h with
  | nil => rfl
  | newaxis _ _ ih => rw [List.map_cons, ih]; rfl
  | @list mode mode' it rest c h1 h2 h3 h4 h5 ih =>
    obtain ⟨d, hd⟩ : ∃ d, d ∈ c.children := by
      cases c <;> simp only [Content.isListNode, Bool.false_eq_true] at h1 <;>
        exact ⟨_, List.mem_singleton.mpr rfl⟩
    rw [List.map_cons, ih d hd, ItemOk.constructed h2]
  | @index mode it rest c h1 h2 h3 ih =>
    obtain ⟨d, hd⟩ : ∃ d, d ∈ c.children := by
      cases c <;> simp only [isIndex, Bool.false_eq_true] at h2 <;>
        exact ⟨_, List.mem_singleton.mpr rfl⟩
    exact ih d hd
  | @option it rest c h1 h2 h3 ih =>
    obtain ⟨d, hd⟩ : ∃ d, d ∈ c.children := by
      cases c <;> simp only [canMiss, Bool.false_eq_true] at h2 <;>
        exact ⟨_, List.mem_singleton.mpr rfl⟩
    exact ih d hd
  | record h1 h2 h3 h4 h5 ih =>
    obtain ⟨d, hd⟩ := List.exists_mem_of_ne_nil _ h2
    exact ih d hd

theorem FitsTop.constructed {b : Bool} {m : Nat} {items : List SliceItem} {c : Content}
    (h : FitsTop b m items c) : items.map SliceItem.constructed = items := by
  cases items with
  | nil => rfl
  | cons it rest =>
    cases it with
    | newaxis => rw [List.map_cons, Fits.constructed h]; rfl
    | «at» a => rw [List.map_cons, Fits.constructed h.2]; rfl
    | range a b s => rw [List.map_cons, Fits.constructed h.2, ItemOk.constructed h.1]
    | array sh fl => rw [List.map_cons, Fits.constructed h.2]; rfl

namespace Content

/-- An element of a list node, up to the kind of list. -/
theorem list_item_good {c : Content} (hc : c.Good) (p : Params) {s t : Nat} (hst : s ≤ t)
    (ht : t ≤ c.len) :
    ∃ c' v, c.range s t = ok c' ∧ Item.toVal (.array c') = ok v ∧
      Alike v (wrapList p (c.seg s (t - s))) := by
  obtain ⟨c', h1, h2, _, h3, h4⟩ := range_good hc hst ht
  have hl : c'.toList = ok (c.seg s (t - s)) := by
    rw [h2.toList, h3.1]
    congr 1
    apply List.map_congr_left
    intro i hi
    exact h3.valD (List.mem_range.mp hi)
  refine ⟨c', (match c'.params.arr with
    | .char => .str (c.seg s (t - s)) | .byte => .bytes (c.seg s (t - s))
    | _ => .list (c.seg s (t - s))), h1, ?_, .inr ?_⟩
  · simp only [Item.toVal, hl, bind_ok]
    cases c'.params.arr <;> rfl
  · cases c'.params.arr <;> cases hp : p.arr <;> simp [wrapList, hp, Val.isList, Val.items]

theorem list_item_pair {c : Content} (hc : c.Good) (p : Params) {s t : Int}
    (hp : GoodPair s t c.len) :
    ∃ it v, (checkStartStop s t c.len >>= fun (start, stop) =>
      c.range start stop >>= fun c' => ok (Item.array c')) = ok it ∧ it.toVal = ok v ∧
      Alike v (wrapList p (c.seg s.toNat (t - s).toNat)) := by
  by_cases he : s = t
  · subst he
    have hn : ¬ ((c.len : Int) < 0) := by omega
    obtain ⟨c', v, h1, h2, h3⟩ := list_item_good hc p (s := 0) (t := 0) (Nat.le_refl 0) (by omega)
    refine ⟨.array c', v, ?_, h2, by simpa using h3⟩
    simp only [Nat.cast_zero] at h1
    simp [checkStartStop, hn, h1]
  · rcases hp with h | ⟨h0, h1, h2⟩
    · exact absurd h he
    · obtain ⟨s, rfl⟩ := Int.eq_ofNat_of_zero_le h0
      obtain ⟨t, rfl⟩ := Int.eq_ofNat_of_zero_le (h0.trans h1)
      obtain ⟨c', v, g1, g2, g3⟩ := list_item_good hc p (s := s) (t := t) (by omega) (by omega)
      refine ⟨.array c', v, ?_, g2, ?_⟩
      · rw [checkStartStop, if_neg he]
        simp only
        rw [if_neg (by omega), if_neg (by omega), if_neg (by omega), bind_ok]
        simp only [g1, bind_ok]
      · simpa [show ((t : Int) - s).toNat = t - s by omega] using g3

/-- `getitem_at_nowrap` of an array that can be read: the object shows the element, up to the kind
of list. -/
theorem getitemAtNowrap_good {c : Content} (h : c.Good) {i : Nat} (hi : i < c.len) :
    ∃ it v, c.getitemAtNowrap i = ok it ∧ it.toVal = ok v ∧ Alike v (c.valD i) := by
  induction c using induct generalizing i with
  | empty p => simp [len] at hi
  | numpy p dt data =>
    simp only [len] at hi
    exact ⟨.scalar data[i], .atom data[i],
      by simp only [getitemAtNowrap]; rw [rd_nat_ok hi, bind_ok], rfl, .inl (valD_numpy hi).symm⟩
  | regular p c size zeros ih =>
    have hc := good_regular.mp h
    have hb := regular_bound hi
    obtain ⟨c', v, g1, g2, g3⟩ := list_item_good hc p (s := i * size) (t := (i + 1) * size)
      (Nat.mul_le_mul_right _ (by omega)) (by rw [Nat.add_mul]; omega)
    refine ⟨.array c', v, ?_, g2, ?_⟩
    · simp only [getitemAtNowrap]
      push_cast at g1
      rw [g1, bind_ok]
    · rw [valD_regular hc hi]
      rwa [show (i + 1) * size - i * size = size by rw [Nat.add_mul]; omega] at g3
  | listArray p starts stops c ih =>
    obtain ⟨hl, hc, hp⟩ := good_listArray.mp h
    simp only [len] at hi
    simp only [getitemAtNowrap]
    rw [rd_nat_ok hi, bind_ok, rd_nat_ok (by omega), bind_ok, valD_listArray h hi (by omega)]
    exact list_item_pair hc p (hp i hi)
  | listOffset p offsets c ih =>
    obtain ⟨hl, hc, hp⟩ := good_listOffset.mp h
    simp only [len] at hi
    simp only [getitemAtNowrap]
    rw [rd_nat_ok (by omega), bind_ok, rd_nat_ok (by omega), bind_ok,
      valD_listOffset h (by omega)]
    exact list_item_pair hc p (hp i (by omega))
  | indexed p index c ih =>
    obtain ⟨hc, hp⟩ := good_indexed.mp h
    simp only [len] at hi
    have := hp i hi
    simp only [getitemAtNowrap]
    rw [rd_nat_ok hi, bind_ok, checkIndex, if_neg (by omega), if_neg (by omega), bind_ok,
      valD_indexed h hi]
    exact ih hc (by omega)
  | indexedOption p index c ih =>
    obtain ⟨hc, hp⟩ := good_indexedOption.mp h
    simp only [len] at hi
    have := hp i hi
    simp only [getitemAtNowrap]
    rw [rd_nat_ok hi, bind_ok, valD_indexedOption h hi]
    by_cases h0 : index[i] < 0
    · simp only [checkIndex, h0, if_true, bind_ok]
      exact ⟨.none, .null, rfl, rfl, .refl _⟩
    · simp only [checkIndex, h0, if_false]
      rw [if_neg (by omega), bind_ok]
      exact ih hc (by omega)
  | byteMasked p mask vw c ih =>
    obtain ⟨hl, hc⟩ := good_byteMasked.mp h
    simp only [len] at hi
    simp only [getitemAtNowrap]
    rw [rd_nat_ok hi, bind_ok, valD_byteMasked h hi]
    simp only [maskOk, List.getElem?_eq_getElem hi, Option.getD_some, decide_eq_true_eq]
    split
    · exact ih hc (by omega)
    · exact ⟨.none, .null, rfl, rfl, .refl _⟩
  | bitMasked p mask vw length lsb c ih =>
    obtain ⟨hm, hl, hc⟩ := good_bitMasked.mp h
    simp only [len] at hi
    simp only [getitemAtNowrap]
    rw [bitAt_eq (by omega), bind_ok, valD_bitMasked h hi]
    split
    · exact ih hc (by omega)
    · exact ⟨.none, .null, rfl, rfl, .refl _⟩
  | unmasked p c ih => exact ih (good_unmasked.mp h) hi
  | record p keys cs length ih =>
    exact ⟨_, _, rfl, h.val hi, .refl _⟩
  | union p tags index cs ih =>
    obtain ⟨hl, hc, hp⟩ := good_union.mp h
    simp only [len] at hi
    obtain ⟨g1, g2, g3, g4⟩ := hp i hi
    simp only [getitemAtNowrap]
    rw [rd_nat_ok hi, bind_ok, rd_nat_ok (by omega), bind_ok, checkTag, if_neg (by omega), bind_ok]
    simp only
    rw [getitemAtNth_eq g2, if_neg (by omega), valD_union h hi (by omega) g2]
    exact ih _ (List.getElem_mem _) (hc _ (List.getElem_mem _)) (by omega)

theorem wrapped_len (c : Content) : c.wrapped.len = 1 := by
  simp only [wrapped, len]
  split
  · exact Nat.div_self (by omega)
  · rfl

theorem wrapped_valD {c : Content} (h : c.Good) : c.wrapped.valD 0 = .list (c.seg 0 c.len) := by
  rw [wrapped, valD_regular h (by have := c.wrapped_len; rw [wrapped] at this; omega)]
  simp [wrapList]

theorem seg_all {c : Content} (h : c.Good) : c.toList = ok (c.seg 0 c.len) := by
  rw [h.toList]; simp [seg]

/-- The slice of a whole array. -/
theorem getitem_tot {c : Content} (h : c.Good) {m : Nat} {items : List SliceItem}
    (hf : FitsTop false m items c) :
    (getitem items c).Tot
      (FitsTop true m items c ∧ (select items none (.list (c.seg 0 c.len))).isSome)
      (fun it => ∃ v w, it.toVal = ok v ∧
        select items none (.list (c.seg 0 c.len)) = some w ∧ Alike v w) := by
  have hw : c.wrapped.Good := good_regular.mpr h
  have hl := c.wrapped_len
  have hv := wrapped_valD h
  have key : (next items none c.wrapped).Tot
      (FitsTop true m items c ∧ (select items none (.list (c.seg 0 c.len))).isSome)
      (fun out => Sel 1 out (fun _ => select items none (.list (c.seg 0 c.len)))) := by
    have gen : ∀ items mode, (items = [] ∨ ∃ it rest, items = it :: rest ∧ it = .newaxis) →
        Fits false m mode items c.wrapped → mode = .none → (next items none c.wrapped).Tot
      (Fits true m mode items c.wrapped ∧ (select items none (.list (c.seg 0 c.len))).isSome)
      (fun out => Sel 1 out (fun _ => select items none (.list (c.seg 0 c.len)))) := by
      rintro items mode _ hf rfl
      have := next_ok (m := m) items .none none (fun _ => none) c.wrapped hw hf ⟨rfl, fun _ _ => rfl⟩
      rw [hl] at this
      refine ⟨this.1.mono ?_, fun hh => this.2 ⟨hh.1, ?_⟩⟩
      · intro out s
        refine ⟨s.good, s.len_le, fun i hi => ?_⟩
        obtain rfl : i = 0 := by omega
        have := s.val 0 hi
        rwa [hv] at this
      · intro i hi
        obtain rfl : i = 0 := by omega
        rw [hv]; exact hh.2
    have one : ∀ it rest mode', it ≠ SliceItem.newaxis → ItemOk m it →
        StepMode .none it mode' 1 → Fits false m mode' rest c →
        (next (it :: rest) none c.wrapped).Tot
          (Fits true m mode' rest c ∧
            (select (it :: rest) none (.list (c.seg 0 c.len))).isSome)
          (fun out => Sel 1 out (fun _ => select (it :: rest) none (.list (c.seg 0 c.len)))) := by
      intro it rest mode' hit hi hm hf
      have : (next (it :: rest) none c.wrapped)
          = regularNext it (next rest) none {} c c.len 1 := by
        simp only [next]
        have : 2 * c.wrapped.rank = (2 * c.wrapped.rank - 1) + 1 := by
          simp only [wrapped, rank]; omega
        rw [this]
        simp only [wrapped, stepF, if_neg hit]
        rw [← wrapped, hl]
      rw [this]
      have R := regularNext_tot (m := m) (J := fun _ => none) (mode := .none) (adv := none)
        (me := c.wrapped) (n := 1) (p := {}) (it := it) (mode' := mode') (rest := rest)
        (h := Fits true m mode' rest c ∧
            (select (it :: rest) none (.list (c.seg 0 c.len))).isSome)
        (size := c.len) (c := c)
        ⟨h, fun i hi => by
            obtain rfl : i = 0 := by omega
            rw [hv]; simp [wrapList],
          fun i hi _ => by
            obtain rfl : i = 0 := by omega
            simp⟩ (next_ok rest) ⟨rfl, fun _ _ => rfl⟩ hit hi hm hf ?_ (fun hh => hh.1)
        (fun hh i hi => by
          obtain rfl : i = 0 := by omega
          rw [hv]; exact hh.2)
      · refine ⟨R.1.mono ?_, R.2⟩
        intro out s
        refine ⟨s.good, s.len_le, fun i hi => ?_⟩
        obtain rfl : i = 0 := by omega
        have := s.val 0 hi
        rwa [hv] at this
      · rintro ⟨-, hs⟩
        rw [select_cons hit, show (Val.list (c.seg 0 c.len)) = wrapList {} (c.seg 0 c.len) by
          simp [wrapList], selItem_wrapList] at hs
        simpa using sizeOk_of_selList hs
    cases items with
    | nil =>
      have := gen [] .none (.inl rfl) .nil rfl
      exact ⟨this.1, fun hh => this.2 ⟨.nil, hh.2⟩⟩
    | cons it rest =>
      cases it with
      | newaxis =>
        have := gen (.newaxis :: rest) .none (.inr ⟨_, _, rfl, rfl⟩)
          (.newaxis (by simp [wrapped]) hf) rfl
        exact ⟨this.1, fun hh => this.2 ⟨.newaxis (by simp [wrapped]) hh.1, hh.2⟩⟩
      | «at» a =>
        have := one (.at a) rest .none (by simp) trivial (.inl rfl) hf.2
        exact ⟨this.1, fun hh => this.2 ⟨hh.1.2, hh.2⟩⟩
      | range a b s =>
        have := one (.range a b s) rest .none (by simp) hf.1 (.inl rfl) hf.2
        exact ⟨this.1, fun hh => this.2 ⟨hh.1.2, hh.2⟩⟩
      | array sh fl =>
        have := one (.array sh fl) rest .ident (by simp) hf.1 (.inr ⟨rfl, rfl, rfl, _, _, rfl⟩) hf.2
        exact ⟨this.1, fun hh => this.2 ⟨hh.1.2, hh.2⟩⟩
  unfold getitem
  rw [FitsTop.constructed hf]
  refine key.bind (fun out s => ?_)
  have h1 := s.len_le
  rw [if_neg (by omega)]
  obtain ⟨it, v, g1, g2, g3⟩ := getitemAtNowrap_good s.good (i := 0) (by omega)
  rw [g1]
  exact R.Tot.ok ⟨v, _, g2, s.val 0 (by omega), g3⟩

end Content
end Awk
