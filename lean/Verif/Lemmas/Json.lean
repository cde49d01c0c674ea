import Verif.Lemmas.GetitemTop
import Verif.Lemmas.Buffers
import Verif.Lemmas.Validity
import Verif.Spec.Json
/-
What `ak.to_json` writes.
-/

namespace Awk
open R Spec

namespace Content

/-- The content of a string or bytestring. -/
def CharLeaf (c : Content) : Prop :=
  ∃ p dt data, c = numpy p dt data ∧ (p.arr = .byte ∨ p.arr = .char)

/-- The node is text. -/
def IsText (p : Params) : Prop := p.arr = .string ∨ p.arr = .bytestring

mutual
/-- Strings consist of characters, and there are no characters, dates and wrong numbers of keys
elsewhere. -/
def Tidy : Content → Prop
  | empty _ => True
  | numpy p dt _ => p.arr ≠ .byte ∧ p.arr ≠ .char ∧ dt ≠ .datetime64 ∧ dt ≠ .timedelta64
  | regular p c _ _ => (IsText p → c.CharLeaf) ∧ (¬ IsText p → c.Tidy)
  | listArray p _ _ c => (IsText p → c.CharLeaf) ∧ (¬ IsText p → c.Tidy)
  | listOffset p _ c => (IsText p → c.CharLeaf) ∧ (¬ IsText p → c.Tidy)
  | indexed _ _ c => c.Tidy
  | indexedOption _ _ c => c.Tidy
  | byteMasked _ _ _ c => c.Tidy
  | bitMasked _ _ _ _ _ c => c.Tidy
  | unmasked _ c => c.Tidy
  | record _ keys cs _ => (∀ ks, keys = some ks → ks.length = cs.length) ∧ TidyAll cs
  | union _ _ _ cs => TidyAll cs
/-- `Tidy` of every member. -/
def TidyAll : List Content → Prop
  | [] => True
  | c :: cs => c.Tidy ∧ TidyAll cs
end

theorem tidyAll_iff {cs : List Content} : TidyAll cs ↔ ∀ c ∈ cs, c.Tidy := by
  induction cs with
  | nil => simp [TidyAll]
  | cons c cs ih => simp [TidyAll, ih]

theorem CharLeaf.range {c d : Content} {a b : Int} (h : c.CharLeaf) (hr : c.range a b = ok d) :
    d.CharLeaf := by
  obtain ⟨p, dt, data, rfl, hp⟩ := h
  simp only [Content.range, numpyRange, bind_eq_ok, ok.injEq] at hr
  obtain ⟨data', _, rfl⟩ := hr
  exact ⟨p, dt, data', rfl, hp⟩

theorem Tidy.range {c d : Content} {a b : Int} (hs : c.Tidy) (h : c.range a b = ok d) : d.Tidy := by
  induction c using Awk.Content.induct generalizing d a b with
  | empty p => simp only [Content.range, ok.injEq] at h; subst h; trivial
  | numpy p dt data =>
    simp only [Content.range, numpyRange, bind_eq_ok, ok.injEq] at h
    obtain ⟨_, _, rfl⟩ := h; exact hs
  | regular p c size zeros ih =>
    simp only [Content.range, bind_eq_ok, ok.injEq] at h
    obtain ⟨c', h1, rfl⟩ := h
    exact ⟨fun ht => (hs.1 ht).range h1, fun ht => ih (hs.2 ht) h1⟩
  | listArray p starts stops c ih =>
    simp only [Content.range, bind_eq_ok, ok.injEq] at h
    obtain ⟨_, _, _, _, rfl⟩ := h; exact hs
  | listOffset p offsets c ih =>
    simp only [Content.range, bind_eq_ok, ok.injEq] at h
    obtain ⟨_, _, rfl⟩ := h; exact hs
  | indexed p index c ih =>
    simp only [Content.range, bind_eq_ok, ok.injEq] at h
    obtain ⟨_, _, rfl⟩ := h; exact hs
  | indexedOption p index c ih =>
    simp only [Content.range, bind_eq_ok, ok.injEq] at h
    obtain ⟨_, _, rfl⟩ := h; exact hs
  | byteMasked p mask vw c ih =>
    simp only [Content.range, bind_eq_ok, ok.injEq] at h
    obtain ⟨_, _, c', h1, rfl⟩ := h
    have := ih hs h1
    simpa only [Tidy] using this
  | bitMasked p mask vw length lsb c ih =>
    simp only [Content.range, bind_eq_ok, ok.injEq] at h
    obtain ⟨_, _, _, _, c', h1, rfl⟩ := h
    have := ih hs h1
    simpa only [Tidy] using this
  | unmasked p c ih =>
    simp only [Content.range, bind_eq_ok, ok.injEq] at h
    obtain ⟨c', h1, rfl⟩ := h
    have := ih hs h1
    simpa only [Tidy] using this
  | record p keys cs length ih =>
    simp only [Content.range] at h
    split at h
    · cases h; exact hs
    · split at h
      · cases h; exact hs
      · simp only [bind_eq_ok, ok.injEq] at h
        obtain ⟨cs', h1, rfl⟩ := h
        have hf := rangeFields_forall₂ h1
        refine ⟨fun ks hk => (hs.1 ks hk).trans hf.length_eq, tidyAll_iff.mpr fun d hd => ?_⟩
        obtain ⟨c, hc, hr⟩ := forall₂_right_mem hf hd
        exact ih c hc (tidyAll_iff.mp hs.2 c hc) hr
  | union p tags index cs ih =>
    simp only [Content.range, bind_eq_ok, ok.injEq] at h
    obtain ⟨_, _, _, _, rfl⟩ := h; exact hs

theorem _root_.Awk.Spec.Writable.child {c d : Content} (h : Writable c) (hd : d ∈ c.children) :
    Writable d := by
  cases h with
  | mk _ _ h => exact h d hd

/-- Valid arrays that can be written are tidy. -/
theorem tidy_of_validity {c : Content} (h : c.validity = ok ()) (hw : Writable c) : c.Tidy := by
  have pk : ∀ {p : Params} {b : Bool}, paramsOk p b = ok () → p.arr ≠ .byte ∧ p.arr ≠ .char := by
    intro p b h
    constructor <;> intro hc <;> simp [paramsOk, hc] at h
  have str : ∀ {p : Params} {c : Content}, (c.validity = ok () → c.Tidy) →
      paramsOkList p c = ok () →
      (if p.arr = .string ∨ p.arr = .bytestring then ok () else c.validity) = ok () →
      (IsText p → c.CharLeaf) ∧ (¬ IsText p → c.Tidy) := by
    intro p c ih h1 h2
    rcases paramsOkList_content h1 h2 with ⟨ht, p', data, rfl, h3, h4⟩ | ⟨hn, h2⟩
    · refine ⟨fun _ => ⟨p', _, data, rfl, ?_⟩, fun hc => absurd ht hc⟩
      rcases ht with ht | ht
      · exact .inr (h3 ht)
      · exact .inl (h4 ht)
    · exact ⟨fun ht => by simp [IsText, hn] at ht, fun _ => ih h2⟩
  induction c using induct with
  | empty p => trivial
  | numpy p dt data =>
    cases hw with
    | mk h1 h2 h3 => exact ⟨(pk h).1, (pk h).2, h1 p dt data rfl⟩
  | regular p c size zeros ih =>
    simp only [validity, bind_eq_ok] at h
    obtain ⟨_, h1, h2⟩ := h
    exact str (fun hv => ih hv (hw.child (by simp [children]))) h1 h2
  | listArray p starts stops c ih =>
    simp only [validity, bind_eq_ok] at h
    obtain ⟨_, h1, h2⟩ := h
    split at h2
    · simp at h2
    · obtain ⟨_, _, h3⟩ := bind_eq_ok.mp h2
      exact str (fun hv => ih hv (hw.child (by simp [children]))) h1 h3
  | listOffset p offsets c ih =>
    simp only [validity, bind_eq_ok] at h
    obtain ⟨_, h1, h2⟩ := h
    split at h2
    · simp at h2
    · obtain ⟨_, _, h3⟩ := bind_eq_ok.mp h2
      exact str (fun hv => ih hv (hw.child (by simp [children]))) h1 h3
  | indexed p index c ih =>
    simp only [validity, bind_eq_ok] at h
    obtain ⟨_, _, _, _, _, _, h4⟩ := h
    exact ih h4 (hw.child (by simp [children]))
  | indexedOption p index c ih =>
    simp only [validity, bind_eq_ok] at h
    obtain ⟨_, _, _, _, _, _, h4⟩ := h
    exact ih h4 (hw.child (by simp [children]))
  | byteMasked p mask vw c ih =>
    simp only [validity, bind_eq_ok] at h
    obtain ⟨_, _, h⟩ := h
    split at h
    · simp at h
    · obtain ⟨_, _, h4⟩ := bind_eq_ok.mp h
      exact ih h4 (hw.child (by simp [children]))
  | bitMasked p mask vw length lsb c ih =>
    simp only [validity, bind_eq_ok] at h
    obtain ⟨_, _, h⟩ := h
    split at h
    · simp at h
    split at h
    · simp at h
    · obtain ⟨_, _, h4⟩ := bind_eq_ok.mp h
      exact ih h4 (hw.child (by simp [children]))
  | unmasked p c ih =>
    simp only [validity, bind_eq_ok] at h
    obtain ⟨_, _, _, _, h4⟩ := h
    exact ih h4 (hw.child (by simp [children]))
  | record p keys cs length ih =>
    simp only [validity, bind_eq_ok] at h
    obtain ⟨_, _, h⟩ := h
    split at h
    · simp at h
    · rw [validityAll_ok] at h
      refine ⟨?_, tidyAll_iff.mpr fun d hd => ih d hd (h d hd) (hw.child (by simpa [children] using hd))⟩
      rintro ks rfl
      cases hw with
      | mk h1 h2 h3 => exact h2 _ _ _ _ rfl
  | union p tags index cs ih =>
    simp only [validity, bind_eq_ok] at h
    obtain ⟨_, _, h⟩ := h
    split at h
    · simp at h
    split at h
    · simp at h
    · obtain ⟨_, _, h⟩ := bind_eq_ok.mp h
      rw [validityAll_ok] at h
      exact tidyAll_iff.mpr fun d hd => ih d hd (h d hd) (hw.child (by simpa [children] using hd))

end Content

namespace Spec.Json

theorem eventsAll_eq (js : List Json) : eventsAll js = (js.map events).flatten := by
  induction js with
  | nil => rfl
  | cons j js ih => simp [eventsAll, ih]

theorem toInt64_of {x : Int} (h : InInt64 x) : toInt64 x = x := by
  obtain ⟨h1, h2⟩ := h
  exact Int.bmod_eq_of_le (by omega) (by omega)

theorem cString_of {k : String} (h : NoNul k) : cString k = k := by
  have : k.toList.takeWhile (fun c => c ≠ '\x00') = k.toList := by
    have h' : ∀ l : List Char, '\x00' ∉ l → l.takeWhile (fun c => c ≠ '\x00') = l := by
      intro l
      induction l with
      | nil => simp
      | cons c l ih =>
        intro hl
        simp only [List.mem_cons, not_or] at hl
        rw [List.takeWhile_cons_of_pos (by simpa using Ne.symm hl.1), ih hl.2]
    exact h' _ h
  rw [cString, this]
  simp

theorem toString_noNul (n : Nat) : NoNul (toString n) := by
  intro h
  have : '\x00' ∈ Nat.toDigits 10 n := by
    simpa [toString, Nat.repr] using h
  have := Nat.isDigit_of_mem_toDigits (by omega) (by omega) this
  simp [Char.isDigit] at this

end Spec.Json

namespace Content

variable {names : Option (String × String)}

theorem atom_events {a : Atom} {j : Json} (h : JsonOf names (.atom a) j) :
    atomEvents names a = ok j.events := by
  cases h with
  | bool x => rfl
  | int x hx => simp [atomEvents, Json.toInt64_of hx, Json.events]
  | real x => rfl
  | complex k l re im hn hk hl =>
    simp [atomEvents, hn, Json.events, Json.eventsFields, Json.cString_of hk, Json.cString_of hl]

/-- The whole array, if its elements are written as they should be. -/
theorem array_events {c : Content} (hg : c.Good) (ht : c.Tidy) {f : Nat}
    (hi : ∀ i, i < c.len → ∀ j, JsonOf names (c.valD i) j →
      (c.getitemAtNowrap i >>= itemEvents names f) = ok j.events)
    {j : Json} (hj : JsonOf names (.list (c.seg 0 c.len)) j) :
    itemEvents names (f + 1) (.array c) = ok j.events := by
  cases hj with
  | list hl hp =>
    rename_i js
    simp only [seg_length] at hl
    have hp' : ∀ i (h' : i < js.length), JsonOf names (c.valD i) js[i] := by
      intro i h'
      have := hp i (by rw [seg_length]; omega) h'
      rwa [seg_getElem, Nat.zero_add] at this
    have key : ∀ {n : Nat} {g : Nat → R (List Event)}, n = js.length →
        (∀ i (h' : i < js.length), g i = ok js[i].events) → mapN n g = ok (js.map Json.events) := by
      intro n g hn hg
      rw [mapN_eq_ok]
      refine ⟨by simp [hn], fun i h => ?_⟩
      rw [hg i (by simpa using h)]; simp
    have gen : (mapN c.len (fun i => c.getitemAtNowrap i >>= itemEvents names f) >>= fun es =>
        ok ([.startArray] ++ es.flatten ++ [.endArray])) = ok (Json.arr js).events := by
      rw [key hl (fun i h' => hi i (by omega) _ (hp' i h')), bind_ok, Json.events, Json.eventsAll_eq]
    cases c with
    | numpy p dt data =>
      obtain ⟨h1, h2, h3, h4⟩ := ht
      simp only [len] at hl
      simp only [itemEvents, numpyEvents]
      rw [if_neg (by simp [h1, h2]), if_neg (by simp [h3, h4])]
      have : mapR (atomEvents names) data = ok (js.map Json.events) := by
        rw [mapR_forall₂, List.forall₂_iff_get]
        refine ⟨by simp [hl], fun i g1 g2 => ?_⟩
        have := hp' i (by omega)
        rw [valD_numpy (by omega)] at this
        simpa using atom_events this
      rw [this, bind_ok, Json.events, Json.eventsAll_eq]
    | _ => exact gen

/-- A sublist: text or not. -/
theorem list_events {c : Content} (hg : c.Good) {p : Params}
    (ht : (IsText p → c.CharLeaf) ∧ (¬ IsText p → c.Tidy)) {f : Nat}
    (hi : ∀ c' : Content, c'.Good → c'.Tidy → c'.rank ≤ c.rank → ∀ i, i < c'.len → ∀ j,
      JsonOf names (c'.valD i) j → (c'.getitemAtNowrap i >>= itemEvents names f) = ok j.events)
    {s t : Nat} (hst : s ≤ t) (htl : t ≤ c.len) {j : Json}
    (hj : JsonOf names (wrapList p (c.seg s (t - s))) j) :
    (c.range s t >>= fun c' => itemEvents names (f + 1) (.array c')) = ok j.events := by
  obtain ⟨c', h1, h2, h3, h4, h5⟩ := range_good hg hst htl
  have hl : c'.seg 0 c'.len = c.seg s (t - s) := by
    rw [h4.1]
    apply List.map_congr_left
    intro i hi
    simpa using h4.valD (List.mem_range.mp hi)
  rw [h1, bind_ok]
  by_cases hx : IsText p
  · obtain ⟨q, dt, data, rfl, hq⟩ := (ht.1 hx).range h1
    simp only [itemEvents, numpyEvents]
    rw [if_pos hq]
    have : ∃ codes : List Nat, (∀ n ∈ codes, n < 256) ∧ j = .str codes ∧
        c.seg s (t - s) = codes.map (fun (n : Nat) => .atom (.int n)) := by
      rcases hx with hx | hx
      · simp only [wrapList, hx] at hj
        generalize c.seg s (t - s) = vs at hj
        cases hj with
        | str codes hc => exact ⟨codes, hc, rfl, rfl⟩
      · simp only [wrapList, hx] at hj
        generalize c.seg s (t - s) = vs at hj
        cases hj with
        | bytes codes hc => exact ⟨codes, hc, rfl, rfl⟩
    obtain ⟨codes, hc, rfl, hs⟩ := this
    rw [hs] at hl
    have hlen : data.length = codes.length := by
      have := congrArg List.length hl
      simpa [len] using this
    have : mapR charCode data = ok codes := by
      rw [mapR_forall₂, List.forall₂_iff_get]
      refine ⟨hlen, fun i g1 g2 => ?_⟩
      have h6 : (seg (numpy q dt data) 0 (numpy q dt data).len)[i]'(by simpa [len] using g1)
          = (codes.map (fun (n : Nat) => Val.atom (.int n)))[i]'(by simpa using g2) := by
        simp only [hl]
      rw [seg_getElem, Nat.zero_add, valD_numpy g1] at h6
      simp only [List.getElem_map, Val.atom.injEq] at h6
      simp only [List.get_eq_getElem, h6, charCode]
      have := hc codes[i] (List.getElem_mem _)
      congr 1
      omega
    rw [this]; rfl
  · have ht' := (ht.2 hx).range h1
    have hw : wrapList p (c.seg s (t - s)) = .list (c'.seg 0 c'.len) := by
      rw [hl]
      simp only [IsText, not_or] at hx
      unfold wrapList
      split
      · exact absurd ‹_› hx.1
      · exact absurd ‹_› hx.2
      · rfl
    rw [hw] at hj
    exact array_events h2 ht' (hi c' h2 ht' h3) hj

theorem list_pair_events {c : Content} (hg : c.Good) {p : Params}
    (ht : (IsText p → c.CharLeaf) ∧ (¬ IsText p → c.Tidy)) {f : Nat}
    (hi : ∀ c' : Content, c'.Good → c'.Tidy → c'.rank ≤ c.rank → ∀ i, i < c'.len → ∀ j,
      JsonOf names (c'.valD i) j → (c'.getitemAtNowrap i >>= itemEvents names f) = ok j.events)
    {s t : Int} (hp : GoodPair s t c.len) {j : Json}
    (hj : JsonOf names (wrapList p (c.seg s.toNat (t - s).toNat)) j) :
    ((checkStartStop s t c.len >>= fun (start, stop) =>
      c.range start stop >>= fun c' => ok (Item.array c')) >>= itemEvents names (f + 1))
      = ok j.events := by
  by_cases he : s = t
  · subst he
    have hn : ¬ ((c.len : Int) < 0) := by omega
    have := list_events hg ht hi (s := 0) (t := 0) (Nat.le_refl 0) (by omega) (j := j)
      (by simpa using hj)
    simp only [Nat.cast_zero] at this
    simp only [checkStartStop, if_true, hn, R.bind_assoc, bind_ok, Int.lt_irrefl, if_false, gt_iff_lt]
    exact this
  · rcases hp with h | ⟨h0, h1, h2⟩
    · exact absurd h he
    · obtain ⟨s, rfl⟩ := Int.eq_ofNat_of_zero_le h0
      obtain ⟨t, rfl⟩ := Int.eq_ofNat_of_zero_le (show 0 ≤ t by omega)
      have := list_events hg ht hi (s := s) (t := t) (by omega) (by omega) (j := j)
        (by simpa [show ((t : Int) - s).toNat = t - s by omega] using hj)
      rw [checkStartStop, if_neg he]
      simp only
      rw [if_neg (by omega), if_neg (by omega), if_neg (by omega), bind_ok, R.bind_assoc]
      exact this

theorem eventsFields_zip (ks : List String) (js : List Json) :
    ∀ (cs : List Content) (g : Content → R (List Event)), ks.length = cs.length →
      cs.length = js.length → (∀ k ∈ ks, Json.NoNul k) →
      (∀ i (h : i < cs.length) (h' : i < js.length), g cs[i] = ok js[i].events) →
      fieldEvents g ks cs = ok (Json.eventsFields (ks.zip js)) := by
  induction ks generalizing js with
  | nil =>
    intro cs g h1 h2 _ _
    have : cs = [] := List.length_eq_zero_iff.mp h1.symm
    subst this
    simp [fieldEvents, Json.eventsFields]
  | cons k ks ih =>
    intro cs g h1 h2 h3 h4
    match cs, js, h1, h2, h4 with
    | c :: cs, j :: js, h1, h2, h4 =>
      have e1 := h4 0 (by simp) (by simp)
      simp only [List.getElem_cons_zero] at e1
      have e2 := ih js cs g (by simpa using h1) (by simpa using h2)
        (fun k' hk => h3 k' (by simp [hk])) (fun i h h' =>
          h4 (i + 1) (by simpa using h) (by simpa using h'))
      simp only [fieldEvents, e1, bind_ok, e2, List.zip_cons_cons, Json.eventsFields,
        Json.cString_of (h3 k (by simp))]

theorem zip_inj {ks ks' : List String} {vs vs' : List Val} (h : ks.length = vs.length)
    (h' : ks'.length = vs'.length) (he : ks.zip vs = ks'.zip vs') : ks = ks' ∧ vs = vs' := by
  have h1 := congrArg (List.map Prod.fst) he
  have h2 := congrArg (List.map Prod.snd) he
  rw [List.map_fst_zip (by omega), List.map_fst_zip (by omega)] at h1
  rw [List.map_snd_zip (by omega), List.map_snd_zip (by omega)] at h2
  exact ⟨h1, h2⟩

/-- Every element is written as it should be. -/
theorem item_events (n : Nat) : ∀ (f : Nat), n ≤ f → ∀ c : Content, c.Good → c.Tidy → c.rank ≤ n →
    ∀ i, i < c.len → ∀ j, JsonOf names (c.valD i) j →
      (c.getitemAtNowrap i >>= itemEvents names f) = ok j.events := by
  induction n with
  | zero =>
    intro f _ c _ _ hr
    cases c <;> simp [rank] at hr
  | succ n ih =>
    intro f hf c h ht hr i hi j hj
    obtain ⟨f, rfl⟩ : ∃ f', f = f' + 1 := ⟨f - 1, by omega⟩
    have null : ∀ {j}, JsonOf names .null j → itemEvents names (f + 1) .none = ok j.events := by
      intro j hj; cases hj; rfl
    cases c with
    | empty p => simp [len] at hi
    | numpy p dt data =>
      simp only [len] at hi
      simp only [getitemAtNowrap]
      rw [rd_nat_ok hi, bind_ok, bind_ok]
      rw [valD_numpy hi] at hj
      exact atom_events hj
    | regular p c size zeros =>
      have hc := good_regular.mp h
      have hb := regular_bound hi
      simp only [rank] at hr
      rw [valD_regular hc hi] at hj
      have := list_events hc ht (fun c' g1 g2 g3 => ih f (by omega) c' g1 g2 (by omega))
        (s := i * size) (t := (i + 1) * size) (Nat.mul_le_mul_right _ (by omega))
        (by rw [Nat.add_mul]; omega) (j := j)
        (by rwa [show (i + 1) * size - i * size = size by rw [Nat.add_mul]; omega])
      simp only [getitemAtNowrap, R.bind_assoc, bind_ok]
      push_cast at this
      exact this
    | listArray p starts stops c =>
      obtain ⟨hl, hc, hp⟩ := good_listArray.mp h
      simp only [len] at hi
      simp only [rank] at hr
      simp only [getitemAtNowrap]
      rw [rd_nat_ok hi, bind_ok, rd_nat_ok (by omega), bind_ok]
      rw [valD_listArray h hi (by omega)] at hj
      exact list_pair_events hc ht (fun c' g1 g2 g3 => ih f (by omega) c' g1 g2 (by omega))
        (hp i hi) hj
    | listOffset p offsets c =>
      obtain ⟨hl, hc, hp⟩ := good_listOffset.mp h
      simp only [len] at hi
      simp only [rank] at hr
      simp only [getitemAtNowrap]
      rw [rd_nat_ok (by omega), bind_ok, rd_nat_ok (by omega), bind_ok]
      rw [valD_listOffset h (by omega)] at hj
      exact list_pair_events hc ht (fun c' g1 g2 g3 => ih f (by omega) c' g1 g2 (by omega))
        (hp i (by omega)) hj
    | indexed p index c =>
      obtain ⟨hc, hp⟩ := good_indexed.mp h
      simp only [len] at hi
      simp only [rank] at hr
      have := hp i hi
      simp only [getitemAtNowrap]
      rw [rd_nat_ok hi, bind_ok, checkIndex, if_neg (by omega), if_neg (by omega), bind_ok]
      rw [valD_indexed h hi] at hj
      exact ih _ (by omega) c hc ht (by omega) _ (by omega) _ hj
    | indexedOption p index c =>
      obtain ⟨hc, hp⟩ := good_indexedOption.mp h
      simp only [len] at hi
      simp only [rank] at hr
      have := hp i hi
      simp only [getitemAtNowrap]
      rw [rd_nat_ok hi, bind_ok]
      rw [valD_indexedOption h hi] at hj
      by_cases h0 : index[i] < 0
      · simp only [h0, if_true] at hj
        simp only [checkIndex, h0, if_true, bind_ok]
        exact null hj
      · simp only [h0, if_false] at hj
        simp only [checkIndex, h0, if_false]
        rw [if_neg (by omega), bind_ok]
        exact ih _ (by omega) c hc ht (by omega) _ (by omega) _ hj
    | byteMasked p mask vw c =>
      obtain ⟨hl, hc⟩ := good_byteMasked.mp h
      simp only [len] at hi
      simp only [rank] at hr
      simp only [getitemAtNowrap]
      rw [rd_nat_ok hi, bind_ok]
      rw [valD_byteMasked h hi] at hj
      simp only [maskOk, List.getElem?_eq_getElem hi, Option.getD_some, decide_eq_true_eq] at hj
      split
      · rename_i hm
        rw [if_pos hm] at hj
        exact ih _ (by omega) c hc ht (by omega) _ (by omega) _ hj
      · rename_i hm
        rw [if_neg hm] at hj
        exact null hj
    | bitMasked p mask vw length lsb c =>
      obtain ⟨hm, hl, hc⟩ := good_bitMasked.mp h
      simp only [len] at hi
      simp only [rank] at hr
      simp only [getitemAtNowrap]
      rw [bitAt_eq (by omega), bind_ok]
      rw [valD_bitMasked h hi] at hj
      split
      · rename_i hm
        rw [if_pos hm] at hj
        exact ih _ (by omega) c hc ht (by omega) _ (by omega) _ hj
      · rename_i hm
        rw [if_neg hm] at hj
        exact null hj
    | unmasked p c =>
      simp only [len] at hi
      simp only [rank] at hr
      rw [valD_unmasked] at hj
      exact ih _ (by omega) c (good_unmasked.mp h) ht (by omega) _ hi _ hj
    | record p keys cs length =>
      obtain ⟨hl, hc⟩ := good_record.mp h
      simp only [len] at hi
      simp only [rank] at hr
      obtain ⟨hk, ht⟩ := ht
      rw [tidyAll_iff] at ht
      rw [valD_record h hi] at hj
      simp only [getitemAtNowrap, bind_ok, itemEvents]
      have hrk : rankAll cs ≤ n := by omega
      rw [rankAll_le] at hrk
      have step : ∀ (js : List Json), cs.length = js.length →
          (∀ k (g : k < (cs.map (fun c => c.valD i)).length) (g' : k < js.length),
            JsonOf names ((cs.map (fun c => c.valD i))[k]) js[k]) →
          ∀ k (g : k < cs.length) (g' : k < js.length),
            (cs[k].getitemAtNowrap i >>= itemEvents names f) = ok js[k].events := by
        intro js _ hjs k g g'
        have hm := List.getElem_mem g
        have := hl _ hm
        have hv := hjs k (by simpa using g) g'
        rw [List.getElem_map] at hv
        exact ih f (by omega) cs[k] (hc _ hm) (ht _ hm) (hrk _ hm) i (by omega) _ hv
      cases keys with
      | none =>
        simp only [mkRecord] at hj
        generalize hvs : cs.map (fun c => c.valD i) = vs at hj step
        cases hj with
        | tuple h1 h2 =>
          rename_i js
          have hlen : cs.length = js.length := by rw [← h1, ← hvs]; simp
          rw [eventsFields_zip (jsonKeys none cs.length) js cs _ (by simp [jsonKeys]) hlen
            (by simp only [jsonKeys, List.mem_map]; rintro k ⟨m, _, rfl⟩; exact Json.toString_noNul m)
            (step js hlen h2), bind_ok]
          simp only [jsonKeys, hlen, Json.events]
      | some ks =>
        simp only [mkRecord] at hj
        have hks := hk ks rfl
        generalize hvs : cs.map (fun c => c.valD i) = vs at hj step
        have hvl : vs.length = cs.length := by rw [← hvs]; simp
        generalize hz : Val.record (ks.zip vs) = w at hj
        cases hj with
        | record h0 h1 h3 h2 =>
          rename_i ks' vs' js
          obtain ⟨e1, e2⟩ := zip_inj (by omega) h0 (Val.record.inj hz)
          subst e1
          subst e2
          have hlen : cs.length = js.length := by omega
          rw [eventsFields_zip (jsonKeys (some ks) cs.length) js cs _ hks hlen h3
            (step js hlen h2), bind_ok]
          simp only [jsonKeys, Json.events]
        | _ => cases hz
    | union p tags index cs =>
      obtain ⟨hl, hc, hp⟩ := good_union.mp h
      simp only [len] at hi
      simp only [rank] at hr
      have hrk : rankAll cs ≤ n := by omega
      rw [rankAll_le] at hrk
      have ht' : ∀ d ∈ cs, d.Tidy := tidyAll_iff.mp ht
      obtain ⟨g1, g2, g3, g4⟩ := hp i hi
      simp only [getitemAtNowrap]
      rw [rd_nat_ok hi, bind_ok, rd_nat_ok (by omega), bind_ok, checkTag, if_neg (by omega), bind_ok]
      simp only
      rw [getitemAtNth_eq g2, if_neg (by omega)]
      rw [valD_union h hi (by omega) g2] at hj
      have hm := List.getElem_mem g2
      exact ih _ (by omega) _ (hc _ hm) (ht' _ hm) (hrk _ hm) _ (by omega) _ hj

/-- The text of an array. -/
theorem tojson_events {c : Content} (hg : c.Good) (ht : c.Tidy) {j : Json}
    (hj : JsonOf names (.list (c.seg 0 c.len)) j) : c.tojson names = ok j.events :=
  array_events hg ht (fun i hi j hj => item_events c.rank c.rank (Nat.le_refl _) c hg ht (Nat.le_refl _)
    i hi j hj) hj

end Content
end Awk
