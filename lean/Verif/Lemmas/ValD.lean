import Verif.Lemmas.Good
/-
For every node class: when it is `Good`, and what its elements are.
-/

namespace Awk
open R

namespace Content

/-- Elements `s, …, s + n - 1`. -/
def seg (c : Content) (s n : Nat) : List Val := (List.range n).map (fun k => c.valD (s + k))

@[simp] theorem seg_length (c : Content) (s n : Nat) : (c.seg s n).length = n := by simp [seg]
@[simp] theorem seg_zero (c : Content) (s : Nat) : c.seg s 0 = [] := rfl
theorem seg_getElem {c : Content} {s n k : Nat} (h : k < (c.seg s n).length) :
    (c.seg s n)[k] = c.valD (s + k) := by simp [seg]
theorem seg_getElem? {c : Content} {s n k : Nat} :
    (c.seg s n)[k]? = if k < n then some (c.valD (s + k)) else none := by
  simp only [seg, List.getElem?_map]
  split
  · rename_i h; simp [List.getElem?_range h]
  · rename_i h; rw [List.getElem?_eq_none (by simp; omega)]; rfl

theorem mapN_val {c : Content} (h : c.Good) {s n : Nat} (hb : s + n ≤ c.len) :
    mapN n (fun k => c.val (s + k)) = ok (c.seg s n) :=
  mapN_ok' _ (fun i hi => val_valD (h.rd _ (by omega)))

theorem Good.val {c : Content} (h : c.Good) {i : Nat} (hi : i < c.len) :
    c.val i = ok (c.valD i) := val_valD (h.rd i hi)

theorem Good.toList {c : Content} (h : c.Good) : c.toList = ok ((List.range c.len).map c.valD) :=
  toList_valD h.rd

theorem Picks.valD {c' c : Content} {idx : List Int} (h : Picks c' c idx) {i : Nat}
    (hi : i < idx.length) : c'.valD i = c.valD idx[i].toNat := by
  simp only [Content.valD, h.2 i hi]

theorem IsView.valD {c' c : Content} {n : Nat} {f : Nat → Nat} (h : IsView c' c n f) {i : Nat}
    (hi : i < n) : c'.valD i = c.valD (f i) := by
  simp only [Content.valD, h.2 i hi]

theorem good_empty (p : Params) : (empty p).Good :=
  ⟨trivial, fun i hi => by simp [len] at hi, by simp [children]⟩

theorem good_numpy (p : Params) (dt : DType) (data : List Atom) : (numpy p dt data).Good :=
  ⟨trivial, fun i hi => ⟨_, numpy_val_ok hi⟩, by simp [children]⟩

theorem valD_numpy {p : Params} {dt : DType} {data : List Atom} {i : Nat} (hi : i < data.length) :
    (numpy p dt data).valD i = .atom data[i] := valD_eq (numpy_val_ok hi)

theorem regular_bound {p : Params} {c : Content} {size zeros i : Nat}
    (hi : i < (regular p c size zeros).len) : i * size + size ≤ c.len := by
  simp only [len] at hi
  split at hi
  · have : (i + 1) * size ≤ c.len := (Nat.le_div_iff_mul_le (by omega)).mp hi
    rw [Nat.add_mul] at this; omega
  · rename_i h; simp at h; subst h; omega

theorem regular_val {p : Params} {c : Content} {size zeros i : Nat} (hc : c.Good)
    (hi : i < (regular p c size zeros).len) :
    (regular p c size zeros).val i = ok (wrapList p (c.seg (i * size) size)) := by
  simp only [Content.val]
  rw [mapN_val hc (regular_bound hi), bind_ok]

theorem good_regular {p : Params} {c : Content} {size zeros : Nat} :
    (regular p c size zeros).Good ↔ c.Good :=
  ⟨fun h => h.child (by simp [children]),
   fun h => ⟨h.wf, fun _ hi => ⟨_, regular_val h hi⟩, by simpa [children] using h⟩⟩

theorem valD_regular {p : Params} {c : Content} {size zeros i : Nat} (hc : c.Good)
    (hi : i < (regular p c size zeros).len) :
    (regular p c size zeros).valD i = wrapList p (c.seg (i * size) size) :=
  valD_eq (regular_val hc hi)

theorem _root_.Awk.GoodPair.le {s t : Int} {n : Nat} (h : GoodPair s t n) : s ≤ t := by
  rcases h with h | h <;> omega

/-- The value of a list element, from its checked pair. -/
theorem list_val {c : Content} (hc : c.Good) {s t : Int} (hp : GoodPair s t c.len) (p : Params) :
    (checkStartStop s t c.len >>= fun (start, stop) =>
      mapN (stop - start).toNat (fun k => c.val (start.toNat + k)) >>= fun vs =>
      ok (wrapList p vs)) = ok (wrapList p (c.seg s.toNat (t - s).toNat)) := by
  by_cases he : s = t
  · subst he
    have hn : ¬ ((c.len : Int) < 0) := by omega
    simp [checkStartStop, hn]
  · rcases hp with h | ⟨h0, h1, h2⟩
    · exact absurd h he
    · simp only [checkStartStop, he, if_false]
      rw [if_neg (by omega), if_neg (by omega), if_neg (by omega), bind_ok]
      simp only
      rw [mapN_val hc (by omega), bind_ok]

theorem pair_of_val {c : Content} {s t : Int} {p : Params} {v : Val}
    (h : (checkStartStop s t c.len >>= fun (start, stop) =>
      mapN (stop - start).toNat (fun k => c.val (start.toNat + k)) >>= fun vs =>
      ok (wrapList p vs)) = ok v) : GoodPair s t c.len := by
  obtain ⟨st, h1, _⟩ := bind_eq_ok.mp h
  obtain ⟨a, b, _, h2, h3, h4, h5⟩ := checkStartStop_inv h1
  by_cases he : s = t
  · exact .inl he
  · have := h5 he; right; omega

theorem good_listArray {p : Params} {starts stops : List Int} {c : Content} :
    (listArray p starts stops c).Good ↔ ∃ hl : starts.length ≤ stops.length, c.Good ∧
      ∀ i (h : i < starts.length), GoodPair starts[i] stops[i] c.len := by
  constructor
  · intro h
    have hw := h.wf
    simp only [WF] at hw
    refine ⟨hw.1, h.child (by simp [children]), ?_⟩
    intro i hi
    obtain ⟨v, hv⟩ := h.rd i hi
    simp only [Content.val] at hv
    rw [rd_nat_ok hi, bind_ok, rd_nat_ok (by omega), bind_ok] at hv
    exact pair_of_val hv
  · rintro ⟨hl, hc, hp⟩
    refine ⟨⟨hl, hc.wf⟩, ?_, by simpa [children] using hc⟩
    intro i hi
    simp only [len] at hi
    simp only [Content.val]
    rw [rd_nat_ok hi, bind_ok, rd_nat_ok (by omega), bind_ok]
    exact ⟨_, list_val hc (hp i hi) p⟩

theorem valD_listArray {p : Params} {starts stops : List Int} {c : Content}
    (h : (listArray p starts stops c).Good) {i : Nat} (hi : i < starts.length)
    (hi' : i < stops.length) :
    (listArray p starts stops c).valD i
      = wrapList p (c.seg starts[i].toNat (stops[i] - starts[i]).toNat) := by
  obtain ⟨hl, hc, hp⟩ := good_listArray.mp h
  apply valD_eq
  simp only [Content.val]
  rw [rd_nat_ok hi, bind_ok, rd_nat_ok (by omega), bind_ok]
  exact list_val hc (hp i hi) p

theorem good_listOffset {p : Params} {offsets : List Int} {c : Content} :
    (listOffset p offsets c).Good ↔ 1 ≤ offsets.length ∧ c.Good ∧
      ∀ i (h : i + 1 < offsets.length), GoodPair offsets[i] offsets[i + 1] c.len := by
  constructor
  · intro h
    have hw := h.wf
    simp only [WF] at hw
    refine ⟨hw.1, h.child (by simp [children]), ?_⟩
    intro i hi
    obtain ⟨v, hv⟩ := h.rd i (by simp only [len]; omega)
    simp only [Content.val] at hv
    rw [rd_nat_ok (by omega), bind_ok, rd_nat_ok (by omega), bind_ok] at hv
    exact pair_of_val hv
  · rintro ⟨hl, hc, hp⟩
    refine ⟨⟨hl, hc.wf⟩, ?_, by simpa [children] using hc⟩
    intro i hi
    simp only [len] at hi
    simp only [Content.val]
    rw [rd_nat_ok (by omega), bind_ok, rd_nat_ok (by omega), bind_ok]
    exact ⟨_, list_val hc (hp i (by omega)) p⟩

theorem valD_listOffset {p : Params} {offsets : List Int} {c : Content}
    (h : (listOffset p offsets c).Good) {i : Nat} (hi : i + 1 < offsets.length) :
    (listOffset p offsets c).valD i
      = wrapList p (c.seg offsets[i].toNat (offsets[i + 1] - offsets[i]).toNat) := by
  obtain ⟨hl, hc, hp⟩ := good_listOffset.mp h
  apply valD_eq
  simp only [Content.val]
  rw [rd_nat_ok (by omega), bind_ok, rd_nat_ok (by omega), bind_ok]
  exact list_val hc (hp i hi) p

theorem good_indexed {p : Params} {index : List Int} {c : Content} :
    (indexed p index c).Good ↔ c.Good ∧ ∀ i (h : i < index.length), 0 ≤ index[i] ∧ index[i] < c.len := by
  constructor
  · intro h
    refine ⟨h.child (by simp [children]), ?_⟩
    intro i hi
    obtain ⟨v, hv⟩ := h.rd i hi
    simp only [Content.val] at hv
    rw [rd_nat_ok hi, bind_ok] at hv
    obtain ⟨o, h1, _⟩ := bind_eq_ok.mp hv
    unfold checkIndex at h1
    split at h1
    · simp at h1
    split at h1
    · simp at h1
    · omega
  · rintro ⟨hc, hp⟩
    refine ⟨hc.wf, ?_, by simpa [children] using hc⟩
    intro i hi
    simp only [len] at hi
    simp only [Content.val]
    rw [rd_nat_ok hi, bind_ok, checkIndex, if_neg (by have := hp i hi; omega),
      if_neg (by have := hp i hi; omega), bind_ok]
    exact ⟨_, hc.val (by have := hp i hi; omega)⟩

theorem valD_indexed {p : Params} {index : List Int} {c : Content}
    (h : (indexed p index c).Good) {i : Nat} (hi : i < index.length) :
    (indexed p index c).valD i = c.valD index[i].toNat := by
  obtain ⟨hc, hp⟩ := good_indexed.mp h
  apply valD_eq
  simp only [Content.val]
  rw [rd_nat_ok hi, bind_ok, checkIndex, if_neg (by have := hp i hi; omega),
    if_neg (by have := hp i hi; omega), bind_ok]
  exact hc.val (by have := hp i hi; omega)

theorem good_indexedOption {p : Params} {index : List Int} {c : Content} :
    (indexedOption p index c).Good ↔ c.Good ∧ ∀ i (h : i < index.length), index[i] < c.len := by
  constructor
  · intro h
    refine ⟨h.child (by simp [children]), ?_⟩
    intro i hi
    obtain ⟨v, hv⟩ := h.rd i hi
    simp only [Content.val] at hv
    rw [rd_nat_ok hi, bind_ok] at hv
    obtain ⟨o, h1, _⟩ := bind_eq_ok.mp hv
    unfold checkIndex at h1
    split at h1
    · omega
    split at h1
    · simp at h1
    · omega
  · rintro ⟨hc, hp⟩
    refine ⟨hc.wf, ?_, by simpa [children] using hc⟩
    intro i hi
    simp only [len] at hi
    have := indexedOption_val (p := p) hi (hp i hi)
    rw [this]
    unfold pickVal
    split
    · exact ⟨_, rfl⟩
    · rename_i k hk
      split at hk
      · simp at hk
      · simp at hk; subst hk
        exact hc.rd _ (by have := hp i hi; omega)

theorem valD_indexedOption {p : Params} {index : List Int} {c : Content}
    (h : (indexedOption p index c).Good) {i : Nat} (hi : i < index.length) :
    (indexedOption p index c).valD i
      = if index[i] < 0 then .null else c.valD index[i].toNat := by
  obtain ⟨hc, hp⟩ := good_indexedOption.mp h
  apply valD_eq
  rw [indexedOption_val (p := p) hi (hp i hi)]
  by_cases h0 : index[i] < 0
  · simp [h0, pickVal]
  · simp only [h0, if_false, pickVal]
    exact hc.val (by have := hp i hi; omega)

theorem good_byteMasked {p : Params} {mask : List Int} {vw : Bool} {c : Content} :
    (byteMasked p mask vw c).Good ↔ mask.length ≤ c.len ∧ c.Good := by
  constructor
  · intro h
    exact ⟨by have := h.wf; simp only [WF] at this; exact this.1, h.child (by simp [children])⟩
  · rintro ⟨hl, hc⟩
    refine ⟨⟨hl, hc.wf⟩, ?_, by simpa [children] using hc⟩
    intro i hi
    simp only [len] at hi
    simp only [Content.val]
    rw [rd_nat_ok hi, bind_ok]
    split
    · exact ⟨_, hc.val (by omega)⟩
    · exact ⟨_, rfl⟩

theorem valD_byteMasked {p : Params} {mask : List Int} {vw : Bool} {c : Content}
    (h : (byteMasked p mask vw c).Good) {i : Nat} (hi : i < mask.length) :
    (byteMasked p mask vw c).valD i = if maskOk mask vw i then c.valD i else .null := by
  obtain ⟨hl, hc⟩ := good_byteMasked.mp h
  apply valD_eq
  simp only [Content.val]
  rw [rd_nat_ok hi, bind_ok]
  simp only [maskOk, List.getElem?_eq_getElem hi, Option.getD_some, decide_eq_true_eq]
  split
  · exact hc.val (by omega)
  · rfl

theorem good_bitMasked {p : Params} {mask : List Nat} {vw : Bool} {length : Nat} {lsb : Bool}
    {c : Content} :
    (bitMasked p mask vw length lsb c).Good ↔
      length ≤ mask.length * 8 ∧ length ≤ c.len ∧ c.Good := by
  constructor
  · intro h
    have := h.wf
    simp only [WF] at this
    exact ⟨this.1, this.2.1, h.child (by simp [children])⟩
  · rintro ⟨hm, hl, hc⟩
    refine ⟨⟨hm, hl, hc.wf⟩, ?_, by simpa [children] using hc⟩
    intro i hi
    simp only [len] at hi
    simp only [Content.val]
    rw [bitAt_eq (by omega), bind_ok]
    split
    · exact ⟨_, hc.val (by omega)⟩
    · exact ⟨_, rfl⟩

theorem valD_bitMasked {p : Params} {mask : List Nat} {vw : Bool} {length : Nat} {lsb : Bool}
    {c : Content} (h : (bitMasked p mask vw length lsb c).Good) {i : Nat} (hi : i < length) :
    (bitMasked p mask vw length lsb c).valD i
      = if bitOf mask lsb i = vw then c.valD i else .null := by
  obtain ⟨hm, hl, hc⟩ := good_bitMasked.mp h
  apply valD_eq
  simp only [Content.val]
  rw [bitAt_eq (by omega), bind_ok]
  split
  · exact hc.val (by omega)
  · rfl

theorem good_unmasked {p : Params} {c : Content} : (unmasked p c).Good ↔ c.Good := by
  constructor
  · intro h; exact h.child (by simp [children])
  · intro hc; exact ⟨hc.wf, hc.rd, by simpa [children] using hc⟩

theorem valD_unmasked {p : Params} {c : Content} (i : Nat) :
    (unmasked p c).valD i = c.valD i := rfl

theorem valFields_valD {cs : List Content} (h : ∀ c ∈ cs, c.Good) {i : Nat}
    (hi : ∀ c ∈ cs, i < c.len) : valFields cs i = ok (cs.map (fun c => c.valD i)) := by
  induction cs with
  | nil => rfl
  | cons c cs ih =>
    simp only [valFields]
    rw [(h c List.mem_cons_self).val (hi c List.mem_cons_self), bind_ok,
      ih (fun d hd => h d (List.mem_cons_of_mem _ hd)) (fun d hd => hi d (List.mem_cons_of_mem _ hd)),
      bind_ok]
    rfl

theorem good_record {p : Params} {keys : Option (List String)} {cs : List Content} {length : Nat} :
    (record p keys cs length).Good ↔ (∀ c ∈ cs, length ≤ c.len) ∧ ∀ c ∈ cs, c.Good := by
  constructor
  · intro h
    have := h.wf
    simp only [WF] at this
    exact ⟨this.1, fun c hc => h.child (by simpa [children] using hc)⟩
  · rintro ⟨hl, hc⟩
    refine ⟨⟨hl, WFAll_iff.mpr fun c h => (hc c h).wf⟩, ?_, by simpa [children] using hc⟩
    intro i hi
    simp only [len] at hi
    simp only [Content.val]
    rw [valFields_valD hc (fun c h => by have := hl c h; omega)]
    exact ⟨_, rfl⟩

theorem valD_record {p : Params} {keys : Option (List String)} {cs : List Content} {length : Nat}
    (h : (record p keys cs length).Good) {i : Nat} (hi : i < length) :
    (record p keys cs length).valD i = mkRecord keys (cs.map (fun c => c.valD i)) := by
  obtain ⟨hl, hc⟩ := good_record.mp h
  apply valD_eq
  simp only [Content.val]
  rw [valFields_valD hc (fun c h => by have := hl c h; omega), bind_ok]

theorem good_union {p : Params} {tags index : List Int} {cs : List Content} :
    (union p tags index cs).Good ↔ ∃ hl : tags.length ≤ index.length, (∀ c ∈ cs, c.Good) ∧
      ∀ i (h : i < tags.length), 0 ≤ tags[i] ∧ ∃ (ht : tags[i].toNat < cs.length),
        0 ≤ index[i] ∧ index[i] < (cs[tags[i].toNat]).len := by
  constructor
  · intro h
    have hw := h.wf
    simp only [WF] at hw
    refine ⟨hw.1, fun c hc => h.child (by simpa [children] using hc), ?_⟩
    intro i hi
    obtain ⟨v, hv⟩ := h.rd i hi
    simp only [Content.val] at hv
    rw [rd_nat_ok hi, bind_ok, rd_nat_ok (by omega), bind_ok, checkTag] at hv
    split at hv
    · simp at hv
    · rename_i ht
      have htl : tags[i].toNat < cs.length := by omega
      rw [bind_ok] at hv
      simp only at hv
      rw [valNth_eq htl] at hv
      split at hv
      · simp at hv
      · exact ⟨by omega, htl, by omega⟩
  · rintro ⟨hl, hc, hp⟩
    refine ⟨⟨hl, WFAll_iff.mpr fun c h => (hc c h).wf⟩, ?_, by simpa [children] using hc⟩
    intro i hi
    simp only [len] at hi
    obtain ⟨g1, g2, g3, g4⟩ := hp i hi
    simp only [Content.val]
    rw [rd_nat_ok hi, bind_ok, rd_nat_ok (by omega), bind_ok, checkTag, if_neg (by omega), bind_ok]
    simp only
    rw [valNth_eq g2, if_neg (by omega)]
    exact (hc _ (List.getElem_mem g2)).rd _ (by omega)

theorem valD_union {p : Params} {tags index : List Int} {cs : List Content}
    (h : (union p tags index cs).Good) {i : Nat} (hi : i < tags.length) (hi' : i < index.length)
    (ht : tags[i].toNat < cs.length) :
    (union p tags index cs).valD i = (cs[tags[i].toNat]).valD index[i].toNat := by
  obtain ⟨hl, hc, hp⟩ := good_union.mp h
  obtain ⟨g1, g2, g3, g4⟩ := hp i hi
  apply valD_eq
  simp only [Content.val]
  rw [rd_nat_ok hi, bind_ok, rd_nat_ok (by omega), bind_ok, checkTag, if_neg (by omega), bind_ok]
  simp only
  rw [valNth_eq g2, if_neg (by omega)]
  exact (hc _ (List.getElem_mem g2)).val (by omega)

/-- The list and the record of values of a row. -/
theorem val_inner_pick {c : Content} (h : c.Good) (ho : c.isOptionOrIndexed = true) {i : Nat}
    (hi : i < c.len) :
    c.valD i = (match c.pick i with | none => .null | some k => c.inner.valD k) ∧
      ∀ k, c.pick i = some k → k < c.inner.len := by
  obtain ⟨h1, h2⟩ := val_pick h.wf ho hi (h.val hi)
  refine ⟨?_, h2⟩
  cases hp : c.pick i with
  | none => rw [hp] at h1; simp [pickVal] at h1; exact h1.symm
  | some k => rw [hp] at h1; simp only [pickVal] at h1; exact (valD_eq h1).symm

end Content
end Awk
