import Verif.Model.Fields
import Verif.Spec.Fields
import Verif.Spec.Field
import Verif.Lemmas.Size
import Verif.Lemmas.MergeShape
/-
Lemmas for `ak.fields`.
-/

namespace Awk
open R

namespace Content

theorem fieldNamesAll_eq (cs : List Content) : fieldNamesAll cs = cs.map fieldNames := by
  induction cs with
  | nil => rfl
  | cons c cs ih => simp only [fieldNamesAll, ih, List.map_cons]

theorem mem_unionFold {key : String} {rest : List (List String)} : ∀ {out : List String},
    key ∈ rest.foldl (fun out tmp => out.filter (fun x => tmp.any (fun k => k == x))) out ↔
      key ∈ out ∧ ∀ l ∈ rest, key ∈ l := by
  induction rest with
  | nil => simp
  | cons l rest ih =>
    intro out
    rw [List.foldl_cons, ih]
    simp only [List.mem_filter, List.any_eq_true, beq_iff_eq, exists_eq_right, List.mem_cons, forall_eq_or_imp]
    tauto

theorem mem_unionKeys {key : String} {ls : List (List String)} :
    key ∈ unionKeys ls ↔ ls ≠ [] ∧ ∀ l ∈ ls, key ∈ l := by
  cases ls with
  | nil => simp [unionKeys]
  | cons out rest => simp [unionKeys, mem_unionFold]

theorem wrapList_hasField {p : Params} {key : String} {vs : List Val} (h : ∀ v ∈ vs, Val.HasField key v) :
    Val.HasField key (wrapList p vs) := by
  unfold wrapList
  split
  · exact .str h
  · exact .bytes h
  · exact .list h

theorem wrapList_namesAre {p : Params} {names : List String} {vs : List Val}
    (h : ∀ v ∈ vs, Val.NamesAre names v) : Val.NamesAre names (wrapList p vs) := by
  unfold wrapList
  split
  · exact .str h
  · exact .bytes h
  · exact .list h

theorem mkRecord_hasField {keys : Option (List String)} {key : String} {vs : List Val}
    (hk : ∀ ks, keys = some ks → ks.length = vs.length) (h : key ∈ recordKeys keys vs.length) :
    Val.HasField key (mkRecord keys vs) := by
  cases keys with
  | none =>
    simp only [recordKeys, List.mem_map, List.mem_range] at h
    obtain ⟨i, hi, rfl⟩ := h
    exact .tuple hi rfl
  | some ks =>
    simp only [recordKeys] at h
    have hl := hk ks rfl
    obtain ⟨i, hi, rfl⟩ := List.mem_iff_getElem.mp h
    refine .record (v := vs[i]'(by omega)) ?_
    rw [List.mem_iff_getElem]
    exact ⟨i, by simp; omega, by simp⟩

theorem mkRecord_namesAre {keys : Option (List String)} {vs : List Val}
    (hk : ∀ ks, keys = some ks → ks.length = vs.length) :
    Val.NamesAre (recordKeys keys vs.length) (mkRecord keys vs) := by
  cases keys with
  | none => exact .tuple rfl
  | some ks =>
    refine .record ?_
    simp only [recordKeys]
    rw [List.map_fst_zip]
    have := hk ks rfl
    omega

theorem fieldNames_hasField {key : String} (c : Content) : c.Good → AllNodes KeyedNode c → key ∈ c.fieldNames →
    ∀ i, i < c.len → Val.HasField key (c.valD i) := by
  induction c using induct with
  | empty p => intro _ _ h; simp [fieldNames] at h
  | numpy p dt data => intro _ _ h; simp [fieldNames] at h
  | regular p c size zeros ih =>
    intro hg hk h i hi
    have hc := good_regular.mp hg
    rw [valD_regular hc hi]
    refine wrapList_hasField (fun v hv => ?_)
    obtain ⟨k, hk', rfl⟩ := mem_seg_valD hv
    exact ih hc (hk.child (by simp [children])) h _ (by have := regular_bound hi; omega)
  | listArray p starts stops c ih =>
    intro hg hk h i hi
    obtain ⟨hw, hc, hp⟩ := good_listArray.mp hg
    simp only [len] at hi
    rw [valD_listArray hg hi (by omega)]
    refine wrapList_hasField (fun v hv => ?_)
    obtain ⟨k, hk', rfl⟩ := mem_seg_valD hv
    exact ih hc (hk.child (by simp [children])) h _ (by have := hp i hi; unfold GoodPair at this; omega)
  | listOffset p offsets c ih =>
    intro hg hk h i hi
    obtain ⟨hw, hc, hp⟩ := good_listOffset.mp hg
    simp only [len] at hi
    have hi' : i + 1 < offsets.length := by omega
    rw [valD_listOffset hg hi']
    refine wrapList_hasField (fun v hv => ?_)
    obtain ⟨k, hk', rfl⟩ := mem_seg_valD hv
    exact ih hc (hk.child (by simp [children])) h _ (by have := hp i hi'; unfold GoodPair at this; omega)
  | indexed p index c ih =>
    intro hg hk h i hi
    obtain ⟨hc, hp⟩ := good_indexed.mp hg
    simp only [len] at hi
    rw [valD_indexed hg hi]
    exact ih hc (hk.child (by simp [children])) h _ (by have := hp i hi; omega)
  | indexedOption p index c ih =>
    intro hg hk h i hi
    obtain ⟨hc, hp⟩ := good_indexedOption.mp hg
    simp only [len] at hi
    rw [valD_indexedOption hg hi]
    split
    · exact .null
    · exact ih hc (hk.child (by simp [children])) h _ (by have := hp i hi; omega)
  | byteMasked p mask vw c ih =>
    intro hg hk h i hi
    obtain ⟨hw, hc⟩ := good_byteMasked.mp hg
    simp only [len] at hi
    rw [valD_byteMasked hg hi]
    split
    · exact ih hc (hk.child (by simp [children])) h _ (by omega)
    · exact .null
  | bitMasked p mask vw length lsb c ih =>
    intro hg hk h i hi
    obtain ⟨_, hw, hc⟩ := good_bitMasked.mp hg
    simp only [len] at hi
    rw [valD_bitMasked hg hi]
    split
    · exact ih hc (hk.child (by simp [children])) h _ (by omega)
    · exact .null
  | unmasked p c ih =>
    intro hg hk h i hi
    exact ih (good_unmasked.mp hg) (hk.child (by simp [children])) h i hi
  | record p keys cs length ih =>
    intro hg hk h i hi
    simp only [len] at hi
    rw [valD_record hg hi]
    refine mkRecord_hasField (fun ks hks => ?_) (by simpa [fieldNames] using h)
    have := hk.here ks hks
    simpa using this
  | union p tags index cs ih =>
    intro hg hk h i hi
    obtain ⟨hw, hc, hp⟩ := good_union.mp hg
    simp only [len] at hi
    obtain ⟨g1, g2, g3, g4⟩ := hp i hi
    rw [valD_union hg hi (by omega) g2]
    have hm : cs[tags[i].toNat] ∈ cs := List.getElem_mem _
    simp only [fieldNames, fieldNamesAll_eq, mem_unionKeys] at h
    exact ih _ hm (hc _ hm) (hk.child (by simp [children])) (h.2 _ (List.mem_map_of_mem hm)) _ (by omega)

theorem fieldNames_namesAre (c : Content) : c.Good → AllNodes KeyedNode c → AllNodes SureNode c →
    ∀ i, i < c.len → Val.NamesAre c.fieldNames (c.valD i) := by
  induction c using induct with
  | empty p => intro _ _ _ i hi; simp [len] at hi
  | numpy p dt data =>
    intro _ _ _ i hi
    simp only [len] at hi
    rw [valD_numpy hi]
    exact .atom rfl
  | regular p c size zeros ih =>
    intro hg hk hn i hi
    have hc := good_regular.mp hg
    rw [valD_regular hc hi]
    refine wrapList_namesAre (fun v hv => ?_)
    obtain ⟨k, hk', rfl⟩ := mem_seg_valD hv
    exact ih hc (hk.child (by simp [children])) (hn.child (by simp [children])) _
      (by have := regular_bound hi; omega)
  | listArray p starts stops c ih =>
    intro hg hk hn i hi
    obtain ⟨hw, hc, hp⟩ := good_listArray.mp hg
    simp only [len] at hi
    rw [valD_listArray hg hi (by omega)]
    refine wrapList_namesAre (fun v hv => ?_)
    obtain ⟨k, hk', rfl⟩ := mem_seg_valD hv
    exact ih hc (hk.child (by simp [children])) (hn.child (by simp [children])) _
      (by have := hp i hi; unfold GoodPair at this; omega)
  | listOffset p offsets c ih =>
    intro hg hk hn i hi
    obtain ⟨hw, hc, hp⟩ := good_listOffset.mp hg
    simp only [len] at hi
    have hi' : i + 1 < offsets.length := by omega
    rw [valD_listOffset hg hi']
    refine wrapList_namesAre (fun v hv => ?_)
    obtain ⟨k, hk', rfl⟩ := mem_seg_valD hv
    exact ih hc (hk.child (by simp [children])) (hn.child (by simp [children])) _
      (by have := hp i hi'; unfold GoodPair at this; omega)
  | indexed p index c ih =>
    intro hg hk hn i hi
    obtain ⟨hc, hp⟩ := good_indexed.mp hg
    simp only [len] at hi
    rw [valD_indexed hg hi]
    exact ih hc (hk.child (by simp [children])) (hn.child (by simp [children])) _ (by have := hp i hi; omega)
  | indexedOption p index c ih =>
    intro hg hk hn i hi
    obtain ⟨hc, hp⟩ := good_indexedOption.mp hg
    simp only [len] at hi
    rw [valD_indexedOption hg hi]
    split
    · exact .null
    · exact ih hc (hk.child (by simp [children])) (hn.child (by simp [children])) _
        (by have := hp i hi; omega)
  | byteMasked p mask vw c ih =>
    intro hg hk hn i hi
    obtain ⟨hw, hc⟩ := good_byteMasked.mp hg
    simp only [len] at hi
    rw [valD_byteMasked hg hi]
    split
    · exact ih hc (hk.child (by simp [children])) (hn.child (by simp [children])) _ (by omega)
    · exact .null
  | bitMasked p mask vw length lsb c ih =>
    intro hg hk hn i hi
    obtain ⟨_, hw, hc⟩ := good_bitMasked.mp hg
    simp only [len] at hi
    rw [valD_bitMasked hg hi]
    split
    · exact ih hc (hk.child (by simp [children])) (hn.child (by simp [children])) _ (by omega)
    · exact .null
  | unmasked p c ih =>
    intro hg hk hn i hi
    exact ih (good_unmasked.mp hg) (hk.child (by simp [children])) (hn.child (by simp [children])) i hi
  | record p keys cs length ih =>
    intro hg hk hn i hi
    simp only [len] at hi
    rw [valD_record hg hi]
    have := mkRecord_namesAre (keys := keys) (vs := cs.map (fun c => c.valD i)) (fun ks hks => by
      have := hk.here ks hks
      simpa using this)
    simpa [fieldNames] using this
  | union p tags index cs ih => intro _ _ hn; exact absurd hn.here (by simp [SureNode])

/-- A name of a record array belongs to one of its fields. -/
theorem recordKeys_named {keys : Option (List String)} {n : Nat} {key : String}
    (hk : ∀ ks, keys = some ks → ks.length = n) (hb : keys = none → n < 2 ^ 31)
    (h : key ∈ recordKeys keys n) : ∃ i, Named keys n key i := by
  cases keys with
  | none =>
    simp only [recordKeys, List.mem_map, List.mem_range] at h
    obtain ⟨i, hi, rfl⟩ := h
    exact ⟨i, hi, rfl, by have := hb rfl; omega⟩
  | some ks =>
    simp only [recordKeys] at h
    have hl := hk ks rfl
    cases hf : ks.findIdx? (fun k => k == key) with
    | none =>
      rw [List.findIdx?_eq_none_iff] at hf
      have := hf key h
      simp at this
    | some i =>
      rw [List.findIdx?_eq_some_iff_getElem] at hf
      obtain ⟨hi, h1, h2⟩ := hf
      refine ⟨i, by omega, by simpa [hi] using h1, fun j hj => ?_⟩
      have := h2 j hj
      simp only [beq_iff_eq, Bool.not_eq_true, beq_eq_false_iff_ne] at this
      rw [List.getElem?_eq_getElem (by omega)]
      simpa using this

theorem fieldNames_hasFields {key : String} (c : Content) : AllNodes KeyedNode c → AllNodes BareNode c →
    key ∈ c.fieldNames → HasFields [.one key] c := by
  induction c using induct with
  | empty p => intro _ _ h; simp [fieldNames] at h
  | numpy p dt data => intro _ _ h; simp [fieldNames] at h
  | regular p c _ _ ih | listArray p _ _ c ih | listOffset p _ c ih =>
    intro hk hp h
    refine .list rfl hp.here (fun d hd => ?_)
    have h1 := hk.child hd
    have h2 := hp.child hd
    simp only [children, List.mem_singleton] at hd
    subst hd
    exact ih h1 h2 h
  | indexed p _ c ih | indexedOption p _ c ih
  | byteMasked p _ _ c ih | bitMasked p _ _ _ _ c ih | unmasked p c ih =>
    intro hk hp h
    refine .option rfl (fun d hd => ?_)
    have h1 := hk.child hd
    have h2 := hp.child hd
    simp only [children, List.mem_singleton] at hd
    subst hd
    exact ih h1 h2 h
  | record p keys cs length ih =>
    intro hk hp h
    obtain ⟨i, hi⟩ := recordKeys_named hk.here hp.here h
    have hlt : i < cs.length := hi.1
    exact .one hi (List.getElem?_eq_getElem hlt) .nil
  | union p tags index cs ih => intro _ hp; exact absurd hp.here (by simp [BareNode])

theorem fieldNames_lacks {key : String} (c : Content) : AllNodes KeyedNode c → key ∉ c.fieldNames →
    Lacks key c := by
  induction c using induct with
  | empty p => intros; exact .empty
  | numpy p dt data => intros; exact .numpy
  | regular p c _ _ ih | listArray p _ _ c ih | listOffset p _ c ih | indexed p _ c ih | indexedOption p _ c ih
  | byteMasked p _ _ c ih | bitMasked p _ _ _ _ c ih | unmasked p c ih =>
    intro hk h
    have hd : c ∈ [c] := by simp
    exact .under (by simp) (d := c) hd (ih (hk.child hd) h)
  | record p keys cs length ih =>
    intro hk h
    cases keys with
    | none =>
      refine .tuple (fun i hi he => h ?_)
      simp only [fieldNames, recordKeys, List.mem_map, List.mem_range]
      exact ⟨i, hi, he.symm⟩
    | some ks => exact .record h
  | union p tags index cs ih =>
    intro hk h
    simp only [fieldNames, fieldNamesAll_eq, mem_unionKeys] at h
    have hne : cs ≠ [] := hk.here
    have : ∃ c ∈ cs, key ∉ c.fieldNames := by
      by_contra hcon
      push Not at hcon
      exact h ⟨by simpa using hne, by simpa using hcon⟩
    obtain ⟨c, hc, hx⟩ := this
    exact .under (by simp) (d := c) hc (ih c hc (hk.child hc) hx)

end Content
end Awk
