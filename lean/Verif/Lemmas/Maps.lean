import Verif.Lemmas.Closed
/-
Nodes rebuilt around a content whose elements have been mapped.
-/

namespace Awk
open R

theorem wrapList_default (vs : List Val) : wrapList {} vs = .list vs := rfl

namespace Val

theorem mapAxisList_eq (keep : Bool) (g : Val → Val) (a : Nat) (vs : List Val) :
    mapAxisList keep g a vs = vs.map (mapAxis keep g a) := by
  induction vs with
  | nil => simp [mapAxisList]
  | cons v vs ih => simp [mapAxisList, ih]

theorem mapAxisFields_zip (keep : Bool) (g : Val → Val) (a : Nat) (ks : List String)
    (vs : List Val) :
    mapAxisFields keep g a (ks.zip vs) = ks.zip (vs.map (mapAxis keep g a)) := by
  induction ks generalizing vs with
  | nil => simp [mapAxisFields]
  | cons k ks ih => cases vs <;> simp [mapAxisFields, ih]

theorem mapAxis_null (keep : Bool) (g : Val → Val) (a : Nat) : mapAxis keep g a .null = .null := by
  simp [mapAxis]

theorem mapAxis_one (keep : Bool) (g : Val → Val) (p : Params) (vs : List Val) :
    mapAxis keep g 1 (wrapList p vs) = g (wrapList p vs) := by
  unfold wrapList
  cases p.arr <;> simp [mapAxis]

theorem mapAxis_wrapList {keep : Bool} {g : Val → Val} {a : Nat} (ha : 1 ≤ a) (p : Params)
    (vs : List Val) :
    mapAxis keep g (a + 1) (wrapList p vs)
      = wrapList (if keep then p else {}) (vs.map (mapAxis keep g a)) := by
  have h : ¬ a + 1 ≤ 1 := by omega
  cases keep <;> simp only [Bool.false_eq_true, if_false, if_true, wrapList_default] <;>
    unfold wrapList <;> cases p.arr <;> simp [mapAxis, h, mapAxisList_eq]

theorem mapAxis_mkRecord (keep : Bool) (g : Val → Val) (a : Nat) (keys : Option (List String))
    (vs : List Val) :
    mapAxis keep g a (mkRecord keys vs) = mkRecord keys (vs.map (mapAxis keep g a)) := by
  cases keys <;> simp [mkRecord, mapAxis, mapAxisList_eq, mapAxisFields_zip]

end Val

namespace Content

/-- `Maps`, with the same length if `G`. -/
structure MapsG (G : Prop) (c c' : Content) (F : Val → Val) : Prop extends Maps c c' F where
  exact : G → c'.len = c.len

theorem MapsG.mono {G G' : Prop} {c c' : Content} {F : Val → Val} (h : MapsG G c c' F)
    (hg : G' → G) : MapsG G' c c' F := ⟨h.toMaps, fun g => h.exact (hg g)⟩

theorem MapsG.of_eq {G : Prop} {c d c' : Content} {F : Val → Val} (h : MapsG G d c' F)
    (hl : d.len = c.len) (hv : ∀ i, i < c.len → d.valD i = c.valD i) : MapsG G c c' F :=
  ⟨h.toMaps.of_eq hl hv, fun g => by rw [h.exact g, hl]⟩

theorem Maps.seg {c c' : Content} {F : Val → Val} (h : Maps c c' F) {s n : Nat}
    (hb : s + n ≤ c.len) : c'.seg s n = (c.seg s n).map F := by
  simp only [Content.seg, List.map_map]
  apply List.map_congr_left
  intro k hk
  simp only [List.mem_range] at hk
  exact h.val _ (by omega)

theorem GoodPair.mono {s t : Int} {n m : Nat} (h : GoodPair s t n) (hm : n ≤ m) :
    GoodPair s t m := by
  rcases h with h | h
  · exact .inl h
  · exact .inr (by omega)

theorem GoodPair.seg_le {s t : Int} {n : Nat} (h : GoodPair s t n) :
    (t - s).toNat = 0 ∨ s.toNat + (t - s).toNat ≤ n := by
  rcases h with h | h
  · left; omega
  · right; omega

theorem Maps.seg_pair {c c' : Content} {F : Val → Val} (h : Maps c c' F) {s t : Int}
    (hp : GoodPair s t c.len) :
    c'.seg s.toNat (t - s).toNat = (c.seg s.toNat (t - s).toNat).map F := by
  rcases GoodPair.seg_le hp with h0 | h0
  · rw [h0]; rfl
  · exact h.seg h0

section Nodes
variable {G : Prop} {keep : Bool} {g : Val → Val} {a : Nat}

theorem MapsG.regular {p : Params} {c next : Content} {size zeros : Nat} (hc : c.Good) (ha : 1 ≤ a)
    (h : MapsG G c next (Val.mapAxis keep g a)) :
    MapsG G (regular p c size zeros)
      (regular (if keep then p else {}) next size (regular p c size zeros).len)
      (Val.mapAxis keep g (a + 1)) := by
  have hle := h.len_le
  have hll : (Content.regular p c size zeros).len
      ≤ (Content.regular (if keep then p else {}) next size
          (Content.regular p c size zeros).len).len := by
    simp only [len]
    split
    · exact Nat.div_le_div_right hle
    · exact Nat.le_refl _
  refine ⟨⟨good_regular.mpr h.good, hll, ?_⟩, ?_⟩
  · intro i hi
    rw [valD_regular h.good (by omega), valD_regular hc hi, Val.mapAxis_wrapList ha,
      h.seg (regular_bound hi)]
  · intro hg
    simp only [len, h.exact hg]
    split <;> rfl

theorem MapsG.listArray {p : Params} {starts stops : List Int} {c next : Content}
    (hg : (listArray p starts stops c).Good) (ha : 1 ≤ a)
    (h : MapsG G c next (Val.mapAxis keep g a)) :
    MapsG True (listArray p starts stops c) (listArray (if keep then p else {}) starts stops next)
      (Val.mapAxis keep g (a + 1)) := by
  obtain ⟨hl, hc, hp⟩ := good_listArray.mp hg
  have hg' : (Content.listArray (if keep then p else {}) starts stops next).Good :=
    good_listArray.mpr ⟨hl, h.good, fun i hi => GoodPair.mono (hp i hi) h.len_le⟩
  refine ⟨⟨hg', Nat.le_refl _, ?_⟩, fun _ => rfl⟩
  intro i hi
  simp only [len] at hi
  rw [valD_listArray hg' hi (by omega), valD_listArray hg hi (by omega), Val.mapAxis_wrapList ha,
    h.seg_pair (hp i hi)]

theorem MapsG.listOffset {p : Params} {offsets : List Int} {c next : Content}
    (hg : (listOffset p offsets c).Good) (ha : 1 ≤ a)
    (h : MapsG G c next (Val.mapAxis keep g a)) :
    MapsG True (listOffset p offsets c) (listOffset (if keep then p else {}) offsets next)
      (Val.mapAxis keep g (a + 1)) := by
  obtain ⟨hl, hc, hp⟩ := good_listOffset.mp hg
  have hg' : (Content.listOffset (if keep then p else {}) offsets next).Good :=
    good_listOffset.mpr ⟨hl, h.good, fun i hi => GoodPair.mono (hp i hi) h.len_le⟩
  refine ⟨⟨hg', Nat.le_refl _, ?_⟩, fun _ => rfl⟩
  intro i hi
  simp only [len] at hi
  rw [valD_listOffset hg' (by omega), valD_listOffset hg (by omega), Val.mapAxis_wrapList ha,
    h.seg_pair (hp i (by omega))]

theorem good_offsTo {p : Params} {f : Nat → Nat} {n : Nat} {c : Content} (hc : c.Good)
    (hb : sumTo f n ≤ c.len) : (Content.listOffset p (offsTo f n) c).Good := by
  refine good_listOffset.mpr ⟨by simp, hc, fun i hi => .inr ?_⟩
  rw [offsTo_getElem, offsTo_getElem, sumTo_succ]
  have := sumTo_mono (f := f) (show i + 1 ≤ n by simp at hi; omega)
  rw [sumTo_succ] at this
  omega

theorem valD_offsTo {p : Params} {f : Nat → Nat} {n : Nat} {c : Content} (hc : c.Good)
    (hb : sumTo f n ≤ c.len) {i : Nat} (hi : i < n) :
    (Content.listOffset p (offsTo f n) c).valD i = wrapList p (c.seg (sumTo f i) (f i)) := by
  rw [valD_listOffset (good_offsTo hc hb) (by simpa using hi)]
  simp only [offsTo_getElem, sumTo_diff]
  congr 2

/-- The lists rebuilt with compact offsets. -/
theorem MapsG.parts {c d next : Content} {offs : List Int} (hp : Parts c offs d) (ha : 1 ≤ a)
    (h : MapsG G d next (Val.mapAxis keep g a)) :
    MapsG True c (Content.listOffset (if keep then c.params else {}) offs next)
      (Val.mapAxis keep g (a + 1)) := by
  have hb := hp.bound
  have hle := h.len_le
  rw [hp.offs_eq]
  refine ⟨⟨good_offsTo h.good (by omega), by simp [len], ?_⟩, fun _ => by simp [len]⟩
  intro i hi
  have hm := sumTo_mono (f := c.lens) (show i + 1 ≤ c.len by omega)
  rw [sumTo_succ] at hm
  rw [valD_offsTo h.good (by omega) hi, hp.vals i hi, Val.mapAxis_wrapList ha, h.seg (by omega)]

variable {F : Val → Val}

theorem MapsG.indexed {p p' : Params} {index : List Int} {c next : Content}
    (hg : (indexed p index c).Good) (h : MapsG G c next F) :
    MapsG True (indexed p index c) (indexed p' index next) F := by
  obtain ⟨hc, hp⟩ := good_indexed.mp hg
  have hle := h.len_le
  have hg' : (Content.indexed p' index next).Good :=
    good_indexed.mpr ⟨h.good, fun i hi => by have := hp i hi; omega⟩
  refine ⟨⟨hg', Nat.le_refl _, ?_⟩, fun _ => rfl⟩
  intro i hi
  simp only [len] at hi
  rw [valD_indexed hg' hi, valD_indexed hg hi, h.val _ (by have := hp i hi; omega)]

theorem MapsG.indexedOption {p p' : Params} {index : List Int} {c next : Content}
    (hg : (indexedOption p index c).Good) (hF : F .null = .null) (h : MapsG G c next F) :
    MapsG True (indexedOption p index c) (indexedOption p' index next) F := by
  obtain ⟨hc, hp⟩ := good_indexedOption.mp hg
  have hle := h.len_le
  have hg' : (Content.indexedOption p' index next).Good :=
    good_indexedOption.mpr ⟨h.good, fun i hi => by have := hp i hi; omega⟩
  refine ⟨⟨hg', Nat.le_refl _, ?_⟩, fun _ => rfl⟩
  intro i hi
  simp only [len] at hi
  rw [valD_indexedOption hg' hi, valD_indexedOption hg hi]
  split
  · exact hF.symm
  · rw [h.val _ (by have := hp i hi; omega)]

theorem MapsG.byteMasked {p p' : Params} {mask : List Int} {vw : Bool} {c next : Content}
    (hg : (byteMasked p mask vw c).Good) (hF : F .null = .null) (h : MapsG G c next F) :
    MapsG True (byteMasked p mask vw c) (byteMasked p' mask vw next) F := by
  obtain ⟨hl, hc⟩ := good_byteMasked.mp hg
  have hle := h.len_le
  have hg' : (Content.byteMasked p' mask vw next).Good := good_byteMasked.mpr ⟨by omega, h.good⟩
  refine ⟨⟨hg', Nat.le_refl _, ?_⟩, fun _ => rfl⟩
  intro i hi
  simp only [len] at hi
  rw [valD_byteMasked hg' hi, valD_byteMasked hg hi]
  split
  · rw [h.val _ (by omega)]
  · exact hF.symm

theorem MapsG.unmasked {p p' : Params} {c next : Content} (h : MapsG G c next F) :
    MapsG G (unmasked p c) (unmasked p' next) F :=
  ⟨⟨good_unmasked.mpr h.good, h.len_le, fun i hi => h.val i hi⟩, h.exact⟩

theorem forall₂_map_valD {cs cs' : List Content} {F : Val → Val}
    (h : List.Forall₂ (fun c c' => Maps c c' F) cs cs') {i : Nat} (hi : ∀ c ∈ cs, i < c.len) :
    cs'.map (fun c => c.valD i) = (cs.map (fun c => c.valD i)).map F := by
  induction h with
  | nil => rfl
  | cons h _ ih =>
    simp only [List.map_cons]
    rw [h.val i (hi _ List.mem_cons_self), ih (fun c hc => hi c (List.mem_cons_of_mem _ hc))]

theorem forall₂_mem {R : α → β → Prop} {l : List α} {l' : List β} (h : List.Forall₂ R l l')
    {b : β} (hb : b ∈ l') : ∃ a ∈ l, R a b := by
  induction h with
  | nil => cases hb
  | cons h1 _ ih =>
    cases hb with
    | head => exact ⟨_, List.mem_cons_self, h1⟩
    | tail _ hb =>
      obtain ⟨a, ha, hr⟩ := ih hb
      exact ⟨a, List.mem_cons_of_mem _ ha, hr⟩

/-- The fields mapped; any length up to the shortest field. -/
theorem MapsG.record {p p' : Params} {keys : Option (List String)} {cs cs' : List Content}
    {length length' : Nat} (hg : (record p keys cs length).Good)
    (h : List.Forall₂ (fun c c' => Maps c c' (Val.mapAxis keep g a)) cs cs')
    (hl : length ≤ length') (hl' : ∀ c ∈ cs', length' ≤ c.len) (hG : G → length' = length) :
    MapsG G (record p keys cs length) (record p' keys cs' length') (Val.mapAxis keep g a) := by
  obtain ⟨hlen, hc⟩ := good_record.mp hg
  have hg' : (Content.record p' keys cs' length').Good := by
    refine good_record.mpr ⟨hl', fun d hd => ?_⟩
    obtain ⟨e, _, he⟩ := forall₂_mem h hd
    exact he.good
  refine ⟨⟨hg', hl, ?_⟩, hG⟩
  intro i hi
  simp only [len] at hi
  rw [valD_record hg' (by omega), valD_record hg hi, Val.mapAxis_mkRecord,
    forall₂_map_valD h (fun c hc => by have := hlen c hc; omega)]

theorem MapsG.union {p p' : Params} {tags index : List Int} {cs cs' : List Content}
    (hg : (union p tags index cs).Good)
    (h : List.Forall₂ (fun c c' => Maps c c' F) cs cs') :
    MapsG True (union p tags index cs) (union p' tags index cs') F := by
  obtain ⟨hl, hc, hp⟩ := good_union.mp hg
  have hll := h.length_eq
  have hget : ∀ k (hk : k < cs.length), Maps cs[k] (cs'[k]'(by omega)) F :=
    fun k hk => h.get hk (by omega)
  have hg' : (Content.union p' tags index cs').Good := by
    refine good_union.mpr ⟨hl, ?_, ?_⟩
    · intro d hd
      obtain ⟨e, _, he⟩ := forall₂_mem h hd
      exact he.good
    · intro i hi
      obtain ⟨h1, h2, h3, h4⟩ := hp i hi
      have := (hget _ h2).len_le
      exact ⟨h1, by omega, h3, by omega⟩
  refine ⟨⟨hg', Nat.le_refl _, ?_⟩, fun _ => rfl⟩
  intro i hi
  simp only [len] at hi
  obtain ⟨h1, h2, h3, h4⟩ := hp i hi
  rw [valD_union hg' hi (by omega) (by omega), valD_union hg hi (by omega) h2,
    (hget _ h2).val _ (by omega)]

end Nodes

theorem good_intArray (data : List Int) : (intArray data).Good := good_numpy _ _ _

@[simp] theorem len_intArray (data : List Int) : (intArray data).len = data.length := by
  simp [intArray, len]

theorem valD_intArray {data : List Int} {i : Nat} (hi : i < data.length) :
    (intArray data).valD i = .atom (.int data[i]) := by
  unfold intArray
  rw [valD_numpy (by simpa using hi)]; simp

/-- A segment of a flattened buffer. -/
theorem intArray_seg {n : Nat} {S : Nat → List Int} {i : Nat} (hi : i < n) :
    (intArray (((List.range n).map S).flatten)).seg (sumTo (fun i => (S i).length) i) (S i).length
      = (S i).map (fun x => .atom (.int x)) := by
  apply List.ext_getElem
  · simp
  · intro k h1 h2
    have hk : k < (S i).length := by simpa using h2
    have hget := flatten_map_get S hi hk
    have hlt : sumTo (fun i => (S i).length) i + k < (((List.range n).map S).flatten).length := by
      rw [List.getElem?_eq_getElem hk] at hget
      exact (List.getElem?_eq_some_iff.mp hget).1
    rw [seg_getElem, valD_intArray hlt]
    rw [List.getElem?_eq_getElem hk, List.getElem?_eq_getElem hlt] at hget
    simpa using hget

theorem intArray_maps {c : Content} {F : Val → Val} {data : List Int} (hl : data.length = c.len)
    (hv : ∀ i (h : i < data.length), F (c.valD i) = .atom (.int data[i])) :
    MapsG True c (intArray data) F :=
  ⟨⟨good_intArray _, by simp [hl], fun i hi => by rw [hv i (by omega), valD_intArray]⟩,
    fun _ => by simp [hl]⟩

end Content
end Awk
