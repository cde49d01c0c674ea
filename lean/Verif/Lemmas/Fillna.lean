import Verif.Lemmas.Simplify
/-
`fillna` replaces the missing values.
-/

namespace Awk
open R

namespace Val

theorem fillList_eq (v : Val) (vs : List Val) : fillList vs v = vs.map (·.fill v) := by
  induction vs with
  | nil => simp [fillList]
  | cons x vs ih => simp [fillList, ih]

theorem fillFields_eq (v : Val) (fs : List (String × Val)) :
    fillFields fs v = fs.map (fun kx => (kx.1, kx.2.fill v)) := by
  induction fs with
  | nil => simp [fillFields]
  | cons x vs ih => simp [fillFields, ih]

theorem fill_wrapList (v : Val) (p : Params) (vs : List Val) :
    (wrapList p vs).fill v = wrapList p (vs.map (·.fill v)) := by
  unfold wrapList
  cases p.arr <;> simp [fill, fillList_eq]

theorem fill_mkRecord (v : Val) (keys : Option (List String)) (vs : List Val) :
    (mkRecord keys vs).fill v = mkRecord keys (vs.map (·.fill v)) := by
  unfold mkRecord
  cases keys with
  | none => simp [fill, fillList_eq]
  | some ks => simp [fill, fillFields_eq, List.zip_map_right]

/-- Filling does not depend on how numbers and records are written. -/
theorem canon_fill (v : Val) : ∀ x : Val, (x.fill v).canon = x.canon.fill v.canon
  | .null => by simp [fill, canon]
  | .atom a => by simp [fill, canon]
  | .str vs => by simp only [fill, canon, canonList_eq, fillList_eq, List.map_map]; congr 1; exact list vs
  | .bytes vs => by simp only [fill, canon, canonList_eq, fillList_eq, List.map_map]; congr 1; exact list vs
  | .list vs => by simp only [fill, canon, canonList_eq, fillList_eq, List.map_map]; congr 1; exact list vs
  | .tuple vs => by simp only [fill, canon, canonList_eq, fillList_eq, List.map_map]; congr 1; exact list vs
  | .record fs => by
    simp only [fill, canon, canonFields_eq, fillFields_eq, List.map_map]
    congr 1
    unfold sortFields
    rw [List.map_mergeSort (s := fun a b => decide (a.1 ≤ b.1)) (by intros; rfl), List.map_map]
    congr 1
    exact fields fs
where
  list : ∀ vs : List Val, vs.map (fun x => (x.fill v).canon) = vs.map (fun x => x.canon.fill v.canon)
    | [] => rfl
    | x :: xs => by simp only [List.map_cons]; rw [canon_fill v x, list xs]
  fields : ∀ fs : List (String × Val),
      fs.map (fun kx => (kx.1, (kx.2.fill v).canon))
        = fs.map (fun kx => (kx.1, kx.2.canon.fill v.canon))
    | [] => rfl
    | (k, x) :: xs => by
      simp only [List.map_cons]; rw [canon_fill v x, fields xs]

end Val

namespace Content

/-- Without option nodes there is nothing to fill. -/
theorem fill_free {c : Content} (h : c.Good) (hf : AllNodes (fun d => d.isOption = false) c)
    (v : Val) {i : Nat} (hi : i < c.len) : (c.valD i).fill v = c.valD i := by
  have seg : ∀ (d : Content) (s n : Nat), (∀ i, i < d.len → (d.valD i).fill v = d.valD i) →
      s + n ≤ d.len → (d.seg s n).map (·.fill v) = d.seg s n := by
    intro d s n hd hn
    simp only [Content.seg, List.map_map]
    apply List.map_congr_left
    intro k hk
    simp only [List.mem_range] at hk
    exact hd _ (by omega)
  have seg' : ∀ (d : Content) (s t : Int), (∀ i, i < d.len → (d.valD i).fill v = d.valD i) →
      GoodPair s t d.len →
      (d.seg s.toNat (t - s).toNat).map (·.fill v) = d.seg s.toNat (t - s).toNat := by
    intro d s t hd hp
    rcases hp with hp | hp
    · subst hp; simp [Content.seg]
    · exact seg d _ _ hd (by omega)
  induction c using induct generalizing i with
  | empty p => simp [len] at hi
  | numpy p dt data => rw [valD_numpy (by exact hi)]; simp [Val.fill]
  | regular p c size zeros ih =>
    have hc := good_regular.mp h
    rw [valD_regular hc hi, Val.fill_wrapList, seg c _ _ (fun i hi => ih hc (hf.child (by simp [children])) hi)]
    exact regular_bound hi
  | listArray p starts stops c ih =>
    obtain ⟨hl, hc, hp⟩ := good_listArray.mp h
    simp only [len] at hi
    rw [valD_listArray h hi (by omega), Val.fill_wrapList,
      seg' c _ _ (fun i hi => ih hc (hf.child (by simp [children])) hi) (hp i hi)]
  | listOffset p offsets c ih =>
    obtain ⟨hl, hc, hp⟩ := good_listOffset.mp h
    simp only [len] at hi
    rw [valD_listOffset h (by omega), Val.fill_wrapList,
      seg' c _ _ (fun i hi => ih hc (hf.child (by simp [children])) hi) (hp i (by omega))]
  | indexed p index c ih =>
    obtain ⟨hc, hp⟩ := good_indexed.mp h
    simp only [len] at hi
    have := hp i hi
    rw [valD_indexed h hi]
    exact ih hc (hf.child (by simp [children])) (by omega)
  | indexedOption p index c ih => exact absurd hf.here (by simp [isOption])
  | byteMasked p mask vw c ih => exact absurd hf.here (by simp [isOption])
  | bitMasked p mask vw length lsb c ih => exact absurd hf.here (by simp [isOption])
  | unmasked p c ih => exact absurd hf.here (by simp [isOption])
  | record p keys cs length ih =>
    obtain ⟨hl, hc⟩ := good_record.mp h
    simp only [len] at hi
    rw [valD_record h hi, Val.fill_mkRecord, List.map_map]
    congr 1
    apply List.map_congr_left
    intro d hd
    exact ih d hd (hc d hd) (hf.child (by simpa [children] using hd)) (by have := hl d hd; omega)
  | union p tags index cs ih =>
    obtain ⟨h1, h2, h3⟩ := good_union.mp h
    simp only [len] at hi
    obtain ⟨e1, e2, e3, e4⟩ := h3 i hi
    rw [valD_union h hi (by omega) e2]
    exact ih _ (List.getElem_mem _) (h2 _ (List.getElem_mem _))
      (hf.child (by simpa [children] using List.getElem_mem _)) (by omega)

/-- `c'` is `c` with `v` in the place of missing values. -/
structure Filled (v : Val) (c c' : Content) : Prop where
  good : c'.Good
  len : c'.len = c.len
  val : ∀ i, i < c.len → (c'.valD i).canon = ((c.valD i).fill v).canon

theorem Filled.seg {v : Val} {c c' : Content} (h : Filled v c c') {s n : Nat} (hn : s + n ≤ c.len) :
    (c'.seg s n).map Val.canon = ((c.seg s n).map (·.fill v)).map Val.canon := by
  simp only [Content.seg, List.map_map]
  apply List.map_congr_left
  intro k hk
  simp only [List.mem_range] at hk
  exact h.val _ (by omega)

theorem Filled.seg' {v : Val} {c c' : Content} (h : Filled v c c') {s t : Int}
    (hp : GoodPair s t c.len) : (c'.seg s.toNat (t - s).toNat).map Val.canon
      = ((c.seg s.toNat (t - s).toNat).map (·.fill v)).map Val.canon := by
  rcases hp with hp | hp
  · subst hp; simp [Content.seg]
  · exact h.seg (by omega)

theorem indexedFillna_ok {same : Content → Content → Bool}
    (hsame : ∀ a b, same a b = true → a = b) {no : Without} (hu : no.union)
    (hno : no.indexed ∨ no.option) {p : Params} {index : List Int} {c value : Content} {v : Val}
    (hc : Input no c) (hv : Input no value) (hvl : value.len = 1) (hvv : value.valD 0 = v)
    (hi : ∀ j ∈ index, j < (c.len : Int)) :
    ∃ r, indexedFillna same p index c value = ok r ∧ r.Good ∧
      r.cv = index.map (fun j => if j < 0 then v.canon else pk c.cv j) := by
  unfold indexedFillna
  rw [if_neg (by omega)]
  have hmap : ∀ f : Int → Int, index.map f
      = (List.range index.length).map (fun i => f (index[i]?.getD 0)) := by
    intro f
    apply List.ext_getElem
    · simp
    · intro i h1 h2
      simp only [List.length_map] at h1
      simp [h1]
  have h1 : IndexedArray_mask (alloc index.length) index index.length
      = ok (index.map (fun j => if j < 0 then 1 else 0)) := by
    unfold IndexedArray_mask
    rw [hmap]
    refine forN_fill_eq _ (alloc_length _) (fun i hi => ?_)
    rw [rd_nat_ok hi, bind_ok]; simp [hi]
  have h2 : UnionArray_fillna (alloc index.length) index index.length
      = ok (index.map (fun j => if j ≥ 0 then j else 0)) := by
    unfold UnionArray_fillna
    rw [hmap]
    refine forN_fill_eq _ (alloc_length _) (fun i hi => ?_)
    rw [rd_nat_ok hi, bind_ok]; simp [hi]
  rw [h1, bind_ok, h2, bind_ok]
  have hg : (union p (index.map (fun j => if j < 0 then 1 else 0))
      (index.map (fun j => if j ≥ 0 then j else 0)) [c, value]).Good := by
    refine good_union.mpr ⟨by simp, ?_, ?_⟩
    · intro d hd
      simp only [List.mem_cons, List.not_mem_nil, or_false] at hd
      rcases hd with rfl | rfl
      · exact hc.good
      · exact hv.good
    · intro i hi'
      simp only [List.length_map] at hi'
      have := hi _ (List.getElem_mem hi')
      simp only [List.getElem_map]
      by_cases h0 : index[i] < 0
      · have e : ¬ (index[i] ≥ 0) := by omega
        simp [h0, e, hvl]
      · have e : index[i] ≥ 0 := by omega
        simp [h0, e, this]
  have nounion : ∀ d, Input no d → d.alts = [d] := by
    intro d hd
    cases d <;> try rfl
    exact absurd hu hd.nodes.here
  have := simplifyUnion_ok hsame (no := no) (domerge := true) (mb := true) (fun _ => hno) hg (by
    intro d hd e he
    simp only [List.mem_cons, List.not_mem_nil, or_false] at hd
    rcases hd with rfl | rfl
    · rw [nounion _ hc] at he; simp only [List.mem_singleton] at he; subst he; exact hc
    · rw [nounion _ hv] at he; simp only [List.mem_singleton] at he; subst he; exact hv)
  obtain ⟨r, hr⟩ := this.2 ⟨hu, by simp [nounion _ hc, nounion _ hv]⟩
  have hs := this.1
  rw [hr] at hs
  refine ⟨r, hr, hs.1, ?_⟩
  rw [hs.2, cv_union hg, List.zipWith_map, List.zipWith_self]
  apply List.map_congr_left
  intro j _
  by_cases h0 : j < 0
  · have e : ¬ (j ≥ 0) := by omega
    simp only [h0, e, if_true, if_false, uk, pk]
    have : value.cv[0]? = some v.canon := by rw [cv_get (by omega), hvv]
    simp [this]
  · have e : j ≥ 0 := by omega
    simp [h0, e, uk, pk]

/-- An option array with an index or a mask. -/
theorem filled_index {same : Content → Content → Bool}
    (hsame : ∀ a b, same a b = true → a = b) {no : Without} (hu : no.union)
    (hno : no.indexed ∨ no.option) {value : Content} {v : Val} (hv : Input no value)
    (hvl : value.len = 1) (hvv : value.valD 0 = v) {c : Content} (hc : Input no c)
    (hfree : AllNodes (fun d => d.isOption = false) c.inner) (hin : c.isIndirectNode = true)
    {idx : List Int} (hidx : IsIndex c idx) :
    ∃ r, indexedFillna same c.params idx c.inner value = ok r ∧ Filled v c r := by
  have hci : Input no c.inner := hc.child (inner_child hin)
  obtain ⟨r, h1, h2, h3⟩ := indexedFillna_ok hsame hu hno (p := c.params) hci hv hvl hvv hidx.lt
  have hlen : r.len = c.len := by rw [← cv_length, h3, List.length_map, hidx.len]
  refine ⟨r, h1, h2, hlen, fun i hi => ?_⟩
  have e1 : r.cv[i]? = some (r.valD i).canon := cv_get (by omega)
  have e2 : c.cv[i]? = some (c.valD i).canon := cv_get hi
  have hil : i < idx.length := by rw [hidx.len]; exact hi
  rw [h3, List.getElem?_map, List.getElem?_eq_getElem hil] at e1
  rw [hidx.cv, List.getElem?_map, List.getElem?_eq_getElem hil] at e2
  simp only [Option.map_some, Option.some.injEq] at e1 e2
  rw [← e1, Val.canon_fill, ← e2]
  by_cases h0 : idx[i] < 0
  · simp [h0, pk, Val.fill]
  · rw [if_neg h0]
    have hlt := hidx.lt _ (List.getElem_mem hil)
    have hp : pk c.inner.cv idx[i] = (c.inner.valD idx[i].toNat).canon := by
      unfold pk
      rw [if_neg h0, cv_get (by omega)]; rfl
    rw [hp, ← Val.canon_fill, fill_free hci.good hfree v (by omega)]

theorem fillna_ok {same : Content → Content → Bool}
    (hsame : ∀ a b, same a b = true → a = b) {no : Without} (hu : no.union)
    (hno : no.indexed ∨ no.option) {value : Content} {v : Val} (hv : Input no value)
    (hvl : value.len = 1) (hvv : value.valD 0 = v) {c : Content} (hc : Input no c)
    (hs : AllNodes SingleOption c) : ∃ r, fillna same value c = ok r ∧ Filled v c r := by
  induction c using induct with
  | empty p => exact ⟨_, rfl, good_empty _, rfl, fun i hi => by simp [len] at hi⟩
  | numpy p dt data =>
    refine ⟨_, rfl, hc.good, rfl, fun i hi => ?_⟩
    rw [valD_numpy (by exact hi)]; simp [Val.fill]
  | regular p c size zeros ih =>
    obtain ⟨c', h1, h⟩ := ih (hc.child (by simp [children])) (hs.child (by simp [children]))
    have hg := good_regular.mp hc.good
    simp only [fillna]
    rw [h1, bind_ok]
    refine ⟨_, rfl, good_regular.mpr h.good, by simp only [len]; rw [h.len], fun i hi => ?_⟩
    rw [valD_regular h.good (by simp only [len] at hi ⊢; rw [h.len]; exact hi), valD_regular hg hi,
      Val.fill_wrapList, Val.canon_wrapList, Val.canon_wrapList, h.seg (regular_bound hi)]
  | listArray p starts stops c ih =>
    obtain ⟨c', h1, h⟩ := ih (hc.child (by simp [children])) (hs.child (by simp [children]))
    obtain ⟨hl, hg, hp⟩ := good_listArray.mp hc.good
    simp only [fillna]
    rw [h1, bind_ok]
    have hgood : (listArray p starts stops c').Good :=
      good_listArray.mpr ⟨hl, h.good, by rw [h.len]; exact hp⟩
    refine ⟨_, rfl, hgood, rfl, fun i hi => ?_⟩
    simp only [len] at hi
    rw [valD_listArray hgood hi (by omega), valD_listArray hc.good hi (by omega),
      Val.fill_wrapList, Val.canon_wrapList, Val.canon_wrapList, h.seg' (hp i hi)]
  | listOffset p offsets c ih =>
    obtain ⟨c', h1, h⟩ := ih (hc.child (by simp [children])) (hs.child (by simp [children]))
    obtain ⟨hl, hg, hp⟩ := good_listOffset.mp hc.good
    simp only [fillna]
    rw [h1, bind_ok]
    have hgood : (listOffset p offsets c').Good :=
      good_listOffset.mpr ⟨hl, h.good, by rw [h.len]; exact hp⟩
    refine ⟨_, rfl, hgood, rfl, fun i hi => ?_⟩
    simp only [len] at hi
    rw [valD_listOffset hgood (by omega), valD_listOffset hc.good (by omega),
      Val.fill_wrapList, Val.canon_wrapList, Val.canon_wrapList, h.seg' (hp i (by omega))]
  | indexed p index c ih =>
    obtain ⟨c', h1, h⟩ := ih (hc.child (by simp [children])) (hs.child (by simp [children]))
    obtain ⟨hg, hp⟩ := good_indexed.mp hc.good
    simp only [fillna]
    rw [if_neg (by omega), h1, bind_ok]
    have hgood : (indexed p index c').Good := good_indexed.mpr ⟨h.good, by rw [h.len]; exact hp⟩
    refine ⟨_, rfl, hgood, rfl, fun i hi => ?_⟩
    simp only [len] at hi
    have := hp i hi
    rw [valD_indexed hgood hi, valD_indexed hc.good hi, h.val _ (by omega)]
  | indexedOption p index c ih =>
    obtain ⟨idx, hidx⟩ := isIndex_of hc.good rfl
    rw [hidx.fillna rfl (by simp)]
    exact filled_index hsame hu hno hv hvl hvv hc hs.here rfl hidx
  | byteMasked p mask vw c ih =>
    obtain ⟨idx, hidx⟩ := isIndex_of hc.good rfl
    rw [hidx.fillna rfl (by simp)]
    exact filled_index hsame hu hno hv hvl hvv hc hs.here rfl hidx
  | bitMasked p mask vw length lsb c ih =>
    obtain ⟨idx, hidx⟩ := isIndex_of hc.good rfl
    rw [hidx.fillna rfl (by simp)]
    exact filled_index hsame hu hno hv hvl hvv hc hs.here rfl hidx
  | unmasked p c ih =>
    obtain ⟨c', h1, h⟩ := ih (hc.child (by simp [children])) (hs.child (by simp [children]))
    simp only [fillna]
    exact ⟨c', h1, h.good, by simp only [len]; exact h.len, fun i hi => by
      rw [valD_unmasked]; exact h.val i (by simpa only [len] using hi)⟩
  | record p keys cs length ih =>
    obtain ⟨hl, hg⟩ := good_record.mp hc.good
    have key : ∀ ds : List Content, (∀ d ∈ ds, d ∈ cs) →
        ∃ ds', fillnaAll same value ds = ok ds' ∧ List.Forall₂ (Filled v) ds ds' := by
      intro ds
      induction ds with
      | nil => intro _; exact ⟨[], rfl, .nil⟩
      | cons d ds ihd =>
        intro hm
        have hd : d ∈ cs := hm d List.mem_cons_self
        obtain ⟨d', h1, h2⟩ := ih d hd (hc.child (by simpa [children] using hd))
          (hs.child (by simpa [children] using hd))
        obtain ⟨ds', h3, h4⟩ := ihd (fun d hd => hm d (List.mem_cons_of_mem _ hd))
        refine ⟨d' :: ds', ?_, .cons h2 h4⟩
        simp only [fillnaAll]
        rw [h1, bind_ok, h3, bind_ok]
    obtain ⟨cs', h1, h2⟩ := key cs (fun _ h => h)
    simp only [fillna]
    rw [h1, bind_ok]
    have hgood : (record p keys cs' length).Good := by
      refine good_record.mpr ⟨fun d' hd' => ?_, fun d' hd' => ?_⟩
      · obtain ⟨d, hd, hf⟩ := forall₂_mem_right h2 hd'
        rw [hf.len]; exact hl d hd
      · obtain ⟨d, hd, hf⟩ := forall₂_mem_right h2 hd'
        exact hf.good
    refine ⟨_, rfl, hgood, rfl, fun i hi => ?_⟩
    simp only [len] at hi
    rw [valD_record hgood hi, valD_record hc.good hi, Val.fill_mkRecord, Val.canon_mkRecord,
      Val.canon_mkRecord]
    congr 1
    clear hgood h1 key ih hs hc hg
    induction h2 with
    | nil => rfl
    | cons hf _ ihf =>
      simp only [List.map_cons]
      rw [hf.val i (by have := hl _ List.mem_cons_self; omega),
        ihf (fun d hd => hl d (List.mem_cons_of_mem _ hd))]
  | union p tags index cs ih => exact absurd hu hc.nodes.here

end Content
end Awk
