import Verif.Lemmas.Identities
/-
`setidentities`, node by node.
-/

namespace Awk
open R Content

theorem alloc_rows (w n : Nat) : (alloc ((w * n : Nat) : Int)).length = n * w := by
  rw [alloc_length, Nat.mul_comm]

theorem identifiableAll {w : Nat} {cs : List Content} (h : IdentifiableAll w cs) :
    ∀ c ∈ cs, c.Identifiable w := by
  induction cs with
  | nil => simp
  | cons c cs ih =>
    simp only [IdentifiableAll] at h
    intro d hd
    rcases List.mem_cons.mp hd with rfl | hd
    · exact h.1
    · exact ih h.2 d hd

theorem set_regular {p : Params} {c : Content} {size zeros : Nat} (ih : SetOk c) :
    SetOk (.regular p c size zeros) := by
  intro ids hw hl hg hid
  simp only [Identifiable] at hid
  have hc : c.Good := good_regular.mp hg
  simp only [setidentities, setidentities.through]
  rw [check_ok hl, bind_ok]
  have hlen : (Content.regular p c size zeros).len * size ≤ c.len := by
    simp only [len]
    split
    · exact Nat.div_mul_le_self _ _
    · next h => simp at h; subst h; simp
  have hrest : size ≠ 0 → c.len = (Content.regular p c size zeros).len * size := by
    intro hs
    simp only [len]
    rw [if_pos hs]
    exact (Nat.div_mul_cancel (Nat.dvd_of_mod_eq_zero (hid.1 hs))).symm
  obtain ⟨t, e, hL⟩ := regular_laid (t := alloc (((ids.width + 1) * c.len : Nat) : Int)) hw.width
    (alloc_rows _ _) (hl ▸ hw.data) hlen hrest
  have e' : contentIds ids (.regular p c size zeros) = ok (some (ids.below (ids.width + 1) c.len t)) := by
    simp only [contentIds]
    rw [show (Content.regular {} c size zeros).len = (Content.regular p c size zeros).len from rfl, e, bind_ok]
  rw [e', bind_ok]
  obtain ⟨t', e2, hT⟩ := one_ok (c := .regular p c size zeros) (u := true) rfl hw hl ih hc (sub := ids.below (ids.width + 1) c.len t)
    hid.2 (fun _ => laid_sub hw hl (by omega) hL (by
      intro i part j
      constructor
      · intro hh
        cases hh with
        | regular h1 h2 => exact ⟨_, rfl, _, rfl, _, h1, h2, rfl, rfl⟩
      · rintro ⟨_, rfl, _, rfl, k, h1, h2, rfl, rfl⟩
        exact .regular h1 h2) (by
      rintro i j _ ⟨_, rfl, k, h1, h2, rfl, rfl⟩
      have := regular_bound h1
      omega)) (by simp)
  rw [if_pos rfl] at e2
  rw [e2, bind_ok]
  exact ⟨_, rfl, hT⟩

theorem set_listOffset {p : Params} {c : Content} {offsets : List Int} (ih : SetOk c) :
    SetOk (.listOffset p offsets c) := by
  intro ids hw hl hg hid
  simp only [Identifiable] at hid
  obtain ⟨h1, hc, hp⟩ := good_listOffset.mp hg
  simp only [setidentities, setidentities.through]
  rw [check_ok hl, bind_ok]
  let g : Nat → Nat := fun i => (offsets.getD i 0).toNat
  have hgo : ∀ i, (h : i < offsets.length) → offsets[i] = (g i : Int) := by
    intro i h
    have := hid.1 offsets[i] (List.getElem_mem h)
    simp only [g]
    rw [List.getD_eq_getElem?_getD, List.getElem?_eq_getElem h, Option.getD_some]
    omega
  obtain ⟨t, e, hL⟩ := listOffset_laid (n := c.len) (L := offsets.length - 1) (t := alloc (((ids.width + 1) * c.len : Nat) : Int)) hw.width
    (alloc_rows _ _) (f := ids.data) (by rw [hw.data, hl]; rfl) g (offsets := offsets)
    (fun i hi => by rw [List.getElem?_eq_getElem (show i < offsets.length by omega), hgo])
    (fun i hi => by
      have h2 : i < offsets.length := by omega
      have := hid.1 offsets[i] (List.getElem_mem h2)
      rw [hgo i h2] at this; omega)
    (fun i hi => by
      have := hp i (by omega)
      rw [hgo i (by omega), hgo (i + 1) (by omega)] at this
      rcases this with h | h <;> omega)
  have e' : contentIds ids (.listOffset p offsets c) = ok (some (ids.below (ids.width + 1) c.len t)) := by
    simp only [contentIds]
    rw [e, bind_ok]
  rw [e', bind_ok]
  obtain ⟨t', e2, hT⟩ := one_ok (c := .listOffset p offsets c) (u := true) rfl hw hl ih hc
    (sub := ids.below (ids.width + 1) c.len t)
    hid.2 (fun _ => laid_sub hw hl (by omega) hL (by
      intro i part j
      constructor
      · intro hh
        cases hh with
        | listOffset h1 h2 h3 h4 =>
          obtain ⟨hi1, rfl⟩ := List.getElem?_eq_some_iff.mp h1
          obtain ⟨hi2, rfl⟩ := List.getElem?_eq_some_iff.mp h2
          rw [hgo i hi1] at h3
          rw [hgo _ hi2] at h4
          exact ⟨_, rfl, _, rfl, by omega, by omega, by omega, by rw [hgo i hi1]⟩
      · rintro ⟨_, rfl, _, rfl, h2, h3, h4, rfl⟩
        refine .listOffset (e := (g (i + 1) : Int)) ?_ ?_ (by omega) (by omega)
        · rw [List.getElem?_eq_getElem (show i < offsets.length by omega), hgo]
        · rw [List.getElem?_eq_getElem (show i + 1 < offsets.length by omega), hgo]) (by
      rintro i j _ ⟨_, rfl, h2, h3, h4, rfl⟩
      have h5 : i + 1 < offsets.length := by omega
      have := hid.1 offsets[i + 1] (List.getElem_mem h5)
      rw [hgo _ h5] at this
      omega)) (by simp)
  rw [if_pos rfl] at e2
  rw [e2, bind_ok]
  exact ⟨_, rfl, hT⟩

theorem set_listArray {p : Params} {c : Content} {starts stops : List Int} (ih : SetOk c) :
    SetOk (.listArray p starts stops c) := by
  intro ids hw hl hg hid
  simp only [Identifiable] at hid
  obtain ⟨hls, hc, hp⟩ := good_listArray.mp hg
  simp only [setidentities, setidentities.through]
  rw [check_ok hl, bind_ok]
  obtain ⟨t, u, e, hL, hno⟩ := listArray_laid (n := c.len) (L := starts.length)
    (t := alloc (((ids.width + 1) * c.len : Nat) : Int)) hw.width
    (alloc_rows _ _) (f := ids.data) (by rw [hw.data, hl]; rfl) (Nat.le_refl _) hls hp
  have e' : contentIds ids (.listArray p starts stops c)
      = ok (if u then some (ids.below (ids.width + 1) c.len t) else none) := by
    simp only [contentIds]
    rw [e, bind_ok]
  rw [e', bind_ok]
  have hHolds : ∀ (i j : Nat) (s e : Int), starts[i]? = some s → stops[i]? = some e → s ≤ (j : Int) → (j : Int) < e →
      HoldsItem (.listArray p starts stops c) 0 i [.row (j - s)] j :=
    fun i j s e h1 h2 h3 h4 => .listArray h1 h2 h3 h4
  obtain ⟨t', e2, hT⟩ := one_ok (c := .listArray p starts stops c) (u := u) rfl hw hl ih hc
    (sub := ids.below (ids.width + 1) c.len t)
    hid (fun hu => laid_sub hw hl (by omega) (hL hu) (by
      intro i part j
      constructor
      · intro hh
        cases hh with
        | listArray h1 h2 h3 h4 =>
          exact ⟨_, rfl, _, rfl, _, _, (List.getElem?_eq_some_iff.mp h1).1, h1, h2, h3, h4, rfl⟩
      · rintro ⟨_, rfl, _, rfl, s, e, hi, h1, h2, h3, h4, rfl⟩
        exact hHolds i j s e h1 h2 h3 h4) (by
      rintro i j _ ⟨_, rfl, s, e, hi, h1, h2, h3, h4, rfl⟩
      obtain ⟨hi1, rfl⟩ := List.getElem?_eq_some_iff.mp h1
      obtain ⟨hi2, rfl⟩ := List.getElem?_eq_some_iff.mp h2
      rcases hp i hi1 with h | h <;> omega))
    (by
      intro hu hun
      obtain ⟨i, i', j, y, y', hne, ⟨s, e, hi, h1, h2, h3, h4, _⟩, s', e', hi', h1', h2', h3', h4', _⟩ := hno hu
      exact hne (unshared_node hun (hHolds i j s e h1 h2 h3 h4) (hHolds i' j s' e' h1' h2' h3' h4')))
  rw [e2, bind_ok]
  exact ⟨_, rfl, hT⟩

theorem set_index {c d : Content} {index : List Int} {ids : Ids} (ih : SetOk d) (hch : c.children = [d])
    (hlen : c.len = index.length)
    (hH : ∀ i part j, HoldsItem c 0 i part j ↔ part = [] ∧ index[i]? = some (j : Int))
    (hw : ids.Wf) (hl : ids.length = c.len) (hd : d.Good) (hid : d.Identifiable ids.width)
    (hi : ∀ i (h : i < index.length), index[i] < d.len) :
    ∃ t u t', Identities_from_IndexedArray (alloc ((ids.width * d.len : Nat) : Int)) ids.data index d.len
        index.length ids.width = ok (t, u) ∧
      setidentities d (if u then some (ids.below ids.width d.len t) else none) = ok t' ∧
      TreeOk c ids (.node (some ids) [t']) := by
  obtain ⟨t, u, e, hL, hno⟩ := indexed_laid (n := d.len) (L := index.length)
    (t := alloc ((ids.width * d.len : Nat) : Int)) hw.width
    (alloc_rows _ _) (f := ids.data) (by rw [hw.data, hl, hlen]) (Nat.le_refl _) hi
  obtain ⟨t', e2, hT⟩ := one_ok (u := u) hch hw hl ih hd (sub := ids.below ids.width d.len t) hid
    (fun hu => laid_sub hw hl (Nat.le_refl _) (hL hu) (by
      intro i part j
      rw [hH]
      constructor
      · rintro ⟨rfl, h⟩
        exact ⟨[], rfl, rfl, (List.getElem?_eq_some_iff.mp h).1, h⟩
      · rintro ⟨_, rfl, rfl, _, h⟩
        exact ⟨rfl, h⟩) (by
      rintro i j _ ⟨rfl, h1, h⟩
      have := hi i h1
      obtain ⟨_, h3⟩ := List.getElem?_eq_some_iff.mp h
      omega))
    (by
      intro hu hun
      obtain ⟨i, i', j, hne, ⟨_, h1⟩, _, h2⟩ := hno hu
      exact hne (unshared_node hun ((hH i [] j).mpr ⟨rfl, h1⟩) ((hH i' [] j).mpr ⟨rfl, h2⟩)))
  exact ⟨t, u, t', e, e2, hT⟩

theorem set_indexed {p : Params} {c : Content} {index : List Int} (ih : SetOk c) :
    SetOk (.indexed p index c) := by
  intro ids hw hl hg hid
  simp only [Identifiable] at hid
  obtain ⟨hc, hp⟩ := good_indexed.mp hg
  simp only [setidentities, setidentities.through]
  rw [check_ok hl, bind_ok]
  obtain ⟨t, u, t', e, e2, hT⟩ := set_index (c := .indexed p index c) ih rfl rfl (by
    intro i part j
    constructor
    · intro h; cases h with | indexed h => exact ⟨rfl, h⟩
    · rintro ⟨rfl, h⟩; exact .indexed h) hw hl hc hid (fun i h => (hp i h).2)
  simp only [contentIds]
  rw [e, bind_ok, bind_ok, e2, bind_ok]
  exact ⟨_, rfl, hT⟩

theorem set_indexedOption {p : Params} {c : Content} {index : List Int} (ih : SetOk c) :
    SetOk (.indexedOption p index c) := by
  intro ids hw hl hg hid
  simp only [Identifiable] at hid
  obtain ⟨hc, hp⟩ := good_indexedOption.mp hg
  simp only [setidentities, setidentities.through]
  rw [check_ok hl, bind_ok]
  obtain ⟨t, u, t', e, e2, hT⟩ := set_index (c := .indexedOption p index c) ih rfl rfl (by
    intro i part j
    constructor
    · intro h; cases h with | indexedOption h => exact ⟨rfl, h⟩
    · rintro ⟨rfl, h⟩; exact .indexedOption h) hw hl hc hid hp
  simp only [contentIds]
  rw [e, bind_ok, bind_ok, e2, bind_ok]
  exact ⟨_, rfl, hT⟩

theorem set_masked {c d : Content} {ids : Ids} (ih : SetOk d) (hch : c.children = [d])
    (hH : ∀ i part j, HoldsItem c 0 i part j ↔ part = [] ∧ i < c.len ∧ i = j)
    (hw : ids.Wf) (hl : ids.length = c.len) (hd : d.Good) (hid : d.Identifiable ids.width)
    (h1 : ids.width = 1) (hle : c.len ≤ d.len) :
    ∃ t t', Identities_extend (alloc ((ids.width * d.len : Nat) : Int)) ids.data ids.length d.len = ok t ∧
      setidentities d (some (ids.below ids.width d.len t)) = ok t' ∧
      TreeOk c ids (.node (some ids) [t']) := by
  obtain ⟨t, e, hL⟩ := extend_laid (n := d.len) (L := ids.length)
    (t := alloc ((ids.width * d.len : Nat) : Int)) (f := ids.data) (by rw [alloc_rows, h1, Nat.mul_one])
    (by rw [hw.data, h1, Nat.mul_one]) (by omega)
  obtain ⟨t', e2, hT⟩ := one_ok (u := true) hch hw hl ih hd (sub := ids.below ids.width d.len t) hid
    (fun hu => laid_sub hw hl (Nat.le_refl _) (by rw [h1]; exact hL) (by
      intro i part j
      rw [hH]
      constructor
      · rintro ⟨rfl, h, h2⟩
        exact ⟨[], rfl, rfl, by omega, h2⟩
      · rintro ⟨_, rfl, rfl, h, h2⟩
        exact ⟨rfl, by omega, h2⟩) (by
      rintro i j _ ⟨rfl, h1, rfl⟩
      omega))
    (by simp)
  exact ⟨t, t', e, e2, hT⟩

theorem set_byteMasked {p : Params} {c : Content} {mask : List Int} {vw : Bool} (ih : SetOk c) :
    SetOk (.byteMasked p mask vw c) := by
  intro ids hw hl hg hid
  simp only [Identifiable] at hid
  obtain ⟨hp, hc⟩ := good_byteMasked.mp hg
  simp only [setidentities, setidentities.through]
  rw [check_ok hl, bind_ok]
  obtain ⟨t, t', e, e2, hT⟩ := set_masked (c := .byteMasked p mask vw c) ih rfl (by
    intro i part j
    constructor
    · intro h; cases h with | byteMasked h => exact ⟨rfl, h, rfl⟩
    · rintro ⟨rfl, h, rfl⟩; exact .byteMasked h) hw hl hc hid.2 hid.1 hp
  simp only [contentIds]
  rw [e, bind_ok, bind_ok, e2, bind_ok]
  exact ⟨_, rfl, hT⟩

theorem set_bitMasked {p : Params} {c : Content} {mask : List Nat} {vw : Bool} {length : Nat} {lsb : Bool}
    (ih : SetOk c) : SetOk (.bitMasked p mask vw length lsb c) := by
  intro ids hw hl hg hid
  simp only [Identifiable] at hid
  obtain ⟨_, hp, hc⟩ := good_bitMasked.mp hg
  simp only [setidentities, setidentities.through]
  rw [check_ok hl, bind_ok]
  obtain ⟨t, t', e, e2, hT⟩ := set_masked (c := .bitMasked p mask vw length lsb c) ih rfl (by
    intro i part j
    constructor
    · intro h; cases h with | bitMasked h => exact ⟨rfl, h, rfl⟩
    · rintro ⟨rfl, h, rfl⟩; exact .bitMasked h) hw hl hc hid.2 hid.1 hp
  simp only [contentIds]
  rw [e, bind_ok, bind_ok, e2, bind_ok]
  exact ⟨_, rfl, hT⟩

theorem set_unmasked {p : Params} {c : Content} (ih : SetOk c) : SetOk (.unmasked p c) := by
  intro ids hw hl hg hid
  simp only [Identifiable] at hid
  have hc := good_unmasked.mp hg
  simp only [setidentities, setidentities.through]
  rw [check_ok hl, bind_ok]
  obtain ⟨t, t', e, e2, hT⟩ := set_masked (c := .unmasked p c) ih rfl (by
    intro i part j
    constructor
    · intro h; cases h with | unmasked h => exact ⟨rfl, h, rfl⟩
    · rintro ⟨rfl, h, rfl⟩; exact .unmasked h) hw hl hc hid.2 hid.1 (Nat.le_refl _)
  simp only [contentIds]
  rw [e, bind_ok, bind_ok, e2, bind_ok]
  exact ⟨_, rfl, hT⟩

/-! ### Records -/

theorem holds_record {p : Params} {keys : Option (List String)} {cs : List Content} {length m i j : Nat}
    {part : List IdPart} (hk : ∀ ks, keys = some ks → ks.length = cs.length) (hm : m < cs.length) :
    HoldsItem (.record p keys cs length) m i part j ↔
      part = [.field (fieldName keys m)] ∧ i < length ∧ i = j := by
  constructor
  · intro h
    cases h with
    | tuple h1 h2 => exact ⟨rfl, h2, rfl⟩
    | record h1 h2 h3 =>
      refine ⟨?_, h2, rfl⟩
      simp only [fieldName]
      rw [List.getD_eq_getElem?_getD, h3]; rfl
  · rintro ⟨rfl, h2, rfl⟩
    cases keys with
    | none => exact .tuple hm h2
    | some ks =>
      have hl := hk ks rfl
      refine .record hm h2 ?_
      simp only [fieldName]
      rw [List.getD_eq_getElem?_getD, List.getElem?_eq_getElem (by omega)]; rfl

theorem field_sub {p : Params} {keys : Option (List String)} {cs : List Content} {length m : Nat} {d : Content}
    {ids : Ids} (hk : ∀ ks, keys = some ks → ks.length = cs.length) (hm : m < cs.length)
    (hw : ids.Wf) (hl : ids.length = length) (hd : d.len = length) :
    SubOk (.record p keys cs length) m d ids (fieldIds ids keys m) := by
  have hparts : ∀ i, i < length → (fieldIds ids keys m).parts i
      = ids.parts i ++ [.field (fieldName keys m)] := by
    intro i hi
    have hb := le_mul_of_lt (w := ids.width) (show i < ids.length by omega)
    rw [← hw.data] at hb
    have hr := row_length hb
    have := partsOf_field (fl := ids.fieldloc) (r := row ids.width ids.data i) (by rw [hr]; exact hw.width)
      (fieldName keys m)
    rw [hr] at this
    exact this
  refine ⟨⟨hw.width, hw.data, ?_⟩, by rw [hd]; exact hl, ?_, ?_⟩
  · intro q hq
    simp only [fieldIds, List.mem_append, List.mem_singleton] at hq
    rcases hq with hq | rfl
    · exact hw.fields q hq
    · have := hw.width
      show ids.width - 1 < ids.width
      omega
  · intro i part j hh _
    obtain ⟨rfl, hi, rfl⟩ := (holds_record hk hm).mp hh
    exact ⟨by omega, hparts i hi⟩
  · intro j hj hno
    rw [hparts j (by omega), dead_append (parts_ne hw (by omega))]
    exact hno j _ ((holds_record hk hm).mpr ⟨rfl, by omega, rfl⟩)

theorem set_record {p : Params} {keys : Option (List String)} {cs : List Content} {length : Nat}
    (ih : ∀ c ∈ cs, SetOk c) : SetOk (.record p keys cs length) := by
  intro ids hw hl hg hid
  simp only [Identifiable] at hid
  obtain ⟨hk, hlen, hall⟩ := hid
  obtain ⟨_, hc⟩ := good_record.mp hg
  have hall := identifiableAll hall
  have hloop : ∀ (ds : List Content) (j : Nat), (∀ k, ds[k]? = cs[j + k]?) →
      ∃ ts, setidentitiesFields ds (some ids) keys j = ok ts ∧ ∀ k d, ds[k]? = some d →
        ∃ t, ts[k]? = some t ∧ Child (.record p keys cs length) ids (j + k) d t := by
    intro ds
    induction ds with
    | nil => exact fun j _ => ⟨[], by simp [setidentitiesFields], by simp⟩
    | cons d ds ihd =>
      intro j hds
      have h0 := hds 0
      simp only [List.getElem?_cons_zero, Nat.add_zero] at h0
      have hj : j < cs.length := (List.getElem?_eq_some_iff.mp h0.symm).1
      have hmem : d ∈ cs := List.mem_of_getElem? h0.symm
      have hsub := field_sub (p := p) hk hj hw hl (hlen d hmem)
      obtain ⟨t, e, hT⟩ := ih d hmem (fieldIds ids keys j) hsub.wf hsub.len (hc d hmem) (hall d hmem)
      obtain ⟨ts, es, hts⟩ := ihd (j + 1) (fun k => by
        have := hds (k + 1)
        rw [List.getElem?_cons_succ] at this
        rw [this]; congr 1; omega)
      refine ⟨t :: ts, by simp only [setidentitiesFields, Option.map_some, e, es, bind_ok], ?_⟩
      intro k d' hd'
      cases k with
      | zero =>
        simp only [List.getElem?_cons_zero, Option.some.injEq] at hd'
        subst hd'
        exact ⟨t, rfl, .inl ⟨_, hsub, hT⟩⟩
      | succ k =>
        rw [List.getElem?_cons_succ] at hd'
        obtain ⟨t', ht', hch⟩ := hts k d' hd'
        refine ⟨t', by rw [List.getElem?_cons_succ]; exact ht', ?_⟩
        rw [show j + (k + 1) = j + 1 + k by omega]
        exact hch
  obtain ⟨ts, e, hts⟩ := hloop cs 0 (fun k => by rw [Nat.zero_add])
  refine ⟨.node (some ids) ts, ?_, ?_⟩
  · simp only [setidentities]
    rw [show checkIds length ids = ok () from check_ok hl, bind_ok, e, bind_ok]
  · refine treeOk_node hw hl ?_
    intro m d hd
    have := hts m d hd
    rw [Nat.zero_add] at this
    exact this

/-! ### Unions -/

theorem set_union {p : Params} {tags index : List Int} {cs : List Content}
    (ih : ∀ c ∈ cs, SetOk c) : SetOk (.union p tags index cs) := by
  intro ids hw hl hg hid
  simp only [Identifiable] at hid
  obtain ⟨hlen, hc, hin⟩ := good_union.mp hg
  have hall := identifiableAll hid
  have hH : ∀ m i part j, HoldsItem (.union p tags index cs) m i part j ↔
      part = [] ∧ tags[i]? = some (m : Int) ∧ index[i]? = some (j : Int) := by
    intro m i part j
    constructor
    · intro h; cases h with | union h1 h2 => exact ⟨rfl, h1, h2⟩
    · rintro ⟨rfl, h1, h2⟩; exact .union h1 h2
  have hbound : ∀ (i m : Nat) (h : i < tags.length), tags[i] = (m : Int) → ∀ d : Content, cs[m]? = some d →
      0 ≤ index[i] ∧ index[i] < d.len := by
    intro i m h ht d hd
    obtain ⟨_, hlt, h0, h1⟩ := hin i h
    have e : tags[i].toNat = m := by omega
    obtain ⟨hm, rfl⟩ := List.getElem?_eq_some_iff.mp hd
    simp only [e] at h1
    exact ⟨h0, h1⟩
  have hloop : ∀ (ds : List Content) (j : Nat), (∀ k, ds[k]? = cs[j + k]?) →
      ∃ ts, setidentitiesUnion ds (some ids) tags index j = ok ts ∧ ∀ k d, ds[k]? = some d →
        ∃ t, ts[k]? = some t ∧ Child (.union p tags index cs) ids (j + k) d t := by
    intro ds
    induction ds with
    | nil => exact fun j _ => ⟨[], by simp [setidentitiesUnion], by simp⟩
    | cons d ds ihd =>
      intro j hds
      have h0 := hds 0
      simp only [List.getElem?_cons_zero, Nat.add_zero] at h0
      have hmem : d ∈ cs := List.mem_of_getElem? h0.symm
      obtain ⟨t, u, e, hL, hno⟩ := union_laid (n := d.len) (L := tags.length) (which := j)
        (t := alloc ((ids.width * d.len : Nat) : Int)) hw.width (tags := tags) (index := index)
        (alloc_rows _ _) (f := ids.data) (by rw [hw.data, hl]; rfl) (Nat.le_refl _) hlen
        (fun i h ht => hbound i j h ht d h0.symm)
      have hchild : ∃ t', setidentities d (if u then some (ids.below ids.width d.len t) else none) = ok t' ∧
          Child (.union p tags index cs) ids j d t' := by
        cases u with
        | true =>
          have hs : SubOk (.union p tags index cs) j d ids (ids.below ids.width d.len t) :=
            laid_sub hw hl (Nat.le_refl _) (hL rfl) (by
              intro i part k
              rw [hH]
              constructor
              · rintro ⟨rfl, h1, h2⟩
                exact ⟨[], rfl, rfl, (List.getElem?_eq_some_iff.mp h1).1, h1, h2⟩
              · rintro ⟨_, rfl, rfl, _, h⟩
                exact ⟨rfl, h⟩) (by
              rintro i k _ ⟨rfl, h1, h2, h3⟩
              obtain ⟨_, h4⟩ := List.getElem?_eq_some_iff.mp h2
              obtain ⟨_, h5⟩ := List.getElem?_eq_some_iff.mp h3
              have := hbound i j h1 h4 d h0.symm
              omega)
          obtain ⟨t', e', hT⟩ := ih d hmem _ hs.wf hs.len (hc d hmem) (hall d hmem)
          exact ⟨t', e', .inl ⟨_, hs, hT⟩⟩
        | false =>
          obtain ⟨t', e', hn⟩ := none_ok d
          refine ⟨t', e', .inr ⟨hn, ?_⟩⟩
          intro hun
          obtain ⟨i, i', k, hne, ⟨_, h1⟩, _, h2⟩ := hno rfl
          exact hne (unshared_node hun ((hH j i [] k).mpr ⟨rfl, h1⟩) ((hH j i' [] k).mpr ⟨rfl, h2⟩))
      obtain ⟨t', e', hch⟩ := hchild
      obtain ⟨ts, es, hts⟩ := ihd (j + 1) (fun k => by
        have := hds (k + 1)
        rw [List.getElem?_cons_succ] at this
        rw [this]; congr 1; omega)
      refine ⟨t' :: ts, ?_, ?_⟩
      · simp only [setidentitiesUnion, unionIds]
        rw [e, bind_ok, bind_ok, e', bind_ok, es, bind_ok]
      intro k d' hd'
      cases k with
      | zero =>
        simp only [List.getElem?_cons_zero, Option.some.injEq] at hd'
        subst hd'
        exact ⟨t', rfl, hch⟩
      | succ k =>
        rw [List.getElem?_cons_succ] at hd'
        obtain ⟨t'', ht', hch⟩ := hts k d' hd'
        refine ⟨t'', by rw [List.getElem?_cons_succ]; exact ht', ?_⟩
        rw [show j + (k + 1) = j + 1 + k by omega]
        exact hch
  obtain ⟨ts, e, hts⟩ := hloop cs 0 (fun k => by rw [Nat.zero_add])
  refine ⟨.node (some ids) ts, ?_, ?_⟩
  · simp only [setidentities]
    rw [if_neg (by omega), show checkIds tags.length ids = ok () from check_ok hl, bind_ok, e, bind_ok]
  · refine treeOk_node hw hl ?_
    intro m d hd
    have := hts m d hd
    rw [Nat.zero_add] at this
    exact this

theorem set_ok (c : Content) : SetOk c := by
  induction c using Content.induct with
  | empty p =>
    intro ids hw hl _ _
    refine ⟨_, ?_, leaf_ok rfl hw hl⟩
    simp only [setidentities]
    rw [show checkIds 0 ids = ok () from check_ok hl, bind_ok]
  | numpy p dt data =>
    intro ids hw hl _ _
    refine ⟨_, ?_, leaf_ok rfl hw hl⟩
    simp only [setidentities]
    rw [show checkIds data.length ids = ok () from check_ok hl, bind_ok]
  | regular p c size zeros ih => exact set_regular ih
  | listArray p starts stops c ih => exact set_listArray ih
  | listOffset p offsets c ih => exact set_listOffset ih
  | indexed p index c ih => exact set_indexed ih
  | indexedOption p index c ih => exact set_indexedOption ih
  | byteMasked p mask vw c ih => exact set_byteMasked ih
  | bitMasked p mask vw length lsb c ih => exact set_bitMasked ih
  | unmasked p c ih => exact set_unmasked ih
  | record p keys cs length ih => exact set_record ih
  | union p tags index cs ih => exact set_union ih

end Awk
