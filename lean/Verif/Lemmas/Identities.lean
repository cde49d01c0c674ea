import Verif.Lemmas.IdIndexed
import Verif.Spec.Identities
/-
`setidentities` from the top of an array to every content.
-/

namespace Awk
open R Content

/-! ### Identities as lists -/

/-- The fields that stand after position `i`. -/
def fieldsAfter (fl : List (Nat × String)) (i : Nat) : List IdPart :=
  (fl.filter (fun p => p.1 == i)).map (fun p => .field p.2)

/-- The identity with the positions `r`. -/
def partsOf (fl : List (Nat × String)) (r : List Int) : List IdPart :=
  (r.zipIdx).flatMap (fun xi => .row xi.1 :: fieldsAfter fl xi.2)

/-- The identity of row `j`. -/
def Ids.parts (ids : Ids) (j : Nat) : List IdPart := partsOf ids.fieldloc (row ids.width ids.data j)

/-- The table has all of its rows, and fields stand after existing positions. -/
structure Ids.Wf (ids : Ids) : Prop where
  width : 1 ≤ ids.width
  data : ids.data.length = ids.length * ids.width
  fields : ∀ p ∈ ids.fieldloc, p.1 < ids.width

theorem partsOf_snoc (fl : List (Nat × String)) (r : List Int) (x : Int) :
    partsOf fl (r ++ [x]) = partsOf fl r ++ .row x :: fieldsAfter fl r.length := by
  simp [partsOf, List.zipIdx_append]

theorem fieldsAfter_none {fl : List (Nat × String)} {n : Nat} (h : ∀ p ∈ fl, p.1 < n) :
    fieldsAfter fl n = [] := by
  unfold fieldsAfter
  rw [List.filter_eq_nil_iff.mpr]
  · rfl
  · intro p hp
    have := h p hp
    simp; omega

theorem partsOf_append {fl : List (Nat × String)} {r : List Int} (h : ∀ p ∈ fl, p.1 < r.length)
    (x : List Int) : partsOf fl (r ++ x) = partsOf fl r ++ x.map .row := by
  induction x generalizing r with
  | nil => simp
  | cons x xs ih =>
    have e : r ++ x :: xs = (r ++ [x]) ++ xs := by simp
    rw [e, ih (fun p hp => by have := h p hp; simp; omega), partsOf_snoc, fieldsAfter_none h]
    simp

theorem partsOf_congr {fl fl' : List (Nat × String)} {r : List Int}
    (h : ∀ i, i < r.length → fieldsAfter fl i = fieldsAfter fl' i) : partsOf fl r = partsOf fl' r := by
  unfold partsOf
  rw [List.flatMap_def, List.flatMap_def]
  congr 1
  apply List.map_congr_left
  rintro ⟨x, i⟩ hx
  have := List.mem_zipIdx hx
  dsimp only
  rw [h i (by omega)]

theorem partsOf_field {fl : List (Nat × String)} {r : List Int} (hr : 1 ≤ r.length) (s : String) :
    partsOf (fl ++ [(r.length - 1, s)]) r = partsOf fl r ++ [.field s] := by
  rcases List.eq_nil_or_concat r with rfl | ⟨r, x, rfl⟩
  · simp at hr
  · rw [List.concat_eq_append, partsOf_snoc, partsOf_snoc]
    have e : (r ++ [x]).length - 1 = r.length := by simp
    rw [e]
    have h1 : partsOf (fl ++ [(r.length, s)]) r = partsOf fl r := by
      apply partsOf_congr
      intro i hi
      unfold fieldsAfter
      rw [List.filter_append]
      have : ¬ r.length = i := by omega
      simp [this]
    have h2 : fieldsAfter (fl ++ [(r.length, s)]) r.length = fieldsAfter fl r.length ++ [.field s] := by
      unfold fieldsAfter
      rw [List.filter_append]
      simp
    rw [h1, h2]
    simp

theorem partsOf_cons (fl : List (Nat × String)) (x : Int) (r : List Int) :
    ∃ rest, partsOf fl (x :: r) = .row x :: rest := by
  simp [partsOf]

theorem identityAt_ok {ids : Ids} {j : Nat} (h : (j + 1) * ids.width ≤ ids.data.length) :
    ids.identityAt j = ok (ids.parts j) := by
  unfold Ids.identityAt
  have hl := row_length h
  obtain ⟨s, e, hs⟩ := forN_inv (n := ids.width) (body := fun (i : Nat) (out : List IdPart) =>
      rd ids.data ((j : Int) * ids.width + i) >>= fun x =>
      ok (out ++ IdPart.row x :: ((ids.fieldloc.filter (fun p => p.1 == i)).map (fun p => .field p.2))))
    (s := []) (fun i out => out = partsOf ids.fieldloc ((row ids.width ids.data j).take i))
    (by simp [partsOf]) (by
      rintro i hi s rfl
      have hb : j * ids.width + i < ids.data.length := by rw [Nat.succ_mul] at h; omega
      rw [show ((j : Int) * ids.width + i) = ((j * ids.width + i : Nat) : Int) by push_cast; rfl,
        rd_nat_ok hb, bind_ok]
      refine ⟨_, rfl, ?_⟩
      have hi' : i < (row ids.width ids.data j).length := by omega
      have hx : (row ids.width ids.data j)[i] = ids.data[j * ids.width + i] := by
        have := row_getElem? ids.width ids.data j i
        rw [if_pos hi, List.getElem?_eq_getElem hi', List.getElem?_eq_getElem hb] at this
        simpa using this
      rw [List.take_succ_eq_append_getElem hi', partsOf_snoc, hx, List.length_take_of_le (by omega)]
      rfl)
  rw [e, hs, List.take_of_length_le (by omega)]
  rfl

/-- The identity begins with -1: the item belongs to nothing. -/
def Dead (parts : List IdPart) : Prop := parts.head? = some (.row (-1))

theorem dead_iff {ids : Ids} (h : ids.Wf) {j : Nat} (hj : j < ids.length) :
    Dead (ids.parts j) ↔ ¬ Live ids.width ids.data j := by
  have hb := le_mul_of_lt (w := ids.width) hj
  rw [← h.data] at hb
  have hl := row_length hb
  unfold Dead Live Ids.parts
  rw [← row_first h.width]
  cases hr : row ids.width ids.data j with
  | nil => rw [hr] at hl; have := h.width; simp at hl; omega
  | cons x r =>
    obtain ⟨rest, e⟩ := partsOf_cons ids.fieldloc x r
    rw [e]; simp

theorem dead_append {a b : List IdPart} (h : a ≠ []) : Dead (a ++ b) ↔ Dead a := by
  unfold Dead
  cases a with
  | nil => exact absurd rfl h
  | cons x a => simp

theorem parts_ne {ids : Ids} (h : ids.Wf) {j : Nat} (hj : j < ids.length) : ids.parts j ≠ [] := by
  have hb := le_mul_of_lt (w := ids.width) hj
  rw [← h.data] at hb
  have hl := row_length hb
  unfold Ids.parts
  cases hr : row ids.width ids.data j with
  | nil => rw [hr] at hl; have := h.width; simp at hl; omega
  | cons x r =>
    obtain ⟨rest, e⟩ := partsOf_cons ids.fieldloc x r
    rw [e]; simp

/-! ### From a node to its contents -/

theorem HoldsItem.lt {c : Content} {m i j : Nat} {part : List IdPart} (h : HoldsItem c m i part j) : i < c.len := by
  have key : ∀ {l : List Int} {n : Nat} {x : Int}, l[n]? = some x → n < l.length := fun h => by
    obtain ⟨h, _⟩ := List.getElem?_eq_some_iff.mp h; exact h
  cases h with
  | regular h _ => exact h
  | listArray h _ _ _ => exact key h
  | listOffset _ h _ _ => have := key h; simp only [len]; omega
  | indexed h => exact key h
  | indexedOption h => exact key h
  | byteMasked h => exact h
  | bitMasked h => exact h
  | unmasked h => exact h
  | tuple _ h => exact h
  | record _ h _ => exact h
  | union h _ => exact key h

theorem Reach.lt {c : Content} {addr : List Nat} {i j : Nat} {path : List IdPart}
    (h : Reach c addr i path j) : i < c.len := by
  cases h with
  | here h => exact h
  | step _ h _ => exact h.lt

/-- `sub` identifies the items of content `m`, which is `d`. -/
structure SubOk (c : Content) (m : Nat) (d : Content) (ids sub : Ids) : Prop where
  wf : sub.Wf
  len : sub.length = d.len
  here : ∀ i part j, HoldsItem c m i part j → ¬ Dead (ids.parts i) →
    j < d.len ∧ sub.parts j = ids.parts i ++ part
  gone : ∀ j, j < d.len → (∀ i part, HoldsItem c m i part j → Dead (ids.parts i)) → Dead (sub.parts j)

/-- The tables `t` identify the items of all contents of `c`, where `ids` identifies those of `c`. -/
def TreeOk (c : Content) (ids : Ids) (t : IdTree) : Prop :=
  ∀ addr d, c.nodeAt addr = some d →
    (∀ sub, t.idsAt addr = some sub → sub.Wf ∧ sub.length = d.len ∧
      (∀ i path j, Reach c addr i path j → ¬ Dead (ids.parts i) →
        j < d.len ∧ sub.parts j = ids.parts i ++ path) ∧
      ∀ j, j < d.len → (∀ i path, Reach c addr i path j → Dead (ids.parts i)) → Dead (sub.parts j)) ∧
    (c.Unshared → ∃ sub, t.idsAt addr = some sub)

theorem Unshared.child {c d : Content} {m : Nat} (h : c.Unshared) (hd : c.children[m]? = some d) :
    d.Unshared := by
  intro addr e he
  exact h (m :: addr) e (by simp [nodeAt, hd, he])

/-- What a node needs: each content has its tables, or none because its items are shared. -/
def Child (c : Content) (ids : Ids) (m : Nat) (d : Content) (t : IdTree) : Prop :=
  (∃ sub, SubOk c m d ids sub ∧ TreeOk d sub t) ∨ ((∀ addr, t.idsAt addr = none) ∧ ¬ c.Unshared)

theorem treeOk_node {c : Content} {ids : Ids} {ts : List IdTree} (hw : ids.Wf) (hl : ids.length = c.len)
    (h : ∀ m d, c.children[m]? = some d → ∃ t, ts[m]? = some t ∧ Child c ids m d t) :
    TreeOk c ids (.node (some ids) ts) := by
  intro addr d hd
  cases addr with
  | nil =>
    simp only [nodeAt, Option.some.injEq] at hd
    subst hd
    refine ⟨?_, fun _ => ⟨ids, rfl⟩⟩
    intro sub hs
    simp only [IdTree.idsAt, Option.some.injEq] at hs
    subst hs
    refine ⟨hw, hl, ?_, ?_⟩
    · intro i path j hr _
      cases hr with
      | here hi => exact ⟨hi, by simp⟩
    · intro j hj hno
      exact hno j [] (.here hj)
  | cons m addr =>
    simp only [nodeAt] at hd
    cases hc : c.children[m]? with
    | none => rw [hc] at hd; cases hd
    | some e =>
      rw [hc, Option.bind_some] at hd
      obtain ⟨t, ht, hch⟩ := h m e hc
      simp only [IdTree.idsAt, ht, Option.bind_some]
      rcases hch with ⟨mid, hs, hT⟩ | ⟨hnone, hsh⟩
      · obtain ⟨h1, h2⟩ := hT addr d hd
        refine ⟨?_, fun hu => h2 (Unshared.child hu hc)⟩
        intro sub hsub
        obtain ⟨hwf, hlen, hhere, hgone⟩ := h1 sub hsub
        refine ⟨hwf, hlen, ?_, ?_⟩
        · intro i path j hr hlive
          cases hr with
          | step hm hh hr =>
            rw [hc] at hm; cases hm
            obtain ⟨hk, he⟩ := hs.here _ _ _ hh hlive
            have hi : i < ids.length := by rw [hl]; exact hh.lt
            obtain ⟨hj, he'⟩ := hhere _ _ _ hr (by rw [he, dead_append (parts_ne hw hi)]; exact hlive)
            exact ⟨hj, by rw [he', he, List.append_assoc]⟩
        · intro j hj hno
          refine hgone j hj ?_
          intro k path hr
          refine hs.gone k hr.lt ?_
          intro i part hh
          exact hno i _ (.step hc hh hr)
      · refine ⟨fun sub hsub => ?_, fun hu => absurd hu hsh⟩
        rw [hnone] at hsub; cases hsub

theorem unshared_node {c : Content} (h : c.Unshared) {m i i' j : Nat} {part part' : List IdPart}
    (h1 : HoldsItem c m i part j) (h2 : HoldsItem c m i' part' j) : i = i' :=
  h [] c rfl m i i' part part' j h1 h2

theorem laid_sub {c d : Content} {m : Nat} {ids : Ids} {w' : Nat} {D : Nat → Nat → List Int → Prop}
    {t : List Int} (hw : ids.Wf) (hl : ids.length = c.len) (hw' : ids.width ≤ w')
    (h : Laid ids.width w' d.len D ids.data t)
    (hD : ∀ i part j, HoldsItem c m i part j ↔ ∃ x, part = x.map .row ∧ D i j x)
    (hb : ∀ i j x, D i j x → j < d.len) : SubOk c m d ids (ids.below w' d.len t) := by
  have hwf : (ids.below w' d.len t).Wf :=
    ⟨Nat.le_trans hw.width hw', h.len, fun p hp => Nat.lt_of_lt_of_le (hw.fields p hp) hw'⟩
  have hlive : ∀ i, i < c.len → (¬ Dead (ids.parts i) ↔ Live ids.width ids.data i) := by
    intro i hi
    rw [dead_iff hw (by rw [hl]; exact hi), not_not]
  refine ⟨hwf, rfl, ?_, ?_⟩
  · intro i part j hh hli
    obtain ⟨x, rfl, hd⟩ := (hD i part j).mp hh
    refine ⟨hb i j x hd, ?_⟩
    have hr := h.here i j x hd ((hlive i hh.lt).mp hli)
    have hi := le_mul_of_lt (w := ids.width) (show i < ids.length by rw [hl]; exact hh.lt)
    rw [← hw.data] at hi
    show partsOf ids.fieldloc (row w' t j) = _
    rw [hr, partsOf_append (by rw [row_length hi]; exact hw.fields)]
    rfl
  · intro j hj hno
    rw [dead_iff hwf hj]
    unfold Live
    rw [not_not]
    refine h.gone j hj ?_
    intro i x hd hli
    have hh := (hD i _ j).mpr ⟨x, rfl, hd⟩
    exact (hlive i hh.lt).mpr hli (hno i _ hh)

/-! ### Without identities -/

theorem none_ok (c : Content) : ∃ t, setidentities c none = ok t ∧ ∀ addr, t.idsAt addr = none := by
  have one : ∀ t : IdTree, (∀ addr, t.idsAt addr = none) → ∀ addr, (IdTree.node none [t]).idsAt addr = none := by
    intro t ht addr
    cases addr with
    | nil => rfl
    | cons m addr =>
      simp only [IdTree.idsAt]
      cases m with
      | zero => exact ht addr
      | succ m => rfl
  have nil : ∀ addr, (IdTree.node none []).idsAt addr = none := by
    intro addr; cases addr <;> rfl
  have all : ∀ ts : List IdTree, (∀ t ∈ ts, ∀ addr, t.idsAt addr = none) →
      ∀ addr, (IdTree.node none ts).idsAt addr = none := by
    intro ts hts addr
    cases addr with
    | nil => rfl
    | cons m addr =>
      simp only [IdTree.idsAt]
      cases hm : ts[m]? with
      | none => rfl
      | some t => exact hts t (List.mem_of_getElem? hm) addr
  induction c using Content.induct with
  | empty p => exact ⟨_, by simp only [setidentities, bind_ok], nil⟩
  | numpy p dt data => exact ⟨_, by simp only [setidentities, bind_ok], nil⟩
  | regular p c size zeros ih | listArray p starts stops c ih | listOffset p offsets c ih
  | indexed p index c ih | indexedOption p index c ih | byteMasked p mask vw c ih
  | bitMasked p mask vw length lsb c ih | unmasked p c ih =>
    obtain ⟨t, e, ht⟩ := ih
    exact ⟨_, by simp only [setidentities, setidentities.through, e, bind_ok], one t ht⟩
  | record p keys cs length ih =>
    have : ∀ j, ∃ ts, setidentitiesFields cs none keys j = ok ts ∧ ∀ t ∈ ts, ∀ addr, t.idsAt addr = none := by
      induction cs with
      | nil => exact fun j => ⟨[], by simp [setidentitiesFields], by simp⟩
      | cons c cs ihc =>
        intro j
        obtain ⟨t, e, ht⟩ := ih c (by simp)
        obtain ⟨ts, es, hts⟩ := ihc (fun c hc => ih c (by simp [hc])) (j + 1)
        exact ⟨t :: ts, by simp only [setidentitiesFields, Option.map_none, e, es, bind_ok], by
          intro t' ht'
          rcases List.mem_cons.mp ht' with rfl | ht'
          · exact ht
          · exact hts t' ht'⟩
    obtain ⟨ts, e, hts⟩ := this 0
    exact ⟨_, by simp only [setidentities, e, bind_ok], all ts hts⟩
  | union p tags index cs ih =>
    have : ∀ j, ∃ ts, setidentitiesUnion cs none tags index j = ok ts ∧
        ∀ t ∈ ts, ∀ addr, t.idsAt addr = none := by
      induction cs with
      | nil => exact fun j => ⟨[], by simp [setidentitiesUnion], by simp⟩
      | cons c cs ihc =>
        intro j
        obtain ⟨t, e, ht⟩ := ih c (by simp)
        obtain ⟨ts, es, hts⟩ := ihc (fun c hc => ih c (by simp [hc])) (j + 1)
        exact ⟨t :: ts, by simp only [setidentitiesUnion, e, es, bind_ok], by
          intro t' ht'
          rcases List.mem_cons.mp ht' with rfl | ht'
          · exact ht
          · exact hts t' ht'⟩
    obtain ⟨ts, e, hts⟩ := this 0
    exact ⟨_, by simp only [setidentities, e, bind_ok], all ts hts⟩

/-! ### With identities -/

/-- What is proved of an array by induction. -/
def SetOk (c : Content) : Prop :=
  ∀ ids : Ids, ids.Wf → ids.length = c.len → c.Good → c.Identifiable ids.width →
    ∃ t, setidentities c (some ids) = ok t ∧ TreeOk c ids t

theorem check_ok {n : Nat} {ids : Ids} (h : ids.length = n) : checkIds n ids = ok () := by
  unfold checkIds; rw [if_neg (by omega)]

/-- A node with one content that hands `sub` down. -/
theorem one_ok {c d : Content} {ids : Ids} {u : Bool} {sub : Ids} (hch : c.children = [d]) (hw : ids.Wf)
    (hl : ids.length = c.len) (hset : SetOk d) (hg : d.Good) (hid : d.Identifiable sub.width)
    (hsub : u = true → SubOk c 0 d ids sub) (hno : u = false → ¬ c.Unshared) :
    ∃ t, setidentities d (if u then some sub else none) = ok t ∧ TreeOk c ids (.node (some ids) [t]) := by
  cases u with
  | true =>
    have hs := hsub rfl
    obtain ⟨t, e, hT⟩ := hset sub hs.wf hs.len hg hid
    refine ⟨t, e, treeOk_node hw hl ?_⟩
    intro m d' hd'
    rw [hch] at hd'
    cases m with
    | zero => cases hd'; exact ⟨t, rfl, .inl ⟨sub, hs, hT⟩⟩
    | succ m => cases hd'
  | false =>
    obtain ⟨t, e, hn⟩ := none_ok d
    refine ⟨t, e, treeOk_node hw hl ?_⟩
    intro m d' hd'
    rw [hch] at hd'
    cases m with
    | zero => cases hd'; exact ⟨t, rfl, .inr ⟨hn, hno rfl⟩⟩
    | succ m => cases hd'

theorem leaf_ok {c : Content} {ids : Ids} (hch : c.children = []) (hw : ids.Wf) (hl : ids.length = c.len) :
    TreeOk c ids (.node (some ids) []) := by
  refine treeOk_node hw hl ?_
  intro m d hd
  rw [hch] at hd; cases hd

end Awk
