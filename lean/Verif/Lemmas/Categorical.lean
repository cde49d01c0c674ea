import Verif.Model.Categorical
import Verif.Spec.Categorical
import Verif.Lemmas.Apply
import Verif.Lemmas.AllNodes
import Verif.Lemmas.ValDec
import Verif.Lemmas.GetitemValid
import Verif.Props.Getitem
/-
`to_categorical` keeps the values and makes the categories distinct.
-/

namespace Awk
open R

/-- A missing value, a number or a string. -/
def Val.Leaf : Val → Prop
  | .null | .atom _ | .str _ | .bytes _ => True
  | _ => False

theorem Atom.pyEq_refl (a : Atom) : a.pyEq a = true := by
  cases a <;> simp [Atom.pyEq, Atom.asNumber]

theorem Atom.eq_of_pyEq {a b : Atom} (hk : a.kind = b.kind) (h : a.pyEq b = true) : a = b := by
  cases a <;> cases b <;> simp [Atom.kind] at hk <;> simp [Atom.pyEq, Atom.asNumber] at h <;>
    simp_all
  rename_i b c
  cases b <;> cases c <;> simp_all

theorem Val.Leaf.refl {v : Val} (h : v.Leaf) : v.pyEq v = true := by
  cases v <;> simp only [Val.Leaf] at h <;> simp [Val.pyEq, Atom.pyEq_refl, Val.sameList_refl]

theorem Val.Leaf.hashable {v : Val} (h : v.Leaf) : v.hashable = true := by
  cases v <;> simp only [Val.Leaf] at h <;> rfl

theorem hashableList_leaves {vs : List Val} (h : ∀ v ∈ vs, v.Leaf) : Val.hashableList vs = true := by
  induction vs with
  | nil => rfl
  | cons v vs ih => simp [Val.hashableList, (h v (by simp)).hashable, ih (fun w hw => h w (by simp [hw]))]

/-- The elements that are the first of their category. -/
def newOnes (seen vs : List Val) : List Val :=
  ((vs.zip ((categorize seen vs).map Prod.fst)).filter (fun p => p.2 ≠ 0)).map Prod.fst

theorem categorize_spec : ∀ (vs seen : List Val), (∀ v ∈ vs, v.pyEq v = true) →
    seen.Pairwise (fun y x => y.pyEq x = false) →
    (categorize seen vs).length = vs.length ∧
    (seen ++ newOnes seen vs).Pairwise (fun y x => y.pyEq x = false) ∧
    ∀ (i : Nat) v, vs[i]? = some v → ∃ (j : Nat) (y : Val), ((categorize seen vs).map Prod.snd)[i]? = some (j : Int) ∧
      (seen ++ newOnes seen vs)[j]? = some y ∧ y.pyEq v = true
  | [], seen, _, hs => by simp [categorize, newOnes, hs]
  | x :: xs, seen, hr, hs => by
    cases hf : seen.findIdx? (fun y => y.pyEq x) with
    | some j =>
      obtain ⟨h1, h2, h3⟩ := categorize_spec xs seen (fun v hv => hr v (by simp [hv])) hs
      have hn : newOnes seen (x :: xs) = newOnes seen xs := by simp [newOnes, categorize, hf]
      rw [hn]
      refine ⟨by simp [categorize, hf, h1], h2, fun i v hi => ?_⟩
      cases i with
      | zero =>
        simp only [List.getElem?_cons_zero, Option.some.injEq] at hi; subst hi
        obtain ⟨g1, g2, _⟩ := List.findIdx?_eq_some_iff_getElem.mp hf
        refine ⟨j, seen[j], by simp [categorize, hf], ?_, g2⟩
        rw [List.getElem?_append_left g1, List.getElem?_eq_getElem g1]
      | succ i =>
        obtain ⟨k, y, g1, g2, g3⟩ := h3 i v (by simpa using hi)
        exact ⟨k, y, by simpa [categorize, hf] using g1, g2, g3⟩
    | none =>
      have hne : ∀ y ∈ seen, y.pyEq x = false := by
        intro y hy
        have := List.findIdx?_eq_none_iff.mp hf y hy
        simpa using this
      obtain ⟨h1, h2, h3⟩ := categorize_spec xs (seen ++ [x]) (fun v hv => hr v (by simp [hv])) (by
        rw [List.pairwise_append]
        exact ⟨hs, by simp, fun y hy z hz => by simp only [List.mem_singleton] at hz; subst hz; exact hne y hy⟩)
      have hn : newOnes seen (x :: xs) = x :: newOnes (seen ++ [x]) xs := by simp [newOnes, categorize, hf]
      have he : seen ++ newOnes seen (x :: xs) = (seen ++ [x]) ++ newOnes (seen ++ [x]) xs := by rw [hn]; simp
      rw [he]
      refine ⟨by simp [categorize, hf, h1], h2, fun i v hi => ?_⟩
      cases i with
      | zero =>
        simp only [List.getElem?_cons_zero, Option.some.injEq] at hi; subst hi
        exact ⟨seen.length, x, by simp [categorize, hf], by simp, hr x (by simp)⟩
      | succ i =>
        obtain ⟨k, y, g1, g2, g3⟩ := h3 i v (by simpa using hi)
        exact ⟨k, y, by simpa [categorize, hf] using g1, g2, g3⟩

namespace Content

/-- Slicing with a mask keeps the elements whose byte is not zero. -/
theorem mask_good {c : Content} (hv : c.validity = ok ()) {mask : List Int} (hm : mask.length = c.len) :
    ∃ d, (maskSlice mask mask.length 1 >>= fun item => getitem [item] c) = ok (.array d) ∧ d.Good ∧
      d.toList = ok ((((List.range c.len).map c.valD).zip mask).filter (fun p => p.2 ≠ 0) |>.map Prod.fst) := by
  have hg := good_of_validity hv
  obtain ⟨it, h1, w, h2, h3⟩ := Props.C12_mask_partial c hv _ hg.toList mask (by simpa using hm)
  have h1' := h1
  rw [maskSlice_ok (Nat.le_refl _), bind_ok] at h1'
  obtain ⟨_, _, d, _, _, _, _, g5, rfl⟩ := getitem_array_inv hg h1'
  refine ⟨d, h1, g5, ?_⟩
  rw [g5.toList]
  simp only [Item.toVal, g5.toList, bind_ok] at h2
  congr 1
  have hw : w.isList = true ∧ w.items = (List.range d.len).map d.valD := by
    cases hp : d.params.arr <;> rw [hp] at h2 <;> simp only [ok.injEq] at h2 <;> subst h2 <;> exact ⟨rfl, rfl⟩
  rcases h3 with h3 | ⟨_, _, h3⟩
  · rw [← hw.2, h3]; rfl
  · rw [← hw.2, h3]; rfl

/-- `distinct`: numbers of categories that show the elements. -/
theorem distinct_ok {c : Content} (hv : c.validity = ok ()) (hl : ∀ i, i < c.len → (c.valD i).Leaf)
    (he : ∀ i j, i < c.len → j < c.len → (c.valD i).pyEq (c.valD j) = true → c.valD i = c.valD j) :
    ∃ map d us, distinct c = ok (map, d) ∧ d.Good ∧ map.length = c.len ∧ d.toList = ok us ∧ us.Nodup ∧
      ∀ i, i < c.len → ∃ j : Nat, map[i]? = some (j : Int) ∧ j < d.len ∧ d.valD j = c.valD i := by
  have hg := good_of_validity hv
  have hleaf : ∀ v ∈ (List.range c.len).map c.valD, v.Leaf := by
    intro v hv
    obtain ⟨i, hi, rfl⟩ := List.mem_map.mp hv
    exact hl i (List.mem_range.mp hi)
  obtain ⟨h1, h2, h3⟩ := categorize_spec ((List.range c.len).map c.valD) [] (fun v hv => (hleaf v hv).refl) .nil
  simp only [List.length_map, List.length_range] at h1
  obtain ⟨d, g1, g2, g3⟩ := mask_good hv (mask := (categorize [] ((List.range c.len).map c.valD)).map Prod.fst)
    (by simpa using h1)
  have hsub : ∀ u ∈ newOnes [] ((List.range c.len).map c.valD), u ∈ (List.range c.len).map c.valD := by
    intro u hu
    obtain ⟨p, hp, rfl⟩ := List.mem_map.mp hu
    exact (List.of_mem_zip (List.mem_filter.mp hp).1).1
  simp only [List.nil_append] at h2 h3
  refine ⟨(categorize [] ((List.range c.len).map c.valD)).map Prod.snd, d,
    newOnes [] ((List.range c.len).map c.valD), ?_, g2, by simpa using h1, g3, ?_, fun i hi => ?_⟩
  · unfold distinct
    rw [hg.toList, bind_ok, if_pos (hashableList_leaves hleaf)]
    simp only
    rw [bind_eq_ok] at g1
    obtain ⟨item, k1, k2⟩ := g1
    rw [k1, bind_ok, k2, bind_ok]
  · refine (h2.imp_of_mem ?_)
    intro a b ha hb hab heq
    subst heq
    rw [(hleaf a (hsub a ha)).refl] at hab; cases hab
  · obtain ⟨j, y, k1, k2, k3⟩ := h3 i (c.valD i) (by simp [hi])
    rw [g2.toList] at g3
    have g3 : (List.range d.len).map d.valD = newOnes [] ((List.range c.len).map c.valD) :=
      R.ok.inj g3
    rw [← g3] at k2
    have hj : j < d.len := by
      have := (List.getElem?_eq_some_iff.mp k2).1
      simpa using this
    simp only [List.getElem?_map, List.getElem?_range hj, Option.map_some, Option.some.injEq] at k2
    refine ⟨j, k1, hj, ?_⟩
    have hy : y ∈ (List.range c.len).map c.valD := hsub y (by
      rw [← g3, ← k2]; exact List.mem_map.mpr ⟨j, List.mem_range.mpr hj, rfl⟩)
    obtain ⟨m, hm, rfl⟩ := List.mem_map.mp hy
    rw [k2]
    exact he m i (List.mem_range.mp hm) hi k3

theorem CatNode.depth {c : Content} (h : AllNodes CatNode c) : 1 ≤ c.purelistDepth := by
  induction c using induct with
  | empty | numpy => simp [purelistDepth]
  | regular p c _ _ ih | listArray p _ _ c ih | listOffset p _ c ih =>
    have := ih ((allNodes_iff.mp h).2 c (by simp [children]))
    simp only [purelistDepth]; split <;> omega
  | indexed p _ c ih | indexedOption p _ c ih | byteMasked p _ _ c ih | bitMasked p _ _ _ _ c ih | unmasked p c ih =>
    exact ih ((allNodes_iff.mp h).2 c (by simp [children]))
  | record | union => exact (allNodes_iff.mp h).1.elim

/-- The elements of a node of depth 1 are numbers or strings, that Python's `==` tells apart. -/
theorem CatNode.leaves {c : Content} (hg : c.Good) (h : AllNodes CatNode c) (hn : c.isOptionOrIndexed = false)
    (hd : c.purelistDepth = 1) : (∀ i, i < c.len → (c.valD i).Leaf) ∧
      ∀ i j, i < c.len → j < c.len → (c.valD i).pyEq (c.valD j) = true → c.valD i = c.valD j := by
  have str : c.isListNode = true → (c.params.arr = .string ∨ c.params.arr = .bytestring) →
      (∀ i, i < c.len → (c.valD i).Leaf) ∧
      ∀ i j, i < c.len → j < c.len → (c.valD i).pyEq (c.valD j) = true → c.valD i = c.valD j := by
    intro hl hp
    constructor
    · intro i hi
      obtain ⟨vs, hv⟩ := listNode_val hg hl hi
      rw [hv, wrapList]
      rcases hp with hp | hp <;> rw [hp] <;> trivial
    · intro i j hi hj he
      obtain ⟨vs, hv⟩ := listNode_val hg hl hi
      obtain ⟨ws, hw⟩ := listNode_val hg hl hj
      rw [hv, hw] at he ⊢
      rcases hp with hp | hp <;> simp only [wrapList, hp, Val.pyEq] at he ⊢ <;>
        rw [Val.eq_of_sameList _ _ he]
  have depth : ∀ {p : Params} {e : Content}, 1 ≤ e.purelistDepth →
      (if p.arr = .string ∨ p.arr = .bytestring then 1 else e.purelistDepth + 1) = (1 : Int) →
      p.arr = .string ∨ p.arr = .bytestring := by
    intro p e h1 h2
    by_cases h : p.arr = .string ∨ p.arr = .bytestring
    · exact h
    · rw [if_neg h] at h2; omega
  cases c with
  | empty p => simp [len]
  | numpy p dt data =>
    have hk := (allNodes_iff.mp h).1
    constructor
    · intro i hi; rw [valD_numpy (by simpa [len] using hi)]; trivial
    · intro i j hi hj he
      simp only [len] at hi hj
      rw [valD_numpy hi, valD_numpy hj] at he ⊢
      rw [Atom.eq_of_pyEq (hk _ (List.getElem_mem hi) _ (List.getElem_mem hj)) he]
  | regular p c _ _ => exact str rfl (depth (CatNode.depth ((allNodes_iff.mp h).2 c (by simp [children]))) hd)
  | listArray p _ _ c => exact str rfl (depth (CatNode.depth ((allNodes_iff.mp h).2 c (by simp [children]))) hd)
  | listOffset p _ c => exact str rfl (depth (CatNode.depth ((allNodes_iff.mp h).2 c (by simp [children]))) hd)
  | record | union => exact (allNodes_iff.mp h).1.elim
  | indexed | indexedOption | byteMasked | bitMasked | unmasked => cases hn

/-- What `to_categorical` makes of a node: the same elements, and distinct categories. -/
structure Catted (c e : Content) : Prop where
  maps : MapsG True c e id
  cats : ∃ d us, e.categories = some d ∧ d.toList = ok us ∧ us.Nodup

theorem npTake_ok {a : List Int} {f : Int → Int} : ∀ {index : List Int},
    (∀ i ∈ index, (0 ≤ i → a[i.toNat]? = some (f i)) ∧ (i < 0 → -(a.length : Int) ≤ i ∧ a[(i + a.length).toNat]? = some (f i))) →
    npTake a index = ok (index.map f)
  | [], _ => rfl
  | i :: index, h => by
    obtain ⟨h1, h2⟩ := h i (by simp)
    have := npTake_ok (a := a) (f := f) (index := index) (fun j hj => h j (by simp [hj]))
    unfold npTake at this ⊢
    rw [mapR]
    have e : (if 0 ≤ i ∧ i < a.length then rd a i
        else if i < 0 ∧ -(a.length : Int) ≤ i then rd a (i + a.length) else err "IndexError") = ok (f i) := by
      by_cases hi : 0 ≤ i
      · have g := List.getElem?_eq_some_iff.mp (h1 hi)
        obtain ⟨g1, g2⟩ := g
        rw [if_pos ⟨hi, by omega⟩, show i = ((i.toNat : Nat) : Int) by omega, rd_nat_ok g1, g2]
        simp [Int.max_eq_left hi]
      · obtain ⟨k1, k2⟩ := h2 (by omega)
        obtain ⟨g1, g2⟩ := List.getElem?_eq_some_iff.mp k2
        rw [if_neg (by omega), if_pos ⟨by omega, k1⟩, show i + (a.length : Int) = (((i + a.length).toNat : Nat) : Int) by omega,
          rd_nat_ok g1, g2]
    rw [e, bind_ok, this]
    rfl

/-- An index into categories. -/
structure Numbering (c d : Content) (map : List Int) : Prop where
  good : d.Good
  length : map.length = c.len
  shows : ∀ i, i < c.len → ∃ j : Nat, map[i]? = some (j : Int) ∧ j < d.len ∧ d.valD j = c.valD i

/-- The number of the category of an element, for positions that may count from the end. -/
def numberAt (map : List Int) (i : Int) : Int :=
  if 0 ≤ i then map[i.toNat]?.getD 0 else map[(i + map.length).toNat]?.getD 0

theorem Numbering.take {c d : Content} {map index : List Int} (h : Numbering c d map)
    (hi : ∀ i ∈ index, -(c.len : Int) ≤ i ∧ i < c.len) : npTake map index = ok (index.map (numberAt map)) := by
  refine npTake_ok (fun i hm => ?_)
  obtain ⟨h1, h2⟩ := hi i hm
  have hl := h.length
  constructor
  · intro h0
    have : i.toNat < map.length := by omega
    simp [numberAt, h0, List.getElem?_eq_getElem this]
  · intro h0
    have : (i + map.length).toNat < map.length := by omega
    refine ⟨by omega, ?_⟩
    simp [numberAt, show ¬ 0 ≤ i by omega, List.getElem?_eq_getElem this]

theorem Numbering.at {c d : Content} {map : List Int} (h : Numbering c d map) {i : Int} (h0 : 0 ≤ i) (hi : i < c.len) :
    0 ≤ numberAt map i ∧ numberAt map i < d.len ∧ d.valD (numberAt map i).toNat = c.valD i.toNat := by
  obtain ⟨j, h1, h2, h3⟩ := h.shows i.toNat (by omega)
  rw [numberAt, if_pos h0, h1]
  simp only [Option.getD_some, Int.toNat_natCast]
  exact ⟨by omega, by omega, h3⟩

theorem distinct_numbers {c : Content} (hv : c.validity = ok ()) (h : AllNodes CatNode c)
    (hn : c.isOptionOrIndexed = false) (hd : c.purelistDepth = 1) :
    ∃ map d us, distinct c = ok (map, d) ∧ Numbering c d map ∧ d.toList = ok us ∧ us.Nodup := by
  obtain ⟨h1, h2⟩ := CatNode.leaves (good_of_validity hv) h hn hd
  obtain ⟨map, d, us, g1, g2, g3, g4, g5, g6⟩ := distinct_ok hv h1 h2
  exact ⟨map, d, us, g1, ⟨g2, g3, g6⟩, g4, g5⟩

theorem not_option_of_nestedOk {c : Content} (h : c.nestedOk = ok ()) : c.isOptionOrIndexed = false := by
  unfold nestedOk at h
  split at h
  · cases h
  · exact Bool.not_eq_true _ ▸ ‹¬ c.isOptionOrIndexed = true›

theorem innerIndex_none {c : Content} (h : c.isOptionOrIndexed = false) : c.innerIndex = ok none := by
  cases c <;> first | rfl | cases h

/-- `to_categorical` at a masked node. -/
theorem masked_catted {c : Content} (hg : c.Good) (ho : c.isOption = true) (hl : c.inner.len = c.len)
    (hp : ∀ i, i < c.len → (c.pick i = none → c.valD i = .null) ∧ (c.pick i ≠ none → c.valD i = c.inner.valD i))
    {map : List Int} {d : Content} {us : List Val} (hn : Numbering c.inner d map) (hu : d.toList = ok us) (hd : us.Nodup) :
    ∃ mask index', c.bytemask = ok mask ∧ npPut map mask = ok index' ∧
      Catted c (indexedOption { arr := .categorical } index' d) := by
  obtain ⟨bm, e1, e2, e3⟩ := bytemask_ok hg.wf ho
  have hlen := hn.length
  refine ⟨bm, _, e1, by unfold npPut; rw [if_neg (by omega)], ?_, ⟨d, us, by simp [categories], hu, hd⟩⟩
  have hll : (List.zipWith (fun a m => if m ≠ 0 then (-1 : Int) else a) map bm).length = c.len := by
    simp; omega
  have hat : ∀ i (hi : i < c.len), ∃ j : Nat, (List.zipWith (fun a m => if m ≠ 0 then (-1 : Int) else a) map bm)[i]?
      = some (if bm[i]'(by omega) ≠ 0 then (-1 : Int) else (j : Int)) ∧ j < d.len ∧ d.valD j = c.inner.valD i := by
    intro i hi
    obtain ⟨j, k1, k2, k3⟩ := hn.shows i (by omega)
    refine ⟨j, ?_, k2, k3⟩
    simp [List.getElem?_zipWith, k1, List.getElem?_eq_getElem (show i < bm.length by omega)]
  have hgood : (indexedOption { arr := .categorical }
      (List.zipWith (fun a m => if m ≠ 0 then (-1 : Int) else a) map bm) d).Good := by
    refine good_indexedOption.mpr ⟨hn.good, fun i hi => ?_⟩
    obtain ⟨j, k1, k2, _⟩ := hat i (by omega)
    rw [List.getElem?_eq_getElem hi] at k1
    simp only [Option.some.injEq] at k1
    rw [k1]; split <;> omega
  refine ⟨⟨hgood, by simp only [len]; omega, fun i hi => ?_⟩, fun _ => by simpa only [len] using hll⟩
  obtain ⟨j, k1, k2, k3⟩ := hat i hi
  have hi' : i < (List.zipWith (fun a m => if m ≠ 0 then (-1 : Int) else a) map bm).length := by omega
  rw [valD_indexedOption hgood hi']
  rw [List.getElem?_eq_getElem hi'] at k1
  simp only [Option.some.injEq] at k1
  rw [k1]
  obtain ⟨p1, p2⟩ := hp i hi
  by_cases hb : bm[i]'(by omega) ≠ 0
  · simp only [if_pos hb]
    rw [p1 ((e3 i (by omega)).mp hb)]; rfl
  · simp only [if_neg hb]
    rw [if_neg (by omega), Int.toNat_natCast, k3, p2 (fun h => hb ((e3 i (by omega)).mpr h))]; rfl

/-- `to_categorical` at a node of depth 1. -/
theorem catted_stop {c : Content} (hv : c.validity = ok ()) (h : AllNodes CatNode c) (hd : c.purelistDepth = 1)
    (n : Nat) : ∃ e, categoricalGet n () c = ok (.inl e) ∧ Catted c e := by
  have hg := good_of_validity hv
  have plain : c.isOptionOrIndexed = false → categoricalGet n () c
      = (distinct c >>= fun md => ok (indexed { arr := .categorical } md.1 md.2) >>= fun out => ok (.inl out)) →
      ∃ e, categoricalGet n () c = ok (.inl e) ∧ Catted c e := by
    intro hn he
    obtain ⟨map, d, us, g1, g2, g3, g4⟩ := distinct_numbers hv h hn hd
    rw [he, g1]
    refine ⟨_, rfl, ?_, ⟨d, us, by simp [categories], g3, g4⟩⟩
    have hgood : (indexed { arr := .categorical } map d).Good := by
      refine good_indexed.mpr ⟨g2.good, fun i hi => ?_⟩
      obtain ⟨j, k1, k2, _⟩ := g2.shows i (by have := g2.length; omega)
      rw [List.getElem?_eq_getElem hi] at k1
      simp only [Option.some.injEq] at k1
      rw [k1]; omega
    refine ⟨⟨hgood, by simp only [len]; exact Nat.le_of_eq g2.length.symm, fun i hi => ?_⟩, fun _ => g2.length⟩
    have hi' : i < map.length := by have := g2.length; omega
    rw [valD_indexed hgood hi']
    obtain ⟨j, k1, k2, k3⟩ := g2.shows i hi
    rw [List.getElem?_eq_getElem hi'] at k1
    simp only [Option.some.injEq] at k1
    rw [k1, Int.toNat_natCast, k3]; rfl
  cases c with
  | record | union => exact (allNodes_iff.mp h).1.elim
  | empty p => exact plain rfl (by simp only [categoricalGet, hd, if_true, bind_ok, categoricalNode]; rw [R.bind_assoc]; simp only [bind_ok])
  | numpy p dt data => exact plain rfl (by simp only [categoricalGet, hd, if_true, bind_ok, categoricalNode]; rw [R.bind_assoc]; simp only [bind_ok])
  | regular p d size zeros => exact plain rfl (by simp only [categoricalGet, hd, if_true, bind_ok, categoricalNode]; rw [R.bind_assoc]; simp only [bind_ok])
  | listArray p starts stops d => exact plain rfl (by simp only [categoricalGet, hd, if_true, bind_ok, categoricalNode]; rw [R.bind_assoc]; simp only [bind_ok])
  | listOffset p offsets d => exact plain rfl (by simp only [categoricalGet, hd, if_true, bind_ok, categoricalNode]; rw [R.bind_assoc]; simp only [bind_ok])
  | indexed p index d =>
    obtain ⟨_, hs⟩ := allNodes_iff.mp h
    have hc := hs d (by simp [children])
    have hv' := hv
    simp only [validity, bind_eq_ok] at hv'
    obtain ⟨_, _, _, _, _, hn, hvd⟩ := hv'
    obtain ⟨map, d', us, g1, g2, g3, g4⟩ := distinct_numbers hvd hc (not_option_of_nestedOk hn) hd
    obtain ⟨_, hp⟩ := good_indexed.mp hg
    have hin : ∀ i ∈ index, -(d.len : Int) ≤ i ∧ i < d.len := by
      intro i hi
      obtain ⟨k, hk, rfl⟩ := List.getElem_of_mem hi
      have := hp k hk; omega
    refine ⟨indexed { arr := .categorical } (index.map (numberAt map)) d', by
      simp only [categoricalGet, hd, if_true, bind_ok, categoricalNode, g1, g2.take hin], ?_,
      ⟨d', us, by simp [categories], g3, g4⟩⟩
    have hgood : (indexed { arr := .categorical } (index.map (numberAt map)) d').Good := by
      refine good_indexed.mpr ⟨g2.good, fun i hi => ?_⟩
      have hi : i < index.length := by simpa using hi
      have := hp i hi
      have := g2.at (i := index[i]) (by omega) (by omega)
      simp only [List.getElem_map]
      omega
    refine ⟨⟨hgood, by simp [len], fun i hi => ?_⟩, fun _ => by simp [len]⟩
    simp only [len] at hi
    rw [valD_indexed hgood (by simpa using hi), valD_indexed hg hi, List.getElem_map]
    have := hp i hi
    exact (g2.at (i := index[i]) (by omega) (by omega)).2.2
  | indexedOption p index d =>
    obtain ⟨⟨_, hneg⟩, hs⟩ := allNodes_iff.mp h
    have hc := hs d (by simp [children])
    have hv' := hv
    simp only [validity, bind_eq_ok] at hv'
    obtain ⟨_, _, _, _, _, hn, hvd⟩ := hv'
    obtain ⟨map, d', us, g1, g2, g3, g4⟩ := distinct_numbers hvd hc (not_option_of_nestedOk hn) hd
    obtain ⟨_, hp⟩ := good_indexedOption.mp hg
    have hin : ∀ i ∈ index, -(d.len : Int) ≤ i ∧ i < d.len := by
      intro i hi
      refine ⟨hneg i hi, ?_⟩
      obtain ⟨k, hk, rfl⟩ := List.getElem_of_mem hi
      have := hp k hk; omega
    have hz : List.zipWith (fun i j => if i < 0 then -1 else j) index (index.map (numberAt map))
        = index.map (fun i => if i < 0 then -1 else numberAt map i) := by
      rw [List.zipWith_map_right, List.zipWith_self]
    refine ⟨indexedOption { arr := .categorical } (index.map (fun i => if i < 0 then -1 else numberAt map i)) d', by
      simp only [categoricalGet, hd, if_true, simplifyOption, indexedSimplify,
        innerIndex_none (not_option_of_nestedOk hn), bind_ok, categoricalNode, g1, g2.take hin, hz], ?_,
      ⟨d', us, by simp [categories], g3, g4⟩⟩
    have hgood : (indexedOption { arr := .categorical } (index.map (fun i => if i < 0 then -1 else numberAt map i)) d').Good := by
      refine good_indexedOption.mpr ⟨g2.good, fun i hi => ?_⟩
      have hi : i < index.length := by simpa using hi
      have h1 := hp i hi
      simp only [List.getElem_map]
      split
      · omega
      · have := g2.at (i := index[i]) (by omega) (by omega)
        omega
    refine ⟨⟨hgood, by simp [len], fun i hi => ?_⟩, fun _ => by simp [len]⟩
    simp only [len] at hi
    rw [valD_indexedOption hgood (by simpa using hi), valD_indexedOption hg hi, List.getElem_map]
    have h1 := hp i hi
    by_cases h0 : index[i] < 0
    · simp [h0]
    · obtain ⟨k1, _, k3⟩ := g2.at (i := index[i]) (by omega) (by omega)
      rw [if_neg h0, if_neg h0, if_neg (by omega)]
      exact k3
  | byteMasked p mask vw d =>
    obtain ⟨hm, hs⟩ := allNodes_iff.mp h
    have hc := hs d (by simp [children])
    have hv' := hv
    simp only [validity, bind_eq_ok] at hv'
    obtain ⟨_, _, hv'⟩ := hv'
    split at hv'
    · cases hv'
    simp only [bind_eq_ok] at hv'
    obtain ⟨_, hn, hvd⟩ := hv'
    obtain ⟨map, d', us, g1, g2, g3, g4⟩ := distinct_numbers hvd hc (not_option_of_nestedOk hn) hd
    obtain ⟨bm, index', k1, k2, k3⟩ := masked_catted hg rfl hm (fun i hi => by
      rw [valD_byteMasked hg (by simpa [len] using hi)]
      simp only [pick, inner]
      split <;> simp) g2 g3 g4
    exact ⟨_, by simp only [categoricalGet, hd, if_true, simplifyOption, not_option_of_nestedOk hn,
      Bool.false_eq_true, if_false, bind_ok, categoricalNode, g1, k1, k2], k3⟩
  | bitMasked p mask vw n' lsb d =>
    obtain ⟨hm, hs⟩ := allNodes_iff.mp h
    have hc := hs d (by simp [children])
    have hv' := hv
    simp only [validity, bind_eq_ok] at hv'
    obtain ⟨_, _, hv'⟩ := hv'
    split at hv'
    · cases hv'
    split at hv'
    · cases hv'
    simp only [bind_eq_ok] at hv'
    obtain ⟨_, hn, hvd⟩ := hv'
    obtain ⟨map, d', us, g1, g2, g3, g4⟩ := distinct_numbers hvd hc (not_option_of_nestedOk hn) hd
    obtain ⟨bm, index', k1, k2, k3⟩ := masked_catted hg rfl hm (fun i hi => by
      rw [valD_bitMasked hg (by simpa [len] using hi)]
      simp only [pick, inner]
      split <;> simp) g2 g3 g4
    exact ⟨_, by simp only [categoricalGet, hd, if_true, simplifyOption, not_option_of_nestedOk hn,
      Bool.false_eq_true, if_false, bind_ok, categoricalNode, g1, k1, k2], k3⟩
  | unmasked p d =>
    obtain ⟨hm, hs⟩ := allNodes_iff.mp h
    have hc := hs d (by simp [children])
    have hv' := hv
    simp only [validity, bind_eq_ok] at hv'
    obtain ⟨_, _, _, hn, hvd⟩ := hv'
    obtain ⟨map, d', us, g1, g2, g3, g4⟩ := distinct_numbers hvd hc (not_option_of_nestedOk hn) hd
    obtain ⟨bm, index', k1, k2, k3⟩ := masked_catted hg rfl (by simp [inner, len]) (fun i hi => by
      rw [valD_unmasked]
      simp [pick, inner]) g2 g3 g4
    exact ⟨_, by simp only [categoricalGet, hd, if_true, simplifyOption, not_option_of_nestedOk hn,
      Bool.false_eq_true, if_false, bind_ok, categoricalNode, g1, k1, k2], k3⟩

/-- The contents of a valid array are valid, except for characters. -/
theorem valid_child {p : Params} {c : Content} (h : (if p.arr = .string ∨ p.arr = .bytestring then ok () else c.validity) = ok ())
    (hp : ¬ (p.arr = .string ∨ p.arr = .bytestring)) : c.validity = ok () := by
  rwa [if_neg hp] at h

/-- `to_categorical` at a node of depth 1. -/
theorem categorical_stop {c : Content} (hv : c.validity = ok ()) (h : AllNodes CatNode c) (hd : c.purelistDepth = 1)
    (n : Nat) : ∃ e, apply categoricalGet n () c = ok e ∧ Catted c e := by
  obtain ⟨e, h1, h2⟩ := catted_stop hv h hd n
  exact ⟨e, by cases c <;> simp only [apply, h1, bind_ok, custom], h2⟩

/-- `to_categorical` of every array that it can handle. -/
theorem categorical_ok {c : Content} (hv : c.validity = ok ()) (h : AllNodes CatNode c) (n : Nat) :
    ∃ e, apply categoricalGet n () c = ok e ∧ Catted c e := by
  induction c using induct generalizing n with
  | empty p => exact categorical_stop hv h rfl n
  | numpy p dt data => exact categorical_stop hv h rfl n
  | record | union => exact (allNodes_iff.mp h).1.elim
  | regular p c size zeros ih =>
    by_cases hd : purelistDepth (regular p c size zeros) = 1
    · exact categorical_stop hv h hd n
    have pass : categoricalGet n () (regular p c size zeros) = ok (.inr ()) := by unfold categoricalGet; rw [if_neg hd]
    have hg := good_of_validity hv
    have hp : ¬ (p.arr = .string ∨ p.arr = .bytestring) := by
      intro hp; exact hd (by simp only [purelistDepth]; rw [if_pos hp])
    have hvc : c.validity = ok () := by
      simp only [validity, bind_eq_ok] at hv
      obtain ⟨_, _, hv⟩ := hv
      first | exact hv | exact valid_child hv hp
    obtain ⟨e, g1, g2⟩ := ih hvc ((allNodes_iff.mp h).2 c (by simp [children])) (n + 1)
    exact ⟨_, by simp only [apply, pass, bind_ok, custom, g1],
      MapsG.regular' (p' := p) (hg.child (by simp [children])) (fun vs => by simp) g2.maps, by simpa only [categories] using g2.cats⟩
  | listArray p starts stops c ih =>
    by_cases hd : purelistDepth (listArray p starts stops c) = 1
    · exact categorical_stop hv h hd n
    have pass : categoricalGet n () (listArray p starts stops c) = ok (.inr ()) := by unfold categoricalGet; rw [if_neg hd]
    have hg := good_of_validity hv
    have hp : ¬ (p.arr = .string ∨ p.arr = .bytestring) := by
      intro hp; exact hd (by simp only [purelistDepth]; rw [if_pos hp])
    have hvc : c.validity = ok () := by
      simp only [validity, bind_eq_ok] at hv
      obtain ⟨_, _, hv⟩ := hv
      split at hv
      · cases hv
      simp only [bind_eq_ok] at hv
      obtain ⟨_, _, hv⟩ := hv
      first | exact hv | exact valid_child hv hp
    obtain ⟨e, g1, g2⟩ := ih hvc ((allNodes_iff.mp h).2 c (by simp [children])) (n + 1)
    exact ⟨_, by simp only [apply, pass, bind_ok, custom, g1],
      MapsG.listArray' (p' := p) (hg) (fun vs => by simp) g2.maps, by simpa only [categories] using g2.cats⟩
  | listOffset p offsets c ih =>
    by_cases hd : purelistDepth (listOffset p offsets c) = 1
    · exact categorical_stop hv h hd n
    have pass : categoricalGet n () (listOffset p offsets c) = ok (.inr ()) := by unfold categoricalGet; rw [if_neg hd]
    have hg := good_of_validity hv
    have hp : ¬ (p.arr = .string ∨ p.arr = .bytestring) := by
      intro hp; exact hd (by simp only [purelistDepth]; rw [if_pos hp])
    have hvc : c.validity = ok () := by
      simp only [validity, bind_eq_ok] at hv
      obtain ⟨_, _, hv⟩ := hv
      split at hv
      · cases hv
      simp only [bind_eq_ok] at hv
      obtain ⟨_, _, hv⟩ := hv
      first | exact hv | exact valid_child hv hp
    obtain ⟨e, g1, g2⟩ := ih hvc ((allNodes_iff.mp h).2 c (by simp [children])) (n + 1)
    exact ⟨_, by simp only [apply, pass, bind_ok, custom, g1],
      MapsG.listOffset' (p' := p) (hg) (fun vs => by simp) g2.maps, by simpa only [categories] using g2.cats⟩
  | indexed p index c ih =>
    by_cases hd : purelistDepth (indexed p index c) = 1
    · exact categorical_stop hv h hd n
    have pass : categoricalGet n () (indexed p index c) = ok (.inr ()) := by unfold categoricalGet; rw [if_neg hd]
    have hg := good_of_validity hv
    have hvc : c.validity = ok () := by
      simp only [validity, bind_eq_ok] at hv
      obtain ⟨_, _, _, _, _, hn, hvc⟩ := hv
      exact hvc
    obtain ⟨hnode, hs⟩ := allNodes_iff.mp h
    obtain ⟨e, g1, g2⟩ := ih hvc ((allNodes_iff.mp h).2 c (by simp [children])) n
    exact ⟨_, by simp only [apply, pass, bind_ok, custom, g1],
      MapsG.indexed (p' := p) hg g2.maps, by simpa only [categories, if_neg (show ¬ p.arr = .categorical from hnode)] using g2.cats⟩
  | indexedOption p index c ih =>
    by_cases hd : purelistDepth (indexedOption p index c) = 1
    · exact categorical_stop hv h hd n
    have pass : categoricalGet n () (indexedOption p index c) = ok (.inr ()) := by unfold categoricalGet; rw [if_neg hd]
    have hg := good_of_validity hv
    have hvc : c.validity = ok () := by
      simp only [validity, bind_eq_ok] at hv
      obtain ⟨_, _, _, _, _, hn, hvc⟩ := hv
      exact hvc
    obtain ⟨hnode, hs⟩ := allNodes_iff.mp h
    obtain ⟨e, g1, g2⟩ := ih hvc ((allNodes_iff.mp h).2 c (by simp [children])) n
    exact ⟨_, by simp only [apply, pass, bind_ok, custom, g1],
      MapsG.indexedOption (p' := p) hg rfl g2.maps, by simpa only [categories, if_neg (show ¬ p.arr = .categorical from hnode.1)] using g2.cats⟩
  | byteMasked p mask vw c ih =>
    by_cases hd : purelistDepth (byteMasked p mask vw c) = 1
    · exact categorical_stop hv h hd n
    have pass : categoricalGet n () (byteMasked p mask vw c) = ok (.inr ()) := by unfold categoricalGet; rw [if_neg hd]
    have hg := good_of_validity hv
    have hvc : c.validity = ok () := by
      simp only [validity, bind_eq_ok] at hv
      obtain ⟨_, _, hv⟩ := hv
      split at hv
      · cases hv
      simp only [bind_eq_ok] at hv
      obtain ⟨_, _, hv⟩ := hv
      exact hv
    obtain ⟨e, g1, g2⟩ := ih hvc ((allNodes_iff.mp h).2 c (by simp [children])) n
    exact ⟨_, by simp only [apply, pass, bind_ok, custom, g1],
      MapsG.byteMasked (p' := p) hg rfl g2.maps, by simpa only [categories] using g2.cats⟩
  | bitMasked p mask vw length lsb c ih =>
    by_cases hd : purelistDepth (bitMasked p mask vw length lsb c) = 1
    · exact categorical_stop hv h hd n
    have pass : categoricalGet n () (bitMasked p mask vw length lsb c) = ok (.inr ()) := by unfold categoricalGet; rw [if_neg hd]
    have hg := good_of_validity hv
    have hvc : c.validity = ok () := by
      simp only [validity, bind_eq_ok] at hv
      obtain ⟨_, _, hv⟩ := hv
      split at hv
      · cases hv
      split at hv
      · cases hv
      simp only [bind_eq_ok] at hv
      obtain ⟨_, _, hv⟩ := hv
      exact hv
    obtain ⟨e, g1, g2⟩ := ih hvc ((allNodes_iff.mp h).2 c (by simp [children])) n
    exact ⟨_, by simp only [apply, pass, bind_ok, custom, g1],
      MapsG.bitMasked (p' := p) hg rfl g2.maps, by simpa only [categories] using g2.cats⟩
  | unmasked p c ih =>
    by_cases hd : purelistDepth (unmasked p c) = 1
    · exact categorical_stop hv h hd n
    have pass : categoricalGet n () (unmasked p c) = ok (.inr ()) := by unfold categoricalGet; rw [if_neg hd]
    have hg := good_of_validity hv
    have hvc : c.validity = ok () := by
      simp only [validity, bind_eq_ok] at hv
      obtain ⟨_, _, _, hn, hvc⟩ := hv
      exact hvc
    obtain ⟨e, g1, g2⟩ := ih hvc ((allNodes_iff.mp h).2 c (by simp [children])) n
    exact ⟨_, by simp only [apply, pass, bind_ok, custom, g1],
      MapsG.unmasked (p' := p) g2.maps, by simpa only [categories] using g2.cats⟩

theorem Catted.toList {c e : Content} (hg : c.Good) (h : Catted c e) : e.toList = c.toList := by
  rw [hg.toList, h.maps.good.toList, h.maps.exact trivial]
  congr 1
  exact List.map_congr_left (fun i hi => h.maps.val i (List.mem_range.mp hi))

theorem from_applies {c : Content} (hg : c.Good) (n : Nat) :
    Applies fromCategoricalGet (fun _ v => v) n () c := by
  induction c using induct generalizing n with
  | empty p => exact .pass rfl (by simp only [Passes]) (fun e he => by simp [children] at he)
  | numpy p dt data => exact .pass rfl (by simp [Passes]) (fun e he => by simp [children] at he)
  | regular p c size zeros ih | listArray p starts stops c ih | listOffset p offsets c ih
  | byteMasked p mask vw c ih | bitMasked p mask vw length lsb c ih | unmasked p c ih =>
    refine .pass rfl (by simp [Passes]) (fun e he => ?_)
    have := hg.child he
    simp only [children, List.mem_singleton] at he; subst he
    exact ih this _
  | indexed p index c ih =>
    by_cases hp : p.arr = .categorical
    · exact .stop (by simp only [fromCategoricalGet, if_pos hp])
        (MapsG.indexed (G := True) (p' := { p with arr := .none }) hg
          ⟨⟨hg.child (by simp [children]), Nat.le_refl _, fun i hi => rfl⟩, fun _ => rfl⟩)
    · refine .pass (by simp only [fromCategoricalGet, if_neg hp]; rfl) (by simp [Passes]) (fun e he => ?_)
      have := hg.child he
      simp only [children, List.mem_singleton] at he; subst he
      exact ih this _
  | indexedOption p index c ih =>
    by_cases hp : p.arr = .categorical
    · exact .stop (by simp only [fromCategoricalGet, if_pos hp])
        (MapsG.indexedOption (G := True) (p' := { p with arr := .none }) hg rfl
          ⟨⟨hg.child (by simp [children]), Nat.le_refl _, fun i hi => rfl⟩, fun _ => rfl⟩)
    · refine .pass (by simp only [fromCategoricalGet, if_neg hp]; rfl) (by simp [Passes]) (fun e he => ?_)
      have := hg.child he
      simp only [children, List.mem_singleton] at he; subst he
      exact ih this _
  | record p keys cs length ih =>
    exact .pass rfl (by simp [Passes]) (fun e he => ih e (by simpa [children] using he) (hg.child he) _)
  | union p tags index cs ih =>
    exact .pass rfl (by simp [Passes]) (fun e he => ih e (by simpa [children] using he) (hg.child he) _)

end Content

theorem Val.Leaf.trans {x y z : Val} (hx : x.Leaf) (hy : y.Leaf) (hz : z.Leaf) (h1 : y.pyEq x = true)
    (h2 : z.pyEq x = true) : y.pyEq z = true := by
  have hs : ∀ {as bs cs : List Val}, Val.sameList as bs = true → Val.sameList cs bs = true → Val.sameList as cs = true := by
    intro as bs cs g1 g2
    rw [Val.eq_of_sameList _ _ g1, Val.eq_of_sameList _ _ g2]; exact Val.sameList_refl _
  cases x <;> cases y <;> cases z <;> simp only [Val.Leaf] at hx hy hz <;> simp only [Val.pyEq] at h1 h2 ⊢ <;>
    first | (exact hs h1 h2) | (cases h1; done) | (cases h2; done) | skip
  rename_i a b c
  unfold Atom.pyEq at *
  cases ha : a.asNumber <;> cases hb : b.asNumber <;> cases hc : c.asNumber <;> simp only [ha, hb, hc] at h1 h2 ⊢ <;>
    simp_all

theorem Val.Leaf.symm {x y : Val} (hx : x.Leaf) (hy : y.Leaf) (h : y.pyEq x = true) : x.pyEq y = true :=
  Val.Leaf.trans (x := x) hx hx hy hx.refl h

theorem pyEqList_get : ∀ {xs ys : List Val}, Val.pyEqList xs ys = true → xs.length = ys.length ∧
    ∀ (i : Nat) (h1 : i < xs.length) (h2 : i < ys.length), xs[i].pyEq ys[i] = true
  | [], [], _ => ⟨rfl, fun i h => by simp at h⟩
  | [], _ :: _, h => by simp [Val.pyEqList] at h
  | _ :: _, [], h => by simp [Val.pyEqList] at h
  | x :: xs, y :: ys, h => by
    simp only [Val.pyEqList, Bool.and_eq_true] at h
    obtain ⟨g1, g2⟩ := pyEqList_get h.2
    refine ⟨by simp [g1], fun i h1 h2 => ?_⟩
    cases i with
    | zero => exact h.1
    | succ i => exact g2 i (by simpa using h1) (by simpa using h2)

/-- The last position of a category. -/
theorem lookup_last {xs : List Val} {x : Val} (hx : x.Leaf) (hl : ∀ y ∈ xs, y.Leaf)
    (hd : xs.Pairwise (fun y z => y.pyEq z = false)) {j : Nat} (hj : j < xs.length) :
    ((match xs.reverse.findIdx? (fun y => y.pyEq x) with
        | some j => ((xs.length - 1 - j : Nat) : Int)
        | none => (xs.length : Int)) = (j : Int)) ↔ x.pyEq xs[j] = true := by
  have hinj : ∀ a b (ha : a < xs.length) (hb : b < xs.length), xs[a].pyEq x = true → xs[b].pyEq x = true → a = b := by
    intro a b ha hb h1 h2
    have la := hl _ (List.getElem_mem ha)
    have lb := hl _ (List.getElem_mem hb)
    have hab := Val.Leaf.trans hx la lb h1 h2
    have hba := Val.Leaf.trans hx lb la h2 h1
    rcases Nat.lt_trichotomy a b with h | h | h
    · have := List.pairwise_iff_getElem.mp hd a b ha hb h; rw [hab] at this; cases this
    · exact h
    · have := List.pairwise_iff_getElem.mp hd b a hb ha h; rw [hba] at this; cases this
  have lj := hl _ (List.getElem_mem hj)
  cases hf : xs.reverse.findIdx? (fun y => y.pyEq x) with
  | some k =>
    obtain ⟨g1, g2, _⟩ := List.findIdx?_eq_some_iff_getElem.mp hf
    simp only [List.length_reverse] at g1
    rw [List.getElem_reverse] at g2
    simp only
    constructor
    · intro h
      have : xs.length - 1 - k = j := by omega
      subst this
      exact hx.symm lj g2
    · intro h
      have := hinj _ _ (by omega) hj g2 (lj.symm hx h)
      omega
  | none =>
    have hn : ∀ y ∈ xs, y.pyEq x = false := by
      intro y hy
      simpa using List.findIdx?_eq_none_iff.mp hf y (by simpa using hy)
    simp only
    constructor
    · intro h; omega
    · intro h
      have := hn _ (List.getElem_mem hj)
      rw [lj.symm hx h] at this; cases this

theorem Val.Category.leaf {v : Val} (h : v.Category) : v.Leaf := by
  cases v <;> first | trivial | exact h.elim

/-- `==` of categorical arrays. -/
theorem categoricalEqual_ok {same : Bool} {oi ti : List Int} {ol tl : List Val}
    (hs : same = true → Val.pyEqList ol tl = true)
    (ho : ∀ v ∈ ol, v.Category) (ht : ∀ v ∈ tl, v.Category)
    (hd : tl.Pairwise (fun y z => y.pyEq z = false))
    (hoi : ∀ i ∈ oi, -1 ≤ i ∧ i < ol.length) (hti : ∀ i ∈ ti, -1 ≤ i ∧ i < tl.length)
    (hl : oi.length = ti.length) :
    Content.categoricalEqual same oi ti ol tl
      = ok (List.zipWith (fun i j => (Val.categoryAt ol i).pyEq (Val.categoryAt tl j)) oi ti) := by
  have hnull : ∀ {v : Val}, v.Category → Val.pyEq .null v = false ∧ v.pyEq .null = false := by
    intro v hv; cases v <;> first | exact hv.elim | simp [Val.pyEq]
  have fin : ∀ (f : Int → Int), (∀ i ∈ oi, ∀ j ∈ ti,
      decide (f i = j) = (Val.categoryAt ol i).pyEq (Val.categoryAt tl j)) →
      List.zipWith (fun i j => decide (i = j)) (oi.map f) ti
        = List.zipWith (fun i j => (Val.categoryAt ol i).pyEq (Val.categoryAt tl j)) oi ti := by
    intro f hf
    rw [List.zipWith_map_left]
    clear hoi hti hl
    induction oi generalizing ti with
    | nil => simp
    | cons i oi ih =>
      cases ti with
      | nil => simp
      | cons j ti =>
        simp only [List.zipWith_cons_cons]
        rw [hf i (by simp) j (by simp), ih (fun a ha b hb => hf a (by simp [ha]) b (by simp [hb]))]
  have hcat : ∀ {xs : List Val} {i : Int} (h0 : 0 ≤ i) (h1 : i < xs.length),
      Val.categoryAt xs i = xs[i.toNat]'(by omega) := by
    intro xs i h0 h1
    have : i.toNat < xs.length := by omega
    simp [Val.categoryAt, show ¬ i < 0 by omega, List.getElem?_eq_getElem this]
  have hneg : ∀ {xs : List Val} {i : Int}, i < 0 → Val.categoryAt xs i = .null := by
    intro xs i h; simp [Val.categoryAt, h]
  unfold Content.categoricalEqual
  cases hsame : same with
  | true =>
    obtain ⟨hll, heq⟩ := pyEqList_get (hs hsame)
    simp only [if_true, bind_ok]
    rw [if_pos hl]
    have := fin id (fun i hi j hj => ?_)
    · simpa using this
    · obtain ⟨a1, a2⟩ := hoi i hi
      obtain ⟨b1, b2⟩ := hti j hj
      by_cases hi0 : i < 0
      · rw [hneg hi0]
        by_cases hj0 : j < 0
        · rw [hneg hj0]
          simp [Val.pyEq]; omega
        · rw [hcat (by omega) b2, (hnull (ht _ (List.getElem_mem _))).1]
          simp; omega
      · rw [hcat (by omega) a2]
        have lo := (ho _ (List.getElem_mem (show i.toNat < ol.length by omega))).leaf
        by_cases hj0 : j < 0
        · rw [hneg hj0, (hnull (ho _ (List.getElem_mem _))).2]
          simp; omega
        · rw [hcat (by omega) b2]
          have lt := (ht _ (List.getElem_mem (show j.toNat < tl.length by omega))).leaf
          have lti := (ht _ (List.getElem_mem (show i.toNat < tl.length by omega))).leaf
          have e := heq i.toNat (by omega) (by omega)
          by_cases hij : i = j
          · subst hij; simp [e]
          · rw [Bool.eq_iff_iff]
            simp only [id, decide_eq_true_eq, hij, false_iff]
            intro h
            have h1 := Val.Leaf.trans lo lti lt (lti.symm lo e) (lt.symm lo h)
            have h2 := Val.Leaf.trans lo lt lti (lt.symm lo h) (lti.symm lo e)
            rcases Nat.lt_or_ge i.toNat j.toNat with h3 | h3
            · have := List.pairwise_iff_getElem.mp hd i.toNat j.toNat (by omega) (by omega) h3
              rw [h1] at this; cases this
            · have := List.pairwise_iff_getElem.mp hd j.toNat i.toNat (by omega) (by omega) (by omega)
              rw [h2] at this; cases this
  | false =>
    simp only [Bool.false_eq_true, if_false]
    rw [if_pos (by rw [hashableList_leaves (fun v hv => (ho v hv).leaf), hashableList_leaves (fun v hv => (ht v hv).leaf)]; rfl)]
    generalize hm : (ol.map (fun x =>
        match tl.reverse.findIdx? (fun y => y.pyEq x) with
        | some j => ((tl.length - 1 - j : Nat) : Int)
        | none => (tl.length : Int)) ++ [-1]) = m
    have hml : m.length = ol.length + 1 := by rw [← hm]; simp
    have htake : npTake m oi = ok (oi.map (Content.numberAt m)) := by
      refine Content.npTake_ok (fun i hi => ?_)
      obtain ⟨a1, a2⟩ := hoi i hi
      constructor
      · intro h0
        have : i.toNat < m.length := by omega
        simp [Content.numberAt, h0, List.getElem?_eq_getElem this]
      · intro h0
        have : (i + m.length).toNat < m.length := by omega
        refine ⟨by omega, ?_⟩
        simp [Content.numberAt, show ¬ 0 ≤ i by omega, List.getElem?_eq_getElem this]
    rw [htake, bind_ok, if_pos (by simpa using hl)]
    congr 1
    refine fin _ (fun i hi j hj => ?_)
    obtain ⟨a1, a2⟩ := hoi i hi
    obtain ⟨b1, b2⟩ := hti j hj
    by_cases hi0 : i < 0
    · have hi1 : i = -1 := by omega
      subst hi1
      have : Content.numberAt m (-1) = -1 := by
        simp only [Content.numberAt, hml]
        rw [if_neg (by omega), show ((-1 : Int) + ((ol.length + 1 : Nat) : Int)).toNat = ol.length by omega, ← hm]
        rw [List.getElem?_append_right (by simp)]
        simp
      rw [this, hneg hi0]
      by_cases hj0 : j < 0
      · rw [hneg hj0]
        simp [Val.pyEq]; omega
      · rw [hcat (by omega) b2, (hnull (ht _ (List.getElem_mem _))).1]
        simp; omega
    · have lo := (ho _ (List.getElem_mem (show i.toNat < ol.length by omega))).leaf
      have hnum : Content.numberAt m i = (match tl.reverse.findIdx? (fun y => y.pyEq (ol[i.toNat]'(by omega))) with
        | some j => ((tl.length - 1 - j : Nat) : Int)
        | none => (tl.length : Int)) := by
        simp only [Content.numberAt]
        rw [if_pos (by omega), ← hm, List.getElem?_append_left (by simp; omega), List.getElem?_map,
          List.getElem?_eq_getElem (by omega)]
        rfl
      rw [hcat (by omega) a2, hnum]
      by_cases hj0 : j < 0
      · rw [hneg hj0, (hnull (ho _ (List.getElem_mem _))).2]
        refine decide_eq_false (fun h => ?_)
        cases hf : tl.reverse.findIdx? (fun y => y.pyEq (ol[i.toNat]'(by omega))) with
        | some k =>
          simp only [hf] at h
          have := Int.natCast_nonneg (tl.length - 1 - k)
          rw [h] at this; omega
        | none => simp only [hf] at h; omega
      · rw [hcat (by omega) b2, Bool.eq_iff_iff, decide_eq_true_eq]
        have := lookup_last lo (fun v hv => (ht v hv).leaf) hd (show j.toNat < tl.length by omega)
        rw [← this]
        rw [show ((j.toNat : Nat) : Int) = j by omega]

namespace Content

theorem categoriesAll_none : ∀ {es : List Content}, (∀ e ∈ es, e.categories = none) → categoriesAll es = none
  | [], _ => rfl
  | e :: es, h => by
    simp only [categoriesAll, categoriesAll_none (fun x hx => h x (List.mem_cons_of_mem _ hx)),
      h e List.mem_cons_self]

theorem from_unlabelled {c : Content} (h : AllNodes OneLabel c) (n : Nat) {e : Content}
    (he : apply fromCategoricalGet n () c = ok e) : e.categories = none := by
  induction c using induct generalizing n e with
  | empty p | numpy p dt data =>
    simp only [apply, fromCategoricalGet, bind_ok, custom, ok.injEq] at he
    subst he; rfl
  | regular p c size zeros ih | listArray p starts stops c ih | listOffset p offsets c ih
  | byteMasked p mask vw c ih | bitMasked p mask vw length lsb c ih | unmasked p c ih =>
    simp only [apply, fromCategoricalGet, bind_ok, custom, bind_eq_ok, ok.injEq] at he
    obtain ⟨d, h1, rfl⟩ := he
    simp only [categories]
    exact ih ((allNodes_iff.mp h).2 c (by simp [children])) _ h1
  | indexed p index c ih | indexedOption p index c ih =>
    by_cases hp : p.arr = .categorical
    · simp only [apply, fromCategoricalGet, if_pos hp, bind_ok, custom, ok.injEq] at he
      subst he
      simp only [categories]
      rw [if_neg (by simp)]
      exact (allNodes_iff.mp h).1 hp
    · simp only [apply, fromCategoricalGet, if_neg hp, bind_ok, custom, bind_eq_ok, ok.injEq] at he
      obtain ⟨d, h1, rfl⟩ := he
      simp only [categories, if_neg hp]
      exact ih ((allNodes_iff.mp h).2 c (by simp [children])) _ h1
  | record p keys cs length ih | union p tags index cs ih =>
    simp only [apply, fromCategoricalGet, bind_ok, custom, bind_eq_ok, ok.injEq] at he
    obtain ⟨ds, h1, rfl⟩ := he
    simp only [categories]
    apply categoriesAll_none
    have hs := (allNodes_iff.mp h).2
    simp only [children] at hs
    clear h
    induction cs generalizing ds with
    | nil => simp only [applyAll, ok.injEq] at h1; subst h1; simp
    | cons c cs ihs =>
      simp only [applyAll, bind_eq_ok, ok.injEq] at h1
      obtain ⟨d, g1, ds', g2, rfl⟩ := h1
      intro e he
      rcases List.mem_cons.mp he with rfl | he
      · exact ih c List.mem_cons_self (hs c List.mem_cons_self) _ g1
      · exact ihs (fun x hx => ih x (List.mem_cons_of_mem _ hx)) ds' g2
          (fun x hx => hs x (List.mem_cons_of_mem _ hx)) e he

end Content

end Awk
