import Verif.Lemmas.Closed
import Verif.Model.Merge
import Verif.Spec.Merge
import Mathlib.Data.List.Sort
/-
The elements of each node class as canonical values (`cv`), in the form that merging uses.
-/

namespace Awk
open R

/-! ### Canonical values -/

namespace Val

theorem canonList_eq (vs : List Val) : canonList vs = vs.map canon := by
  induction vs with
  | nil => simp [canonList]
  | cons v vs ih => simp [canonList, ih]

theorem canonFields_eq (fs : List (String × Val)) :
    canonFields fs = fs.map (fun kv => (kv.1, kv.2.canon)) := by
  induction fs with
  | nil => simp [canonFields]
  | cons v vs ih => simp [canonFields, ih]

@[simp] theorem canon_null : canon .null = .null := by simp [canon]
@[simp] theorem canon_atom (a : Atom) : canon (.atom a) = .atom a.canon := by simp [canon]

theorem canon_wrapList (p : Params) (vs : List Val) :
    (wrapList p vs).canon = wrapList p (vs.map canon) := by
  unfold wrapList
  cases p.arr <;> simp [canon, canonList_eq]

/-- A canonical record. -/
def row (keys : Option (List String)) (vs : List Val) : Val :=
  match keys with
  | none => .tuple vs
  | some ks => .record (sortFields (ks.zip vs))

theorem canon_mkRecord (keys : Option (List String)) (vs : List Val) :
    (mkRecord keys vs).canon = row keys (vs.map canon) := by
  unfold mkRecord row
  cases keys with
  | none => simp [canon, canonList_eq]
  | some ks =>
    simp only [canon, canonFields_eq, List.zip_map_right]
    rfl

end Val

theorem sortFields_perm {fs gs : List (String × Val)} (h : fs.Perm gs)
    (hn : (fs.map Prod.fst).Nodup) : sortFields fs = sortFields gs := by
  unfold sortFields
  have tr : ∀ a b c : String × Val, decide (a.1 ≤ b.1) = true → decide (b.1 ≤ c.1) = true →
      decide (a.1 ≤ c.1) = true := by
    intro a b c h1 h2
    simp only [decide_eq_true_eq] at *
    exact le_trans h1 h2
  have tot : ∀ a b : String × Val, (decide (a.1 ≤ b.1) || decide (b.1 ≤ a.1)) = true := by
    intro a b
    simp only [Bool.or_eq_true, decide_eq_true_eq]
    exact le_total _ _
  have hp : (fs.mergeSort (fun a b => decide (a.1 ≤ b.1))).Perm
      (gs.mergeSort (fun a b => decide (a.1 ≤ b.1))) :=
    (List.mergeSort_perm _ _).trans (h.trans (List.mergeSort_perm _ _).symm)
  refine hp.eq_of_pairwise (le := fun a b => a.1 ≤ b.1) ?_ ?_ ?_
  · intro a b ha hb h1 h2
    have he : a.1 = b.1 := le_antisymm h1 h2
    have ha' : a ∈ fs := List.mem_mergeSort.mp ha
    have hb' : b ∈ fs := h.mem_iff.mpr (List.mem_mergeSort.mp hb)
    exact List.inj_on_of_nodup_map hn ha' hb' he
  · simpa using List.pairwise_mergeSort tr tot fs
  · simpa using List.pairwise_mergeSort tr tot gs

theorem Atom.canon_convert (d : DType) (a : Atom) : (a.convert d).canon = a.canon := by
  cases a <;> cases d <;> simp [Atom.convert, Atom.canon]
  all_goals (rename_i b; cases b <;> simp)

theorem Params.agree_iff {p q : Params} : p.agree q = true ↔ p.key = q.key := by
  simp [Params.agree, Params.key, Prod.ext_iff]

theorem Params.merge_key {p q : Params} (h : p.key = q.key) : (p.merge q).key = p.key := by
  simp only [Params.key, Prod.mk.injEq] at h
  simp [Params.merge, Params.key, h.1, h.2]

theorem Params.foldl_merge_key {p : Params} {l : List α} {f : α → Params}
    (h : ∀ a ∈ l, (f a).key = p.key) : (l.foldl (fun q a => q.merge (f a)) p).key = p.key := by
  induction l generalizing p with
  | nil => rfl
  | cons a l ih =>
    have h1 : (p.merge (f a)).key = p.key := merge_key (h a List.mem_cons_self).symm
    rw [List.foldl_cons, ih (fun b hb => by rw [h b (List.mem_cons_of_mem _ hb), h1]), h1]

theorem wrapList_key {p q : Params} (h : p.key = q.key) : wrapList p = wrapList q := by
  simp only [Params.key, Prod.mk.injEq] at h
  funext vs
  simp [wrapList, h.1]

namespace Content

/-- The canonical values of the elements. -/
def cv (c : Content) : List Val := (List.range c.len).map (fun i => (c.valD i).canon)

@[simp] theorem cv_length (c : Content) : c.cv.length = c.len := by simp [cv]

theorem cv_get? {c : Content} {i : Nat} :
    c.cv[i]? = if i < c.len then some (c.valD i).canon else none := by
  simp only [cv, List.getElem?_map]
  split
  · rename_i h; simp [List.getElem?_range h]
  · rename_i h; rw [List.getElem?_eq_none (by simp; omega)]; rfl

theorem cv_get {c : Content} {i : Nat} (h : i < c.len) : c.cv[i]? = some (c.valD i).canon := by
  rw [cv_get?, if_pos h]

theorem cv_none {c : Content} {i : Nat} (h : c.len ≤ i) : c.cv[i]? = none :=
  List.getElem?_eq_none (by simpa using h)

theorem cv_toList {c : Content} (h : c.Good) {vs : List Val} (hv : c.toList = ok vs) :
    c.cv = vs.map Val.canon := by
  rw [h.toList] at hv
  injection hv with hv
  simp [← hv, cv]

theorem cv_eq_of {c : Content} {n : Nat} {f : Nat → Val} (hn : c.len = n)
    (h : ∀ i, i < n → (c.valD i).canon = f i) : c.cv = (List.range n).map f := by
  unfold cv
  rw [hn]
  apply List.map_congr_left
  intro i hi
  exact h i (by simpa using hi)

theorem cv_empty (p : Params) : (empty p).cv = [] := rfl

theorem cv_numpy (p : Params) (d : DType) (data : List Atom) :
    (numpy p d data).cv = data.map (fun a => .atom a.canon) := by
  apply List.ext_getElem?
  intro i
  simp only [List.getElem?_map]
  by_cases h : i < data.length
  · rw [cv_get (by exact h), valD_numpy h, List.getElem?_eq_getElem h]; simp
  · rw [cv_none (by exact Nat.le_of_not_lt h), List.getElem?_eq_none (by omega)]; rfl

theorem seg_cv {c : Content} {s n : Nat} (h : s + n ≤ c.len) :
    (c.seg s n).map Val.canon = (c.cv.drop s).take n := by
  apply List.ext_getElem?
  intro k
  rw [List.getElem?_map, seg_getElem?, List.getElem?_take, List.getElem?_drop, cv_get?]
  by_cases hk : k < n
  · simp [hk, show s + k < c.len by omega]
  · simp [hk]

/-- The list between two positions of the canonical content. -/
def lv (p : Params) (xs : List Val) (s t : Int) : Val :=
  wrapList p ((xs.drop s.toNat).take (t - s).toNat)

theorem lv_seg {p : Params} {c : Content} {s t : Int} (h : GoodPair s t c.len) :
    (wrapList p (c.seg s.toNat (t - s).toNat)).canon = lv p c.cv s t := by
  rw [Val.canon_wrapList, lv]
  rcases h with h | h
  · subst h; simp [seg]
  · rw [seg_cv (by omega)]

theorem lv_shift {p : Params} {xs pre d post : List Val} {s t : Int} {base : Nat}
    (hx : xs = pre ++ d ++ post) (hb : pre.length = base) (h : GoodPair s t d.length) :
    lv p xs (s + base) (t + base) = lv p d s t := by
  unfold lv
  rw [show t + base - (s + base) = t - s by omega]
  rcases h with h | h
  · subst h; simp
  · rw [show (s + base).toNat = base + s.toNat by omega, hx, List.append_assoc, ← List.drop_drop,
      ← hb, List.drop_left, List.drop_append_of_le_length (by omega),
      List.take_append_of_le_length (by simp; omega)]

theorem cv_listArray {p : Params} {starts stops : List Int} {c : Content}
    (h : (listArray p starts stops c).Good) :
    (listArray p starts stops c).cv = List.zipWith (lv p c.cv) starts stops := by
  obtain ⟨hl, hc, hp⟩ := good_listArray.mp h
  apply List.ext_getElem?
  intro i
  rw [List.getElem?_zipWith]
  by_cases hi : i < starts.length
  · rw [cv_get (by exact hi), valD_listArray h hi (by omega), lv_seg (hp i hi), List.getElem?_eq_getElem hi,
      List.getElem?_eq_getElem (by omega)]
  · rw [cv_none (by exact Nat.le_of_not_lt hi), List.getElem?_eq_none (by omega)]

theorem cv_listOffset {p : Params} {offsets : List Int} {c : Content}
    (h : (listOffset p offsets c).Good) :
    (listOffset p offsets c).cv
      = List.zipWith (lv p c.cv) (makeStarts offsets) (makeStops offsets) := by
  obtain ⟨hl, hc, hp⟩ := good_listOffset.mp h
  have e1 : (makeStarts offsets).length = offsets.length - 1 := by simp [makeStarts]
  have e2 : (makeStops offsets).length = offsets.length - 1 := by simp [makeStops]
  apply List.ext_getElem?
  intro i
  rw [List.getElem?_zipWith]
  by_cases hi : i < offsets.length - 1
  · rw [cv_get (by exact hi), valD_listOffset h (by omega), lv_seg (hp i (by omega)),
      List.getElem?_eq_getElem (by omega), List.getElem?_eq_getElem (by omega)]
    simp [makeStarts, makeStops, Nat.add_comm]
  · rw [cv_none (by exact Nat.le_of_not_lt hi), List.getElem?_eq_none (by omega)]

/-- The item that an index value selects. -/
def pk (xs : List Val) (j : Int) : Val := if j < 0 then .null else xs[j.toNat]?.getD .null

/-- What the fill kernel writes. -/
def shiftIx (base : Nat) (j : Int) : Int := if j < 0 then -1 else j + base

theorem pk_shift {xs pre d post : List Val} {j : Int} {base : Nat} (hx : xs = pre ++ d ++ post)
    (hb : pre.length = base) (h : j < d.length) : pk xs (shiftIx base j) = pk d j := by
  unfold pk shiftIx
  by_cases h0 : j < 0
  · simp [h0]
  · rw [if_neg h0, if_neg h0, if_neg (by omega), show (j + base).toNat = base + j.toNat by omega, hx,
      List.append_assoc, ← hb, List.getElem?_append_right (by omega), Nat.add_sub_cancel_left,
      List.getElem?_append_left (by omega)]

theorem cv_indexedOption {p : Params} {index : List Int} {c : Content}
    (h : (indexedOption p index c).Good) : (indexedOption p index c).cv = index.map (pk c.cv) := by
  obtain ⟨hc, hp⟩ := good_indexedOption.mp h
  apply List.ext_getElem?
  intro i
  rw [List.getElem?_map]
  by_cases hi : i < index.length
  · rw [cv_get (by exact hi), valD_indexedOption h hi, List.getElem?_eq_getElem hi]
    simp only [Option.map_some, Option.some.injEq, pk]
    split
    · simp
    · rw [cv_get?, if_pos (by have := hp i hi; omega)]; simp
  · rw [cv_none (by exact Nat.le_of_not_lt hi), List.getElem?_eq_none (by omega)]; rfl

theorem cv_indexed {p : Params} {index : List Int} {c : Content}
    (h : (indexed p index c).Good) : (indexed p index c).cv = index.map (pk c.cv) := by
  obtain ⟨hc, hp⟩ := good_indexed.mp h
  apply List.ext_getElem?
  intro i
  rw [List.getElem?_map]
  by_cases hi : i < index.length
  · rw [cv_get (by exact hi), valD_indexed h hi, List.getElem?_eq_getElem hi]
    have := hp i hi
    simp only [Option.map_some, Option.some.injEq, pk]
    rw [if_neg (by omega), cv_get?, if_pos (by omega)]; simp
  · rw [cv_none (by exact Nat.le_of_not_lt hi), List.getElem?_eq_none (by omega)]; rfl

/-- The index of an option or indexed node, as its `toIndexedOptionArray64` makes it. -/
theorem isIndirectNode_eq (c : Content) : c.isIndirectNode = c.isOptionOrIndexed := by
  cases c <;> rfl
theorem isIndirect_eq (c : Content) : c.isIndirect = c.isOptionOrIndexed := by
  cases c <;> rfl

theorem cv_pick {c : Content} (h : c.Good) (ho : c.isOptionOrIndexed = true) {idx : List Int}
    (hl : idx.length = c.len)
    (hp : ∀ i (h : i < idx.length), (if idx[i] < 0 then none else some idx[i].toNat) = c.pick i) :
    c.cv = idx.map (pk c.inner.cv) ∧ ∀ j ∈ idx, j < c.inner.len := by
  constructor
  · apply List.ext_getElem?
    intro i
    rw [cv_get?, List.getElem?_map]
    split
    · rename_i hi
      obtain ⟨h1, h2⟩ := val_inner_pick h ho hi
      rw [h1, List.getElem?_eq_getElem (by omega)]
      have := hp i (by omega)
      rw [← this] at h2 ⊢
      simp only [Option.map_some, Option.some.injEq, pk]
      by_cases h0 : idx[i] < 0
      · simp [h0]
      · rw [if_neg h0] at h2
        simp only [if_neg h0]
        rw [cv_get?, if_pos (h2 _ rfl)]; simp
    · rename_i hi
      rw [List.getElem?_eq_none (by omega)]; rfl
  · intro j hj
    obtain ⟨i, hi, rfl⟩ := List.getElem_of_mem hj
    obtain ⟨_, h2⟩ := val_inner_pick h ho (i := i) (by omega)
    have := hp i hi
    rw [← this] at h2
    by_cases h0 : idx[i] < 0
    · omega
    · rw [if_neg h0] at h2
      have := h2 _ rfl
      omega

/-- The item that a tag and an index select. -/
def uk (cols : List (List Val)) (t j : Int) : Val :=
  ((cols[t.toNat]?.getD [])[j.toNat]?).getD .null

/-- A tag and an index that select an item. -/
def UOk (ns : List Nat) (t j : Int) : Prop :=
  0 ≤ t ∧ 0 ≤ j ∧ t.toNat < ns.length ∧ j < ((ns[t.toNat]?.getD 0 : Nat) : Int)

theorem good_union' {p : Params} {tags index : List Int} {cs : List Content} :
    (union p tags index cs).Good ↔ tags.length ≤ index.length ∧ (∀ c ∈ cs, c.Good) ∧
      List.Forall₂ (UOk (cs.map len)) tags (index.take tags.length) := by
  rw [good_union]
  constructor
  · rintro ⟨hl, hc, hp⟩
    refine ⟨hl, hc, List.forall₂_iff_get.mpr ⟨by simp; omega, ?_⟩⟩
    intro i h1 h2
    obtain ⟨g1, g2, g3, g4⟩ := hp i h1
    refine ⟨g1, by simpa using g3, by simpa using g2, ?_⟩
    simp only [List.get_eq_getElem, List.getElem?_map, List.getElem?_eq_getElem g2, Option.map_some,
      Option.getD_some, List.getElem_take]
    exact g4
  · rintro ⟨hl, hc, hp⟩
    obtain ⟨_, hp⟩ := List.forall₂_iff_get.mp hp
    refine ⟨hl, hc, fun i hi => ?_⟩
    obtain ⟨g1, g2, g3, g4⟩ := hp i hi (by simp; omega)
    simp only [List.get_eq_getElem, List.length_map, List.getElem_take] at g1 g2 g3 g4
    refine ⟨g1, g3, g2, ?_⟩
    simpa [List.getElem?_eq_getElem g3] using g4

theorem cv_union {p : Params} {tags index : List Int} {cs : List Content}
    (h : (union p tags index cs).Good) :
    (union p tags index cs).cv = List.zipWith (uk (cs.map cv)) tags index := by
  obtain ⟨hl, hc, hp⟩ := good_union.mp h
  apply List.ext_getElem?
  intro i
  rw [List.getElem?_zipWith]
  by_cases hi : i < tags.length
  · obtain ⟨g1, g2, g3, g4⟩ := hp i hi
    rw [cv_get (by exact hi), valD_union h hi (by omega) g2, List.getElem?_eq_getElem hi,
      List.getElem?_eq_getElem (by omega)]
    simp only [uk, List.getElem?_map, List.getElem?_eq_getElem g2, Option.map_some,
      Option.getD_some]
    rw [cv_get?, if_pos (by omega)]; simp
  · rw [cv_none (by exact Nat.le_of_not_lt hi), List.getElem?_eq_none (by omega)]

/-- The rows of canonical columns. -/
def rows (keys : Option (List String)) (n : Nat) (cols : List (List Val)) : List Val :=
  (List.range n).map (fun i => Val.row keys (cols.map (fun xs => xs[i]?.getD .null)))

theorem cv_record {p : Params} {keys : Option (List String)} {cs : List Content} {length : Nat}
    (h : (record p keys cs length).Good) :
    (record p keys cs length).cv = rows keys length (cs.map cv) := by
  refine cv_eq_of rfl (fun i hi => ?_)
  obtain ⟨hl, hc⟩ := good_record.mp h
  rw [valD_record h hi, Val.canon_mkRecord]
  congr 1
  rw [List.map_map, List.map_map]
  apply List.map_congr_left
  intro c hcm
  simp only [Function.comp]
  rw [cv_get?, if_pos (by have := hl c hcm; omega)]; simp

end Content
end Awk
