import Verif.Lemmas.Bytes
import Verif.Lemmas.ByName
import Verif.Lemmas.ValD
import Verif.Lemmas.Field
/-
The nodes that `from_buffers` puts together: how many items of its content a node asks for, and the
values of the node that it builds.
-/

namespace Awk
open R

/-! ### How many items are asked for -/

theorem npMax_spec {x : Int} {xs : List Int} :
    ∃ m, npMax (x :: xs) = ok m ∧ m ∈ x :: xs ∧ ∀ y ∈ x :: xs, y ≤ m := by
  refine ⟨_, rfl, ?_⟩
  induction xs generalizing x with
  | nil => simp
  | cons y xs ih =>
    simp only [List.foldl_cons]
    obtain ⟨h1, h2⟩ := ih (x := max x y)
    constructor
    · rcases List.mem_cons.mp h1 with h | h
      · rw [h]
        rcases Int.le_total x y with hxy | hxy
        · rw [Int.max_eq_right hxy]; simp
        · rw [Int.max_eq_left hxy]; simp
      · simp [h]
    · intro z hz
      have hm := h2 (max x y) List.mem_cons_self
      rcases List.mem_cons.mp hz with rfl | hz
      · omega
      · rcases List.mem_cons.mp hz with rfl | hz
        · omega
        · exact h2 z (List.mem_cons_of_mem _ hz)

/-- `u` is the least number that is not below 0 and above every member. -/
def Above (xs : List Int) (u : Int) : Prop :=
  0 ≤ u ∧ (∀ x ∈ xs, x < u) ∧ (u = 0 ∨ ∃ x ∈ xs, u = x + 1)

theorem above_index (index : List Int) : Above index (usedByIndex index) := by
  induction index with
  | nil => exact ⟨Int.le_refl _, by simp, .inl rfl⟩
  | cons x xs ih =>
    obtain ⟨h1, h2, h3⟩ := ih
    have e : usedByIndex (x :: xs) = max (x + 1) (usedByIndex xs) := rfl
    refine ⟨by omega, ?_, ?_⟩
    · intro y hy
      rcases List.mem_cons.mp hy with rfl | hy
      · omega
      · have := h2 y hy; omega
    · rcases h3 with h3 | ⟨y, hy, h3⟩
      · by_cases h : x + 1 ≤ 0
        · exact .inl (by omega)
        · exact .inr ⟨x, List.mem_cons_self, by omega⟩
      · by_cases h : x + 1 ≤ usedByIndex xs
        · exact .inr ⟨y, List.mem_cons_of_mem _ hy, by omega⟩
        · exact .inr ⟨x, List.mem_cons_self, by omega⟩

theorem Above.ask_option {xs : List Int} {u : Int} (h : Above xs u) :
    (if xs.length = 0 then ok 0 else npMax xs >>= fun m => ok (max 0 (m + 1))) = ok u := by
  obtain ⟨h1, h2, h3⟩ := h
  cases xs with
  | nil =>
    rw [if_pos (by rfl)]
    rcases h3 with h3 | ⟨_, h, _⟩
    · rw [h3]
    · cases h
  | cons x xs =>
    obtain ⟨m, e, hm, hle⟩ := npMax_spec (x := x) (xs := xs)
    rw [if_neg (by simp), e, bind_ok]
    have := h2 m hm
    congr 1
    rcases h3 with h3 | ⟨y, hy, h3⟩
    · omega
    · have := hle y hy; omega

theorem Above.ask {xs : List Int} {u : Int} (h : Above xs u) (hx : ∀ x ∈ xs, 0 ≤ x) :
    (if xs.length = 0 then ok 0 else npMax xs >>= fun m => ok (m + 1)) = ok u := by
  rw [← h.ask_option]
  cases xs with
  | nil => rfl
  | cons x xs =>
    obtain ⟨m, e, hm, hle⟩ := npMax_spec (x := x) (xs := xs)
    rw [if_neg (by simp), if_neg (by simp), e, bind_ok, bind_ok]
    have := hx m hm
    congr 1
    omega

theorem Above.le {xs : List Int} {u : Int} (h : Above xs u) {n : Nat} (hx : ∀ x ∈ xs, x < (n : Int)) :
    u ≤ (n : Int) := by
  rcases h.2.2 with h | ⟨x, hx', h⟩
  · omega
  · have := hx x hx'; omega

theorem above_pairs {ab : List (Int × Int)} {keep : Int × Int → Bool} {g : Int × Int → Int} :
    Above ((ab.filter keep).map g)
      (ab.foldr (fun x m => if keep x then max (g x + 1) m else m) 0) := by
  have : ab.foldr (fun x m => if keep x then max (g x + 1) m else m) 0
      = usedByIndex ((ab.filter keep).map g) := by
    induction ab with
    | nil => rfl
    | cons x xs ih =>
      simp only [List.foldr_cons, List.filter_cons]
      split
      · rw [ih]; rfl
      · exact ih
  rw [this]
  exact above_index _

theorem take_zip' (l l' : List Int) (n : Nat) :
    (l.zip l').take n = (l.take n).zip (l'.take n) := by
  simp only [List.zip_eq_zipWith, List.take_zipWith]

theorem above_tag (tags index : List Int) (t n : Nat) :
    Above ((((tags.take n).zip (index.take n)).filter (fun ti => decide (ti.1 = (t : Int)))).map
      (fun ti => ti.2)) (usedByTag tags index t n) := by
  have := above_pairs (ab := (tags.zip index).take n) (keep := fun ti => decide (ti.1 = (t : Int)))
    (g := fun ti => ti.2)
  rw [take_zip'] at this
  unfold usedByTag
  rw [take_zip']
  simpa using this

theorem above_lists (starts stops : List Int) (n : Nat) :
    Above ((((starts.take n).zip (stops.take n)).filter (fun ab => decide (ab.1 ≠ ab.2))).map
      (fun ab => ab.2 - 1)) (usedByLists starts stops n) := by
  have := above_pairs (ab := (starts.zip stops).take n) (keep := fun ab => decide (ab.1 ≠ ab.2))
    (g := fun ab => ab.2 - 1)
  rw [take_zip'] at this
  unfold usedByLists
  rw [take_zip']
  have e : ∀ l : List (Int × Int), l.foldr (fun x m => if decide (x.1 ≠ x.2) = true then
      max (x.2 - 1 + 1) m else m) 0
      = l.foldr (fun ab m => if ab.1 = ab.2 then m else max ab.2 m) 0 := by
    intro l
    induction l with
    | nil => rfl
    | cons x xs ih =>
      simp only [List.foldr_cons, ih]
      by_cases h : x.1 = x.2
      · simp [h]
      · simp [h]
  rw [e] at this
  exact this

/-- `numpy.max(array_stops)` of the lists that are not empty. -/
theorem lists_ask {starts stops : List Int} {n : Nat}
    (h : ∀ ab ∈ (starts.take n).zip (stops.take n), ab.1 ≠ ab.2 → 0 ≤ ab.1 ∧ ab.1 ≤ ab.2) :
    (if ((((starts.take n).zip (stops.take n)).filter (fun ab => decide (ab.1 ≠ ab.2))).map
        (fun ab => ab.2)).length = 0 then ok 0
      else npMax ((((starts.take n).zip (stops.take n)).filter (fun ab => decide (ab.1 ≠ ab.2))).map
        (fun ab => ab.2))) = ok (usedByLists starts stops n) := by
  obtain ⟨h1, h2, h3⟩ := above_lists starts stops n
  generalize hl : ((starts.take n).zip (stops.take n)).filter (fun ab => decide (ab.1 ≠ ab.2)) = l at *
  have hmem : ∀ ab ∈ l, 0 < ab.2 := by
    intro ab hab
    rw [← hl, List.mem_filter, decide_eq_true_eq] at hab
    have := h ab hab.1 hab.2
    have := hab.2
    omega
  cases l with
  | nil =>
    rw [if_pos (by rfl)]
    rcases h3 with h3 | ⟨_, h, _⟩
    · rw [h3]
    · cases h
  | cons x xs =>
    rw [if_neg (by simp), List.map_cons]
    obtain ⟨m, e, hm, hle⟩ := npMax_spec (x := x.2) (xs := xs.map (fun ab => ab.2))
    rw [e]
    congr 1
    rw [← List.map_cons (f := fun ab : Int × Int => ab.2), List.mem_map] at hm
    obtain ⟨ab, hab, rfl⟩ := hm
    have := h2 (ab.2 - 1) (List.mem_map_of_mem (f := fun ab : Int × Int => ab.2 - 1) hab)
    have hp := hmem ab hab
    rcases h3 with h3 | ⟨y, hy, h3⟩
    · omega
    · obtain ⟨cd, hcd, rfl⟩ := List.mem_map.mp hy
      have := hle cd.2 (by
        rw [← List.map_cons (f := fun ab : Int × Int => ab.2)]
        exact List.mem_map_of_mem (f := fun ab : Int × Int => ab.2) hcd)
      omega

/-! ### Values -/

namespace Val

theorem sortFieldsList_eq (vs : List Val) : sortFieldsList vs = vs.map sortFields := by
  induction vs with
  | nil => rfl
  | cons v vs ih => simp only [sortFieldsList, ih, List.map_cons]

theorem sortFieldsNamed_eq (fs : List (String × Val)) :
    sortFieldsNamed fs = fs.map (fun b => (b.1, b.2.sortFields)) := by
  induction fs with
  | nil => rfl
  | cons v vs ih => simp only [sortFieldsNamed, ih, List.map_cons]

theorem sortFields_wrapList (p : Params) (vs : List Val) :
    (wrapList p vs).sortFields = wrapList p (vs.map sortFields) := by
  unfold wrapList
  split <;> simp only [sortFields, sortFieldsList_eq]

end Val

namespace Content

/-- `c'` is the array `c` as read back when `n` items were asked for. -/
structure Rebuilt (c c' : Content) (n : Int) : Prop where
  ge : n ≤ (c'.len : Int)
  le : c'.len ≤ c.len
  full : c.StoresLength → c'.len = c.len
  val : ∀ i : Nat, (i : Int) < n → c'.val i = ok (c.valD i).sortFields
  skel : c.NoBitFields → c'.skeleton = c.skeleton

theorem Rebuilt.seg {c c' : Content} {n : Int} (h : Rebuilt c c' n) {s k : Nat}
    (hb : ((s + k : Nat) : Int) ≤ n) :
    mapN k (fun i => c'.val (s + i)) = ok ((c.seg s k).map Val.sortFields) := by
  have := mapN_ok' (n := k) (f := fun i => c'.val (s + i))
    (fun i => (c.valD (s + i)).sortFields) (fun i hi => h.val _ (by omega))
  rw [this]
  simp [Content.seg]

theorem Rebuilt.list {c c' : Content} {n : Int} (h : Rebuilt c c' n) {s t : Int}
    (hp : s = t ∨ (0 ≤ s ∧ s ≤ t ∧ t ≤ n)) (p : Params) :
    (checkStartStop s t c'.len >>= fun (start, stop) =>
      mapN (stop - start).toNat (fun k => c'.val (start.toNat + k)) >>= fun vs =>
      ok (wrapList p vs)) = ok (wrapList p (c.seg s.toNat (t - s).toNat)).sortFields := by
  rw [Val.sortFields_wrapList]
  by_cases he : s = t
  · subst he
    have hn : ¬ ((c'.len : Int) < 0) := by omega
    simp [checkStartStop, hn]
  · rcases hp with h' | ⟨h0, h1, h2⟩
    · exact absurd h' he
    · have := h.ge
      simp only [checkStartStop, he, if_false]
      rw [if_neg (by omega), if_neg (by omega), if_neg (by omega), bind_ok]
      simp only
      rw [h.seg (by omega), bind_ok]

theorem Rebuilt.listArray {c c' : Content} {u n : Int} {p : Params} {starts stops : List Int}
    (hg : (Content.listArray p starts stops c).Good) (h : Rebuilt c c' u)
    (hu : u = usedByLists starts stops n.toNat) (hn : n ≤ (starts.length : Int)) :
    Rebuilt (.listArray p starts stops c) (.listArray p starts stops c') n := by
  obtain ⟨hl, hc, hp⟩ := good_listArray.mp hg
  refine ⟨hn, Nat.le_refl _, fun _ => rfl, ?_, fun hs => by simp only [skeleton, h.skel hs]⟩
  intro i hi
  rw [valD_listArray hg (i := i) (by omega) (by omega)]
  simp only [Content.val]
  rw [rd_nat_ok (show i < starts.length by omega), bind_ok,
    rd_nat_ok (show i < stops.length by omega), bind_ok]
  apply h.list
  rcases hp i (by omega) with h' | ⟨h0, h1, h2⟩
  · exact .inl h'
  by_cases he : starts[i] = stops[i]
  · exact .inl he
  right
  refine ⟨h0, h1, ?_⟩
  have := (above_lists starts stops n.toNat).2.1 (stops[i] - 1) (by
    rw [List.mem_map]
    refine ⟨(starts[i], stops[i]), ?_, rfl⟩
    rw [List.mem_filter]
    refine ⟨?_, by simpa using he⟩
    have hz : i < ((starts.take n.toNat).zip (stops.take n.toNat)).length := by
      simp only [List.length_zip, List.length_take]; omega
    have := List.getElem_mem hz
    simpa using this)
  omega

theorem Rebuilt.listOffset {c c' : Content} {n last : Int} {p : Params} {offsets : List Int}
    (hg : (Content.listOffset p offsets c).Good) (hlast : offsets.getLast? = some last)
    (h0 : 0 ≤ last) (h : Rebuilt c c' last) (hn : n ≤ ((Content.listOffset p offsets c).len : Int)) :
    Rebuilt (.listOffset p offsets c) (.listOffset p offsets c') n := by
  obtain ⟨hl, hc, hp⟩ := good_listOffset.mp hg
  refine ⟨hn, Nat.le_refl _, fun _ => rfl, ?_, fun hs => by simp only [skeleton, h.skel hs]⟩
  intro i hi
  simp only [len] at hn
  rw [valD_listOffset hg (i := i) (by omega)]
  simp only [Content.val]
  rw [rd_nat_ok (show i < offsets.length by omega), bind_ok,
    rd_nat_ok (show i + 1 < offsets.length by omega), bind_ok]
  apply h.list
  rcases hp i (by omega) with h' | ⟨h1, h2, h3⟩
  · exact .inl h'
  right
  refine ⟨h1, h2, ?_⟩
  -- offsets do not decrease
  have hmono : ∀ k (hk : i + 1 + k < offsets.length), offsets[i + 1] ≤ offsets[i + 1 + k] := by
    intro k
    induction k with
    | zero => intro _; exact Int.le_refl _
    | succ k ih =>
      intro hk
      have := ih (by omega)
      have := (hp (i + 1 + k) (by omega)).le
      simp only [show i + 1 + (k + 1) = i + 1 + k + 1 by omega]
      omega
  have hm := hmono (offsets.length - 1 - (i + 1)) (by omega)
  have e : last = offsets[offsets.length - 1]'(by omega) := by
    rw [List.getLast?_eq_getElem?, List.getElem?_eq_getElem (by omega)] at hlast
    exact (Option.some.inj hlast).symm
  rw [e]
  simp only [show i + 1 + (offsets.length - 1 - (i + 1)) = offsets.length - 1 by omega] at hm
  exact hm

theorem Rebuilt.indexed {c c' : Content} {n : Int} {p : Params} {index : List Int}
    (hg : (Content.indexed p index c).Good) (h : Rebuilt c c' (usedByIndex index))
    (hn : n ≤ (index.length : Int)) :
    Rebuilt (.indexed p index c) (.indexed p index c') n := by
  obtain ⟨hc, hp⟩ := good_indexed.mp hg
  refine ⟨hn, Nat.le_refl _, fun _ => rfl, ?_, fun hs => by simp only [skeleton, h.skel hs]⟩
  intro i hi
  rw [valD_indexed hg (show i < index.length by omega)]
  simp only [Content.val]
  have hi' : i < index.length := by omega
  have hb := (above_index index).2.1 _ (List.getElem_mem hi')
  have := h.ge
  have := hp i hi'
  rw [rd_nat_ok hi', bind_ok, checkIndex, if_neg (by omega), if_neg (by omega), bind_ok]
  exact h.val _ (by omega)

theorem Rebuilt.indexedOption {c c' : Content} {n : Int} {p : Params} {index : List Int}
    (hg : (Content.indexedOption p index c).Good) (h : Rebuilt c c' (usedByIndex index))
    (hn : n ≤ (index.length : Int)) :
    Rebuilt (.indexedOption p index c) (.indexedOption p index c') n := by
  obtain ⟨hc, hp⟩ := good_indexedOption.mp hg
  refine ⟨hn, Nat.le_refl _, fun _ => rfl, ?_, fun hs => by simp only [skeleton, h.skel hs]⟩
  intro i hi
  rw [valD_indexedOption hg (show i < index.length by omega)]
  simp only [Content.val]
  have hi' : i < index.length := by omega
  have hb := (above_index index).2.1 _ (List.getElem_mem hi')
  have := h.ge
  have := hp i hi'
  rw [rd_nat_ok hi', bind_ok, checkIndex]
  by_cases h0 : index[i] < 0
  · simp [h0, Val.sortFields]
  · rw [if_neg h0, if_neg (by omega), bind_ok, if_neg h0]
    exact h.val _ (by omega)

theorem Rebuilt.byteMasked {c c' : Content} {n : Int} {p : Params} {mask : List Int} {vw : Bool}
    (hg : (Content.byteMasked p mask vw c).Good) (h : Rebuilt c c' n)
    (hn : n ≤ (mask.length : Int)) :
    Rebuilt (.byteMasked p mask vw c) (.byteMasked p mask vw c') n := by
  refine ⟨hn, Nat.le_refl _, fun _ => rfl, ?_, fun hs => by simp only [skeleton, h.skel hs]⟩
  intro i hi
  have hi' : i < mask.length := by omega
  rw [valD_byteMasked hg hi']
  simp only [Content.val]
  rw [rd_nat_ok hi', bind_ok, h.val i hi]
  simp only [maskOk, List.getElem?_eq_getElem hi', Option.getD_some, decide_eq_true_eq]
  split <;> rfl

theorem Rebuilt.bitMasked {c c' : Content} {n : Int} {p : Params} {mask : List Nat} {vw lsb : Bool}
    {length : Nat} (hg : (Content.bitMasked p mask vw length lsb c).Good) (h : Rebuilt c c' n)
    (h0 : 0 ≤ n) (hn : n ≤ (length : Int)) :
    Rebuilt (.bitMasked p mask vw length lsb c) (.bitMasked p mask vw n.toNat lsb c') n := by
  obtain ⟨hm, hl, hc⟩ := good_bitMasked.mp hg
  refine ⟨by simp only [len]; omega, by simp only [len]; omega, fun h => h.elim, ?_,
    fun hs => by simp only [skeleton, h.skel hs]⟩
  intro i hi
  rw [valD_bitMasked hg (show i < length by omega)]
  simp only [Content.val]
  rw [bitAt_eq (by omega), bind_ok, h.val i hi]
  split <;> rfl

theorem Rebuilt.unmasked {c c' : Content} {n : Int} {p : Params} (h : Rebuilt c c' n) :
    Rebuilt (.unmasked p c) (.unmasked p c') n :=
  ⟨h.ge, h.le, h.full, h.val, fun hs => by simp only [skeleton, h.skel hs]⟩

theorem Rebuilt.regular {c c' : Content} {n : Int} {p : Params} {size zeros : Nat}
    (hg : (Content.regular p c size zeros).Good) (h : Rebuilt c c' (n * size)) (h0 : 0 ≤ n)
    (hn : n ≤ ((Content.regular p c size zeros).len : Int)) :
    Rebuilt (.regular p c size zeros) (.regular p c' size n.toNat) n := by
  have hc := good_regular.mp hg
  obtain ⟨m, rfl⟩ := Int.eq_ofNat_of_zero_le h0
  have hge := h.ge
  have hle := h.le
  refine ⟨?_, ?_, ?_, ?_, fun hs => by simp only [skeleton, h.skel hs]⟩
  · simp only [len, Int.toNat_natCast]
    split
    · rename_i hs
      have : m * size ≤ c'.len := by
        have : ((m * size : Nat) : Int) ≤ (c'.len : Int) := by rw [Int.natCast_mul]; exact hge
        omega
      have := (Nat.le_div_iff_mul_le (Nat.pos_of_ne_zero hs)).mpr this
      omega
    · omega
  · simp only [len, Int.toNat_natCast] at hn ⊢
    split
    · exact Nat.div_le_div_right hle
    · rename_i hs; rw [if_neg hs] at hn; omega
  · rintro ⟨hs, hf⟩
    simp only [len, hs, ne_eq, not_false_eq_true, if_true, h.full hf]
  · intro i hi
    have hi' : i < (Content.regular p c size zeros).len := by omega
    rw [valD_regular hc hi', Val.sortFields_wrapList]
    simp only [Content.val]
    rw [h.seg, bind_ok]
    have : (i + 1) * size ≤ m * size := Nat.mul_le_mul_right _ (by omega)
    rw [Nat.add_mul, Nat.one_mul] at this
    rw [← Int.natCast_mul]
    omega

theorem Rebuilt.numpy {p : Params} {dt : DType} {data : List Atom} {n : Int}
    (hn : n ≤ (data.length : Int)) : Rebuilt (.numpy p dt data) (.numpy p dt data) n := by
  refine ⟨hn, Nat.le_refl _, fun _ => rfl, ?_, fun _ => rfl⟩
  intro i hi
  rw [valD_numpy (show i < data.length by omega)]
  exact numpy_val_ok (show i < data.length by omega)

theorem Rebuilt.empty {p : Params} : Rebuilt (.empty p) (.empty p) 0 :=
  ⟨Int.le_refl _, Nat.le_refl _, fun _ => rfl, fun i hi => by omega, fun _ => rfl⟩

end Content
end Awk
