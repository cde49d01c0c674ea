import Verif.Model.Unique
import Verif.Spec.Unique
import Verif.Lemmas.SortStringsTop
import Verif.Lemmas.SortAgree
import Mathlib.Data.List.Lex
import Mathlib.Data.Int.Order.Basic
/-
`is_unique`.
-/

namespace Awk
open R

/-! ### Sorted lists -/

/-- In a sorted list equal items are neighbours. -/
theorem nodup_take_succ {r : α → α → Prop} {l : List α} (hp : l.Pairwise r)
    (hanti : ∀ a ∈ l, ∀ b ∈ l, r a b → r b a → a = b) {i : Nat} (hi : i + 1 < l.length)
    (h : (l.take (i + 1)).Nodup) (hne : l[i] ≠ l[i + 1]) : (l.take (i + 2)).Nodup := by
  rw [List.take_succ_eq_append_getElem hi, List.nodup_append]
  refine ⟨h, List.nodup_singleton _, ?_⟩
  intro a ha b hb
  rw [List.mem_singleton] at hb
  subst hb
  intro he
  obtain ⟨k, hk, rfl⟩ := List.mem_iff_getElem.mp ha
  rw [List.length_take] at hk
  rw [List.getElem_take] at he
  have hki : k ≤ i := by omega
  rcases Nat.lt_or_ge k i with hlt | hge
  · have h1 := List.pairwise_iff_getElem.mp hp k i (by omega) (by omega) hlt
    have h2 := List.pairwise_iff_getElem.mp hp i (i + 1) (by omega) hi (by omega)
    rw [← he] at h2
    have := hanti _ (List.getElem_mem _) _ (List.getElem_mem _) h1 h2
    exact hne (this ▸ he)
  · obtain rfl : k = i := by omega
    exact hne he

theorem not_nodup_take_succ {l : List α} {i : Nat} (hi : i + 1 < l.length) (he : l[i] = l[i + 1]) :
    ¬ (l.take (i + 2)).Nodup := by
  intro h
  have := List.nodup_iff_injective_get.mp h
  have h2 : (⟨i, by rw [List.length_take]; omega⟩ : Fin (l.take (i + 2)).length) = ⟨i + 1, by rw [List.length_take]; omega⟩ :=
    this (by simp [he])
  simp at h2

/-! ### Numbers -/

/-- The number of different items is the length only if they are all different. -/
theorem awkward_unique_ok {r : Atom → Atom → Prop} {ys : List Atom} (h0 : 0 < ys.length) (hp : ys.Pairwise r)
    (hanti : ∀ a ∈ ys, ∀ b ∈ ys, r a b → r b a → a = b) :
    ∃ t k, awkward_unique ys ys.length = ok (t, k) ∧ (k = (ys.length : Int) ↔ ys.Nodup) := by
  unfold awkward_unique forFrom
  obtain ⟨st, s1, s2, s3, s4, s5, s6, s7⟩ := forN_inv (n := ((ys.length : Int) - 1).toNat)
    (body := fun i (st : List Atom × Int) =>
      rd st.1 st.2 >>= fun x => rd st.1 (1 + (i : Int)) >>= fun y =>
      if x ≠ y then wr st.1 (st.2 + 1) y >>= fun t => ok (t, st.2 + 1) else ok st) (s := (ys, 0))
    (fun i st => st.1.length = ys.length ∧ 0 ≤ st.2 ∧ st.2 ≤ (i : Int) ∧ st.1[st.2.toNat]? = ys[i]? ∧
      (∀ k, i < k → st.1[k]? = ys[k]?) ∧ (st.2 = (i : Int) ↔ (ys.take (i + 1)).Nodup))
    ⟨rfl, by simp, by simp, by simp, by simp, by
      simp only [Nat.cast_zero, true_iff]
      rw [List.take_one]
      cases ys with
      | nil => simp at h0
      | cons a l => simp⟩ (by
      rintro i hi ⟨t, j⟩ ⟨a1, a2, a3, a4, a5, a6⟩
      dsimp only at a1 a2 a3 a4 a5 a6 ⊢
      have hi' : i + 1 < ys.length := by omega
      obtain ⟨j, rfl⟩ : ∃ j' : Nat, j = (j' : Int) := ⟨j.toNat, by omega⟩
      rw [Int.toNat_natCast] at a4
      have hj : j < t.length := by omega
      have e1 : t[j] = ys[i] := by
        rw [List.getElem?_eq_getElem hj, List.getElem?_eq_getElem (by omega)] at a4
        exact Option.some.inj a4
      have e2 : t[i + 1] = ys[i + 1] := by
        have := a5 (i + 1) (by omega)
        rw [List.getElem?_eq_getElem (by omega), List.getElem?_eq_getElem (by omega)] at this
        exact Option.some.inj this
      rw [rd_nat_ok hj, bind_ok, show (1 + (i : Int)) = ((i + 1 : Nat) : Int) by push_cast; omega, rd_nat_ok (by omega), bind_ok, e1, e2]
      by_cases hne : ys[i] ≠ ys[i + 1]
      · rw [if_pos hne, show ((j : Int) + 1) = ((j + 1 : Nat) : Int) by push_cast; omega, wr_nat_ok (by omega), bind_ok]
        refine ⟨_, rfl, by simp [a1], by omega, by omega, ?_, ?_, ?_⟩
        · rw [Int.toNat_natCast, List.getElem?_set_self (by omega), List.getElem?_eq_getElem hi']
        · intro k hk
          rw [List.getElem?_set_ne (by omega)]
          exact a5 k (by omega)
        · constructor
          · intro h
            exact nodup_take_succ hp hanti hi' (a6.mp (by push_cast at h ⊢; omega)) hne
          · intro h
            have := a6.mpr (h.sublist (List.take_sublist_take_left (by omega)))
            push_cast at this ⊢; omega
      · rw [if_neg hne]
        push Not at hne
        refine ⟨_, rfl, a1, by omega, by push_cast; omega, ?_, fun k hk => a5 k (by omega), ?_⟩
        · rw [Int.toNat_natCast, List.getElem?_eq_getElem hj, e1, hne, List.getElem?_eq_getElem hi']
        · constructor
          · intro h; push_cast at h; omega
          · intro h; exact absurd h (not_nodup_take_succ hi' hne))
  refine ⟨st.1, st.2 + 1, by rw [s1, bind_ok], ?_⟩
  rw [show (((ys.length : Int) - 1).toNat + 1) = ys.length by omega, List.take_length] at s7
  rw [← s7]
  omega

theorem arrayUnique_ok {dt : DType} {data : List Atom} (hd : ∀ x ∈ data, Spec.OfType dt x) :
    ∃ k, Content.arrayUnique dt data = ok k ∧ (k = (data.length : Int) ↔ data.Nodup) := by
  unfold Content.arrayUnique
  by_cases h0 : data.length = 0
  · rw [if_pos h0]
    refine ⟨0, rfl, ?_⟩
    rw [List.eq_nil_of_length_eq_zero h0]; simp
  · rw [if_neg h0, zeroparents_ok (alloc_length _), bind_ok]
    obtain ⟨ys, y1, y2, y3⟩ := Content.sortBuffer_sort (m := fun _ => data.length) (out := 1) (data := data) (dt := dt)
      (a := { arg := false, ascending := true, stable := true, std := fun _ xs => xs }) rfl hd
      (by rw [Content.sumTo_one]) (fun _ _ => .inl rfl)
    obtain ⟨p1, p2⟩ := y3 0 (by omega)
    rw [sumTo_zero, show part ys 0 data.length = ys by unfold part; simp [← y2]] at p1 p2
    rw [show part data 0 data.length = data by unfold part; simp] at p1
    rw [Content.blk_one] at y1
    rw [y1, bind_ok]
    obtain ⟨t, k, u1, u2⟩ := awkward_unique_ok (by omega) p2 (fun a ha b hb h1 h2 =>
      Content.inOrder_antisymm (hd a (p1.mem_iff.mp ha)) (hd b (p1.mem_iff.mp hb)) h1 h2)
    rw [y2] at u1 u2
    dsimp only
    rw [u1, bind_ok]
    exact ⟨k, rfl, u2.trans p1.nodup_iff⟩

/-! ### Indexes -/

/-- The positions that are not missing. -/
def shownIndex (index : List Int) : List Int := index.filter (fun x => decide (0 ≤ x))

theorem shownIndex_take {index : List Int} {i : Nat} (hi : i < index.length) :
    shownIndex (index.take (i + 1)) = shownIndex (index.take i) ++ (if index[i] < 0 then [] else [index[i]]) := by
  unfold shownIndex
  rw [List.take_succ_eq_append_getElem hi, List.filter_append]
  congr 1
  by_cases h : index[i] < 0
  · rw [if_pos h, List.filter_cons_of_neg (by simpa using h)]; rfl
  · rw [if_neg h, List.filter_cons_of_pos (by simpa using Int.not_lt.mp h)]; rfl

theorem ranges_next_ok (index : List Int) :
    IndexedArray_ranges_next index [0] [(index.length : Int)] 1 (alloc 1) (alloc 1)
      = ok ([0], [((shownIndex index).length : Int)], ((shownIndex index).length : Int)) := by
  unfold IndexedArray_ranges_next
  have key : forFrom 0 ((index.length : Int) - 0) (fun j (k : Int) =>
      rd index (0 + j) >>= fun x => ok (if ¬ x < 0 then k + 1 else k)) 0 = ok ((shownIndex index).length : Int) := by
    unfold forFrom
    obtain ⟨k, k1, k2⟩ := forN_inv (n := ((index.length : Int) - 0 - 0).toNat) (body := fun (i : Nat) (k : Int) =>
      rd index (0 + (0 + (i : Int))) >>= fun x => ok (if ¬ x < 0 then k + 1 else k)) (s := 0)
      (fun i k => k = ((shownIndex (index.take i)).length : Int)) (by simp [shownIndex]) (by
        intro i hi k hk
        have hi' : i < index.length := by omega
        rw [show (0 + (0 + (i : Int))) = (i : Int) by omega, rd_nat_ok hi', bind_ok]
        refine ⟨_, rfl, ?_⟩
        rw [shownIndex_take hi', List.length_append, hk]
        by_cases h : index[i] < 0
        · rw [if_neg (by simpa using h), if_pos h]; simp
        · rw [if_pos h, if_neg h]; simp)
    rw [k1, k2, show ((index.length : Int) - 0 - 0).toNat = index.length by omega, List.take_length]
  rw [forN_succ, forN_zero, bind_ok]
  have e1 : rd [(index.length : Int)] ((0 : Nat) : Int) = ok (index.length : Int) := rfl
  have e2 : rd [(0 : Int)] ((0 : Nat) : Int) = ok 0 := rfl
  have e3 : ∀ x : Int, wr (alloc 1) ((0 : Nat) : Int) x = ok [x] := fun _ => rfl
  rw [e1, bind_ok, e2, bind_ok, e3, bind_ok, key, bind_ok, e3, bind_ok]

theorem ranges_carry_next_ok (index : List Int) :
    IndexedArray_ranges_carry_next index [0] [(index.length : Int)] 1 (alloc (shownIndex index).length)
      = ok (shownIndex index) := by
  unfold IndexedArray_ranges_carry_next
  have key : ∃ st, forFrom 0 ((index.length : Int) - 0) (fun j (st : List Int × Int) =>
      rd index (0 + j) >>= fun x =>
      if ¬ x < 0 then wr st.1 st.2 x >>= fun t => ok (t, st.2 + 1) else ok st)
        (alloc (shownIndex index).length, 0) = ok st ∧ st.1 = shownIndex index := by
    unfold forFrom
    obtain ⟨st, k1, k2, k3, k4⟩ := forN_inv (n := ((index.length : Int) - 0 - 0).toNat)
      (body := fun (i : Nat) (st : List Int × Int) =>
        rd index (0 + (0 + (i : Int))) >>= fun x =>
        if ¬ x < 0 then wr st.1 st.2 x >>= fun t => ok (t, st.2 + 1) else ok st)
      (s := (alloc (shownIndex index).length, 0))
      (fun i st => st.1.length = (shownIndex index).length ∧ st.2 = ((shownIndex (index.take i)).length : Int) ∧
        st.1.take (shownIndex (index.take i)).length = shownIndex (index.take i))
      ⟨alloc_length _, by simp [shownIndex], by simp [shownIndex]⟩ (by
        rintro i hi ⟨t, k⟩ ⟨a1, a2, a3⟩
        dsimp only at a1 a2 a3 ⊢
        have hi' : i < index.length := by omega
        have hmono : (shownIndex (index.take (i + 1))).length ≤ (shownIndex index).length :=
          ((List.take_sublist _ _).filter _).length_le
        rw [show (0 + (0 + (i : Int))) = (i : Int) by omega, rd_nat_ok hi', bind_ok]
        rw [shownIndex_take hi'] at hmono ⊢
        by_cases h : index[i] < 0
        · rw [if_neg (by simpa using h), if_pos h]
          exact ⟨_, rfl, a1, by simpa using a2, by simpa using a3⟩
        · rw [if_pos h, if_neg h]
          rw [if_neg h, List.length_append, List.length_singleton] at hmono
          rw [a2, wr_nat_ok (by omega), bind_ok]
          refine ⟨_, rfl, by simp [a1], by simp, ?_⟩
          dsimp only
          rw [List.length_append, List.length_singleton, List.take_succ_eq_append_getElem (by rw [List.length_set]; omega),
            List.getElem_set_self, List.take_set_of_le (Nat.le_refl _), a3])
    refine ⟨st, k1, ?_⟩
    rw [show ((index.length : Int) - 0 - 0).toNat = index.length by omega, List.take_length] at k4
    rw [← k2, List.take_length] at k4
    exact k4
  obtain ⟨st, k1, k2⟩ := key
  rw [forN_succ, forN_zero, bind_ok]
  have e1 : rd [(index.length : Int)] ((0 : Nat) : Int) = ok (index.length : Int) := rfl
  have e2 : rd [(0 : Int)] ((0 : Nat) : Int) = ok 0 := rfl
  rw [e1, bind_ok, e2, bind_ok, k1, bind_ok, k2]

namespace Content

theorem indexedIsUnique_eq (rec : UniqueRec) (index : List Int) (c : Content) :
    indexedIsUnique rec 0 index c = c.carry false (shownIndex index) >>= fun next => rec none next := by
  unfold indexedIsUnique indexedSubranges
  rw [if_neg (by simp)]
  rw [show ([(((0 : Nat)) : Int)]).length = 1 from rfl, show ([((index.length : Nat) : Int)]).length = 1 from rfl]
  rw [show (((0 : Nat)) : Int) = 0 from rfl, show (((1 : Nat)) : Int) = 1 from rfl, ranges_next_ok, bind_ok]
  dsimp only
  rw [ranges_carry_next_ok, bind_ok]
  rfl

theorem leaf_closed {dt : DType} : ClosedG True (fun (_ : Unit) c =>
    ∃ p data, c = numpy p dt data ∧ ∀ x ∈ data, Spec.OfType dt x) where
  lazy := by
    rintro _ idx c hc ⟨_, _, rfl, _⟩
    simp [cls] at hc
  node := by
    rintro c' c hcls hloc hd _ ⟨q, data, rfl, h⟩
    cases c' <;> simp only [cls, Nat.reduceEqDiff, reduceCtorEq] at hcls
    obtain ⟨_, _, he, hm⟩ := hloc.leaf _ _ _ rfl
    cases he
    exact ⟨_, _, rfl, fun x hx => h x (hm x hx)⟩

theorem plain_carry {dt : DType} {c c' : Content} {idx : List Int} (h : Spec.PlainNumbers dt c) (hc : c.Good)
    (hi : InRange idx c.len) (h1 : c.carry false idx = ok c') : Spec.PlainNumbers dt c' := by
  cases h with
  | numpy h2 h3 =>
    obtain ⟨p', data', rfl, h4⟩ := carry_closed leaf_closed hc hi h1 () ⟨_, _, rfl, h3⟩
    exact .numpy h2 h4
  | empty =>
    simp only [carry] at h1
    split at h1
    · rw [ok.injEq] at h1; subst h1; exact .empty
    · simp at h1
  | indexed h =>
    simp only [carry, range] at h1
    split at h1
    · split at h1
      · rw [ok.injEq] at h1; subst h1; exact .indexed h
      · obtain ⟨_, _, h1⟩ := bind_eq_ok.mp h1
        rw [ok.injEq] at h1; subst h1; exact .indexed h
    · obtain ⟨_, _, h1⟩ := bind_eq_ok.mp h1
      rw [ok.injEq] at h1; subst h1; exact .indexed h
  | indexedOption h =>
    simp only [carry, range] at h1
    split at h1
    · split at h1
      · rw [ok.injEq] at h1; subst h1; exact .indexedOption h
      · obtain ⟨_, _, h1⟩ := bind_eq_ok.mp h1
        rw [ok.injEq] at h1; subst h1; exact .indexedOption h
    · obtain ⟨_, _, h1⟩ := bind_eq_ok.mp h1
      rw [ok.injEq] at h1; subst h1; exact .indexedOption h

theorem present_filter (f : Int → Val) (hf : ∀ x < 0, f x = .null) (index : List Int) :
    Spec.present ((shownIndex index).map f) = Spec.present (index.map f) := by
  unfold shownIndex Spec.present
  induction index with
  | nil => rfl
  | cons x xs ih =>
    by_cases h : 0 ≤ x
    · rw [List.filter_cons_of_pos (by simpa using h), List.map_cons, List.map_cons, List.filterMap_cons, List.filterMap_cons, ih]
    · rw [List.filter_cons_of_neg (by simpa using h), List.map_cons, ih, hf x (by omega)]; rfl

theorem seg_map {c : Content} {index : List Int} (h : c.len = index.length) {f : Int → Val}
    (hf : ∀ i (hi : i < index.length), c.valD i = f index[i]) : c.seg 0 c.len = index.map f := by
  apply List.ext_getElem (by simp [h])
  intro i h1 h2
  rw [seg_getElem, List.getElem_map, Nat.zero_add]
  exact hf i (by simpa using h2)

theorem isUnique_plain {dt : DType} : ∀ (f : Nat) {c : Content}, Spec.PlainNumbers dt c → c.Good → c.rank < f →
    ∃ b, isUniqueNext f none c = ok b ∧ (b = true ↔ (Spec.present (c.seg 0 c.len)).Nodup) := by
  intro f
  induction f with
  | zero => intro c _ _ h; omega
  | succ f ih =>
    intro c hp hc hr
    have step : ∀ (index : List Int) (d : Content), Spec.PlainNumbers dt d → d.Good → InRange (shownIndex index) d.len →
        d.rank < f → (c.seg 0 c.len = index.map (fun x : Int => if x < 0 then Val.null else d.valD x.toNat)) →
        ∃ b, indexedIsUnique (isUniqueNext f) 0 index d = ok b ∧ (b = true ↔ (Spec.present (c.seg 0 c.len)).Nodup) := by
      intro index d h1 h2 h3 h4 h5
      obtain ⟨n, n1, n2, n3, n4⟩ := carry_good h2 false h3
      have n5 := plain_carry h1 h2 h3 n1
      obtain ⟨b, b1, b2⟩ := ih n5 n2 (by simp at n3; omega)
      refine ⟨b, by rw [indexedIsUnique_eq, n1, bind_ok, b1], ?_⟩
      rw [b2, h5, ← present_filter _ (fun x hx => if_pos hx), seg_map n4.1]
      intro i hi
      rw [n4.valD hi, if_neg (by have := h3 _ (List.getElem_mem hi); omega)]
    cases hp with
    | numpy h1 h2 =>
      rename_i p data
      simp only [isUniqueNext]
      rw [if_neg (by simp [h1])]
      obtain ⟨k, k1, k2⟩ := arrayUnique_ok h2
      rw [k1, bind_ok]
      refine ⟨_, rfl, ?_⟩
      rw [decide_eq_true_iff, k2, seg_numpy (by simp [len]), present_atoms]
      simp [part, len]
    | empty =>
      simp only [isUniqueNext]
      exact ⟨true, rfl, by simp [seg, len, Spec.present]⟩
    | indexed h =>
      rename_i p index d
      obtain ⟨g1, g2⟩ := good_indexed.mp hc
      simp only [isUniqueNext]
      refine step index d h g1 ?_ (by simp only [rank] at hr; omega) (seg_map rfl ?_)
      · intro x hx
        obtain ⟨i, hi, rfl⟩ := List.mem_iff_getElem.mp (List.mem_filter.mp hx).1
        exact g2 i hi
      · intro i hi
        rw [valD_indexed hc hi, if_neg (by have := g2 i hi; omega)]
    | indexedOption h =>
      rename_i p index d
      obtain ⟨g1, g2⟩ := good_indexedOption.mp hc
      simp only [isUniqueNext]
      refine step index d h g1 ?_ (by simp only [rank] at hr; omega) (seg_map rfl ?_)
      · intro x hx
        obtain ⟨h1, h2⟩ := List.mem_filter.mp hx
        obtain ⟨i, hi, rfl⟩ := List.mem_iff_getElem.mp h1
        exact ⟨by simpa using h2, g2 i hi⟩
      · intro i hi
        rw [valD_indexedOption hc hi]

end Content

end Awk
