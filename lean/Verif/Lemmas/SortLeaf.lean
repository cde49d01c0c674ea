import Verif.Lemmas.SortKernels
import Verif.Lemmas.ReduceLocal
/-
Sorting a buffer of numbers in groups.
-/

namespace Awk
open R
namespace Content

variable {m : Nat → Nat} {out : Nat} {dt : DType} {data : List Atom} {a : SortArgs}

theorem part_nil (s n : Nat) : part ([] : List α) s n = [] := by simp [part]

theorem sortBuffer_sort (ha : a.arg = false) (hd : ∀ x ∈ data, Spec.OfType dt x) (hl : data.length = sumTo m out)
    (hs : ∀ p, p < out → a.stable = true ∨ m p < 2 ^ 48) :
    ∃ ys, sortBuffer a (nats (blk m out) data.length) dt data = ok (dt, ys) ∧ ys.length = data.length ∧
      ∀ p, p < out → (part ys (sumTo m p) (m p)).Perm (part data (sumTo m p) (m p)) ∧
        (part ys (sumTo m p) (m p)).Pairwise (fun x y => Spec.inOrder a.ascending x y = true) := by
  unfold sortBuffer
  by_cases h0 : data.length = 0
  · rw [if_pos h0, ha]
    refine ⟨[], rfl, by simp [h0], ?_⟩
    intro p _
    rw [List.eq_nil_of_length_eq_zero h0, part_nil]
    exact ⟨List.Perm.refl _, List.Pairwise.nil⟩
  · have key : ∀ ys : List Atom, (∀ p, p < out → 0 < m p → (part ys (sumTo m p) (m p)).Perm (part data (sumTo m p) (m p)) ∧
        (part ys (sumTo m p) (m p)).Pairwise (fun x y => Spec.inOrder a.ascending x y = true)) →
        ∀ p, p < out → (part ys (sumTo m p) (m p)).Perm (part data (sumTo m p) (m p)) ∧
        (part ys (sumTo m p) (m p)).Pairwise (fun x y => Spec.inOrder a.ascending x y = true) := by
      intro ys h p hp
      by_cases hm : 0 < m p
      · exact h p hp hm
      · rw [show m p = 0 by omega, part_zero, part_zero]
        exact ⟨List.Perm.refl _, List.Pairwise.nil⟩
    rw [if_neg h0, nats_length, sorting_ranges_length_ok, bind_ok, sorting_ranges_ok _ (by omega), bind_ok, ha]
    rw [hl]
    simp only [Bool.false_eq_true, if_false]
    cases hst : a.stable with
    | true =>
      obtain ⟨ys, y1, y2, y3⟩ := awkward_sort_ok (asc := a.ascending) hd hl
        (toptr := List.replicate (sumTo m out) (.int (-559038737))) (by simp [hl])
      rw [hl] at y1
      simp only [if_true]
      rw [y1, bind_ok]
      exact ⟨ys, rfl, by omega, key ys y3⟩
    | false =>
      obtain ⟨ys, y1, y2, y3⟩ := awkward_quick_sort_ok (asc := a.ascending) hd hl
        (fun p hp => (hs p hp).resolve_left (by simp [hst]))
      simp only [Bool.false_eq_true, if_false]
      rw [y1, bind_ok]
      exact ⟨ys, rfl, by omega, key ys y3⟩

theorem sortBuffer_arg (ha : a.arg = true) (hd : ∀ x ∈ data, Spec.OfType dt x) (hl : data.length = sumTo m out)
    (hs : ∀ p, p < out → a.stable = true ∨ m p < 2 ^ 48) :
    ∃ ys : List Int, sortBuffer a (nats (blk m out) data.length) dt data = ok (.int64, ys.map Atom.int) ∧
      ys.length = data.length ∧
      ∀ p, p < out → (part ys (sumTo m p) (m p)).Perm (iota (m p)) ∧
        (part ys (sumTo m p) (m p)).Pairwise (argOrder a.ascending a.stable (fun i => itemAt data ((sumTo m p : Nat) + i))) := by
  unfold sortBuffer
  by_cases h0 : data.length = 0
  · rw [if_pos h0, ha]
    refine ⟨[], rfl, by simp [h0], ?_⟩
    intro p hp
    have := sumTo_mono (f := m) (show p + 1 ≤ out by omega)
    rw [sumTo_succ] at this
    rw [show m p = 0 by omega, part_nil]
    exact ⟨List.Perm.refl _, List.Pairwise.nil⟩
  · have key : ∀ ys : List Int, (∀ p, p < out → 0 < m p → (part ys (sumTo m p) (m p)).Perm (iota (m p)) ∧
        (part ys (sumTo m p) (m p)).Pairwise (argOrder a.ascending a.stable (fun i => itemAt data ((sumTo m p : Nat) + i)))) →
        ∀ p, p < out → (part ys (sumTo m p) (m p)).Perm (iota (m p)) ∧
        (part ys (sumTo m p) (m p)).Pairwise (argOrder a.ascending a.stable (fun i => itemAt data ((sumTo m p : Nat) + i))) := by
      intro ys h p hp
      by_cases hm : 0 < m p
      · exact h p hp hm
      · rw [show m p = 0 by omega, part_zero]
        exact ⟨List.Perm.refl _, List.Pairwise.nil⟩
    rw [if_neg h0, nats_length, sorting_ranges_length_ok, bind_ok, sorting_ranges_ok _ (by omega), bind_ok, ha]
    rw [hl]
    simp only [if_true]
    cases hst : a.stable with
    | true =>
      obtain ⟨ys, y1, y2, y3⟩ := awkward_argsort_ok (asc := a.ascending) hd hl
        (toptr := alloc ((sumTo m out : Nat) : Int)) (by rw [alloc_length, hl])
      rw [hl] at y1
      simp only [if_true]
      rw [y1, bind_ok]
      exact ⟨ys, rfl, by omega, by rw [hst] at key; exact key ys y3⟩
    | false =>
      obtain ⟨ys, y1, y2, y3⟩ := awkward_quick_argsort_ok (asc := a.ascending) hd hl
        (fun p hp => (hs p hp).resolve_left (by simp [hst])) (toptr := alloc ((sumTo m out : Nat) : Int))
        (by rw [alloc_length, hl])
      simp only [Bool.false_eq_true, if_false]
      rw [y1, bind_ok]
      exact ⟨ys, rfl, by omega, by rw [hst] at key; exact key ys y3⟩

/-- What is expected of each innermost list. -/
def LeafRel (a : SortArgs) (xs ys : List Val) : Prop :=
  if a.arg then Spec.ArgSorted a.ascending a.stable xs ys else Spec.Sorted a.ascending xs ys

theorem seg_numpy {p : Params} {dt : DType} {data : List Atom} {s n : Nat} (h : s + n ≤ data.length) :
    (numpy p dt data).seg s n = (part data s n).map Val.atom := by
  apply List.ext_getElem?
  intro i
  by_cases hi : i < n
  · rw [seg_getElem?, if_pos hi, List.getElem?_map, part_getElem? hi, valD_numpy (by omega),
      List.getElem?_eq_getElem (by omega)]; rfl
  · rw [List.getElem?_eq_none (by simp; omega), List.getElem?_eq_none (by rw [List.length_map, part_length h]; omega)]

theorem present_atoms (xs : List Atom) : Spec.present (xs.map Val.atom) = xs := by
  unfold Spec.present
  rw [List.filterMap_map]
  exact List.filterMap_some

theorem leafRel_sort (ha : a.arg = false) {xs ys : List Atom} (h1 : ys.Perm xs)
    (h2 : ys.Pairwise (fun x y => Spec.inOrder a.ascending x y = true)) :
    LeafRel a (xs.map Val.atom) (ys.map Val.atom) := by
  unfold LeafRel
  rw [ha]
  refine ⟨ys, by rw [present_atoms]; exact h1, h2, ?_⟩
  rw [present_atoms]; simp

theorem leafRel_arg (ha : a.arg = true) {xs : List Atom} {ys : List Int} (h1 : ys.Perm (iota xs.length))
    (h2 : ys.Pairwise (argOrder a.ascending a.stable (itemAt xs))) :
    LeafRel a (xs.map Val.atom) (ys.map (fun i => Val.atom (.int i))) := by
  unfold LeafRel
  rw [ha, if_pos rfl]
  have hpos : ∀ y ∈ ys, 0 ≤ y := by
    intro y hy
    have := h1.mem_iff.mp hy
    unfold iota at this
    obtain ⟨j, _, rfl⟩ := List.mem_map.mp this
    omega
  refine ⟨ys.map Int.toNat, ?_, ?_, ?_⟩
  · rw [present_atoms]
    refine (h1.map _).trans (List.Perm.of_eq ?_)
    rw [iota, List.map_map]
    simp [Function.comp_def]
  · rw [present_atoms, List.pairwise_map]
    refine List.Pairwise.imp_of_mem ?_ h2
    intro i j hi hj hij x y hx hy
    have e1 : itemAt xs i = x := by unfold itemAt; rw [hx]; rfl
    have e2 : itemAt xs j = y := by unfold itemAt; rw [hy]; rfl
    obtain ⟨k1, k2⟩ := hij
    rw [e1, e2] at k1 k2
    refine ⟨k1, fun s1 s2 => ?_⟩
    have := k2 s1 s2
    have := hpos i hi
    omega
  · rw [present_atoms]
    simp only [List.length_map, Nat.sub_self, List.replicate_zero, List.append_nil, List.map_map]
    apply List.map_congr_left
    intro y hy
    have := hpos y hy
    simp only [Function.comp_apply]
    rw [Int.toNat_of_nonneg this]

/-- A group of numbers, sorted. -/
theorem sortLeaf_ok {starts : List Int} {p : Params} (hr : dt.reducible = true)
    (hd : ∀ x ∈ data, Spec.OfType dt x) (hl : data.length = sumTo m out)
    (hs : ∀ p, p < out → a.stable = true ∨ m p < 2 ^ 48) (keepdims : Bool) :
    ∃ q dt' ys, sortLeaf a starts (nats (blk m out) data.length) keepdims p dt data
        = ok (if keepdims ∧ ¬ (data.length = 0 ∧ a.arg = false) then
            regular {} (numpy q dt' ys) (data.length / starts.length) data.length else numpy q dt' ys) ∧
      ys.length = data.length ∧
      ∀ g, g < out → LeafRel a ((numpy p dt data).seg (sumTo m g) (m g)) ((numpy q dt' ys).seg (sumTo m g) (m g)) := by
  have hbound : ∀ g, g < out → sumTo m g + m g ≤ data.length := by
    intro p hp
    have := sumTo_mono (f := m) (show p + 1 ≤ out by omega)
    rw [sumTo_succ] at this; omega
  unfold sortLeaf
  cases ha : a.arg with
  | false =>
    obtain ⟨ys, y1, y2, y3⟩ := sortBuffer_sort ha hd hl hs
    by_cases h0 : data.length = 0
    · rw [if_pos (by simp [h0])]
      refine ⟨p, dt, data, by rw [if_neg (by simp [h0])], rfl, ?_⟩
      intro g hg
      have := hbound g hg
      rw [show m g = 0 by omega]
      exact leafRel_sort ha (xs := []) (ys := []) (List.Perm.refl _) List.Pairwise.nil
    · rw [if_neg (by simp [h0]), if_neg (by simp [hr]), y1, bind_ok]
      refine ⟨p, dt, ys, ?_, y2, ?_⟩
      · cases keepdims <;> simp [h0]
      · intro g hg
        rw [seg_numpy (hbound g hg), seg_numpy (by rw [y2]; exact hbound g hg)]
        exact leafRel_sort ha (y3 g hg).1 (y3 g hg).2
  | true =>
    obtain ⟨ys, y1, y2, y3⟩ := sortBuffer_arg ha hd hl hs
    rw [if_neg (by simp), if_neg (by simp [hr]), y1, bind_ok]
    refine ⟨{}, .int64, ys.map Atom.int, ?_, by simpa using y2, ?_⟩
    · cases keepdims <;> simp
    · intro g hg
      have hb := hbound g hg
      rw [seg_numpy hb, seg_numpy (by rw [List.length_map, y2]; exact hb), part_map, List.map_map]
      have hpl : (part data (sumTo m g) (m g)).length = m g := part_length hb
      refine leafRel_arg ha (by rw [hpl]; exact (y3 g hg).1) ?_
      refine List.Pairwise.imp_of_mem ?_ (y3 g hg).2
      intro i j hi hj hij
      have e : ∀ i ∈ part ys (sumTo m g) (m g), itemAt data ((sumTo m g : Nat) + i) = itemAt (part data (sumTo m g) (m g)) i := by
        intro i hi
        have := (y3 g hg).1.mem_iff.mp hi
        unfold iota at this
        obtain ⟨k, k1, rfl⟩ := List.mem_map.mp this
        have := List.mem_range.mp k1
        unfold itemAt
        rw [show (((sumTo m g : Nat) : Int) + (k : Int)).toNat = sumTo m g + k by omega, Int.toNat_natCast,
          part_getElem? this]
      unfold argOrder at hij ⊢
      simp only at hij
      rw [e i hi, e j hj] at hij
      exact hij

end Content
end Awk
