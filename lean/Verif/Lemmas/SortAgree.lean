import Verif.Lemmas.SortTop
/-
The positions given by `argsort` are those of the items given by `sort`.
-/

namespace Awk
open R
namespace Content
open Spec (Nested)

variable {dt : DType}

/-- The values of an array of numbers, `d` levels down. -/
def Typed (dt : DType) : Nat → Val → Prop
  | 0, v => v = .null ∨ ∃ x, v = .atom x ∧ Spec.OfType dt x
  | d + 1, v => v = .null ∨ ∃ xs, v = .list xs ∧ ∀ w ∈ xs, Typed dt d w

theorem typed_null (d : Nat) : Typed dt d .null := by cases d <;> exact .inl rfl

theorem typed_list {c e : Content} {d : Nat} (h : ∀ i, i < e.len → Typed dt d (e.valD i)) {p : Params}
    (hp : ¬ (p.arr = .string ∨ p.arr = .bytestring)) {s n : Nat} (hs : s + n ≤ e.len)
    (hv : c.valD i = wrapList p (e.seg s n)) : Typed dt (d + 1) (c.valD i) := by
  rw [hv, wrapList_plain hp]
  refine .inr ⟨_, rfl, ?_⟩
  intro w hw
  obtain ⟨j, hj, rfl⟩ := mem_seg.mp hw
  exact h _ (by omega)

theorem typed_pair {c e : Content} {d : Nat} (h : ∀ i, i < e.len → Typed dt d (e.valD i)) {p : Params}
    (hp : ¬ (p.arr = .string ∨ p.arr = .bytestring)) {s t : Int} (hs : GoodPair s t e.len)
    (hv : c.valD i = wrapList p (e.seg s.toNat (t - s).toNat)) : Typed dt (d + 1) (c.valD i) := by
  rcases hs with rfl | hs
  · rw [Int.sub_self, Int.toNat_zero, seg_zero] at hv
    rw [hv, wrapList_plain hp]
    exact .inr ⟨[], rfl, by simp⟩
  · exact typed_list h hp (by omega) hv

theorem typed_option {c e : Content} {d : Nat} (h : ∀ i, i < e.len → Typed dt d (e.valD i)) (hc : c.Good)
    (ho : c.isOptionOrIndexed = true) (he : c.inner = e) {i : Nat} (hi : i < c.len) : Typed dt d (c.valD i) := by
  subst he
  have hv := val_inner_pick hc ho hi
  cases hp : c.pick i with
  | none => have := hv.1; rw [hp] at this; rw [this]; exact typed_null d
  | some j =>
    have := hv.1
    rw [hp] at this
    rw [this]
    exact h j (hv.2 j hp)

theorem nums_typed {c : Content} {n : Nat} {b : Bool} (hn : Nums dt n b c) (h : c.Good) :
    ∀ i, i < c.len → Typed dt (n - 1) (c.valD i) := by
  induction hn with
  | numpy h1 h2 =>
    intro i hi
    rw [valD_numpy hi]
    exact .inr ⟨_, rfl, h2 _ (List.getElem_mem _)⟩
  | empty => intro i hi; simp [len] at hi
  | regular h1 h2 h3 ih =>
    intro i hi
    have hc := good_regular.mp h
    have hp := nested_pos h3
    rename_i n _ _ _ _ _
    rw [show n + 1 - 1 = (n - 1) + 1 by omega]
    exact typed_list (ih hc) h1 (regular_bound hi) (valD_regular hc hi)
  | listArray h1 h2 ih =>
    intro i hi
    obtain ⟨hl, hc, hpr⟩ := good_listArray.mp h
    have hp := nested_pos h2
    rename_i n _ _ _ _ _
    rw [show n + 1 - 1 = (n - 1) + 1 by omega]
    simp only [len] at hi
    exact typed_pair (ih hc) h1 (hpr i hi) (valD_listArray h hi (by omega))
  | listOffset h1 h2 h3 h4 ih =>
    intro i hi
    obtain ⟨hl, hc, hpr⟩ := good_listOffset.mp h
    have hp := nested_pos h4
    rename_i n _ _ _ _
    rw [show n + 1 - 1 = (n - 1) + 1 by omega]
    simp only [len] at hi
    exact typed_pair (ih hc) h1 (hpr i (by omega)) (valD_listOffset h (by omega))
  | indexed h1 h2 h3 ih => exact fun i hi => typed_option (ih (h.child (by simp [children]))) h rfl rfl hi
  | indexedOption h1 h2 ih => exact fun i hi => typed_option (ih (h.child (by simp [children]))) h rfl rfl hi
  | byteMasked h1 h2 ih => exact fun i hi => typed_option (ih (h.child (by simp [children]))) h rfl rfl hi
  | bitMasked h1 h2 ih => exact fun i hi => typed_option (ih (h.child (by simp [children]))) h rfl rfl hi
  | unmasked h1 ih => exact fun i hi => typed_option (ih (h.child (by simp [children]))) h rfl rfl hi

/-- Items that may come in either order are equal. -/
theorem inOrder_antisymm {asc : Bool} {x y : Atom} (hx : Spec.OfType dt x) (hy : Spec.OfType dt y)
    (h1 : Spec.inOrder asc x y = true) (h2 : Spec.inOrder asc y x = true) : x = y := by
  have key : Spec.less x y = false ∧ Spec.less y x = false := by
    unfold Spec.inOrder at h1 h2
    cases asc <;> simp_all
  obtain ⟨k1, k2⟩ := key
  cases x <;> cases y <;> simp only [Spec.OfType] at hx hy <;> try contradiction
  all_goals try (subst hx; simp at hy)
  all_goals try (subst hy; simp at hx)
  · rename_i a b; cases a <;> cases b <;> simp_all [Spec.less]
  · simp only [Spec.less, decide_eq_false_iff_not] at k1 k2; congr 1; omega
  · rcases hx with rfl | rfl | rfl | rfl | rfl | rfl | rfl | rfl <;> simp at hy
  · rcases hx with rfl | rfl <;> simp at hy
  · simp only [Spec.less, decide_eq_false_iff_not] at k1 k2; congr 1; exact le_antisymm (not_lt.mp k2) (not_lt.mp k1)

theorem taken_leaf {asc stable : Bool} {xs is ys : List Val} (ht : ∀ v ∈ xs, Typed dt 0 v)
    (h1 : Spec.ArgSorted asc stable xs is) (h2 : Spec.Sorted asc xs ys) (hn : ∀ v ∈ xs, v ≠ .null) :
    Spec.itemsAt xs is = ys := by
  obtain ⟨zs, a1, a2, rfl⟩ := h2
  obtain ⟨ks, b1, b2, rfl⟩ := h1
  have hxs : xs = (Spec.present xs).map Val.atom := by
    clear * - ht hn
    induction xs with
    | nil => rfl
    | cons x xs ih =>
      rcases ht x (by simp) with h | ⟨y, h, _⟩
      · exact absurd h (hn x (by simp))
      · have := ih (fun v hv => ht v (List.mem_cons_of_mem _ hv)) (fun v hv => hn v (List.mem_cons_of_mem _ hv))
        subst h
        unfold Spec.present at this ⊢
        simp only [List.filterMap_cons, List.map_cons]
        rw [← this]
  have hty : ∀ x ∈ Spec.present xs, Spec.OfType dt x := by
    intro x hx
    have : Val.atom x ∈ xs := by rw [hxs]; exact List.mem_map_of_mem hx
    rcases ht _ this with h | ⟨y, h, h'⟩
    · exact absurd h (hn _ this)
    · injection h with h; rw [h]; exact h'
  have hlen : xs.length = (Spec.present xs).length := by conv_lhs => rw [hxs, List.length_map]
  generalize hP : Spec.present xs = P at *
  subst hxs
  rw [List.length_map, Nat.sub_self, List.replicate_zero, List.append_nil, List.append_nil]
  have hks : ∀ k ∈ ks, k < P.length := fun k hk => List.mem_range.mp (b1.mem_iff.mp hk)
  have hget : ∀ k, k < P.length → P[k]? = some (P[k]?.getD (.int 0)) := by
    intro k hk; simp [hk]
  have hmap : Spec.itemsAt (P.map Val.atom) (ks.map fun (i : Nat) => Val.atom (.int i))
      = (ks.map (fun k => P[k]?.getD (.int 0))).map Val.atom := by
    unfold Spec.itemsAt
    rw [List.map_map, List.map_map]
    apply List.map_congr_left
    intro k hk
    have := hks k hk
    simp [this]
  rw [hmap]
  congr 1
  have hperm : (ks.map (fun k => P[k]?.getD (.int 0))).Perm P := by
    refine (b1.map _).trans (List.Perm.of_eq ?_)
    apply List.ext_getElem (by simp)
    intro i h1 h2
    simp [h2]
  have hpair : (ks.map (fun k => P[k]?.getD (.int 0))).Pairwise (fun x y => Spec.inOrder asc x y = true) := by
    rw [List.pairwise_map]
    refine List.Pairwise.imp_of_mem ?_ b2
    intro i j hi hj hij
    exact (hij _ _ (hget i (hks i hi)) (hget j (hks j hj))).1
  have hmem := hperm.trans a1.symm
  refine List.Perm.eq_of_pairwise (le := fun x y => Spec.inOrder asc x y = true) ?_ hpair a2 hmem
  intro x y hx hy hxy hyx
  exact inOrder_antisymm (hty x (hperm.mem_iff.mp hx)) (hty y (a1.mem_iff.mp hy)) hxy hyx

theorem taken_depth {asc stable : Bool} {d : Nat} {xs is ys : List Val} (ht : ∀ v ∈ xs, Typed dt d v)
    (h1 : Spec.AtDepth (Spec.ArgSorted asc stable) d xs is) (h2 : Spec.AtDepth (Spec.Sorted asc) d xs ys) :
    Spec.Taken d xs is ys := by
  induction d generalizing xs is ys with
  | zero => exact taken_leaf ht h1 h2
  | succ d ih =>
    obtain ⟨l1, g1⟩ := List.forall₂_iff_get.mp h1
    obtain ⟨l2, g2⟩ := List.forall₂_iff_get.mp h2
    refine ⟨l1.symm, l2.symm, ?_⟩
    intro k x i y hx hi hy
    obtain ⟨k1, rfl⟩ := List.getElem?_eq_some_iff.mp hx
    obtain ⟨k2, rfl⟩ := List.getElem?_eq_some_iff.mp hi
    obtain ⟨k3, rfl⟩ := List.getElem?_eq_some_iff.mp hy
    have e1 := g1 k k1 k2
    have e2 := g2 k k1 k3
    simp only [List.get_eq_getElem] at e1 e2
    rcases e1 with ⟨a1, a2⟩ | ⟨xs', is', a1, a2, a3⟩
    · rcases e2 with ⟨b1, b2⟩ | ⟨xs'', ys', b1, _⟩
      · exact .inl ⟨a1, a2, b2⟩
      · rw [a1] at b1; simp at b1
    · rcases e2 with ⟨b1, b2⟩ | ⟨xs'', ys', b1, b2, b3⟩
      · rw [a1] at b1; simp at b1
      · obtain rfl : xs' = xs'' := by rw [a1] at b1; injection b1
        refine .inr ⟨xs', is', ys', a1, a2, b2, ih ?_ a3 b3⟩
        have := ht _ (List.getElem_mem k1)
        rw [a1] at this
        rcases this with h | ⟨zs, h, h'⟩
        · simp at h
        · injection h with h; rw [h]; exact h'

end Content
end Awk
