import Verif.Spec.Buffers
import Mathlib.Data.String.Basic
import Std.Data.String.ToNat
/-
`std::map`, sorting by name, and the items of a record form.
-/

namespace Awk
open R

variable {α β : Type}

/-- The names increase. -/
def NamesUp (l : List (String × α)) : Prop := l.Pairwise (fun a b => a.1 < b.1)

theorem NamesUp.eq_of_perm {l l' : List (String × α)} (h : NamesUp l) (h' : NamesUp l')
    (hp : l.Perm l') : l = l' :=
  List.Perm.eq_of_pairwise (fun _ _ _ _ h1 h2 => absurd h2 (lt_asymm h1)) h h' hp

theorem mapAssign_mem {k : String} {v : α} {l : List (String × α)} {kv : String × α}
    (h : kv ∈ mapAssign k v l) : kv = (k, v) ∨ kv ∈ l := by
  induction l with
  | nil => simpa [mapAssign] using h
  | cons b l ih =>
    simp only [mapAssign] at h
    split at h
    · simpa using h
    split at h
    · rcases List.mem_cons.mp h with h | h
      · exact .inl h
      · exact .inr (List.mem_cons_of_mem _ h)
    · rcases List.mem_cons.mp h with h | h
      · exact .inr (h ▸ List.mem_cons_self)
      · exact (ih h).imp_right (List.mem_cons_of_mem _)

theorem mapAssign_up {k : String} {v : α} {l : List (String × α)} (h : NamesUp l) :
    NamesUp (mapAssign k v l) := by
  induction l with
  | nil => simp [mapAssign, NamesUp]
  | cons b l ih =>
    obtain ⟨h1, h2⟩ := List.pairwise_cons.mp h
    simp only [mapAssign]
    split
    · rename_i hlt
      refine List.pairwise_cons.mpr ⟨?_, h⟩
      intro x hx
      rcases List.mem_cons.mp hx with rfl | hx
      · exact hlt
      · exact lt_trans hlt (h1 x hx)
    split
    · rename_i heq
      exact List.pairwise_cons.mpr ⟨fun x hx => heq ▸ h1 x hx, h2⟩
    · rename_i hlt heq
      refine List.pairwise_cons.mpr ⟨?_, ih h2⟩
      intro x hx
      rcases mapAssign_mem hx with rfl | hx
      · exact lt_of_le_of_ne (not_lt.mp hlt) (Ne.symm heq)
      · exact h1 x hx

theorem mapAssign_perm {k : String} {v : α} {l : List (String × α)} (h : ∀ b ∈ l, b.1 ≠ k) :
    (mapAssign k v l).Perm ((k, v) :: l) := by
  induction l with
  | nil => simp [mapAssign]
  | cons b l ih =>
    simp only [mapAssign]
    split
    · exact .refl _
    split
    · rename_i heq; exact absurd heq.symm (h b List.mem_cons_self)
    · exact ((ih (fun x hx => h x (List.mem_cons_of_mem _ hx))).cons _).trans (.swap _ _ _)

theorem stdMap_from {l m : List (String × α)} (hn : ((m ++ l).map (fun b => b.1)).Nodup)
    (hm : NamesUp m) :
    NamesUp (l.foldl (fun m kv => mapAssign kv.1 kv.2 m) m) ∧
      (l.foldl (fun m kv => mapAssign kv.1 kv.2 m) m).Perm (m ++ l) := by
  induction l generalizing m with
  | nil => exact ⟨hm, by simp⟩
  | cons b l ih =>
    have hb : ∀ x ∈ m, x.1 ≠ b.1 := by
      intro x hx he
      rw [List.map_append, List.nodup_append] at hn
      exact hn.2.2 x.1 (List.mem_map_of_mem hx) b.1 (by simp) he
    have hp := mapAssign_perm (v := b.2) hb
    have hpl : (mapAssign b.1 b.2 m ++ l).Perm (m ++ b :: l) :=
      (hp.append_right l).trans (List.perm_middle (a := b)).symm
    obtain ⟨h1, h2⟩ := ih (m := mapAssign b.1 b.2 m)
      ((hpl.map (fun b => b.1)).nodup_iff.mpr hn) (mapAssign_up hm)
    exact ⟨h1, h2.trans hpl⟩

theorem stdMap_up {l : List (String × α)} (hn : (l.map (fun b => b.1)).Nodup) :
    NamesUp (stdMap l) := (stdMap_from (m := []) (by simpa using hn) List.Pairwise.nil).1

theorem stdMap_perm {l : List (String × α)} (hn : (l.map (fun b => b.1)).Nodup) :
    (stdMap l).Perm l := by
  have := (stdMap_from (m := []) (by simpa using hn) List.Pairwise.nil).2
  rwa [List.nil_append] at this

theorem insertByName_perm (kv : String × α) (l : List (String × α)) :
    (insertByName kv l).Perm (kv :: l) := by
  induction l with
  | nil => exact .refl _
  | cons b l ih =>
    simp only [insertByName]
    split
    · exact (ih.cons _).trans (.swap _ _ _)
    · exact .refl _

theorem sortByName_perm (l : List (String × α)) : (sortByName l).Perm l := by
  induction l with
  | nil => exact .refl _
  | cons b l ih => exact (insertByName_perm _ _).trans (ih.cons _)

theorem insertByName_up {kv : String × α} {l : List (String × α)} (h : NamesUp l)
    (hk : ∀ b ∈ l, b.1 ≠ kv.1) : NamesUp (insertByName kv l) := by
  induction l with
  | nil => simp [insertByName, NamesUp]
  | cons b l ih =>
    obtain ⟨h1, h2⟩ := List.pairwise_cons.mp h
    simp only [insertByName]
    split
    · rename_i hlt
      refine List.pairwise_cons.mpr ⟨?_, ih h2 (fun x hx => hk x (List.mem_cons_of_mem _ hx))⟩
      intro x hx
      rcases List.mem_cons.mp ((insertByName_perm _ _).mem_iff.mp hx) with rfl | hx
      · exact hlt
      · exact h1 x hx
    · rename_i hlt
      have hlt : kv.1 < b.1 := lt_of_le_of_ne (not_lt.mp hlt) (Ne.symm (hk b List.mem_cons_self))
      refine List.pairwise_cons.mpr ⟨?_, h⟩
      intro x hx
      rcases List.mem_cons.mp hx with rfl | hx
      · exact hlt
      · exact lt_trans hlt (h1 x hx)

theorem sortByName_up {l : List (String × α)} (hn : (l.map (fun b => b.1)).Nodup) :
    NamesUp (sortByName l) := by
  induction l with
  | nil => exact .nil
  | cons b l ih =>
    rw [List.map_cons, List.nodup_cons] at hn
    refine insertByName_up (ih hn.2) (fun x hx he => hn.1 ?_)
    rw [← he]
    exact List.mem_map_of_mem ((sortByName_perm l).mem_iff.mp hx)

/-- With distinct names a `std::map` has the items in the order of their names. -/
theorem stdMap_eq {l : List (String × α)} (hn : (l.map (fun b => b.1)).Nodup) :
    stdMap l = sortByName l :=
  (stdMap_up hn).eq_of_perm (sortByName_up hn)
    ((stdMap_perm hn).trans (sortByName_perm l).symm)

theorem insertByName_map (f : α → β) (kv : String × α) (l : List (String × α)) :
    insertByName (kv.1, f kv.2) (l.map (fun b => (b.1, f b.2)))
      = (insertByName kv l).map (fun b => (b.1, f b.2)) := by
  induction l with
  | nil => rfl
  | cons b l ih =>
    simp only [List.map_cons, insertByName]
    split
    · rw [ih]; rfl
    · rfl

theorem sortByName_map (f : α → β) (l : List (String × α)) :
    sortByName (l.map (fun b => (b.1, f b.2))) = (sortByName l).map (fun b => (b.1, f b.2)) := by
  induction l with
  | nil => rfl
  | cons b l ih => simp only [List.map_cons, sortByName, ih]; exact insertByName_map f b _

theorem zip_map_right' (f : α → β) (ks : List String) (l : List α) :
    ks.zip (l.map f) = (ks.zip l).map (fun b => (b.1, f b.2)) := by
  rw [List.zip_map_right]; rfl

theorem zip_names {ks : List String} {l : List α} (h : ks.length = l.length) :
    (ks.zip l).map (fun b => b.1) = ks := by
  rw [List.map_fst_zip (by omega)]

/-- The items of a tuple are in the order of their positions. -/
theorem recordItems_tuple (l : List α) :
    recordItems none l = ((List.range l.length).map (fun i => toString i)).zip l := by
  simp only [recordItems]
  have hn : ((((List.range l.length).map (fun i => toString i)).zip l).map (fun b => b.1)).Nodup := by
    rw [zip_names (by simp)]
    refine List.pairwise_map.mpr (List.nodup_range.imp ?_)
    exact fun hne h => hne (Nat.repr_injective h)
  have key : ∀ b ∈ ((List.range l.length).map (fun i => toString i)).zip l,
      ∃ i, b.1 = toString i ∧ b.1.toNat? = some i ∧ l[i]? = some b.2 := by
    intro b hb
    obtain ⟨i, hi, rfl⟩ := List.getElem_of_mem hb
    simp only [List.length_zip, List.length_map, List.length_range] at hi
    refine ⟨i, by simp, ?_, by simp⟩
    simp only [List.getElem_zip, List.getElem_map, List.getElem_range]
    exact Nat.toNat?_repr i
  have hperm := (List.mergeSort_perm (stdMap (((List.range l.length).map
    (fun i => toString i)).zip l)) (fun a b => decide (a.1.toNat?.getD 0 ≤ b.1.toNat?.getD 0))).trans
    (stdMap_perm hn)
  refine List.Perm.eq_of_pairwise
    (le := fun a b => (fun a b : String × α => decide (a.1.toNat?.getD 0 ≤ b.1.toNat?.getD 0)) a b
      = true) ?_ ?_ ?_ hperm
  · intro a b ha hb h1 h2
    obtain ⟨i, e1, e2, e3⟩ := key a (hperm.mem_iff.mp ha)
    obtain ⟨j, e4, e5, e6⟩ := key b hb
    simp only [e2, e5, Option.getD_some, decide_eq_true_eq] at h1 h2
    have : i = j := by omega
    subst this
    rw [e3] at e6
    exact Prod.ext (e1.trans e4.symm) (Option.some.inj e6)
  · apply List.pairwise_mergeSort
    · intro a b c h1 h2
      simp only [decide_eq_true_eq] at *
      omega
    · intro a b
      simp only [Bool.or_eq_true, decide_eq_true_eq]
      omega
  · rw [List.pairwise_iff_getElem]
    intro i j hi hj hij
    simp only [List.length_zip, List.length_map, List.length_range] at hi hj
    simp only [List.getElem_zip, List.getElem_map, List.getElem_range, decide_eq_true_eq]
    rw [show (toString i).toNat? = some i from Nat.toNat?_repr i,
      show (toString j).toNat? = some j from Nat.toNat?_repr j]
    simp only [Option.getD_some]; omega

/-- The items of a record are in the order of their names. -/
theorem recordItems_record {ks : List String} {l : List α} (hn : ks.Nodup)
    (hl : ks.length = l.length) : recordItems (some ks) l = sortByName (ks.zip l) :=
  stdMap_eq (by rw [zip_names hl]; exact hn)

end Awk
