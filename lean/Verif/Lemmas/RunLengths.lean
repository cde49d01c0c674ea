import Verif.Model.RunLengths
import Verif.Spec.RunLengths
import Verif.Lemmas.Apply
import Verif.Lemmas.Unflatten
/-
`lengths_of` counts the runs of each list.
-/

namespace Awk
open R Spec

/-- The runs between marks: `ds` says where a new run begins after the first element. -/
def blocks : List Bool → List Nat
  | [] => [1]
  | true :: ds => 1 :: blocks ds
  | false :: ds => grow (blocks ds)

theorem runs_eq_blocks (x : Val) (xs : List Val) : runs (x :: xs) = blocks (neighbours (x :: xs)) := by
  induction xs generalizing x with
  | nil => rfl
  | cons y xs ih =>
    simp only [runs, neighbours]
    by_cases h : x = y
    · rw [if_pos h, ih y]; simp [h, blocks]
    · rw [if_neg h, ih y]; simp [h, blocks]

theorem blocks_ne (ds : List Bool) : ∃ n ns, blocks ds = n :: ns := by
  induction ds with
  | nil => exact ⟨1, [], rfl⟩
  | cons d ds ih =>
    cases d
    · obtain ⟨n, ns, h⟩ := ih
      exact ⟨n + 1, ns, by simp [blocks, h, grow]⟩
    · exact ⟨1, _, rfl⟩

theorem grow_append {xs ys : List Nat} (h : xs ≠ []) : grow (xs ++ ys) = grow xs ++ ys := by
  cases xs with
  | nil => exact absurd rfl h
  | cons x xs => rfl

theorem blocks_append (ds es : List Bool) : blocks (ds ++ true :: es) = blocks ds ++ blocks es := by
  induction ds with
  | nil => rfl
  | cons d ds ih =>
    cases d
    · simp only [List.cons_append, blocks, ih]
      obtain ⟨n, ns, h⟩ := blocks_ne ds
      rw [h]; rfl
    · simp only [List.cons_append, blocks, ih]

/-- `k` more in the first run. -/
def growBy (k : Int) : List Int → List Int
  | [] => []
  | n :: ns => (n + k) :: ns

theorem nonzeroFrom_shift (i : Int) (ds : List Bool) :
    (nonzeroFrom i ds).map (· + 1) = nonzeroFrom (i + 1) ds := by
  induction ds generalizing i with
  | nil => rfl
  | cons d ds ih =>
    cases d <;> simp [nonzeroFrom, ih]

theorem spacings_cons (a b : Int) (l : List Int) : spacings (a :: b :: l) = (b - a) :: spacings (b :: l) := by
  simp [spacings]

theorem spacings_blocks (ds : List Bool) (a b : Int) :
    spacings (a :: (nonzeroFrom b ds ++ [b + ds.length]))
      = growBy (b - a - 1) ((blocks ds).map (fun (n : Nat) => (n : Int))) := by
  induction ds generalizing a b with
  | nil => simp [nonzeroFrom, spacings, blocks, growBy]
  | cons d ds ih =>
    have e : b + ((d :: ds).length : Int) = (b + 1) + ds.length := by simp; omega
    rw [e]
    cases d
    · simp only [nonzeroFrom, Bool.false_eq_true, if_false, ih, blocks]
      obtain ⟨n, ns, h⟩ := blocks_ne ds
      rw [h]
      simp only [List.map_cons, growBy, grow]
      congr 1
      omega
    · simp only [nonzeroFrom, if_true, List.cons_append, spacings_cons, ih, blocks]
      obtain ⟨n, ns, h⟩ := blocks_ne ds
      rw [h]
      simp only [List.map_cons, growBy]
      congr 1
      · simp
      · congr 1; omega

/-- Where a new run begins, at the first element and elsewhere. -/
def marks : List Val → List Bool
  | [] => []
  | x :: xs => true :: neighbours (x :: xs)

@[simp] theorem neighbours_length (x : Val) (xs : List Val) :
    (neighbours (x :: xs)).length = xs.length := by
  induction xs generalizing x with
  | nil => rfl
  | cons y xs ih => simp [neighbours, ih]

@[simp] theorem marks_length (xs : List Val) : (marks xs).length = xs.length := by
  cases xs <;> simp [marks]

theorem neighbours_append (x : Val) (xs : List Val) (y : Val) (ys : List Val) :
    ∃ b, neighbours (x :: (xs ++ y :: ys)) = neighbours (x :: xs) ++ b :: neighbours (y :: ys) := by
  induction xs generalizing x with
  | nil => exact ⟨_, rfl⟩
  | cons z xs ih =>
    obtain ⟨b, hb⟩ := ih z
    exact ⟨b, by simp only [List.cons_append, neighbours, hb]⟩

/-- A mark at the boundary separates the two lists. -/
theorem marks_append (xs ys : List Val) :
    (marks (xs ++ ys)).set xs.length true = marks xs ++ marks ys := by
  cases xs with
  | nil => cases ys <;> rfl
  | cons x xs =>
    cases ys with
    | nil =>
      rw [List.append_nil, List.set_eq_of_length_le (by simp)]
      simp [marks]
    | cons y ys =>
      obtain ⟨b, hb⟩ := neighbours_append x xs y ys
      simp only [List.cons_append, marks, hb, List.length_cons, List.set_cons_succ]
      congr 1
      rw [List.set_append_right _ _ (by simp)]
      simp

/-- The list `m` of the lists with lengths `f`. -/
def cut (D : List Val) (f : Nat → Nat) (m : Nat) : List Val := (D.drop (sumTo f m)).take (f m)

theorem cut_length {D : List Val} {f : Nat → Nat} {n m : Nat} (hn : D.length = sumTo f n) (h : m < n) :
    (cut D f m).length = f m := by
  have := sumTo_mono (f := f) (show m + 1 ≤ n by omega)
  rw [sumTo_succ] at this
  simp [cut]; omega

theorem cut_append {D : List Val} {f : Nat → Nat} (m : Nat) :
    D.drop (sumTo f m) = cut D f m ++ D.drop (sumTo f (m + 1)) := by
  rw [cut, sumTo_succ, ← List.drop_drop, List.take_append_drop]

/-- All marks of the first `m` lists. -/
def marksTo (D : List Val) (f : Nat → Nat) (m : Nat) : List Bool :=
  ((List.range m).map (fun i => marks (cut D f i))).flatten

theorem marksTo_succ (D : List Val) (f : Nat → Nat) (m : Nat) :
    marksTo D f (m + 1) = marksTo D f m ++ marks (cut D f m) := by
  simp [marksTo, List.range_succ]

theorem marksTo_length {D : List Val} {f : Nat → Nat} {n m : Nat} (hn : D.length = sumTo f n) (h : m ≤ n) :
    (marksTo D f m).length = sumTo f m := by
  induction m with
  | zero => simp [marksTo]
  | succ m ih =>
    rw [marksTo_succ, List.length_append, ih (by omega), marks_length, cut_length hn (by omega), sumTo_succ]

/-- Marks at the boundaries of the first lists. -/
def setMarks (M : List Bool) (f : Nat → Nat) (m : Nat) : List Bool :=
  (List.range m).foldl (fun M i => M.set (sumTo f (i + 1)) true) M

theorem setMarks_succ (M : List Bool) (f : Nat → Nat) (m : Nat) :
    setMarks M f (m + 1) = (setMarks M f m).set (sumTo f (m + 1)) true := by
  simp [setMarks, List.range_succ]

theorem setMarks_eq {D : List Val} {f : Nat → Nat} {n m : Nat} (hn : D.length = sumTo f n) (h : m ≤ n) :
    setMarks (marks D) f m = marksTo D f m ++ marks (D.drop (sumTo f m)) := by
  induction m with
  | zero => simp [setMarks, marksTo]
  | succ m ih =>
    rw [setMarks_succ, ih (by omega), List.set_append_right _ _ (by
      rw [marksTo_length hn (by omega)]; exact sumTo_mono (by omega)),
      marksTo_length hn (by omega), sumTo_succ, Nat.add_sub_cancel_left, cut_append m,
      ← cut_length hn (show m < n by omega), marks_append, cut_length hn (by omega), marksTo_succ,
      List.append_assoc, sumTo_succ]

theorem setMarks_all {D : List Val} {f : Nat → Nat} {n : Nat} (hn : D.length = sumTo f n) :
    setMarks (marks D) f (n - 1) = marksTo D f n := by
  cases n with
  | zero =>
    have : D = [] := List.eq_nil_of_length_eq_zero (by simpa using hn)
    subst this; simp [setMarks, marksTo, marks]
  | succ n =>
    rw [Nat.add_sub_cancel, setMarks_eq hn (by omega), cut_append n,
      List.drop_eq_nil_of_le (by omega), List.append_nil, marksTo_succ]

/-- The marks of lists begin with a mark. -/
theorem marksTo_head (D : List Val) (f : Nat → Nat) (m : Nat) :
    marksTo D f m = [] ∨ ∃ ds, marksTo D f m = true :: ds := by
  induction m with
  | zero => exact .inl rfl
  | succ m ih =>
    rw [marksTo_succ]
    rcases ih with h | ⟨ds, h⟩
    · rw [h, List.nil_append]
      cases cut D f m with
      | nil => exact .inl rfl
      | cons x xs => exact .inr ⟨_, rfl⟩
    · exact .inr ⟨_, by rw [h]; rfl⟩

/-- The runs of all lists. -/
def runsTo (D : List Val) (f : Nat → Nat) (m : Nat) : List Nat :=
  ((List.range m).map (fun i => runs (cut D f i))).flatten

theorem runsTo_succ (D : List Val) (f : Nat → Nat) (m : Nat) :
    runsTo D f (m + 1) = runsTo D f m ++ runs (cut D f m) := by
  simp [runsTo, List.range_succ]

theorem runs_of_marks {xs : List Val} {ds : List Bool} (h : marks xs = true :: ds) :
    runs xs = blocks ds := by
  cases xs with
  | nil => cases h
  | cons x xs =>
    simp only [marks, List.cons.injEq, true_and] at h
    rw [← h, runs_eq_blocks]

theorem runsTo_eq (D : List Val) (f : Nat → Nat) (m : Nat) :
    (marksTo D f m = [] ∧ runsTo D f m = []) ∨
    ∃ ds, marksTo D f m = true :: ds ∧ runsTo D f m = blocks ds := by
  induction m with
  | zero => exact .inl ⟨rfl, rfl⟩
  | succ m ih =>
    rw [marksTo_succ, runsTo_succ]
    have hc : (marks (cut D f m) = [] ∧ runs (cut D f m) = []) ∨
        ∃ es, marks (cut D f m) = true :: es ∧ runs (cut D f m) = blocks es := by
      cases h : cut D f m with
      | nil => exact .inl ⟨rfl, rfl⟩
      | cons x xs => exact .inr ⟨_, rfl, runs_eq_blocks x xs⟩
    rcases ih with ⟨h1, h2⟩ | ⟨ds, h1, h2⟩ <;> rcases hc with ⟨h3, h4⟩ | ⟨es, h3, h4⟩ <;>
      rw [h1, h2, h3, h4]
    · exact .inl ⟨rfl, rfl⟩
    · exact .inr ⟨es, rfl, rfl⟩
    · exact .inr ⟨ds, by simp, by simp⟩
    · exact .inr ⟨ds ++ true :: es, rfl, (blocks_append ds es).symm⟩

theorem nonzeroFrom_length (i : Int) (ds : List Bool) : (nonzeroFrom i ds).length + 1 = (blocks ds).length := by
  induction ds generalizing i with
  | nil => rfl
  | cons d ds ih =>
    cases d
    · simp only [nonzeroFrom, Bool.false_eq_true, if_false, blocks, ih]
      obtain ⟨n, ns, h⟩ := blocks_ne ds
      rw [h]; rfl
    · simp only [nonzeroFrom, if_true, blocks, List.length_cons, ih]

theorem nonzeroFrom_append (i : Int) (ds es : List Bool) :
    nonzeroFrom i (ds ++ es) = nonzeroFrom i ds ++ nonzeroFrom (i + ds.length) es := by
  induction ds generalizing i with
  | nil => simp [nonzeroFrom]
  | cons d ds ih =>
    have e : i + 1 + (ds.length : Int) = i + ((d :: ds).length : Int) := by simp; omega
    cases d <;> simp [nonzeroFrom, ih, e]

theorem nonzeroFrom_mem {i x : Int} {ds : List Bool} (h : x ∈ nonzeroFrom i ds) :
    i ≤ x ∧ x < i + ds.length := by
  induction ds generalizing i with
  | nil => cases h
  | cons d ds ih =>
    cases d
    · simp only [nonzeroFrom, Bool.false_eq_true, if_false] at h
      have := ih h; simp; omega
    · simp only [nonzeroFrom, if_true, List.mem_cons] at h
      rcases h with rfl | h
      · simp
      · have := ih h; simp; omega

theorem nonzeroFrom_pairwise (i : Int) (ds : List Bool) : (nonzeroFrom i ds).Pairwise (· ≤ ·) := by
  induction ds generalizing i with
  | nil => exact .nil
  | cons d ds ih =>
    cases d
    · simpa [nonzeroFrom] using ih (i + 1)
    · simp only [nonzeroFrom, if_true]
      refine .cons (fun x hx => ?_) (ih _)
      have := (nonzeroFrom_mem hx).1; omega

theorem fullPositions_eq (ds : List Bool) (n : Nat) :
    fullPositions ds n = nonzeroFrom 0 (true :: ds) ++ [(n : Int)] := by
  simp [fullPositions, nonzeroFrom, nonzeroFrom_shift]

/-- The search finds where the second of two parts begins. -/
theorem searchLeft_parts {A B : List Int} {o : Int} (hs : (A ++ B).Pairwise (· ≤ ·))
    (hA : ∀ x ∈ A, x < o) (hB : ∀ x ∈ B, o ≤ x) : searchLeft (A ++ B) o = A.length := by
  obtain ⟨h1, h2, h3⟩ := searchRight_spec (o - 1) hs
  unfold searchLeft
  generalize searchRight (A ++ B) (o - 1) = p at *
  rcases Nat.lt_trichotomy p A.length with h | h | h
  · have := h3 p (by rw [List.length_append]; omega) (Nat.le_refl _)
    rw [List.getElem_append_left h] at this
    have := hA _ (List.getElem_mem h)
    omega
  · exact h
  · have hl : A.length < (A ++ B).length := by omega
    have := h2 A.length hl h
    rw [List.getElem_append_right (Nat.le_refl _)] at this
    have := hB _ (List.getElem_mem (by rw [List.length_append] at hl; omega : A.length - A.length < B.length))
    omega

theorem marksTo_split {D : List Val} {f : Nat → Nat} {n k : Nat} (h : k ≤ n) :
    ∃ es, marksTo D f n = marksTo D f k ++ es := by
  induction n with
  | zero => exact ⟨[], by rw [show k = 0 by omega]; rfl⟩
  | succ n ih =>
    by_cases hk : k = n + 1
    · exact ⟨[], by rw [hk, List.append_nil]⟩
    · obtain ⟨es, he⟩ := ih (by omega)
      exact ⟨es ++ marks (cut D f n), by rw [marksTo_succ, he, List.append_assoc]⟩

theorem runsTo_length (D : List Val) (f : Nat → Nat) (m : Nat) :
    (runsTo D f m).length = sumTo (fun i => (runs (cut D f i)).length) m := by
  rw [runsTo, flatten_map_length]

/-- The new offsets. -/
theorem searchLeft_marks {D : List Val} {f : Nat → Nat} {n k : Nat} {ds : List Bool}
    (hn : D.length = sumTo f n) (hM : marksTo D f n = true :: ds) (hk : k ≤ n) :
    searchLeft (fullPositions ds D.length) (sumTo f k : Int)
      = sumTo (fun i => (runs (cut D f i)).length) k := by
  obtain ⟨es, he⟩ := marksTo_split (D := D) (f := f) hk
  have hlen := marksTo_length hn hk
  have hlenn := marksTo_length hn (Nat.le_refl n)
  have hle : sumTo f k ≤ D.length := by rw [hn]; exact sumTo_mono hk
  have hle' : es.length + sumTo f k = D.length := by
    rw [he, List.length_append] at hlenn; omega
  rw [fullPositions_eq, ← hM, he, nonzeroFrom_append, List.append_assoc, hlen, searchLeft_parts]
  · rw [← runsTo_length]
    rcases runsTo_eq D f k with ⟨h1, h2⟩ | ⟨gs, h1, h2⟩
    · rw [h1, h2]; rfl
    · rw [h1, h2, ← nonzeroFrom_length (0 + 1)]; rfl
  · rw [← List.append_assoc, ← show (0 : Int) + ((marksTo D f k).length : Nat) = 0 + (sumTo f k : Nat) by rw [hlen],
      ← nonzeroFrom_append, ← he]
    refine List.pairwise_append.mpr ⟨nonzeroFrom_pairwise _ _, List.pairwise_singleton _ _, ?_⟩
    intro x hx y hy
    have := (nonzeroFrom_mem hx).2
    cases List.mem_singleton.mp hy
    omega
  · intro x hx
    have := (nonzeroFrom_mem hx).2
    omega
  · intro x hx
    rcases List.mem_append.mp hx with hx | hx
    · have := (nonzeroFrom_mem hx).1; omega
    · cases List.mem_singleton.mp hx; omega

/-! ### Marking -/

theorem npMark_ok {ds : List Bool} {o : Nat} (h1 : 1 ≤ o) (h2 : o ≤ ds.length) :
    npMark ds ((o : Int) - 1) = ok (ds.set (o - 1) true) := by
  unfold npMark
  rw [if_neg (show ¬ ((o : Int) - 1 < 0) by omega)]
  dsimp only
  rw [if_neg (by omega), show ((o : Int) - 1).toNat = o - 1 by omega]

theorem markBounds_ok {ds : List Bool} {f : Nat → Nat} {m : Nat}
    (h : ∀ i, i < m → 1 ≤ sumTo f (i + 1) ∧ sumTo f (i + 1) ≤ ds.length) :
    ∃ es, markBounds ds ((List.range m).map (fun i => (sumTo f (i + 1) : Int))) = ok es ∧
      true :: es = setMarks (true :: ds) f m := by
  unfold markBounds setMarks
  generalize hl : List.range m = l
  have hm : ∀ i ∈ l, 1 ≤ sumTo f (i + 1) ∧ sumTo f (i + 1) ≤ ds.length := by
    intro i hi; rw [← hl] at hi; exact h i (List.mem_range.mp hi)
  clear hl h
  induction l generalizing ds with
  | nil => exact ⟨ds, rfl, rfl⟩
  | cons i l ih =>
    obtain ⟨h1, h2⟩ := hm i List.mem_cons_self
    obtain ⟨es, g1, g2⟩ := ih (ds := ds.set (sumTo f (i + 1) - 1) true)
      (fun j hj => by simpa using hm j (List.mem_cons_of_mem _ hj))
    refine ⟨es, ?_, ?_⟩
    · simp only [List.map_cons, foldR, npMark_ok h1 h2, bind_ok, g1]
    · rw [g2, List.foldl_cons]
      congr 1
      rw [show sumTo f (i + 1) = sumTo f (i + 1) - 1 + 1 by omega, List.set_cons_succ]
      rfl

theorem offsTo_inner (f : Nat → Nat) (n : Nat) :
    (offsTo f n).tail.dropLast = (List.range (n - 1)).map (fun i => (sumTo f (i + 1) : Int)) := by
  apply List.ext_getElem
  · simp
  · intro i h1 h2
    simp [offsTo]

theorem sumTo_eq_zero {f : Nat → Nat} {n : Nat} (h : sumTo f n = 0) {i : Nat} (hi : i < n) : f i = 0 := by
  have := sumTo_mono (f := f) (show i + 1 ≤ n by omega)
  rw [sumTo_succ] at this
  omega

theorem sumTo_const_zero (n : Nat) : sumTo (fun _ => 0) n = 0 := by
  induction n with
  | zero => rfl
  | succ n ih => rw [sumTo_succ, ih]

/-- `lengths_of` with offsets. -/
theorem lengthsOf_ok {D : List Val} {f : Nat → Nat} {n : Nat} (hn : D.length = sumTo f n)
    (hf : sumTo f n = 0 ∨ n ≤ 1 ∨ (0 < f 0 ∧ 0 < f (n - 1))) :
    lengthsOf D (offsTo f n) = ok ((runsTo D f n).map (fun (x : Nat) => (x : Int)),
      offsTo (fun i => (runs (cut D f i)).length) n) := by
  unfold lengthsOf
  by_cases h0 : D.length = 0
  · rw [if_pos h0]
    have hD : D = [] := List.eq_nil_of_length_eq_zero h0
    have hc : ∀ i, cut D f i = [] := fun i => by simp [cut, hD]
    have hr : runsTo D f n = [] := by
      apply List.eq_nil_of_length_eq_zero
      rw [runsTo_length, sumTo_congr (g := fun _ => 0) (fun i _ => by simp [hc, runs]), sumTo_const_zero]
    rw [hr]
    congr 2
    unfold offsTo
    apply List.map_congr_left
    intro i hi
    have hi := List.mem_range.mp hi
    have e1 : sumTo f i = 0 := by
      have := sumTo_mono (f := f) (show i ≤ n by omega); omega
    have e2 : sumTo (fun i => (runs (cut D f i)).length) i = 0 := by
      rw [sumTo_congr (g := fun _ => 0) (fun i _ => by simp [hc, runs]), sumTo_const_zero]
    rw [e1, e2]
  · rw [if_neg h0, offsTo_inner]
    have hD : ∃ x xs, D = x :: xs := by
      cases D with
      | nil => exact absurd rfl h0
      | cons x xs => exact ⟨x, xs, rfl⟩
    obtain ⟨x, xs, hD⟩ := hD
    have hnl : (neighbours D).length + 1 = D.length := by rw [hD]; simp
    have hb : ∀ i, i < n - 1 → 1 ≤ sumTo f (i + 1) ∧ sumTo f (i + 1) ≤ (neighbours D).length := by
      intro i hi
      rcases hf with hf | hf | ⟨hf1, hf2⟩
      · omega
      · omega
      · have e1 := sumTo_mono (f := f) (show 1 ≤ i + 1 by omega)
        have e2 := sumTo_mono (f := f) (show i + 1 ≤ n - 1 by omega)
        have e3 : sumTo f n = sumTo f (n - 1) + f (n - 1) := by
          rw [← sumTo_succ]; congr 1; omega
        simp only [sumTo_succ, sumTo_zero] at e1
        rw [sumTo_succ] at e2
        rw [sumTo_succ]
        omega
    obtain ⟨es, g1, g2⟩ := markBounds_ok hb
    have hm : marks D = true :: neighbours D := by rw [hD]; rfl
    rw [← hm, setMarks_all hn] at g2
    rw [g1, bind_ok]
    dsimp only
    have hel : es.length + 1 = D.length := by
      have := marksTo_length hn (Nat.le_refl n)
      rw [← g2] at this; simp at this; omega
    congr 2
    · have hr : runsTo D f n = blocks es := by
        rcases runsTo_eq D f n with ⟨h1, h2⟩ | ⟨ds, h1, h2⟩
        · rw [h1] at g2; cases g2
        · rw [h1] at g2; cases g2; exact h2
      have := spacings_blocks es 0 1
      rw [show (1 : Int) + es.length = D.length by omega] at this
      rw [fullPositions, nonzeroFrom_shift, hr]
      rw [show (0 : Int) + 1 = 1 by omega, this]
      obtain ⟨k, ks, hk⟩ := blocks_ne es
      rw [hk]; simp [growBy]
    · unfold offsTo
      rw [List.map_map]
      apply List.map_congr_left
      intro i hi
      have hi := List.mem_range.mp hi
      simp only [Function.comp]
      rw [searchLeft_marks hn g2.symm (by omega)]

/-- `lengths_of` without offsets. -/
theorem lengthsOf_flat (D : List Val) :
    ∃ offs, lengthsOf D [] = ok ((runs D).map (fun (x : Nat) => (x : Int)), offs) := by
  unfold lengthsOf
  cases D with
  | nil => exact ⟨[], rfl⟩
  | cons x xs =>
    refine ⟨[], ?_⟩
    rw [if_neg (by simp)]
    simp only [List.tail_nil, List.dropLast_nil, markBounds, foldR, bind_ok, List.map_nil]
    congr 2
    have := spacings_blocks (neighbours (x :: xs)) 0 1
    rw [show (1 : Int) + (neighbours (x :: xs)).length = (x :: xs).length by simp; omega] at this
    rw [fullPositions, nonzeroFrom_shift, show (0 : Int) + 1 = 1 by omega, this, ← runs_eq_blocks]
    obtain ⟨k, ks, hk⟩ := blocks_ne (neighbours (x :: xs))
    rw [runs_eq_blocks, hk]; simp [growBy]

end Awk
