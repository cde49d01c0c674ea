import Verif.Spec.Unflatten
import Verif.Lemmas.Packed
import Verif.Lemmas.Maps
/-
`ak.unflatten` divides lists as `Spec.Regroups` says.
-/

namespace Awk
open R Spec

theorem searchRightGo_spec {xs : List Int} {v : Int} (hs : xs.Pairwise (· ≤ ·)) :
    ∀ (f lo hi : Nat), lo ≤ hi → hi ≤ xs.length → hi - lo ≤ f →
      (∀ i (h : i < xs.length), i < lo → xs[i] ≤ v) → (∀ i (h : i < xs.length), hi ≤ i → v < xs[i]) →
      searchRightGo xs v f lo hi ≤ xs.length ∧
      (∀ i (h : i < xs.length), i < searchRightGo xs v f lo hi → xs[i] ≤ v) ∧
      ∀ i (h : i < xs.length), searchRightGo xs v f lo hi ≤ i → v < xs[i] := by
  intro f
  induction f with
  | zero =>
    intro lo hi h1 h2 h3 h4 h5
    have : lo = hi := by omega
    subst this
    exact ⟨h2, h4, h5⟩
  | succ f ih =>
    intro lo hi h1 h2 h3 h4 h5
    simp only [searchRightGo]
    by_cases h : lo < hi
    · rw [if_pos h]
      have hm : lo + (hi - lo) / 2 < xs.length := by omega
      rw [List.getElem?_eq_getElem hm, Option.getD_some]
      split
      · rename_i hv
        refine ih _ _ (by omega) (by omega) (by omega) h4 fun i hi' hle => ?_
        rcases Nat.lt_or_eq_of_le hle with hlt | heq
        · have := List.pairwise_iff_getElem.mp hs _ _ hm hi' hlt
          omega
        · subst heq; exact hv
      · rename_i hv
        refine ih _ _ (by omega) (by omega) (by omega) (fun i hi' hlt => ?_) h5
        rcases Nat.lt_or_eq_of_le (show i ≤ lo + (hi - lo) / 2 by omega) with hlt | heq
        · have := List.pairwise_iff_getElem.mp hs _ _ hi' hm hlt
          omega
        · subst heq; omega
    · rw [if_neg h]
      have : lo = hi := by omega
      subst this
      exact ⟨h2, h4, h5⟩

/-- `searchsorted` on numbers in order. -/
theorem searchRight_spec {xs : List Int} (v : Int) (hs : xs.Pairwise (· ≤ ·)) :
    searchRight xs v ≤ xs.length ∧ (∀ i (h : i < xs.length), i < searchRight xs v → xs[i] ≤ v) ∧
      ∀ i (h : i < xs.length), searchRight xs v ≤ i → v < xs[i] :=
  searchRightGo_spec hs xs.length 0 xs.length (Nat.zero_le _) (Nat.le_refl _) (by omega)
    (fun i _ h => by omega) (fun i h h' => by omega)

/-- The sizes that the counts stand for. -/
def sizeAt (counts : List (Option Nat)) (i : Nat) : Nat := (counts[i]?.getD none).getD 0

theorem offsTo_pairwise (f : Nat → Nat) (n : Nat) : (offsTo f n).Pairwise (· ≤ ·) := by
  unfold offsTo
  rw [List.pairwise_map]
  refine List.Pairwise.imp ?_ List.pairwise_lt_range
  intro a b hab
  have := sumTo_mono (f := f) (Nat.le_of_lt hab)
  omega

theorem sumTo_succ' (f : Nat → Nat) (n : Nat) : sumTo f (n + 1) = f 0 + sumTo (fun i => f (i + 1)) n := by
  induction n with
  | zero => simp [sumTo]
  | succ n ih => rw [sumTo_succ, ih, sumTo_succ]; omega

theorem cumsum_eq (a : Nat) (counts : List (Option Nat)) :
    cumsum a (counts.map (Option.map Int.ofNat))
      = (List.range (counts.length + 1)).map (fun i => ((a + sumTo (sizeAt counts) i : Nat) : Int)) := by
  induction counts generalizing a with
  | nil => simp [cumsum]
  | cons x xs ih =>
    have e : ((a : Int) + (Option.map Int.ofNat x).getD 0) = ((a + x.getD 0 : Nat) : Int) := by
      cases x <;> simp
    simp only [List.map_cons, cumsum]
    rw [e, ih, List.length_cons, List.range_succ_eq_map (n := xs.length + 1), List.map_cons, List.map_map]
    congr 1
    apply List.map_congr_left
    intro i _
    simp only [Function.comp]
    rw [sumTo_succ']
    have : (fun i => sizeAt (x :: xs) (i + 1)) = sizeAt xs := by
      funext i; simp [sizeAt]
    rw [this]
    have : sizeAt (x :: xs) 0 = x.getD 0 := by simp [sizeAt]
    rw [this]
    omega

theorem cumsum_offsTo (counts : List (Option Nat)) :
    cumsum 0 (counts.map (Option.map Int.ofNat)) = offsTo (sizeAt counts) counts.length := by
  have := cumsum_eq 0 counts
  simp only [Nat.zero_add] at this
  exact this

/-- The parts of `vs` with these lengths. -/
def divide : List (Option Nat) → List Val → List Val
  | [], _ => []
  | none :: cs, vs => .null :: divide cs vs
  | some n :: cs, vs => .list (vs.take n) :: divide cs (vs.drop n)

/-- The sum of the lengths. -/
def total (cs : List (Option Nat)) : Nat := (cs.map (fun x => x.getD 0)).sum

@[simp] theorem total_nil : total [] = 0 := rfl
@[simp] theorem total_cons (x : Option Nat) (cs : List (Option Nat)) :
    total (x :: cs) = x.getD 0 + total cs := by simp [total]
@[simp] theorem total_append (xs ys : List (Option Nat)) :
    total (xs ++ ys) = total xs + total ys := by simp [total]

theorem total_take (cs : List (Option Nat)) {i : Nat} (hi : i ≤ cs.length) :
    total (cs.take i) = sumTo (sizeAt cs) i := by
  induction i with
  | zero => rfl
  | succ i ih =>
    rw [List.take_add_one, List.getElem?_eq_getElem (show i < cs.length by omega), sumTo_succ,
      ← ih (by omega), total_append]
    congr 1
    simp [sizeAt, show i < cs.length by omega]

theorem total_eq (cs : List (Option Nat)) : total cs = sumTo (sizeAt cs) cs.length := by
  have := total_take cs (Nat.le_refl _)
  rwa [List.take_length] at this

theorem divide_length (cs : List (Option Nat)) (vs : List Val) : (divide cs vs).length = cs.length := by
  induction cs generalizing vs with
  | nil => rfl
  | cons x cs ih => cases x <;> simp [divide, ih]

theorem divide_get {cs : List (Option Nat)} {vs : List Val} {j : Nat} (hj : j < cs.length) :
    (divide cs vs)[j]? = some (if cs[j] = none then .null
      else .list ((vs.drop (sumTo (sizeAt cs) j)).take (sizeAt cs j))) := by
  induction cs generalizing vs j with
  | nil => simp at hj
  | cons x cs ih =>
    have e : (fun i => sizeAt (x :: cs) (i + 1)) = sizeAt cs := by
      funext i; simp [sizeAt]
    cases j with
    | zero => cases x <;> simp [divide, sizeAt]
    | succ j =>
      have hs : sizeAt (x :: cs) (j + 1) = sizeAt cs j := by simp [sizeAt]
      rw [sumTo_succ', e, hs]
      simp only [List.getElem_cons_succ]
      cases x with
      | none =>
        simp only [divide, List.getElem?_cons_succ]
        rw [ih (by simpa using hj)]
        simp [sizeAt]
      | some n =>
        simp only [divide, List.getElem?_cons_succ]
        rw [ih (by simpa using hj), List.drop_drop]
        simp [sizeAt]

theorem splits_iff {vs ys : List Val} {cs : List (Option Nat)} :
    Splits vs ys cs ↔ ys = divide cs vs ∧ total cs = vs.length := by
  constructor
  · intro h
    induction h with
    | nil => exact ⟨rfl, rfl⟩
    | list h ih => simp [divide, ih.1.symm, ih.2]
    | missing h ih => simp [divide, ih.1.symm, ih.2]
  · rintro ⟨rfl, h⟩
    induction cs generalizing vs with
    | nil =>
      have : vs = [] := List.length_eq_zero_iff.mp (by simpa using h.symm)
      subst this; exact .nil
    | cons x cs ih =>
      cases x with
      | none => exact .missing (ih (by simpa using h))
      | some n =>
        simp only [total_cons, Option.getD_some] at h
        have hn : (vs.take n).length = n := by simp; omega
        have := Splits.list (xs := vs.take n) (ih (vs := vs.drop n) (by simp; omega))
        rw [List.take_append_drop, hn] at this
        exact this

theorem divide_append {cs cs' : List (Option Nat)} {vs vs' : List Val} (h : total cs = vs.length) :
    divide (cs ++ cs') (vs ++ vs') = divide cs vs ++ divide cs' vs' := by
  induction cs generalizing vs with
  | nil =>
    have : vs = [] := List.length_eq_zero_iff.mp (by simpa using h.symm)
    subst this; rfl
  | cons x cs ih =>
    cases x with
    | none => simp only [List.cons_append, divide]; rw [ih (by simpa using h)]
    | some n =>
      simp only [total_cons, Option.getD_some] at h
      simp only [List.cons_append, divide]
      rw [List.take_append_of_le_length (by omega), List.drop_append_of_le_length (by omega),
        ih (by simp; omega)]

/-- Parts of a list with these lengths. -/
def chunks {α : Type} : List Nat → List α → List (List α)
  | [], _ => []
  | n :: ns, xs => xs.take n :: chunks ns (xs.drop n)

theorem chunks_length {α : Type} (ns : List Nat) (xs : List α) : (chunks ns xs).length = ns.length := by
  induction ns generalizing xs with
  | nil => rfl
  | cons n ns ih => simp [chunks, ih]

theorem chunks_flatten {α : Type} {ns : List Nat} {xs : List α} (h : ns.sum = xs.length) :
    (chunks ns xs).flatten = xs := by
  induction ns generalizing xs with
  | nil =>
    have : xs = [] := List.length_eq_zero_iff.mp (by simpa using h.symm)
    subst this; rfl
  | cons n ns ih =>
    simp only [List.sum_cons] at h
    simp only [chunks, List.flatten_cons]
    rw [ih (by simp; omega), List.take_append_drop]

theorem chunks_get {α : Type} {f : Nat → Nat} {n : Nat} {xs : List α} {i : Nat} (hi : i < n) :
    (chunks ((List.range n).map f) xs)[i]? = some ((xs.drop (sumTo f i)).take (f i)) := by
  induction n generalizing f xs i with
  | zero => omega
  | succ n ih =>
    rw [List.range_succ_eq_map, List.map_cons, List.map_map]
    simp only [chunks]
    cases i with
    | zero => simp
    | succ i =>
      rw [List.getElem?_cons_succ, show (f ∘ Nat.succ) = (fun i => f (i + 1)) from rfl,
        ih (by omega), List.drop_drop, sumTo_succ']

theorem sum_range_map (f : Nat → Nat) (n : Nat) : ((List.range n).map f).sum = sumTo f n := by
  induction n with
  | zero => rfl
  | succ n ih => rw [List.range_succ, List.map_append, List.sum_append, ih]; simp [sumTo]

/-- Lists that are divided where both counts and lengths allow it. -/
theorem regroups_chunks {ns ms : List Nat} {vs : List Val} {cs : List (Option Nat)}
    (hl : ns.length = ms.length) (h1 : ns.sum = vs.length) (h2 : ms.sum = cs.length)
    (ha : ∀ i, total (cs.take (ms.take i).sum) = (ns.take i).sum) :
    Regroups 1 ((chunks ns vs).map .list) ((chunks ms (divide cs vs)).map .list) cs := by
  induction ns generalizing ms vs cs with
  | nil =>
    cases ms with
    | nil =>
      have : cs = [] := List.length_eq_zero_iff.mp (by simpa using h2.symm)
      subst this; exact .nil
    | cons => simp at hl
  | cons n ns ih =>
    cases ms with
    | nil => simp at hl
    | cons m ms =>
      simp only [List.sum_cons] at h1 h2
      have h0 := ha 1
      simp only [List.take_succ_cons, List.take_zero, List.sum_cons, List.sum_nil, Nat.add_zero] at h0
      have hd : divide cs vs = divide (cs.take m) (vs.take n) ++ divide (cs.drop m) (vs.drop n) := by
        rw [← divide_append (by rw [h0]; simp; omega), List.take_append_drop, List.take_append_drop]
      have hm : (divide (cs.take m) (vs.take n)).length = m := by
        rw [divide_length]; simp; omega
      have e1 : (divide cs vs).take m = divide (cs.take m) (vs.take n) := by
        rw [hd, List.take_left' hm]
      have e2 : (divide cs vs).drop m = divide (cs.drop m) (vs.drop n) := by
        rw [hd, List.drop_left' hm]
      simp only [chunks, List.map_cons]
      rw [e1, e2]
      have key := Regroups.list (k := 0) (xs := vs.take n) (zs := divide (cs.take m) (vs.take n))
        (.here (splits_iff.mpr ⟨rfl, by rw [h0]; simp; omega⟩))
        (ih (ms := ms) (vs := vs.drop n) (cs := cs.drop m) (by simpa using hl) (by simp; omega)
          (by simp; omega) (fun i => ?_))
      · rw [List.take_append_drop] at key; exact key
      · have := ha (i + 1)
        simp only [List.take_succ_cons, List.sum_cons] at this
        rw [List.take_add, total_append, h0] at this
        omega

/-- Below the first level every element stays where it is. -/
theorem Spec.Regroups.length {k : Nat} {vs ys : List Val} {cs : List (Option Nat)}
    (h : Regroups (k + 1) vs ys cs) : ys.length = vs.length := by
  generalize hk : k + 1 = k' at h
  induction h with
  | here => omega
  | nil => rfl
  | missing _ ih => simp [ih hk]
  | list _ _ _ ih => simp [ih hk]

theorem Spec.Regroups.append {k : Nat} {vs ys vs' ys' : List Val} {cs cs' : List (Option Nat)}
    (h : Regroups k vs ys cs) (h' : Regroups k vs' ys' cs') :
    Regroups k (vs ++ vs') (ys ++ ys') (cs ++ cs') := by
  induction h with
  | here hs =>
    cases h' with
    | here hs' =>
      obtain ⟨rfl, e⟩ := splits_iff.mp hs
      obtain ⟨rfl, e'⟩ := splits_iff.mp hs'
      exact .here (splits_iff.mpr ⟨(divide_append e).symm, by simp [e, e']⟩)
  | nil => exact h'
  | missing _ ih => exact .missing (ih h')
  | list h1 _ _ ih => rw [List.append_assoc]; exact .list h1 (ih h')

theorem Spec.Regroups.split {k : Nat} {vs vs' ys : List Val} {cs : List (Option Nat)}
    (h : Regroups (k + 1) (vs ++ vs') ys cs) :
    ∃ ca cb, cs = ca ++ cb ∧ Regroups (k + 1) vs (ys.take vs.length) ca ∧
      Regroups (k + 1) vs' (ys.drop vs.length) cb := by
  induction vs generalizing ys cs with
  | nil => exact ⟨[], cs, rfl, .nil, h⟩
  | cons v vs ih =>
    cases h with
    | missing h =>
      obtain ⟨ca, cb, e, h1, h2⟩ := ih h
      exact ⟨ca, cb, e, .missing h1, h2⟩
    | @list _ xs zs _ ys c1 c2 h1 h2 =>
      obtain ⟨ca, cb, e, h3, h4⟩ := ih h2
      exact ⟨c1 ++ ca, cb, by rw [e, List.append_assoc], .list h1 h3, h4⟩

/-- Lists of lists. -/
theorem Spec.Regroups.nest {k : Nat} {ns : List Nat} {vs ys : List Val} {cs : List (Option Nat)}
    (h : Regroups (k + 1) vs ys cs) (hn : ns.sum = vs.length) :
    Regroups (k + 2) ((chunks ns vs).map .list) ((chunks ns ys).map .list) cs := by
  induction ns generalizing vs ys cs with
  | nil =>
    have : vs = [] := List.length_eq_zero_iff.mp (by simpa using hn.symm)
    subst this
    cases h; exact .nil
  | cons n ns ih =>
    simp only [List.sum_cons] at hn
    rw [← List.take_append_drop n vs] at h
    obtain ⟨ca, cb, rfl, h1, h2⟩ := h.split
    have e : (vs.take n).length = n := by simp; omega
    rw [e] at h1 h2
    exact .list h1 (ih h2 (by simp; omega))

/-- The items of lists that are regrouped. -/
theorem Spec.Regroups.unnest {k : Nat} {ls : List (List Val)} {ys : List Val} {cs : List (Option Nat)}
    (h : Regroups (k + 1) (ls.map .list) ys cs) : ∃ zs, Regroups k ls.flatten zs cs := by
  induction ls generalizing ys cs with
  | nil =>
    cases h with
    | nil =>
      cases k with
      | zero => exact ⟨[], .here .nil⟩
      | succ k => exact ⟨[], .nil⟩
  | cons l ls ih =>
    cases h with
    | list h1 h2 =>
      obtain ⟨zs, h3⟩ := ih h2
      exact ⟨_, h1.append h3⟩

theorem Spec.Regroups.total {ls : List (List Val)} {ys : List Val} {cs : List (Option Nat)}
    (h : Regroups 1 (ls.map .list) ys cs) : total cs = ls.flatten.length := by
  obtain ⟨zs, h⟩ := h.unnest
  cases h with
  | here h => exact (splits_iff.mp h).2

/-- The counts can be cut where the lists end. -/
theorem Spec.Regroups.cut {ls : List (List Val)} {ys : List Val} {cs : List (Option Nat)}
    (h : Regroups 1 (ls.map .list) ys cs) (i : Nat) :
    ∃ j, j ≤ cs.length ∧ Awk.total (cs.take j) = (ls.take i).flatten.length := by
  induction ls generalizing ys cs i with
  | nil => exact ⟨0, by omega, by simp⟩
  | cons l ls ih =>
    cases i with
    | zero => exact ⟨0, by omega, by simp⟩
    | succ i =>
      cases h with
      | @list _ _ _ _ _ c1 c2 h1 h2 =>
        obtain ⟨j, hj, e⟩ := ih h2 i
        refine ⟨c1.length + j, by simp; omega, ?_⟩
        cases h1 with
        | here h1 =>
          have := (splits_iff.mp h1).2
          rw [List.take_length_add_append, total_append, e, this]
          simp


/-- Missing values between the others. -/
def weave : List Bool → List Val → List Val
  | [], _ => []
  | true :: ms, vs => .null :: weave ms vs
  | false :: ms, v :: vs => v :: weave ms vs
  | false :: _, [] => []

theorem Spec.Regroups.weave {k : Nat} {vs ys : List Val} {cs : List (Option Nat)} {ms : List Bool}
    (h : Regroups (k + 1) vs ys cs) (hm : ms.count false = vs.length) :
    Regroups (k + 1) (weave ms vs) (weave ms ys) cs := by
  induction ms generalizing vs ys cs with
  | nil =>
    have : vs = [] := List.length_eq_zero_iff.mp (by simpa using hm.symm)
    subst this
    cases h; exact .nil
  | cons m ms ih =>
    cases m with
    | true => exact .missing (ih h (by simpa using hm))
    | false =>
      cases h with
      | nil => simp at hm
      | missing h => exact .missing (ih h (by simpa using hm))
      | list h1 h2 => exact .list h1 (ih h2 (by simpa using hm))

theorem Spec.Regroups.unweave {k : Nat} {vs zs : List Val} {cs : List (Option Nat)} {ms : List Bool}
    (h : Regroups (k + 1) (Awk.weave ms vs) zs cs) (hm : ms.count false = vs.length) :
    ∃ ys, Regroups (k + 1) vs ys cs := by
  induction ms generalizing vs zs cs with
  | nil =>
    have : vs = [] := List.length_eq_zero_iff.mp (by simpa using hm.symm)
    subst this
    exact ⟨_, h⟩
  | cons m ms ih =>
    cases m with
    | true =>
      cases h with
      | missing h => exact ih h (by simpa using hm)
    | false =>
      cases vs with
      | nil => simp at hm
      | cons v vs =>
        simp only [Awk.weave] at h
        cases h with
        | missing h =>
          obtain ⟨ys, h⟩ := ih h (by simpa using hm)
          exact ⟨_, .missing h⟩
        | list h1 h2 =>
          obtain ⟨ys, h⟩ := ih h2 (by simpa using hm)
          exact ⟨_, .list h1 h⟩

namespace Content

/-- The elements of an array. -/
def vals (c : Content) : List Val := (List.range c.len).map c.valD

@[simp] theorem vals_length (c : Content) : c.vals.length = c.len := by simp [vals]

theorem vals_get? {c : Content} {i : Nat} (h : i < c.len) : c.vals[i]? = some (c.valD i) := by
  simp [vals, h]

theorem vals_sub {c : Content} {s n : Nat} (h : s + n ≤ c.len) : (c.vals.drop s).take n = c.seg s n := by
  apply List.ext_getElem (by simp; omega)
  intro i h1 h2
  have : i < n := by simpa using h2
  simp [vals, seg]

theorem vals_offsTo {p : Params} {f : Nat → Nat} {n : Nat} {c : Content} (hc : c.Good)
    (hp : p.arr ≠ .string ∧ p.arr ≠ .bytestring) (hb : sumTo f n ≤ c.len) :
    (listOffset p (offsTo f n) c).vals = (chunks ((List.range n).map f) c.vals).map .list := by
  apply List.ext_getElem?
  intro i
  have hw : ∀ xs, wrapList p xs = .list xs := by
    intro xs
    unfold wrapList
    split <;> first | rfl | (rename_i h; simp [h] at hp)
  by_cases hi : i < n
  · have hl : (listOffset p (offsTo f n) c).len = n := by simp [len]
    rw [vals_get? (by omega), valD_offsTo hc hb hi, List.getElem?_map, chunks_get hi, hw]
    have := sumTo_mono (f := f) (show i + 1 ≤ n by omega)
    rw [sumTo_succ] at this
    rw [vals_sub (by omega)]
    rfl
  · rw [List.getElem?_eq_none (by simp [len]; omega), List.getElem?_eq_none]
    simp only [List.length_map, chunks_length, List.length_range]
    omega

/-- Offsets in order from zero. -/
theorem offsets_offsTo {offs : List Int} (h0 : offs[0]? = some 0) (hs : offs.Pairwise (· ≤ ·)) :
    ∃ f, offs = offsTo f (offs.length - 1) := by
  have hp : 0 < offs.length := by
    rcases Nat.eq_zero_or_pos offs.length with h | h
    · rw [List.length_eq_zero_iff.mp h] at h0; simp at h0
    · exact h
  refine ⟨fun i => ((offs[i + 1]?.getD 0) - (offs[i]?.getD 0)).toNat, ?_⟩
  have key : ∀ i (h : i < offs.length),
      ((sumTo (fun i => ((offs[i + 1]?.getD 0) - (offs[i]?.getD 0)).toNat) i : Nat) : Int) = offs[i] := by
    intro i
    induction i with
    | zero =>
      intro h
      rw [List.getElem?_eq_getElem h] at h0
      simpa using h0.symm
    | succ i ih =>
      intro h
      have := ih (by omega)
      rw [sumTo_succ, List.getElem?_eq_getElem h, List.getElem?_eq_getElem (show i < offs.length by omega)]
      have := List.pairwise_iff_getElem.mp hs i (i + 1) (by omega) h (by omega)
      simp only [Option.getD_some]
      omega
  apply List.ext_getElem (by simp; omega)
  intro i h1 h2
  rw [offsTo_getElem, key i h1]

theorem npGet_ne_ub (xs : List Int) (i : Int) : npGet xs i ≠ ub := by
  unfold npGet
  split
  · split <;> simp
  · simp

theorem npGet_nat {xs : List Int} {i : Nat} (h : i < xs.length) : npGet xs i = ok xs[i] := by
  unfold npGet
  rw [if_neg (show ¬ ((i : Int) < 0) by omega)]
  simp only [Int.toNat_natCast, List.getElem?_eq_getElem h]
  rw [if_neg (by omega)]

theorem mapR_ne_ub {α β : Type} {g : α → R β} {xs : List α} (h : ∀ x ∈ xs, g x ≠ ub) : mapR g xs ≠ ub := by
  induction xs with
  | nil => simp [mapR]
  | cons x xs ih =>
    have h1 := h x (List.mem_cons_self ..)
    have h2 := ih (fun y hy => h y (List.mem_cons_of_mem _ hy))
    simp only [mapR]
    cases hx : g x with
    | ok a => cases hy : mapR g xs <;> simp_all
    | err e => simp
    | ub => exact absurd hx h1

/-- Where a number is found. -/
theorem searchRight_offsTo {f : Nat → Nat} {n : Nat} (v : Nat) :
    ∃ q, q ≤ n ∧ searchRight (offsTo f n) v = q + 1 ∧ sumTo f q ≤ v ∧
      ∀ j, j ≤ n → sumTo f j ≤ v → j ≤ q := by
  obtain ⟨h1, h2, h3⟩ := searchRight_spec (v : Int) (offsTo_pairwise f n)
  simp only [offsTo_length] at h1 h2 h3
  have hpos : searchRight (offsTo f n) v ≠ 0 := by
    intro h
    have := h3 0 (by omega) (by omega)
    rw [offsTo_getElem] at this
    simp only [sumTo_zero] at this
    omega
  refine ⟨searchRight (offsTo f n) v - 1, by omega, by omega, ?_, fun j hj hv => ?_⟩
  · have := h2 (searchRight (offsTo f n) v - 1) (by omega) (by omega)
    rw [offsTo_getElem] at this
    omega
  · refine Classical.byContradiction fun hc => ?_
    have := h3 j (by omega) (by omega)
    rw [offsTo_getElem] at this
    omega

/-- What is needed of `counts`: the counts `Q` say which lists are made. -/
structure Imposes (cnt : Counts) (Q : List (Option Nat) → Prop) : Prop where
  safe : ∀ d : Content, d.Good → imposeCounts cnt d cnt.offsets ≠ ub
  sound : ∀ (d out : Content) (inner : List Int), d.Good →
    imposeCounts cnt d cnt.offsets = ok (out, inner, [0]) →
    ∃ cs, Q cs ∧ total cs ≤ d.len ∧ inner = offsTo (sizeAt cs) cs.length ∧ out.Good ∧
      out.vals = divide cs d.vals
  complete : ∀ (d : Content) (cs : List (Option Nat)), d.Good → Q cs → total cs = d.len →
    ∃ out, imposeCounts cnt d cnt.offsets = ok (out, offsTo (sizeAt cs) cs.length, [0])

/-- The lists that one count after the other makes. -/
theorem lists_divide {cs : List (Option Nat)} {d : Content} (hd : d.Good) (ht : total cs ≤ d.len)
    (hn : ∀ x ∈ cs, x ≠ none) :
    (listOffset {} (offsTo (sizeAt cs) cs.length) d).vals = divide cs d.vals := by
  rw [total_eq] at ht
  apply List.ext_getElem?
  intro i
  by_cases hi : i < cs.length
  · rw [vals_get? (by simpa [len] using hi), valD_offsTo hd ht hi, divide_get hi,
      if_neg (hn _ (List.getElem_mem hi))]
    have := sumTo_mono (f := sizeAt cs) (show i + 1 ≤ cs.length by omega)
    rw [sumTo_succ] at this
    rw [vals_sub (by omega)]
    rfl
  · rw [List.getElem?_eq_none (by simp [len]; omega), List.getElem?_eq_none (by rw [divide_length]; omega)]

theorem masked_divide {cs : List (Option Nat)} {d : Content} (hd : d.Good) (ht : total cs ≤ d.len) :
    (byteMasked {} ((cs.map (Option.map Int.ofNat)).map (fun x => if x.isNone then 1 else 0)) false
      (listOffset {} (offsTo (sizeAt cs) cs.length) d)).Good ∧
    (byteMasked {} ((cs.map (Option.map Int.ofNat)).map (fun x => if x.isNone then 1 else 0)) false
      (listOffset {} (offsTo (sizeAt cs) cs.length) d)).vals = divide cs d.vals := by
  have ht' := ht
  rw [total_eq] at ht'
  have hg : (byteMasked {} ((cs.map (Option.map Int.ofNat)).map (fun x => if x.isNone then 1 else 0)) false
      (listOffset {} (offsTo (sizeAt cs) cs.length) d)).Good :=
    good_byteMasked.mpr ⟨by simp [len], good_offsTo hd ht'⟩
  refine ⟨hg, ?_⟩
  apply List.ext_getElem?
  intro i
  by_cases hi : i < cs.length
  · rw [vals_get? (by simpa [len] using hi), valD_byteMasked hg (by simpa using hi), valD_offsTo hd ht' hi,
      divide_get hi]
    have := sumTo_mono (f := sizeAt cs) (show i + 1 ≤ cs.length by omega)
    rw [sumTo_succ] at this
    rw [vals_sub (by omega)]
    have hm : maskOk ((cs.map (Option.map Int.ofNat)).map (fun x => if x.isNone then 1 else 0)) false i
        = !(cs[i].isNone) := by
      simp only [maskOk, List.getElem?_map, List.getElem?_eq_getElem hi, Option.map_some, Option.getD_some]
      cases cs[i] <;> simp
    rw [hm]
    cases hci : cs[i] <;> simp [wrapList]
  · rw [List.getElem?_eq_none (by simp [len]; omega), List.getElem?_eq_none (by rw [divide_length]; omega)]

theorem imposes_each (counts : List (Option Nat)) :
    Imposes (.each (counts.map (Option.map Int.ofNat))) (· = counts) ∧
    ∀ (d out : Content) (inner : List Int), d.Good →
      imposeCounts (.each (counts.map (Option.map Int.ofNat))) d (cumsum 0 (counts.map (Option.map Int.ofNat)))
        = ok (out, inner, [0]) → total counts = d.len := by
  have main : ∀ d : Content, d.Good → ∃ q, q ≤ counts.length ∧
      (∀ j, j ≤ counts.length → sumTo (sizeAt counts) j ≤ d.len → j ≤ q) ∧
      imposeCounts (.each (counts.map (Option.map Int.ofNat))) d (cumsum 0 (counts.map (Option.map Int.ofNat)))
        = (if sumTo (sizeAt counts) q ≠ d.len then err "structure imposed by 'counts' does not fit"
          else if counts.any Option.isNone then
            (if q < counts.length then err "content must not be shorter than its mask"
            else ok (byteMasked {} ((counts.map (Option.map Int.ofNat)).map (fun x => if x.isNone then 1 else 0)) false
              (listOffset {} ((offsTo (sizeAt counts) counts.length).take (q + 1)) d),
              (offsTo (sizeAt counts) counts.length).take (q + 1),
              ((offsTo (sizeAt counts) counts.length).drop q).map (· - (d.len : Int))))
          else ok (listOffset {} ((offsTo (sizeAt counts) counts.length).take (q + 1)) d,
              (offsTo (sizeAt counts) counts.length).take (q + 1),
              ((offsTo (sizeAt counts) counts.length).drop q).map (· - (d.len : Int)))) := by
    intro d hd
    obtain ⟨q, h1, h2, h3, h4⟩ := searchRight_offsTo (f := sizeAt counts) (n := counts.length) d.len
    refine ⟨q, h1, h4, ?_⟩
    simp only [imposeCounts]
    rw [cumsum_offsTo, h2]
    have e : (((q + 1 : Nat) : Int) - 1) = (q : Int) := by omega
    rw [e, npGet_nat (show q < (offsTo (sizeAt counts) counts.length).length by simp; omega), bind_ok,
      offsTo_getElem]
    have e1 : ((q : Int) ≥ ((offsTo (sizeAt counts) counts.length).length : Int)
        ∨ ((sumTo (sizeAt counts) q : Nat) : Int) ≠ (d.len : Int)) ↔ sumTo (sizeAt counts) q ≠ d.len := by
      simp only [offsTo_length]; omega
    simp only [e1]
    have e2 : (counts.map (Option.map Int.ofNat)).any (fun x => x.isNone) = counts.any Option.isNone := by
      rw [List.any_map]; congr 1; funext x; cases x <;> rfl
    have e3 : ((q : Int) + 1).toNat = q + 1 := by omega
    have e4 : (listOffset {} ((offsTo (sizeAt counts) counts.length).take (q + 1)) d).len = q := by
      simp [len]; omega
    rw [e2, e3, Int.toNat_natCast, e4, List.length_map]
  have full : ∀ d : Content, d.Good → ∀ r, imposeCounts (.each (counts.map (Option.map Int.ofNat))) d
      (cumsum 0 (counts.map (Option.map Int.ofNat))) = ok r → r.2.2 = [0] →
      total counts = d.len ∧ r.2.1 = offsTo (sizeAt counts) counts.length ∧ r.1.Good ∧
        r.1.vals = divide counts d.vals := by
    intro d hd r hr h0
    obtain ⟨q, h1, h2, h3⟩ := main d hd
    rw [h3] at hr
    split at hr
    · simp at hr
    · rename_i hq
      have hq' : sumTo (sizeAt counts) q = d.len := Classical.not_not.mp hq
      have hqn : r.2.2 = ((offsTo (sizeAt counts) counts.length).drop q).map (· - (d.len : Int)) →
          q = counts.length := by
        intro h
        rw [h] at h0
        have := congrArg List.length h0
        simp at this
        omega
      split at hr
      · split at hr
        · simp at hr
        · simp only [ok.injEq] at hr
          subst hr
          have := hqn rfl
          subst this
          have ht : total counts = d.len := by rw [total_eq]; exact hq'
          have e : (offsTo (sizeAt counts) counts.length).take (counts.length + 1)
            = offsTo (sizeAt counts) counts.length := List.take_of_length_le (by simp)
          simp only [e]
          obtain ⟨g1, g2⟩ := masked_divide hd (Nat.le_of_eq ht)
          exact ⟨ht, trivial, g1, g2⟩
      · rename_i hany
        simp only [ok.injEq] at hr
        subst hr
        have := hqn rfl
        subst this
        have ht : total counts = d.len := by rw [total_eq]; exact hq'
        have e : (offsTo (sizeAt counts) counts.length).take (counts.length + 1)
          = offsTo (sizeAt counts) counts.length := List.take_of_length_le (by simp)
        simp only [e]
        refine ⟨ht, trivial, good_offsTo hd (by rw [← total_eq]; omega), lists_divide hd (Nat.le_of_eq ht) ?_⟩
        intro x hx hn
        exact hany (List.any_eq_true.mpr ⟨x, hx, by simp [hn]⟩)
  refine ⟨⟨?_, ?_, ?_⟩, fun d out inner hd h => (full d hd _ h rfl).1⟩
  · intro d hd
    obtain ⟨q, h1, h2, h3⟩ := main d hd
    show imposeCounts _ d (cumsum 0 _) ≠ ub
    rw [h3]
    repeat' split
    all_goals simp
  · intro d out inner hd h
    obtain ⟨h1, h2, h3, h4⟩ := full d hd _ h rfl
    exact ⟨counts, rfl, by omega, h2, h3, h4⟩
  · rintro d cs hd rfl ht
    obtain ⟨q, h1, h2, h3⟩ := main d hd
    have hq : q = cs.length := by
      have := h2 cs.length (Nat.le_refl _) (by rw [← total_eq]; omega)
      omega
    subst hq
    have e : (offsTo (sizeAt cs) cs.length).take (cs.length + 1)
      = offsTo (sizeAt cs) cs.length := List.take_of_length_le (by simp)
    have e2 : ((offsTo (sizeAt cs) cs.length).drop cs.length).map (· - (d.len : Int)) = [0] := by
      rw [List.drop_eq_getElem_cons (by simp), List.drop_of_length_le (by simp), offsTo_getElem, ← total_eq]
      simp [ht]
    have h3' : imposeCounts (.each (cs.map (Option.map Int.ofNat))) d
      (Counts.offsets (.each (cs.map (Option.map Int.ofNat)))) = _ := h3
    rw [e, e2, if_neg (by rw [← total_eq]; omega), if_neg (Nat.lt_irrefl _)] at h3'
    split at h3'
    · exact ⟨_, h3'⟩
    · exact ⟨_, h3'⟩


theorem lens_of_regular {d : Content} {m : Nat} (hd : d.Good) {i : Nat} (hi : i < (regular {} d m 0).len) :
    (regular {} d m 0).lens i = m := by
  unfold lens
  rw [valD_regular hd hi]
  simp [wrapList, Val.items]

theorem imposes_size {m : Nat} (hm : 0 < m) :
    Imposes (.size m) (fun cs => cs ≠ [] ∧ ∀ x ∈ cs, x = some m) ∧
    ∀ d : Content, d.Good → m ≤ d.len → ∃ out inner, imposeCounts (.size m) d [0] = ok (out, inner, [0]) ∧
      out.Good ∧ out.vals = divide (List.replicate (d.len / m) (some m)) d.vals := by
  have hsz : ∀ n, ∀ i, i < n → sizeAt (List.replicate n (some m)) i = m := by
    intro n i hi
    simp [sizeAt, List.getElem?_replicate, hi]
  have main : ∀ d : Content, d.Good → imposeCounts (.size m) d [0]
      = if m > d.len then err "too large counts for array or negative counts"
        else ok (regular {} d m 0,
          offsTo (sizeAt (List.replicate (d.len / m) (some m))) (d.len / m), [0]) := by
    intro d hd
    simp only [imposeCounts]
    have e : (((m : Int) < 0 ∨ (m : Int) > (d.len : Int))) ↔ m > d.len := by omega
    simp only [e]
    split
    · rfl
    · obtain ⟨offs, c', h1, h2, _⟩ := listParts_ok (c := regular {} d m 0) (good_regular.mpr hd) rfl
      rw [Int.toNat_natCast, h1, bind_ok]
      have hl : (regular {} d m 0).len = d.len / m := by simp [len]; omega
      have : offs = offsTo (sizeAt (List.replicate (d.len / m) (some m))) (d.len / m) := by
        rw [h2.offs_eq, hl]
        unfold offsTo
        apply List.map_congr_left
        intro i hi
        have hi' : i < d.len / m + 1 := by simpa using hi
        congr 1
        apply sumTo_congr
        intro j hj
        rw [hsz _ _ (by omega), lens_of_regular hd (by omega)]
      rw [this]
  have hv : ∀ d : Content, d.Good → (regular {} d m 0).vals
      = divide (List.replicate (d.len / m) (some m)) d.vals := by
    intro d hd
    have hl : (regular {} d m 0).len = d.len / m := by simp [len]; omega
    apply List.ext_getElem?
    intro i
    by_cases hi : i < d.len / m
    · have hb : (i + 1) * m ≤ d.len :=
        Nat.le_trans (Nat.mul_le_mul_right m (show i + 1 ≤ d.len / m by omega)) (Nat.div_mul_le_self _ _)
      have hs : sumTo (sizeAt (List.replicate (d.len / m) (some m))) i = i * m := by
        have : ∀ j, j ≤ i → sumTo (sizeAt (List.replicate (d.len / m) (some m))) j = j * m := by
          intro j
          induction j with
          | zero => intro _; simp
          | succ j ih => intro hj; rw [sumTo_succ, ih (by omega), hsz _ _ (by omega), Nat.succ_mul]
        exact this i (Nat.le_refl _)
      rw [vals_get? (by omega), valD_regular hd (by omega), divide_get (by simpa using hi)]
      rw [hs, hsz _ _ hi, Nat.succ_mul] at *
      rw [vals_sub (by omega)]
      simp [wrapList]
    · rw [List.getElem?_eq_none (by simp; omega),
        List.getElem?_eq_none (by rw [divide_length, List.length_replicate]; omega)]
  have ht : ∀ n, total (List.replicate n (some m)) = n * m := by
    intro n; simp [total]
  refine ⟨⟨?_, ?_, ?_⟩, ?_⟩
  · intro d hd
    show imposeCounts _ d [0] ≠ ub
    rw [main d hd]
    split <;> simp
  · intro d out inner hd h
    have h : imposeCounts (.size m) d [0] = ok (out, inner, [0]) := h
    rw [main d hd] at h
    split at h
    · simp at h
    · rename_i hlt
      simp only [ok.injEq, Prod.mk.injEq, and_true] at h
      obtain ⟨rfl, rfl⟩ := h
      refine ⟨List.replicate (d.len / m) (some m), ⟨?_, fun x hx => List.eq_of_mem_replicate hx⟩, ?_, ?_,
        good_regular.mpr hd, hv d hd⟩
      · intro h0
        have := congrArg List.length h0
        rw [List.length_replicate] at this
        have := Nat.div_pos (show m ≤ d.len by omega) hm
        simp at *
        omega
      · rw [ht]; exact Nat.div_mul_le_self _ _
      · rw [List.length_replicate]
  · rintro d cs hd ⟨hne, hall⟩ htot
    have hr : cs = List.replicate cs.length (some m) := List.eq_replicate_iff.mpr ⟨rfl, hall⟩
    have hlen : cs.length * m = d.len := by rw [← ht, ← hr]; exact htot
    have hdiv : d.len / m = cs.length := by rw [← hlen]; exact Nat.mul_div_cancel _ hm
    have hpos : 0 < cs.length := List.length_pos_iff.mpr hne
    have : m ≤ d.len := by rw [← hlen]; exact Nat.le_mul_of_pos_left m hpos
    refine ⟨regular {} d m 0, ?_⟩
    show imposeCounts _ d [0] = _
    rw [main d hd, if_neg (by omega), hdiv, ← hr]
  · intro d hd hle
    have := main d hd
    rw [if_neg (by omega)] at this
    exact ⟨_, _, this, good_regular.mpr hd, hv d hd⟩

/-- What `unflatten` must do below the first axis. -/
structure Outcome (r : R (Content × List Int)) (k : Nat) (vs : List Val) (Q : List (Option Nat) → Prop) :
    Prop where
  safe : r ≠ ub
  sound : ∀ c', r = ok (c', [0]) → c'.Good ∧ ∃ cs, Q cs ∧ Regroups k vs c'.vals cs
  complete : ∀ ys cs, Q cs → Regroups k vs ys cs → ∃ c', r = ok (c', [0])

theorem divideLists_ok {cnt : Counts} {Q : List (Option Nat) → Prop} (hi : Imposes cnt Q)
    (hq : ∀ cs, Q cs → cs = [] ∨ 0 < sizeAt cs 0) {c : Content} (h : c.Good) (hl : c.isListNode = true)
    (hp : c.params.arr ≠ .string ∧ c.params.arr ≠ .bytestring) :
    Outcome (divideLists cnt c cnt.offsets) 1 c.vals Q := by
  obtain ⟨offs, e, h1, h2, _⟩ := listParts_ok h hl
  obtain ⟨d, h3, _, h4, _, h5, h6⟩ := truncate_good h2.good h2.bound
  have hoff : offs.length - 1 = c.len := by rw [h2.offs_eq]; simp
  have run : divideLists cnt c cnt.offsets = (imposeCounts cnt d cnt.offsets >>= fun r =>
      mapR (npGet r.2.1) (offs.map (fun o => (searchRight r.2.1 o : Int) - 1)) >>= fun found =>
      if found = offs then ok (listOffset {} (offs.map (fun o => (searchRight r.2.1 o : Int) - 1)) r.1, r.2.2)
      else err "structure imposed by 'counts' does not fit") := by
    unfold divideLists
    rw [h1, bind_ok]
    dsimp only
    have : rd offs ((offs.length - 1 : Nat) : Int) = ok ((sumTo c.lens c.len : Nat) : Int) := by
      rw [h2.offs_eq, rd_offsTo_last]
    rw [this, bind_ok, h3, bind_ok]
  -- the lists of the array
  have hvals : c.vals = (chunks ((List.range c.len).map c.lens) d.vals).map .list := by
    apply List.ext_getElem?
    intro i
    by_cases hi : i < c.len
    · have := sumTo_mono (f := c.lens) (show i + 1 ≤ c.len by omega)
      rw [sumTo_succ] at this
      rw [vals_get? hi, h2.vals i hi, List.getElem?_map, chunks_get hi, vals_sub (by omega)]
      have hs : d.seg (sumTo c.lens i) (c.lens i) = e.seg (sumTo c.lens i) (c.lens i) := by
        unfold seg
        exact List.map_congr_left fun k hk => h6 _ (by have := List.mem_range.mp hk; omega)
      rw [hs]
      simp only [Option.map_some, Option.some.injEq]
      unfold wrapList
      split <;> first | rfl | (rename_i hh; simp [hh] at hp)
    · rw [List.getElem?_eq_none (by simpa using hi), List.getElem?_eq_none]
      simp only [List.length_map, chunks_length, List.length_range]
      omega
  have hflat : (chunks ((List.range c.len).map c.lens) d.vals).flatten = d.vals :=
    chunks_flatten (by rw [sum_range_map, vals_length, h5])
  -- positions
  have pos : ∀ cs, ∃ P : Nat → Nat, (∀ i, i ≤ c.len → P i ≤ cs.length ∧
      searchRight (offsTo (sizeAt cs) cs.length) (sumTo c.lens i : Nat) = P i + 1 ∧
      sumTo (sizeAt cs) (P i) ≤ sumTo c.lens i ∧
      ∀ j, j ≤ cs.length → sumTo (sizeAt cs) j ≤ sumTo c.lens i → j ≤ P i) ∧
      offs.map (fun o => (searchRight (offsTo (sizeAt cs) cs.length) o : Int) - 1)
        = (List.range (c.len + 1)).map (fun i => (P i : Int)) := by
    intro cs
    have := fun i => searchRight_offsTo (f := sizeAt cs) (n := cs.length) (sumTo c.lens i)
    choose P g1 g2 g3 g4 using this
    refine ⟨P, fun i _ => ⟨g1 i, g2 i, g3 i, g4 i⟩, ?_⟩
    rw [h2.offs_eq]
    unfold offsTo
    rw [List.map_map]
    apply List.map_congr_left
    intro i _
    have := g2 i
    unfold offsTo at this
    simp only [Function.comp]
    rw [this]
    omega
  have found : ∀ cs (P : Nat → Nat), (∀ i, i ≤ c.len → P i ≤ cs.length) →
      mapR (npGet (offsTo (sizeAt cs) cs.length)) ((List.range (c.len + 1)).map (fun i => (P i : Int)))
        = ok ((List.range (c.len + 1)).map (fun i => ((sumTo (sizeAt cs) (P i) : Nat) : Int))) := by
    intro cs P hP
    have : ∀ l : List Nat, (∀ i ∈ l, i ≤ c.len) →
        mapR (npGet (offsTo (sizeAt cs) cs.length)) (l.map (fun i => (P i : Int)))
          = ok (l.map (fun i => ((sumTo (sizeAt cs) (P i) : Nat) : Int))) := by
      intro l
      induction l with
      | nil => intro _; rfl
      | cons i l ih =>
        intro hl
        have := hP i (hl i (List.mem_cons_self ..))
        simp only [List.map_cons, mapR]
        rw [npGet_nat (by simp; omega), bind_ok, ih (fun j hj => hl j (List.mem_cons_of_mem _ hj)), bind_ok,
          offsTo_getElem]
    exact this _ (fun i hi => by have := List.mem_range.mp hi; omega)
  refine ⟨?_, ?_, ?_⟩
  · rw [run]
    cases hr : imposeCounts cnt d cnt.offsets with
    | ub => exact absurd hr (hi.safe d h4)
    | err e => simp
    | ok r =>
      rw [bind_ok]
      cases hm : mapR (npGet r.2.1) (offs.map (fun o => (searchRight r.2.1 o : Int) - 1)) with
      | ub => exact absurd hm (mapR_ne_ub fun x _ => npGet_ne_ub _ x)
      | err e => simp
      | ok f => rw [bind_ok]; split <;> simp
  · intro c' hc'
    rw [run] at hc'
    simp only [bind_eq_ok] at hc'
    obtain ⟨⟨out, inner, rest⟩, hr, fnd, hf, hc'⟩ := hc'
    dsimp only at hf hc'
    split at hc'
    case isFalse => simp at hc'
    rename_i hfo
    simp only [ok.injEq, Prod.mk.injEq] at hc'
    obtain ⟨rfl, rfl⟩ := hc'
    obtain ⟨cs, hQ, ht, rfl, hg, hv⟩ := hi.sound d out inner h4 hr
    obtain ⟨P, hP, hpos⟩ := pos cs
    rw [hpos, found cs P (fun i hi => (hP i hi).1)] at hf
    simp only [ok.injEq] at hf
    rw [← hf, h2.offs_eq] at hfo
    have align : ∀ i, i ≤ c.len → sumTo (sizeAt cs) (P i) = sumTo c.lens i := by
      intro i hi
      have := congrArg (fun l : List Int => l[i]?) hfo
      simp only [offsTo, List.getElem?_map, List.getElem?_range (show i < c.len + 1 by omega), Option.map_some,
        Option.some.injEq] at this
      omega
    have mono : ∀ i, i + 1 ≤ c.len → P i ≤ P (i + 1) := by
      intro i hi
      refine (hP (i + 1) hi).2.2.2 _ (hP i (by omega)).1 ?_
      rw [align i (by omega), sumTo_succ]
      omega
    have P0 : P 0 = 0 := by
      rcases hq cs hQ with h0 | h0
      · have := (hP 0 (by omega)).1
        rw [h0] at this
        simpa using this
      · have := align 0 (by omega)
        rcases Nat.eq_zero_or_pos (P 0) with h | h
        · exact h
        · have := sumTo_mono (f := sizeAt cs) (show 1 ≤ P 0 from h)
          rw [sumTo_succ] at this
          simp only [sumTo_zero] at *
          omega
    have htot : total cs = d.len := by
      have h7 := align c.len (Nat.le_refl _)
      have := sumTo_mono (f := sizeAt cs) (hP c.len (Nat.le_refl _)).1
      rw [total_eq] at *
      omega
    have Plast : P c.len = cs.length := by
      have h8 := (hP c.len (Nat.le_refl _)).2.2.2 cs.length (Nat.le_refl _) (by rw [← total_eq]; omega)
      have := (hP c.len (Nat.le_refl _)).1
      omega
    have hPs : ∀ i, i ≤ c.len → sumTo (fun i => P (i + 1) - P i) i = P i := by
      intro i
      induction i with
      | zero => intro _; simp [P0]
      | succ i ih =>
        intro hi
        have := mono i hi
        rw [sumTo_succ, ih (by omega)]
        omega
    have hoffs : (List.range (c.len + 1)).map (fun i => (P i : Int))
        = offsTo (fun i => P (i + 1) - P i) c.len := by
      unfold offsTo
      apply List.map_congr_left
      intro i hi
      rw [hPs i (by have := List.mem_range.mp hi; omega)]
    have hol : out.len = cs.length := by
      have := congrArg List.length hv
      rwa [vals_length, divide_length] at this
    rw [hpos, hoffs]
    have hb : sumTo (fun i => P (i + 1) - P i) c.len ≤ out.len := by
      rw [hPs _ (Nat.le_refl _), Plast, hol]
    refine ⟨good_offsTo hg hb, cs, hQ, ?_⟩
    rw [hvals, vals_offsTo hg (by simp) hb, hv]
    refine regroups_chunks (by simp) (by rw [sum_range_map, vals_length, h5])
      (by rw [sum_range_map, hPs _ (Nat.le_refl _), Plast]) (fun i => ?_)
    rw [← List.map_take, ← List.map_take, List.take_range, sum_range_map, sum_range_map,
      hPs _ (by omega), total_take cs ((hP _ (by omega)).1), align _ (by omega)]
  · intro ys cs hQ hR
    rw [hvals] at hR
    have htot := hR.total
    rw [hflat, vals_length] at htot
    obtain ⟨out, hr⟩ := hi.complete d cs h4 hQ htot
    obtain ⟨P, hP, hpos⟩ := pos cs
    rw [run, hr, bind_ok]
    dsimp only
    rw [hpos, found cs P (fun i hi => (hP i hi).1), bind_ok, if_pos]
    · exact ⟨_, rfl⟩
    · rw [h2.offs_eq]
      unfold offsTo
      apply List.map_congr_left
      intro i hi
      have hi' : i ≤ c.len := by have := List.mem_range.mp hi; omega
      obtain ⟨j, hj, hcut⟩ := hR.cut i
      have hch : ((chunks ((List.range c.len).map c.lens) d.vals).take i).flatten.length = sumTo c.lens i := by
        have : ∀ (ns : List Nat) (xs : List Val) (i : Nat), ns.sum ≤ xs.length →
            ((chunks ns xs).take i).flatten.length = (ns.take i).sum := by
          intro ns
          induction ns with
          | nil => intro xs i _; simp [chunks]
          | cons n ns ih =>
            intro xs i hs
            simp only [List.sum_cons] at hs
            cases i with
            | zero => simp
            | succ i =>
              simp only [chunks, List.take_succ_cons, List.flatten_cons, List.length_append, List.sum_cons]
              rw [ih _ _ (by simp; omega)]
              simp; omega
        rw [this _ _ _ (by rw [sum_range_map, vals_length, h5]), ← List.map_take, List.take_range, sum_range_map,
          Nat.min_eq_left hi']
      rw [hch, total_take cs hj] at hcut
      have h9 := (hP i hi').2.2.2 j hj (by omega)
      have h10 := sumTo_mono (f := sizeAt cs) h9
      have h11 := (hP i hi').2.2.1
      congr 1
      omega

theorem vals_weave {p : Params} {index : List Int} {c : Content} (h : (indexedOption p index c).Good)
    (hx : index.filter (fun j => 0 ≤ j) = (List.range c.len).map (fun (k : Nat) => (k : Int))) :
    (indexedOption p index c).vals = weave (index.map (fun j => decide (j < 0))) c.vals ∧
      (index.map (fun j => decide (j < 0))).count false = c.vals.length := by
  have h1 : (indexedOption p index c).vals
      = index.map (fun j => if j < 0 then .null else c.valD j.toNat) := by
    apply List.ext_getElem (by simp [len])
    intro i g1 g2
    have hi : i < index.length := by simpa using g2
    simp only [vals, List.getElem_map, List.getElem_range]
    exact valD_indexedOption h hi
  have key : ∀ (l : List Int) (s n : Nat), l.filter (fun j => 0 ≤ j)
      = (List.range' s n).map (fun (k : Nat) => (k : Int)) →
      l.map (fun j => if j < 0 then Val.null else c.valD j.toNat)
        = weave (l.map (fun j => decide (j < 0))) ((List.range' s n).map c.valD) ∧
      (l.map (fun j => decide (j < 0))).count false = n := by
    intro l
    induction l with
    | nil =>
      intro s n hl
      have := congrArg List.length hl
      simp at this
      subst this
      simp [weave]
    | cons j l ih =>
      intro s n hl
      by_cases hj : j < 0
      · rw [List.filter_cons_of_neg (by simpa using hj)] at hl
        obtain ⟨a, b⟩ := ih s n hl
        simp [hj, weave, a, b]
      · rw [List.filter_cons_of_pos (by simpa using hj)] at hl
        cases n with
        | zero => simp at hl
        | succ n =>
          rw [List.range'_succ, List.map_cons, List.cons.injEq] at hl
          obtain ⟨rfl, hl⟩ := hl
          obtain ⟨a, b⟩ := ih (s + 1) n hl
          refine ⟨?_, ?_⟩
          · simp only [List.map_cons, List.range'_succ, hj, if_false, decide_false, weave, Int.toNat_natCast]
            rw [a]
          · simp [hj, b]
  have := key index 0 c.len (by rw [hx, List.range_eq_range'])
  rw [h1, vals_length]
  refine ⟨?_, this.2⟩
  rw [this.1, vals, List.range_eq_range']

theorem unflattenF_ok {cnt : Counts} {Q : List (Option Nat) → Prop} (hi : Imposes cnt Q)
    (hq : ∀ cs, Q cs → cs = [] ∨ 0 < sizeAt cs 0) (ts : List (String × String)) :
    ∀ (c : Content) (k : Nat), c.Good → PackedTo (some (k + 1)) c → ListsTo (k + 1) (c.type ts) →
      Outcome (unflattenF cnt (k + 1) c cnt.offsets) (k + 1) c.vals Q := by
  intro c
  induction c using Awk.Content.induct with
  | empty p => intro k _ _ ht; cases k <;> exact ht.elim
  | numpy p dt data => intro k _ _ ht; cases k <;> exact ht.elim
  | regular p c size zeros ih =>
    intro k hg hp ht
    cases k with
    | zero =>
      simp only [unflattenF, if_true]
      exact divideLists_ok hi hq hg rfl ht
    | succ k => exact ht.elim
  | listArray p starts stops c ih => intro k _ hp _; simp [PackedTo] at hp
  | indexed p index c ih => intro k _ hp _; simp [PackedTo] at hp
  | listOffset p offsets c ih =>
    intro k hg hp ht
    cases k with
    | zero =>
      simp only [unflattenF, if_true]
      exact divideLists_ok hi hq hg rfl ⟨ht.1, ht.2.1⟩
    | succ k =>
      simp only [PackedTo, levelDown, Option.map_some, Option.some.injEq, Nat.add_eq_zero_iff, Nat.succ_ne_self,
        and_false, false_or] at hp
      obtain ⟨p1, p2, p3, p4⟩ := hp
      obtain ⟨hne, hgc, _⟩ := good_listOffset.mp hg
      have hO := ih k hgc p4 ht.2.2
      obtain ⟨f, hf⟩ := offsets_offsTo p1 p3
      have hsum : sumTo f (offsets.length - 1) = c.len := by
        rw [hf] at p2
        rw [List.getLast?_eq_getElem?] at p2
        simp only [offsTo_length, Nat.add_sub_cancel] at p2
        rw [List.getElem?_eq_getElem (by simp), offsTo_getElem, Option.some.injEq] at p2
        omega
      have hstep : unflattenF cnt (k + 2) (listOffset p offsets c) cnt.offsets
          = (unflattenF cnt (k + 1) c cnt.offsets >>= fun r => ok (listOffset p offsets r.1, r.2)) := by
        simp [unflattenF]
      have hvals := vals_offsTo (p := p) hgc ⟨ht.1, ht.2.1⟩ (Nat.le_of_eq hsum)
      rw [← hf] at hvals
      refine ⟨?_, ?_, ?_⟩
      · rw [hstep]
        cases hr : unflattenF cnt (k + 1) c cnt.offsets with
        | ub => exact absurd hr hO.safe
        | err e => simp
        | ok r => simp
      · intro c' hc'
        rw [hstep] at hc'
        simp only [bind_eq_ok, ok.injEq, Prod.mk.injEq] at hc'
        obtain ⟨⟨d, rest⟩, hr, rfl, rfl⟩ := hc'
        obtain ⟨h1, cs, h2, h3⟩ := hO.sound d hr
        have hl : d.len = c.len := by simpa using h3.length
        have hb : sumTo f (offsets.length - 1) ≤ d.len := by omega
        have hg' := good_offsTo (p := p) h1 hb
        have hv' := vals_offsTo (p := p) h1 ⟨ht.1, ht.2.1⟩ hb
        rw [← hf] at hg' hv'
        refine ⟨hg', cs, h2, ?_⟩
        rw [hv', hvals]
        exact h3.nest (by rw [sum_range_map, vals_length, hsum])
      · intro ys cs hQ hR
        rw [hvals] at hR
        obtain ⟨zs, hz⟩ := hR.unnest
        rw [chunks_flatten (by rw [sum_range_map, vals_length, hsum])] at hz
        obtain ⟨c', hc'⟩ := hO.complete zs cs hQ hz
        exact ⟨listOffset p offsets c', by rw [hstep, hc', bind_ok]⟩
  | indexedOption p index c ih =>
    intro k hg hp ht
    simp only [PackedTo, Option.some.injEq, Nat.add_eq_zero_iff, Nat.succ_ne_self, and_false, false_or] at hp
    obtain ⟨p1, p2, p3⟩ := hp
    obtain ⟨hgc, hb⟩ := good_indexedOption.mp hg
    have ht' : ListsTo (k + 1) (c.type ts) := by cases k <;> exact ht
    have hO := ih k hgc p3 ht'
    obtain ⟨w1, w2⟩ := vals_weave hg p2
    have hstep : unflattenF cnt (k + 1) (indexedOption p index c) cnt.offsets
        = (unflattenF cnt (k + 1) c cnt.offsets >>= fun r => ok (indexedOption p index r.1, r.2)) := by
      simp [unflattenF]
    refine ⟨?_, ?_, ?_⟩
    · rw [hstep]
      cases hr : unflattenF cnt (k + 1) c cnt.offsets with
      | ub => exact absurd hr hO.safe
      | err e => simp
      | ok r => simp
    · intro c' hc'
      rw [hstep] at hc'
      simp only [bind_eq_ok, ok.injEq, Prod.mk.injEq] at hc'
      obtain ⟨⟨d, rest⟩, hr, rfl, rfl⟩ := hc'
      obtain ⟨h1, cs, h2, h3⟩ := hO.sound d hr
      have hl : d.len = c.len := by simpa using h3.length
      have hg' : (indexedOption p index d).Good :=
        good_indexedOption.mpr ⟨h1, fun i hi => by rw [hl]; exact hb i hi⟩
      refine ⟨hg', cs, h2, ?_⟩
      rw [(vals_weave hg' (by rw [hl]; exact p2)).1, w1]
      exact h3.weave w2
    · intro ys cs hQ hR
      rw [w1] at hR
      obtain ⟨zs, hz⟩ := hR.unweave w2
      obtain ⟨c', hc'⟩ := hO.complete zs cs hQ hz
      exact ⟨indexedOption p index c', by rw [hstep, hc', bind_ok]⟩
  | byteMasked p mask vw c ih =>
    intro k hg hp ht
    simp only [PackedTo, Option.some.injEq, Nat.add_eq_zero_iff, Nat.succ_ne_self, and_false, false_or] at hp
    obtain ⟨_, _, _, _, _, rfl⟩ := hp
    cases k <;> exact ht.elim
  | bitMasked p mask vw length lsb c ih =>
    intro k hg hp ht
    simp only [PackedTo, Option.some.injEq, Nat.add_eq_zero_iff, Nat.succ_ne_self, and_false, false_or] at hp
    obtain ⟨_, _, _, _, _, rfl⟩ := hp
    cases k <;> exact ht.elim
  | unmasked p c ih =>
    intro k hg hp ht
    simp only [PackedTo, Option.some.injEq, Nat.add_eq_zero_iff, Nat.succ_ne_self, and_false, false_or] at hp
    have ht' : ListsTo (k + 1) (c.type ts) := by cases k <;> exact ht
    have hO := ih k (good_unmasked.mp hg) hp ht'
    have hv : ∀ d : Content, d.Good → (unmasked p d).vals = d.vals := by
      intro d hd
      apply List.ext_getElem (by simp [len])
      intro i g1 g2
      simp only [vals, List.getElem_map, List.getElem_range]
      exact valD_unmasked i
    have hstep : unflattenF cnt (k + 1) (unmasked p c) cnt.offsets
        = (unflattenF cnt (k + 1) c cnt.offsets >>= fun r => ok (unmasked p r.1, r.2)) := by
      simp [unflattenF]
    refine ⟨?_, ?_, ?_⟩
    · rw [hstep]
      cases hr : unflattenF cnt (k + 1) c cnt.offsets with
      | ub => exact absurd hr hO.safe
      | err e => simp
      | ok r => simp
    · intro c' hc'
      rw [hstep] at hc'
      simp only [bind_eq_ok, ok.injEq, Prod.mk.injEq] at hc'
      obtain ⟨⟨d, rest⟩, hr, rfl, rfl⟩ := hc'
      obtain ⟨h1, cs, h2, h3⟩ := hO.sound d hr
      exact ⟨good_unmasked.mpr h1, cs, h2, by rw [hv d h1, hv c (good_unmasked.mp hg)]; exact h3⟩
    · intro ys cs hQ hR
      rw [hv c (good_unmasked.mp hg)] at hR
      obtain ⟨c', hc'⟩ := hO.complete ys cs hQ hR
      exact ⟨unmasked p c', by rw [hstep, hc', bind_ok]⟩
  | record p keys cs length ih => intro k _ _ ht; cases k <;> exact ht.elim
  | union p tags index cs ih => intro k _ hp _; simp [PackedTo] at hp

end Content
end Awk
