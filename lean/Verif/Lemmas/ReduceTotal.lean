import Verif.Lemmas.ReduceLeaf
import Mathlib.Algebra.BigOperators.Group.List.Basic
import Mathlib.Data.Rat.Defs
import Mathlib.Data.List.Fold
import Mathlib.Algebra.Order.Ring.Rat
/-
The accumulators of the kernels compute the totals of the specification.
-/

namespace Awk
open R

/-- The three kinds of items. -/
theorem Spec.OfType.cases {dt : DType} {xs : List Atom} (h : ∀ x ∈ xs, Spec.OfType dt x) :
    (dt = .bool ∧ ∃ ys : List Bool, xs = ys.map .bool) ∨
    (dt ≠ .bool ∧ dt.isFloat = false ∧ ∃ ys : List Int, xs = ys.map .int) ∨
    (dt ≠ .bool ∧ dt.isFloat = true ∧ ∃ ys : List Rat, xs = ys.map .real) ∨ xs = [] := by
  induction xs with
  | nil => simp
  | cons x xs ih =>
    have h1 := ih (fun y hy => h y (List.mem_cons_of_mem _ hy))
    have h2 := h x List.mem_cons_self
    cases x <;> simp only [Spec.OfType] at h2
    case bool b =>
      left
      refine ⟨h2, ?_⟩
      rcases h1 with ⟨_, ys, rfl⟩ | ⟨h, _⟩ | ⟨h, _⟩ | rfl
      · exact ⟨b :: ys, rfl⟩
      · exact absurd h2 h
      · exact absurd h2 h
      · exact ⟨[b], rfl⟩
    case int i =>
      right; left
      have hb : dt ≠ .bool := by rintro rfl; simp at h2
      have hf : dt.isFloat = false := by
        rcases h2 with h2 | h2 | h2 | h2 | h2 | h2 | h2 | h2 <;> subst h2 <;> rfl
      refine ⟨hb, hf, ?_⟩
      rcases h1 with ⟨h, _⟩ | ⟨_, _, ys, rfl⟩ | ⟨_, h, _⟩ | rfl
      · exact absurd h hb
      · exact ⟨i :: ys, rfl⟩
      · rw [hf] at h; simp at h
      · exact ⟨[i], rfl⟩
    case real q =>
      right; right; left
      have hb : dt ≠ .bool := by rintro rfl; simp at h2
      have hf : dt.isFloat = true := by rcases h2 with h2 | h2 <;> subst h2 <;> rfl
      refine ⟨hb, hf, ?_⟩
      rcases h1 with ⟨h, _⟩ | ⟨_, h, _⟩ | ⟨_, _, ys, rfl⟩ | rfl
      · exact absurd h hb
      · rw [hf] at h; simp at h
      · exact ⟨q :: ys, rfl⟩
      · exact ⟨[q], rfl⟩

theorem foldl_mul_one {α : Type} [CommMonoid α] (xs : List α) (a : α) :
    xs.foldl (· * ·) a = a * xs.prod := by
  induction xs generalizing a with
  | nil => simp
  | cons x xs ih => rw [List.foldl_cons, ih, List.prod_cons, mul_assoc]

theorem foldl_add_zero {α : Type} [AddCommMonoid α] (xs : List α) (a : α) :
    xs.foldl (· + ·) a = a + xs.sum := by
  induction xs generalizing a with
  | nil => simp
  | cons x xs ih => rw [List.foldl_cons, ih, List.sum_cons, add_assoc]

theorem toInt_eq (x : Atom) : x.toInt = Spec.intOf x := by
  cases x <;> simp only [Atom.toInt, Spec.intOf]
  case bool b => cases b <;> rfl

theorem toReal_eq (x : Atom) : x.toReal = Spec.realOf x := by
  cases x <;> rfl

theorem nonzero_eq {dt : DType} {x : Atom} (h : Spec.OfType dt x) : x.nonzero = Spec.truth x := by
  cases x <;> simp only [Spec.OfType] at h <;> simp only [Atom.nonzero, Spec.truth]
  case int i => by_cases h : i = 0 <;> simp [h]
  case real i => by_cases h : i = 0 <;> simp [h]

theorem lt_eq (x y : Atom) : x.lt y = Spec.less x y := by
  cases x <;> cases y <;> rfl

theorem isFloat_eq (dt : DType) : decide (dt = .float32 ∨ dt = .float64) = dt.isFloat := by
  cases dt <;> rfl

theorem foldl_bool_and (xs : List Atom) (b : Bool) (f : Atom → Bool) :
    xs.foldl (fun acc x => Atom.bool (acc.nonzero && f x)) (Atom.bool b) = Atom.bool (b && xs.all f) := by
  induction xs generalizing b with
  | nil => simp
  | cons x xs ih =>
    rw [List.foldl_cons, show (Atom.bool b).nonzero = b from rfl, ih, List.all_cons, Bool.and_assoc]

theorem foldl_bool_or (xs : List Atom) (b : Bool) (f : Atom → Bool) :
    xs.foldl (fun acc x => Atom.bool (acc.nonzero || f x)) (Atom.bool b) = Atom.bool (b || xs.any f) := by
  induction xs generalizing b with
  | nil => simp
  | cons x xs ih =>
    rw [List.foldl_cons, show (Atom.bool b).nonzero = b from rfl, ih, List.any_cons, Bool.or_assoc]

theorem foldl_int (xs : List Atom) (i : Int) (f : Int → Atom → Int) :
    xs.foldl (fun acc x => Atom.int (f acc.toInt x)) (Atom.int i) = Atom.int (xs.foldl f i) := by
  induction xs generalizing i with
  | nil => rfl
  | cons x xs ih => rw [List.foldl_cons, List.foldl_cons, ← ih]; rfl

theorem foldl_real (xs : List Atom) (i : Rat) (f : Rat → Atom → Rat) :
    xs.foldl (fun acc x => Atom.real (f acc.toReal x)) (Atom.real i) = Atom.real (xs.foldl f i) := by
  induction xs generalizing i with
  | nil => rfl
  | cons x xs ih => rw [List.foldl_cons, List.foldl_cons, ← ih]; rfl

theorem foldl_congr_mem {f f' : α → β → α} {xs : List β} {a : α}
    (h : ∀ a x, x ∈ xs → f a x = f' a x) : xs.foldl f a = xs.foldl f' a := by
  induction xs generalizing a with
  | nil => rfl
  | cons x xs ih =>
    rw [List.foldl_cons, List.foldl_cons, h a x List.mem_cons_self]
    exact ih (fun a y hy => h a y (List.mem_cons_of_mem _ hy))

theorem all_congr_mem {f f' : α → Bool} {xs : List α} (h : ∀ x ∈ xs, f x = f' x) :
    xs.all f = xs.all f' := by
  induction xs with
  | nil => rfl
  | cons x xs ih =>
    rw [List.all_cons, List.all_cons, h x List.mem_cons_self,
      ih (fun y hy => h y (List.mem_cons_of_mem _ hy))]

theorem any_congr_mem {f f' : α → Bool} {xs : List α} (h : ∀ x ∈ xs, f x = f' x) :
    xs.any f = xs.any f' := by
  induction xs with
  | nil => rfl
  | cons x xs ih =>
    rw [List.any_cons, List.any_cons, h x List.mem_cons_self,
      ih (fun y hy => h y (List.mem_cons_of_mem _ hy))]

theorem foldl_count (xs : List Atom) (f : Atom → Bool) (i : Int) :
    xs.foldl (fun acc x => acc + (Atom.bool (f x)).toInt) i = i + xs.countP f := by
  induction xs generalizing i with
  | nil => simp
  | cons x xs ih =>
    rw [List.foldl_cons, ih, List.countP_cons]
    cases f x <;> simp [Atom.toInt] <;> omega

theorem foldl_length (xs : List Atom) (i : Int) :
    xs.foldl (fun acc _ => acc + 1) i = i + xs.length := by
  induction xs generalizing i with
  | nil => simp
  | cons x xs ih => rw [List.foldl_cons, ih]; push_cast [List.length_cons]; omega

theorem foldl_min_lin {β : Type} [LinearOrder β] (c : β → Atom)
    (hl : ∀ a b, Spec.less (c a) (c b) = decide (a < b)) (ys : List β) (i : β) :
    (ys.map c).foldl (fun acc x => if Spec.less x acc then x else acc) (c i)
      = (ys.map c).foldr Spec.minOf (c i) := by
  have h1 : ∀ i, (ys.map c).foldl (fun acc x => if Spec.less x acc then x else acc) (c i)
      = c (ys.foldl min i) := by
    induction ys with
    | nil => intro i; rfl
    | cons y ys ih =>
      intro i
      rw [List.map_cons, List.foldl_cons, List.foldl_cons, hl]
      by_cases h : y < i
      · simp only [h, decide_true, if_true]
        rw [ih, min_eq_right (le_of_lt h)]
      · simp only [h, decide_false, Bool.false_eq_true, if_false]
        rw [ih, min_eq_left (not_lt.mp h)]
  have h2 : (ys.map c).foldr Spec.minOf (c i) = c (ys.foldr min i) := by
    clear h1
    induction ys with
    | nil => rfl
    | cons y ys ih =>
      rw [List.map_cons, List.foldr_cons, List.foldr_cons, ih, Spec.minOf, hl]
      by_cases h : y < ys.foldr min i
      · simp only [h, decide_true, if_true]
        rw [min_eq_left (le_of_lt h)]
      · simp only [h, decide_false, Bool.false_eq_true, if_false]
        rw [min_eq_right (not_lt.mp h)]
  rw [h1, h2, List.foldl_eq_foldr]

theorem foldl_max_lin {β : Type} [LinearOrder β] (c : β → Atom)
    (hl : ∀ a b, Spec.less (c a) (c b) = decide (a < b)) (ys : List β) (i : β) :
    (ys.map c).foldl (fun acc x => if Spec.less acc x then x else acc) (c i)
      = (ys.map c).foldr Spec.maxOf (c i) := by
  have h1 : ∀ i, (ys.map c).foldl (fun acc x => if Spec.less acc x then x else acc) (c i)
      = c (ys.foldl max i) := by
    induction ys with
    | nil => intro i; rfl
    | cons y ys ih =>
      intro i
      rw [List.map_cons, List.foldl_cons, List.foldl_cons, hl]
      by_cases h : i < y
      · simp only [h, decide_true, if_true]
        rw [ih, max_eq_right (le_of_lt h)]
      · simp only [h, decide_false, Bool.false_eq_true, if_false]
        rw [ih, max_eq_left (not_lt.mp h)]
  have h2 : (ys.map c).foldr Spec.maxOf (c i) = c (ys.foldr max i) := by
    clear h1
    induction ys with
    | nil => rfl
    | cons y ys ih =>
      rw [List.map_cons, List.foldr_cons, List.foldr_cons, ih, Spec.maxOf, hl]
      by_cases h : ys.foldr max i < y
      · simp only [h, decide_true, if_true]
        rw [max_eq_left (le_of_lt h)]
      · simp only [h, decide_false, Bool.false_eq_true, if_false]
        rw [max_eq_right (not_lt.mp h)]
  rw [h1, h2, List.foldl_eq_foldr]

theorem total_ok {red : Reducer} {dt : DType} {xs : List Atom} (hk : ∀ x ∈ xs, Spec.OfType dt x)
    (hi : red.identityOk dt) (hp : red.returnsPositions = false) :
    xs.foldl (fun acc x => red.step dt acc x) (red.init dt) = Spec.total red dt xs := by
  cases red <;> simp only [Reducer.returnsPositions, Bool.true_eq_false] at hp <;>
    simp only [Reducer.step, Reducer.init, Spec.total, isFloat_eq]
  case count =>
    rw [foldl_int xs 0 (fun a _ => a + 1), foldl_length]; simp
  case countNonzero =>
    rw [foldl_int xs 0 (fun a x => a + (Atom.bool x.nonzero).toInt),
      foldl_congr_mem (f' := fun a x => a + (Atom.bool (Spec.truth x)).toInt)
        (fun a x hx => by rw [nonzero_eq (hk x hx)]), foldl_count]
    simp
  case sum =>
    split
    · rw [foldl_real xs 0 (fun a x => a + x.toReal), ← List.foldl_map (f := Atom.toReal) (g := (· + ·)),
        foldl_add_zero, zero_add, funext toReal_eq]
    · rw [foldl_int xs 0 (fun a x => a + x.toInt), ← List.foldl_map (f := Atom.toInt) (g := (· + ·)),
        foldl_add_zero, zero_add, funext toInt_eq]
  case prod =>
    split
    · rw [foldl_real xs 1 (fun a x => a * x.toReal), ← List.foldl_map (f := Atom.toReal) (g := (· * ·)),
        foldl_mul_one, one_mul, funext toReal_eq]
    · rw [foldl_int xs 1 (fun a x => a * x.toInt), ← List.foldl_map (f := Atom.toInt) (g := (· * ·)),
        foldl_mul_one, one_mul, funext toInt_eq]
  case any =>
    rw [foldl_bool_or, Bool.false_or, any_congr_mem (fun x hx => nonzero_eq (hk x hx))]
  case all =>
    rw [foldl_bool_and, Bool.true_and, all_congr_mem (fun x hx => nonzero_eq (hk x hx))]
  case min i =>
    by_cases hb : dt = .bool
    · simp only [hb, if_true]
      rw [foldl_bool_and, Bool.true_and, all_congr_mem (fun x hx => nonzero_eq (hk x hx))]
    · simp only [hb, if_false, lt_eq]
      simp only [Reducer.identityOk] at hi
      obtain h | h | h | h := Spec.OfType.cases (dt := dt) (xs := i :: xs) (by
        intro x hx
        cases hx with
        | head => exact hi
        | tail _ hx => exact hk x hx)
      · exact absurd h.1 hb
      · obtain ⟨_, _, ys, hy⟩ := h
        cases ys with
        | nil => simp at hy
        | cons y ys =>
          simp only [List.map_cons, List.cons.injEq] at hy
          obtain ⟨rfl, rfl⟩ := hy
          exact foldl_min_lin Atom.int (fun _ _ => rfl) ys y
      · obtain ⟨_, _, ys, hy⟩ := h
        cases ys with
        | nil => simp at hy
        | cons y ys =>
          simp only [List.map_cons, List.cons.injEq] at hy
          obtain ⟨rfl, rfl⟩ := hy
          exact foldl_min_lin Atom.real (fun _ _ => rfl) ys y
      · simp at h
  case max i =>
    by_cases hb : dt = .bool
    · simp only [hb, if_true]
      rw [foldl_bool_or, Bool.false_or, any_congr_mem (fun x hx => nonzero_eq (hk x hx))]
    · simp only [hb, if_false, lt_eq]
      simp only [Reducer.identityOk] at hi
      obtain h | h | h | h := Spec.OfType.cases (dt := dt) (xs := i :: xs) (by
        intro x hx
        cases hx with
        | head => exact hi
        | tail _ hx => exact hk x hx)
      · exact absurd h.1 hb
      · obtain ⟨_, _, ys, hy⟩ := h
        cases ys with
        | nil => simp at hy
        | cons y ys =>
          simp only [List.map_cons, List.cons.injEq] at hy
          obtain ⟨rfl, rfl⟩ := hy
          exact foldl_max_lin Atom.int (fun _ _ => rfl) ys y
      · obtain ⟨_, _, ys, hy⟩ := h
        cases ys with
        | nil => simp at hy
        | cons y ys =>
          simp only [List.map_cons, List.cons.injEq] at hy
          obtain ⟨rfl, rfl⟩ := hy
          exact foldl_max_lin Atom.real (fun _ _ => rfl) ys y
      · simp at h

/-! ### Positions -/

/-- The items that are not None, with their positions. -/
def ipresent (vals : List Val) : List (Nat × Atom) :=
  (List.range vals.length).filterMap (fun i : Nat => match (vals[i]? : Option Val) with
    | some (.atom a) => some (i, a)
    | _ => none)

theorem mem_ipresent {vals : List Val} {i : Nat} {a : Atom} :
    (i, a) ∈ ipresent vals ↔ vals[i]? = some (.atom a) := by
  unfold ipresent
  rw [List.mem_filterMap]
  constructor
  · rintro ⟨k, _, h⟩
    split at h
    · simp only [Option.some.injEq, Prod.mk.injEq] at h
      obtain ⟨rfl, rfl⟩ := h; assumption
    · simp at h
  · intro h
    refine ⟨i, ?_, by rw [h]⟩
    rw [List.mem_range]
    exact (List.getElem?_eq_some_iff.mp h).1

theorem ipresent_cons (v : Val) (vals : List Val) :
    ipresent (v :: vals) = (match v with | .atom a => [(0, a)] | _ => [])
      ++ (ipresent vals).map (fun x => (x.1 + 1, x.2)) := by
  unfold ipresent
  rw [List.length_cons, List.range_succ_eq_map, List.filterMap_cons]
  simp only [List.getElem?_cons_zero, List.filterMap_map, List.map_filterMap]
  have h : ((fun i : Nat => match ((v :: vals)[i]? : Option Val) with
      | some (.atom a) => some (i, a)
      | _ => none) ∘ Nat.succ) = (fun i : Nat => Option.map (fun x : Nat × Atom => (x.1 + 1, x.2))
        (match (vals[i]? : Option Val) with
        | some (.atom a) => some (i, a)
        | _ => none)) := by
    funext i
    simp only [Function.comp, Nat.succ_eq_add_one, List.getElem?_cons_succ]
    split <;> simp
  rw [h]
  cases v <;> simp

theorem ipresent_snd (vals : List Val) : (ipresent vals).map (·.2) = Spec.present vals := by
  induction vals with
  | nil => rfl
  | cons v vals ih =>
    rw [ipresent_cons, List.map_append, List.map_map]
    unfold Spec.present at ih ⊢
    rw [List.filterMap_cons, ← ih]
    cases v <;> simp [Function.comp_def]

/-- Positions increase. -/
theorem ipresent_sorted (vals : List Val) : (ipresent vals).Pairwise (fun x y => x.1 < y.1) := by
  unfold ipresent
  rw [List.pairwise_filterMap]
  refine List.Pairwise.imp ?_ List.pairwise_lt_range
  intro a b hab x hx y hy
  split at hx <;> simp at hx
  split at hy <;> simp at hy
  subst hx; subst hy
  exact hab

/-- A strict weak order on the items. -/
structure Strict (better : Atom → Atom → Bool) (S : Atom → Prop) : Prop where
  irrefl : ∀ x, S x → better x x = false
  trans : ∀ x y z, S x → S y → S z → better x y = true → better y z = true → better x z = true
  neg : ∀ x y z, S x → S y → S z → better x z = true → better x y = true ∨ better y z = true

theorem Strict.swap {better : Atom → Atom → Bool} {S : Atom → Prop} (h : Strict better S) :
    Strict (fun x y => better y x) S where
  irrefl := h.irrefl
  trans x y z hx hy hz h1 h2 := h.trans z y x hz hy hx h2 h1
  neg x y z hx hy hz h1 := (h.neg z y x hz hy hx h1).symm

theorem less_strict (dt : DType) : Strict Spec.less (Spec.OfType dt) where
  irrefl x hx := by cases x <;> simp [Spec.less]
  trans x y z hx hy hz := by
    cases x <;> cases y <;> cases z <;> simp only [Spec.less, Bool.false_eq_true, false_imp_iff,
      imp_false, implies_true, decide_eq_true_eq, not_false_eq_true]
    case bool.bool.bool a b c => cases a <;> cases b <;> cases c <;> simp
    case int.int.int a b c => omega
    case real.real.real a b c => exact fun h1 h2 => lt_trans h1 h2
  neg x y z hx hy hz := by
    cases x <;> cases y <;> cases z <;> simp only [Spec.less, Bool.false_eq_true, false_imp_iff,
      decide_eq_true_eq, or_false, false_or]
    case bool.bool.bool a b c => cases a <;> cases b <;> cases c <;> simp
    case int.int.int a b c => omega
    case real.real.real a b c =>
      intro h
      by_cases hb : a < b
      · exact .inl hb
      · exact .inr (lt_of_le_of_lt (not_lt.mp hb) h)
    all_goals try simp only [Spec.OfType] at hx hy hz
    all_goals
      first
        | (subst hx; simp at hy)
        | (subst hy; simp at hx)
        | (rcases hx with rfl | rfl | rfl | rfl | rfl | rfl | rfl | rfl <;> simp at hy)
        | (rcases hx with rfl | rfl <;> simp at hy)

/-- The accumulator of the kernels, on items with their positions. -/
def bestPair (better : Atom → Atom → Bool) (L : List (Nat × Atom)) : Option (Nat × Atom) :=
  L.foldl (fun best x => match best with
    | none => some x
    | some b => if better x.2 b.2 then some x else some b) none

theorem bestPair_append (better : Atom → Atom → Bool) (L : List (Nat × Atom)) (x : Nat × Atom) :
    bestPair better (L ++ [x]) = match bestPair better L with
      | none => some x
      | some b => if better x.2 b.2 then some x else some b := by
  simp [bestPair]

theorem bestIn_map (better : Atom → Atom → Bool) (pos : Nat → Nat) (v : Nat → Atom) (L : List Nat) :
    (bestIn better v L).map (fun i => (pos i, v i)) = bestPair better (L.map (fun i => (pos i, v i))) := by
  suffices hs : ∀ L : List Nat, (bestIn better v L.reverse).map (fun i => (pos i, v i))
      = bestPair better (L.reverse.map (fun i => (pos i, v i))) by
    have := hs L.reverse
    rwa [List.reverse_reverse] at this
  intro L
  induction L with
  | nil => rfl
  | cons i L ih =>
    rw [List.reverse_cons, bestIn_append, List.map_append, List.map_singleton, bestPair_append, ← ih]
    cases bestIn better v L.reverse with
    | none => rfl
    | some b =>
      simp only [Option.map_some]
      split <;> rfl

/-- The kept item is the first one that none beats. -/
theorem bestPair_spec {better : Atom → Atom → Bool} {S : Atom → Prop} (hS : Strict better S)
    {L : List (Nat × Atom)} (hL : ∀ x ∈ L, S x.2) :
    (bestPair better L = none → L = []) ∧ ∀ b, bestPair better L = some b →
      ∃ l₁ l₂, L = l₁ ++ b :: l₂ ∧ (∀ y ∈ L, better y.2 b.2 = false) ∧
        ∀ y ∈ l₁, better b.2 y.2 = true := by
  suffices hs : ∀ L : List (Nat × Atom), (∀ x ∈ L, S x.2) →
      (bestPair better L.reverse = none → L = []) ∧ ∀ b, bestPair better L.reverse = some b →
      ∃ l₁ l₂, L.reverse = l₁ ++ b :: l₂ ∧ (∀ y ∈ L.reverse, better y.2 b.2 = false) ∧
        ∀ y ∈ l₁, better b.2 y.2 = true by
    have := hs L.reverse (by simpa using hL)
    rw [List.reverse_reverse] at this
    exact ⟨fun h => by simpa using this.1 h, this.2⟩
  clear hL L
  intro L
  induction L with
  | nil => intro _; exact ⟨fun _ => rfl, fun b h => by simp [bestPair] at h⟩
  | cons x L ih =>
    intro hL
    obtain ⟨h1, h2⟩ := ih (fun y hy => hL y (List.mem_cons_of_mem _ hy))
    have hx : S x.2 := hL x List.mem_cons_self
    rw [List.reverse_cons, bestPair_append]
    constructor
    · intro h
      cases hb : bestPair better L.reverse with
      | none => rw [hb] at h; simp at h
      | some b => rw [hb] at h; simp only at h; split at h <;> simp at h
    · intro b h
      cases hb : bestPair better L.reverse with
      | none =>
        rw [hb] at h
        simp only [Option.some.injEq] at h; subst h
        have := h1 hb; subst this
        refine ⟨[], [], by simp, ?_, by simp⟩
        intro y hy
        simp at hy; subst hy
        exact hS.irrefl _ hx
      | some b' =>
        rw [hb] at h
        obtain ⟨l₁, l₂, e1, e2, e3⟩ := h2 b' hb
        have hb' : S b'.2 := hL b' (List.mem_cons_of_mem _ (List.mem_reverse.mp (by rw [e1]; simp)))
        simp only at h
        split at h
        · rename_i hxb
          simp only [Option.some.injEq] at h; subst h
          refine ⟨L.reverse, [], by simp, ?_, ?_⟩
          · intro y hy
            rw [List.mem_append, List.mem_singleton] at hy
            rcases hy with hy | rfl
            · have hyS : S y.2 := hL y (List.mem_cons_of_mem _ (List.mem_reverse.mp hy))
              by_contra hc
              have := hS.trans _ _ _ hyS hx hb' (by simpa using hc) hxb
              rw [e2 y hy] at this; simp at this
            · exact hS.irrefl _ hx
          · intro y hy
            have hyS : S y.2 := hL y (List.mem_cons_of_mem _ (List.mem_reverse.mp hy))
            rcases hS.neg _ y.2 _ hx hyS hb' hxb with h | h
            · exact h
            · rw [e2 y hy] at h; simp at h
        · rename_i hxb
          simp only [Option.some.injEq] at h; subst h
          refine ⟨l₁, l₂ ++ [x], by rw [e1]; simp, ?_, e3⟩
          intro y hy
          rw [List.mem_append, List.mem_singleton] at hy
          rcases hy with hy | rfl
          · exact e2 y hy
          · simpa using hxb

theorem firstBest_eq {better : Atom → Atom → Bool} {S : Atom → Prop} (hS : Strict better S)
    {vals : List Val} (hv : ∀ x ∈ Spec.present vals, S x) :
    Spec.firstBest better vals = (bestPair better (ipresent vals)).map (·.1) := by
  have hp : ∀ x ∈ ipresent vals, S x.2 := by
    intro x hx
    exact hv _ (by rw [← ipresent_snd]; exact List.mem_map_of_mem hx)
  obtain ⟨h1, h2⟩ := bestPair_spec hS hp
  unfold Spec.firstBest
  cases hb : bestPair better (ipresent vals) with
  | none =>
    have he := h1 hb
    rw [Option.map_none, List.find?_eq_none]
    intro i hi
    split
    · rename_i x hx
      have := mem_ipresent.mpr hx
      rw [he] at this; simp at this
    · simp
  | some b =>
    obtain ⟨l₁, l₂, e1, e2, e3⟩ := h2 b hb
    have hbm : b ∈ ipresent vals := by rw [e1]; simp
    have hbv : vals[b.1]? = some (.atom b.2) := mem_ipresent.mp hbm
    have hlt : b.1 < vals.length := (List.getElem?_eq_some_iff.mp hbv).1
    rw [Option.map_some, List.find?_range_eq_some]
    refine ⟨?_, List.mem_range.mpr hlt, ?_⟩
    · rw [hbv]
      simp only
      rw [List.all_eq_true]
      intro y hy
      rw [← ipresent_snd] at hy
      obtain ⟨z, hz, rfl⟩ := List.mem_map.mp hy
      rw [e2 z hz]; rfl
    · intro j hj
      split
      · rename_i x hx
        rw [Bool.not_eq_true', List.all_eq_false]
        have hm := mem_ipresent.mpr hx
        have hbx : better b.2 x = true := by
          have hsort := ipresent_sorted vals
          rw [e1] at hm hsort
          rw [List.mem_append, List.mem_cons] at hm
          rcases hm with hm | rfl | hm
          · exact e3 _ hm
          · simp at hj
          · have := (List.pairwise_append.mp hsort).2.1
            have := (List.pairwise_cons.mp this).1 _ hm
            simp only at this; omega
        refine ⟨b.2, ?_, by rw [hbx]; simp⟩
        rw [← ipresent_snd]
        exact List.mem_map_of_mem hbm
      · rfl

/-! ### The leaf -/

namespace Content

theorem reduceLeaf_ok {red : Reducer} {mask : Bool} {starts shifts : List Int} {dt : DType}
    {g pos : Nat → Nat} {data : Nat → Atom} {n out : Nat} {V : Nat → List Val}
    (hdt : dt.reducible = true) (hid : red.identityOk dt) (hg : ∀ i, i < n → g i < out)
    (hk : ∀ i, i < n → Spec.OfType dt (data i))
    (hV : ∀ p, p < out → grp g (fun j => (pos j, data j)) n p = ipresent (V p))
    (hpos : red.returnsPositions = true → out ≤ starts.length ∧
      (shifts.length = 0 ∨ shifts.length = n) ∧
      ∀ j, j < n → (j : Int) + (shiftAt shifts j - starts[g j]?.getD 0) = (pos j : Int)) :
    ∃ o, reduceLeaf red mask starts shifts (nats g n) out dt ((List.range n).map data) = ok o ∧
      o.len = out ∧ o.Good ∧ o.params = {} ∧
      (∀ p, p < out → o.valD p = Spec.reduceList red mask dt (V p)) ∧ o.isListNode = false := by
  -- one result for the buffer of values
  have hgV : ∀ p, p < out → grp g data n p = Spec.present (V p) := by
    intro p hp
    rw [← ipresent_snd, ← hV p hp]
    simp [grp, Function.comp_def]
  have hkV : ∀ p, p < out → ∀ x ∈ Spec.present (V p), Spec.OfType dt x := by
    intro p hp x hx
    rw [← hgV p hp] at hx
    simp only [grp, List.mem_map, List.mem_filter, List.mem_range] at hx
    obtain ⟨i, ⟨h1, _⟩, rfl⟩ := hx
    exact hk i h1
  have hemp : ∀ p, p < out → (grp g id n p).isEmpty = (Spec.present (V p)).isEmpty := by
    intro p hp
    rw [← hgV p hp]
    simp [grp]
  let res : Nat → Atom := fun p => match red with
    | .argmin => .int (optInt (Spec.firstBest Spec.less (V p)))
    | .argmax => .int (optInt (Spec.firstBest (fun x y => Spec.less y x) (V p)))
    | red => Spec.total red dt (Spec.present (V p))
  have hnone : ∀ (better : Atom → Atom → Bool), Strict better (Spec.OfType dt) → ∀ p, p < out →
      (Spec.firstBest better (V p) = none ↔ (Spec.present (V p)).isEmpty = true) := by
    intro better hS p hp
    rw [firstBest_eq hS (hkV p hp), Option.map_eq_none_iff, ← ipresent_snd, List.isEmpty_map,
      List.isEmpty_iff]
    refine ⟨(bestPair_spec hS ?_).1, fun h => by rw [h]; rfl⟩
    intro x hx
    exact hkV p hp _ (by rw [← ipresent_snd]; exact List.mem_map_of_mem hx)
  have hstr : Strict (fun x y => red.better x y) (Spec.OfType dt) → red.returnsPositions = true →
      (reduceArgKernel (fun x y => red.better x y) (alloc (out : Nat)) ((List.range n).map data)
        (nats g n) (nats g n).length out >>= fun ptr =>
      NumpyArray_reduce_adjust_starts ptr out (nats g n) starts shifts >>= fun ptr =>
      ok (ptr.map Atom.int)) = ok ((List.range out).map (fun p =>
        .int (optInt (Spec.firstBest (fun x y => red.better x y) (V p))))) := by
    intro hS hr
    obtain ⟨hs1, hs2, hs3⟩ := hpos hr
    rw [nats_length, reduceArgKernel_ok (alloc_length _) hg, bind_ok, adjust_starts_ok ?_ hs1 hs2,
      bind_ok, List.map_map]
    · congr 1
      apply map_range_congr
      intro p hp
      simp only [Function.comp]
      rw [firstBest_eq hS (hkV p hp), ← hV p hp]
      have hm := bestIn_map (fun x y => red.better x y) pos data (grp g id n p)
      have hgm : (grp g id n p).map (fun i => (pos i, data i)) = grp g (fun j => (pos j, data j)) n p := by
        simp [grp]
      rw [hgm] at hm
      rw [← hm]
      cases hb : bestIn (fun x y => red.better x y) data (grp g id n p) with
      | none => rfl
      | some b =>
        have hmem := bestIn_mem hb
        simp only [grp, List.map_id, List.mem_filter, List.mem_range, decide_eq_true_eq] at hmem
        have := hs3 b hmem.1
        rw [hmem.2] at this
        simp only [Option.map_some, optInt]
        rw [this]
    · intro p hp b hb
      have hmem := bestIn_mem hb
      simpa only [grp, List.map_id, List.mem_filter, List.mem_range, decide_eq_true_eq] using hmem
  have hptr : (if red.returnsPositions then
      reduceArgKernel (fun x y => red.better x y) (alloc (out : Nat)) ((List.range n).map data)
        (nats g n) (nats g n).length out >>= fun ptr =>
      NumpyArray_reduce_adjust_starts ptr out (nats g n) starts shifts >>= fun ptr =>
      ok (ptr.map Atom.int)
    else
      reduceKernel (red.init dt) (fun acc x => red.step dt acc x)
        (List.replicate out (.int (-559038737))) ((List.range n).map data) (nats g n)
        (nats g n).length out) = ok ((List.range out).map res) := by
    by_cases hr : red.returnsPositions = true
    · rw [if_pos hr]
      cases red <;> simp only [Reducer.returnsPositions, Bool.false_eq_true] at hr
      case argmin =>
        rw [hstr (by simpa only [Reducer.better, lt_eq] using less_strict dt) rfl]
        simp only [Reducer.better, lt_eq, res]
      case argmax =>
        rw [hstr (by simpa only [Reducer.better, lt_eq] using (less_strict dt).swap) rfl]
        simp only [Reducer.better, lt_eq, res]
    · rw [if_neg hr, nats_length, reduceKernel_ok (by simp) hg]
      congr 1
      apply map_range_congr
      intro p hp
      rw [hgV p hp, total_ok (hkV p hp) hid (by simpa using hr)]
      cases red <;> simp only [Reducer.returnsPositions, not_true_eq_false] at hr <;> rfl
  have hval : ∀ p, p < out → Spec.reduceList red mask dt (V p)
      = if mask && (Spec.present (V p)).isEmpty then .null else .atom (res p) := by
    intro p hp
    have hlast : ∀ better : Atom → Atom → Bool, Strict better (Spec.OfType dt) →
        (match Spec.firstBest better (V p) with
          | some p => Val.atom (.int p)
          | none => if mask then .null else .atom (.int (-1)))
        = if mask && (Spec.present (V p)).isEmpty then .null
          else .atom (.int (optInt (Spec.firstBest better (V p)))) := by
      intro better hS
      have := hnone better hS p hp
      cases hb : Spec.firstBest better (V p) with
      | none => rw [this.mp hb]; cases mask <;> rfl
      | some b =>
        have : (Spec.present (V p)).isEmpty = false := by
          by_contra hc
          have := this.mpr (by simpa using hc)
          rw [hb] at this; simp at this
        rw [this]; simp [optInt]
    cases red
    case argmin => exact hlast _ (less_strict dt)
    case argmax => exact hlast _ (less_strict dt).swap
    all_goals rfl
  unfold reduceLeaf
  rw [if_neg (by simp [hdt]), hptr, bind_ok]
  cases mask with
  | false =>
    refine ⟨_, rfl, by simp [len], good_numpy _ _ _, rfl, fun p hp => ?_, rfl⟩
    rw [valD_numpy (by simpa using hp), hval p hp]
    simp
  | true =>
    simp only [if_true]
    rw [nats_length, reduce_mask_ok (alloc_length _) hg, bind_ok]
    have hgood : (byteMasked {} ((List.range out).map (fun p =>
        if (grp g id n p).isEmpty then (1 : Int) else 0)) false
        (numpy {} (red.returnDtype dt) ((List.range out).map res))).Good :=
      good_byteMasked.mpr ⟨by simp [len], good_numpy _ _ _⟩
    refine ⟨_, rfl, by simp [len], hgood, rfl, fun p hp => ?_, rfl⟩
    rw [valD_byteMasked hgood (by simpa using hp), valD_numpy (by simpa using hp), hval p hp]
    simp only [maskOk, List.getElem?_map, List.getElem?_range hp, Option.map_some, Option.getD_some,
      hemp p hp, List.getElem_map, List.getElem_range, Bool.true_and]
    cases (Spec.present (V p)).isEmpty <;> simp

end Content
end Awk
