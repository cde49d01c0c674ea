/-
Outcomes, memory and loops.

`R α` is the outcome of a piece of C++ code: a value, a raised exception (or a kernel
error string), or undefined behaviour.  Buffers are lists with bounds-checked access.
-/

namespace Awk

/-- Outcome of running a piece of the program. `ub` is undefined behaviour
(out-of-bounds access, null dereference, a loop that never ends). -/
inductive R (α : Type) where
  | ok (a : α)
  | err (e : String)
  | ub
deriving Repr, DecidableEq

namespace R

/-- Sequencing: stop at the first exception or undefined behaviour. -/
@[inline] protected def bind {α : Type} {β : Type} : R α → (α → R β) → R β
  | ok a, f => f a
  | err e, _ => err e
  | ub, _ => ub

instance : Monad R where
  pure := ok
  bind := R.bind

variable {α : Type} {β : Type} {γ : Type}

@[simp] theorem bind_ok (a : α) (f : α → R β) : (ok a >>= f) = f a := rfl
@[simp] theorem bind_err (e : String) (f : α → R β) : ((err e : R α) >>= f) = err e := rfl
@[simp] theorem bind_ub (f : α → R β) : ((ub : R α) >>= f) = ub := rfl
@[simp] theorem pure_eq (a : α) : (pure a : R α) = ok a := rfl
@[simp] theorem map_ok (f : α → β) (a : α) : f <$> (ok a) = ok (f a) := rfl
@[simp] theorem map_err (f : α → β) (e : String) : f <$> (err e : R α) = err e := rfl
@[simp] theorem map_ub (f : α → β) : f <$> (ub : R α) = ub := rfl

@[simp] theorem bind_ok_right (x : R α) : (x >>= fun a => ok a) = x := by cases x <;> rfl
@[simp] theorem bind_ok_right' (x : R α) : (x >>= ok) = x := by cases x <;> rfl

theorem bind_assoc (x : R α) (f : α → R β) (g : β → R γ) :
    (x >>= f) >>= g = x >>= fun a => f a >>= g := by cases x <;> rfl

instance : LawfulMonad R :=
  LawfulMonad.mk' R (id_map := by intro α x; cases x <;> rfl)
    (pure_bind := by intros; rfl) (bind_assoc := by intro α β γ x f g; cases x <;> rfl)

/-- `x >>= f = ok b` exactly when both parts succeed. -/
theorem bind_eq_ok {x : R α} {f : α → R β} {b : β} :
    (x >>= f) = ok b ↔ ∃ a, x = ok a ∧ f a = ok b := by
  cases x <;> simp

theorem map_eq_ok {x : R α} {f : α → β} {b : β} :
    (f <$> x) = ok b ↔ ∃ a, x = ok a ∧ f a = b := by
  cases x <;> simp

theorem bind_congr' {x : R α} {f g : α → R β} (h : ∀ a, x = ok a → f a = g a) :
    (x >>= f) = (x >>= g) := by
  cases x <;> simp_all

/-- The outcome is a value. -/
def IsOk (x : R α) : Prop := ∃ a, x = ok a
/-- The outcome is an exception. -/
def IsErr (x : R α) : Prop := ∃ e, x = err e

/-- The outcome is not undefined behaviour, and if it is a value, it satisfies `P`. -/
def Sat (x : R α) (P : α → Prop) : Prop :=
  match x with
  | ok a => P a
  | err _ => True
  | ub => False

@[simp] theorem sat_ok (a : α) (P : α → Prop) : Sat (ok a) P ↔ P a := Iff.rfl
@[simp] theorem sat_err (e : String) (P : α → Prop) : Sat (err e) P ↔ True := Iff.rfl
@[simp] theorem sat_ub (P : α → Prop) : Sat ub P ↔ False := Iff.rfl

theorem Sat.bind {x : R α} {P : α → Prop} {f : α → R β} {Q : β → Prop}
    (hx : Sat x P) (hf : ∀ a, P a → Sat (f a) Q) : Sat (x >>= f) Q := by
  cases x <;> simp_all

theorem Sat.mono {x : R α} {P Q : α → Prop} (hx : Sat x P) (h : ∀ a, P a → Q a) : Sat x Q := by
  cases x <;> simp_all

/-- Free of undefined behaviour, `P` of the result if there is one, and a result if `h`. -/
def Tot (x : R α) (h : Prop) (P : α → Prop) : Prop := Sat x P ∧ (h → IsOk x)

theorem Tot.bind {x : R α} {h : Prop} {P : α → Prop} {f : α → R β} {Q : β → Prop}
    (hx : Tot x h P) (hf : ∀ a, P a → Tot (f a) h Q) : Tot (x >>= f) h Q := by
  cases x with
  | ok a => exact hf a hx.1
  | err e => exact ⟨trivial, fun hh => by obtain ⟨a, ha⟩ := hx.2 hh; simp at ha⟩
  | ub => exact hx.1.elim

theorem Tot.mono {x : R α} {h h' : Prop} {P Q : α → Prop} (hx : Tot x h P) (hh : h' → h)
    (hPQ : ∀ a, P a → Q a) : Tot x h' Q := ⟨hx.1.mono hPQ, fun h => hx.2 (hh h)⟩

theorem Tot.ok {a : α} {h : Prop} {P : α → Prop} (hp : P a) : Tot (.ok a) h P :=
  ⟨hp, fun _ => ⟨a, rfl⟩⟩

theorem Tot.err {e : String} {h : Prop} {P : α → Prop} (hh : ¬ h) : Tot (.err e) h P :=
  ⟨trivial, fun h => absurd h hh⟩

end R

open R

/-- Read `b[i]`; outside the buffer it is undefined behaviour. -/
def rd (b : List α) (i : Int) : R α :=
  if 0 ≤ i then
    match b[i.toNat]? with
    | some x => ok x
    | none => ub
  else ub

/-- Write `b[i] = x`; outside the buffer it is undefined behaviour. -/
def wr (b : List α) (i : Int) (x : α) : R (List α) :=
  if 0 ≤ i ∧ i < b.length then ok (b.set i.toNat x) else ub

theorem rd_nat (b : List α) (i : Nat) :
    rd b (i : Int) = match b[i]? with | some x => ok x | none => ub := by
  simp [rd]

theorem rd_ok {b : List α} {i : Int} (h0 : 0 ≤ i) (h1 : i < b.length) :
    rd b i = ok (b[i.toNat]'(by omega)) := by
  have : i.toNat < b.length := by omega
  simp [rd, h0, this]

theorem rd_nat_ok {b : List α} {i : Nat} (h : i < b.length) : rd b (i : Int) = ok b[i] := by
  simp [rd, h]

theorem rd_eq_ok {b : List α} {i : Int} {x : α} :
    rd b i = ok x ↔ 0 ≤ i ∧ b[i.toNat]? = some x := by
  unfold rd
  by_cases h : 0 ≤ i
  · simp only [h, if_true]
    cases hb : b[i.toNat]? <;> simp
  · simp [h]

theorem rd_ub {b : List α} {i : Int} : rd b i = ub ↔ i < 0 ∨ (b.length : Int) ≤ i := by
  unfold rd
  by_cases h : 0 ≤ i
  · simp only [h, if_true]
    cases hb : b[i.toNat]? with
    | none => simp at hb; simp; omega
    | some x =>
      have := (List.getElem?_eq_some_iff.mp hb).1
      simp; omega
  · simp [h]; omega

theorem wr_ok {b : List α} {i : Int} {x : α} (h0 : 0 ≤ i) (h1 : i < b.length) :
    wr b i x = ok (b.set i.toNat x) := by simp [wr, h0, h1]

theorem wr_nat_ok {b : List α} {i : Nat} {x : α} (h1 : i < b.length) :
    wr b (i : Int) x = ok (b.set i x) := by simp [wr, h1]

/-- `for (i = 0; i < n; i++) s = body(i, s)`. -/
def forN (n : Nat) (body : Nat → σ → R σ) (s : σ) : R σ :=
  match n with
  | 0 => ok s
  | n + 1 => forN n body s >>= body n

/-- `for (int64_t i = 0; i < n; i++)` with a signed bound. -/
def forI (n : Int) (body : Int → σ → R σ) (s : σ) : R σ :=
  forN n.toNat (fun i => body (i : Int)) s

/-- `for (int64_t i = a; i < b; i++)`. -/
def forFrom (a b : Int) (body : Int → σ → R σ) (s : σ) : R σ :=
  forN (b - a).toNat (fun i => body (a + (i : Int))) s

/-- `while (cond) body`, with a bound on the number of iterations; exceeding the bound
counts as undefined behaviour, so that an `ok` result implies termination. -/
def whileF (fuel : Nat) (cond : σ → Bool) (body : σ → R σ) (s : σ) : R σ :=
  match fuel with
  | 0 => if cond s then ub else ok s
  | fuel + 1 => if cond s then body s >>= whileF fuel cond body else ok s

@[simp] theorem forN_zero (body : Nat → σ → R σ) (s : σ) : forN 0 body s = ok s := rfl
theorem forN_succ (n : Nat) (body : Nat → σ → R σ) (s : σ) :
    forN (n + 1) body s = forN n body s >>= body n := rfl

/-- Loop rule: an invariant that every iteration re-establishes without failing holds at
the end, and the loop does not fail. -/
theorem forN_inv {n : Nat} {body : Nat → σ → R σ} {s : σ} (P : Nat → σ → Prop)
    (h0 : P 0 s)
    (hstep : ∀ i, i < n → ∀ s, P i s → ∃ s', body i s = ok s' ∧ P (i + 1) s') :
    ∃ s', forN n body s = ok s' ∧ P n s' := by
  induction n with
  | zero => exact ⟨s, rfl, h0⟩
  | succ n ih =>
    obtain ⟨s', hs, hp⟩ := ih (fun i hi => hstep i (by omega))
    obtain ⟨s'', hb, hp'⟩ := hstep n (by omega) s' hp
    exact ⟨s'', by simp [forN_succ, hs, hb], hp'⟩

/-- Loop rule allowing exceptions: no undefined behaviour, and the invariant at the end. -/
theorem forN_sat {n : Nat} {body : Nat → σ → R σ} {s : σ} (P : Nat → σ → Prop)
    (h0 : P 0 s)
    (hstep : ∀ i, i < n → ∀ s, P i s → Sat (body i s) (P (i + 1))) :
    Sat (forN n body s) (P n) := by
  induction n with
  | zero => exact h0
  | succ n ih =>
    rw [forN_succ]
    exact (ih (fun i hi => hstep i (by omega))).bind (fun a ha => hstep n (by omega) a ha)

theorem forN_congr {n : Nat} {body body' : Nat → σ → R σ} {s : σ}
    (h : ∀ i, i < n → ∀ s, body i s = body' i s) : forN n body s = forN n body' s := by
  induction n with
  | zero => rfl
  | succ n ih =>
    rw [forN_succ, forN_succ, ih (fun i hi => h i (by omega))]
    congr 1; funext s; exact h n (by omega) s

/-- Collect `f 0, …, f (n-1)`, stopping at the first failure. -/
def mapN (n : Nat) (f : Nat → R α) : R (List α) :=
  match n with
  | 0 => ok []
  | n + 1 => mapN n f >>= fun xs => f n >>= fun x => ok (xs ++ [x])

@[simp] theorem mapN_zero (f : Nat → R α) : mapN 0 f = ok [] := rfl
theorem mapN_succ (n : Nat) (f : Nat → R α) :
    mapN (n + 1) f = mapN n f >>= fun xs => f n >>= fun x => ok (xs ++ [x]) := rfl

theorem mapN_congr {n : Nat} {f g : Nat → R α} (h : ∀ i, i < n → f i = g i) :
    mapN n f = mapN n g := by
  induction n with
  | zero => rfl
  | succ n ih => rw [mapN_succ, mapN_succ, ih (fun i hi => h i (by omega)), h n (by omega)]

theorem mapN_length {n : Nat} {f : Nat → R α} {xs : List α} (h : mapN n f = ok xs) :
    xs.length = n := by
  induction n generalizing xs with
  | zero => simp at h; simp [← h]
  | succ n ih =>
    rw [mapN_succ] at h
    obtain ⟨ys, hys, h⟩ := bind_eq_ok.mp h
    obtain ⟨x, hx, h⟩ := bind_eq_ok.mp h
    simp at h; simp [← h, ih hys]

theorem mapN_get {n : Nat} {f : Nat → R α} {xs : List α} (h : mapN n f = ok xs) {i : Nat}
    (hi : i < n) : f i = ok (xs[i]'(by rw [mapN_length h]; exact hi)) := by
  induction n generalizing xs with
  | zero => omega
  | succ n ih =>
    rw [mapN_succ] at h
    obtain ⟨ys, hys, h⟩ := bind_eq_ok.mp h
    obtain ⟨x, hx, h⟩ := bind_eq_ok.mp h
    have hl := mapN_length hys
    simp at h; subst h
    by_cases hin : i < n
    · rw [ih hys hin, List.getElem_append_left (by omega)]
    · have : i = n := by omega
      subst this
      rw [hx, List.getElem_append_right (by omega)]
      simp

/-- `mapN` succeeds exactly with the list whose entries are the results. -/
theorem mapN_eq_ok {n : Nat} {f : Nat → R α} {xs : List α} :
    mapN n f = ok xs ↔ xs.length = n ∧ ∀ i (h : i < xs.length), f i = ok xs[i] := by
  constructor
  · intro h
    refine ⟨mapN_length h, fun i hi => mapN_get h (by rw [mapN_length h] at hi; exact hi)⟩
  · rintro ⟨hl, h⟩
    induction n generalizing xs with
    | zero => have : xs = [] := List.length_eq_zero_iff.mp hl
              simp [this]
    | succ n ih =>
      have hne : xs ≠ [] := by intro h; simp [h] at hl
      rw [mapN_succ]
      have h1 : mapN n f = ok xs.dropLast := by
        apply ih (by simp [hl])
        intro i hi
        have hi' : i < xs.length := by simp at hi; omega
        rw [h i hi']; simp
      have h2 := h n (by omega)
      rw [h1, bind_ok, h2, bind_ok]
      congr 1
      have := List.dropLast_concat_getLast hne
      rw [List.getLast_eq_getElem] at this
      simp only [hl, Nat.add_sub_cancel] at this
      exact this

theorem mapN_ok {n : Nat} (g : Nat → α) : mapN n (fun i => ok (g i)) = ok ((List.range n).map g) := by
  rw [mapN_eq_ok]; simp

theorem mapN_ok' {n : Nat} {f : Nat → R α} (g : Nat → α) (h : ∀ i, i < n → f i = ok (g i)) :
    mapN n f = ok ((List.range n).map g) := by
  rw [mapN_congr h, mapN_ok]

/-- The loop `for i < n: out[off + i] = f(i)` overwrites exactly `out[off .. off+n)` with
the results of `f`, for every previous content of `out`. -/
theorem forN_fill {n : Nat} (f : Nat → R α) (off : Nat) (out : List α)
    (hlen : off + n ≤ out.length) :
    forN n (fun i b => f i >>= fun x => wr b ((off + i : Nat) : Int) x) out
      = mapN n f >>= fun xs => ok (out.take off ++ xs ++ out.drop (off + n)) := by
  induction n with
  | zero => simp
  | succ n ih =>
    rw [forN_succ, mapN_succ, ih (by omega)]
    cases hm : mapN n f with
    | err e => simp
    | ub => simp
    | ok xs =>
      have hl := mapN_length hm
      simp only [bind_ok]
      cases f n with
      | err e => simp
      | ub => simp
      | ok x =>
        have hlt : off + n < out.length := by omega
        have hto : (out.take off).length = off := by simp; omega
        simp only [bind_ok]
        rw [wr_nat_ok (by simp; omega)]
        congr 1
        rw [List.set_append_right _ _ (by simp [hl]; omega)]
        have he : off + n - (out.take off ++ xs).length = 0 := by simp [hl]; omega
        rw [he, List.drop_eq_getElem_cons hlt]
        simp [Nat.add_assoc]

/-- `forN_fill` starting at offset 0. -/
theorem forN_fill0 {n : Nat} (f : Nat → R α) (out : List α) (hlen : n ≤ out.length) :
    forN n (fun i b => f i >>= fun x => wr b (i : Int) x) out
      = mapN n f >>= fun xs => ok (xs ++ out.drop n) := by
  have := forN_fill (n := n) f 0 out (by omega)
  simpa using this

end Awk
