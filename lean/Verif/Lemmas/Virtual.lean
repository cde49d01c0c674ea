import Verif.Lemmas.VirtualItem
import Verif.Spec.Virtual
/-
Lazy arrays: what is in the caches, and that a lazy array agrees with the array it stands for.
-/

namespace Awk
open R Spec

/-! ### The caches -/

/-- A lazy array that was made from those in a list. -/
def From (arrays : List Virtual) : Virtual → Prop
  | .user f n x c k => .user f n x c k ∈ arrays
  | .slice _ _ s _ => From arrays s

/-- The caches hold what the generators give. -/
def Consistent (arrays : List Virtual) (w : World) : Prop :=
  ∀ c k x, w.store c k = some x →
    ∃ f n r, Virtual.user f n r (some c) k ∈ arrays ∧ (r >>= checkGenerated f n) = ok x

/-- A computation that leaves the caches consistent and has a result in `Q`. -/
def Runs (arrays : List Virtual) (m : Act α) (Q : R α → Prop) : Prop :=
  ∀ w, Consistent arrays w → Consistent arrays (m w).2 ∧ Q (m w).1

section
variable {arrays : List Virtual} {α β : Type}

theorem Runs.lift {r : R α} {Q : R α → Prop} (h : Q r) : Runs arrays (Act.lift r) Q :=
  fun _ hw => ⟨hw, h⟩

theorem Runs.mono {m : Act α} {P Q : R α → Prop} (h : Runs arrays m P) (hpq : ∀ r, P r → Q r) :
    Runs arrays m Q := fun w hw => ⟨(h w hw).1, hpq _ (h w hw).2⟩

theorem Runs.andThen {m : Act α} {f : α → Act β} {P : R α → Prop} {Q : R β → Prop}
    (h : Runs arrays m P) (hok : ∀ a, P (ok a) → Runs arrays (f a) Q)
    (herr : ∀ s, P (err s) → Q (err s)) (hub : P ub → Q ub) :
    Runs arrays (m.andThen f) Q := by
  intro w hw
  have := h w hw
  unfold Act.andThen
  rcases hm : m w with ⟨r, w'⟩
  rw [hm] at this
  cases r with
  | ok a => exact hok a this.2 w' this.1
  | err s => exact ⟨this.1, herr s this.2⟩
  | ub => exact ⟨this.1, hub this.2⟩

theorem Consistent.next {w : World} (h : Consistent arrays w) (e : Env) :
    Consistent arrays (w.next e) := by
  intro c k x hx
  simp only [World.next] at hx
  split at hx
  · cases hx
  · exact h c k x hx

/-- What is found in the cache of an array is what its generator gives. -/
theorem cacheGet_runs (hk : SeparateKeys arrays) (e : Env) {f : Option Form} {n : Option Nat}
    {r : R Content} {cache : Option Nat} {key : String} (hv : Virtual.user f n r cache key ∈ arrays) :
    Runs arrays (cacheGet e cache key) (fun q => q = ok none ∨
      ∃ x, q = ok (some x) ∧ (r >>= checkGenerated f n) = ok x) := by
  intro w hw
  cases cache with
  | none => exact ⟨hw, .inl rfl⟩
  | some c =>
    have hn := hw.next e
    refine ⟨hn, ?_⟩
    simp only [cacheGet]
    cases hx : (w.next e).store c key with
    | none => exact .inl rfl
    | some x =>
      obtain ⟨f', n', r', h1, h2⟩ := hn c key x hx
      obtain ⟨rfl, rfl, rfl⟩ := hk.keys _ _ _ _ _ _ _ _ hv h1
      exact .inr ⟨x, rfl, h2⟩

theorem cacheSet_runs (e : Env) {f : Option Form} {n : Option Nat}
    {r : R Content} {cache : Option Nat} {key : String} {x : Content}
    (hv : Virtual.user f n r cache key ∈ arrays) (hx : (r >>= checkGenerated f n) = ok x) :
    Runs arrays (cacheSet e cache key x) (fun q => q = ok ()) := by
  intro w hw
  cases cache with
  | none => exact ⟨hw, rfl⟩
  | some c =>
    refine ⟨?_, rfl⟩
    intro c' k y hy
    simp only [cacheSet] at hy
    split at hy
    · rename_i h
      obtain ⟨rfl, rfl⟩ := h
      simp only [Option.some.injEq] at hy
      subst hy
      exact ⟨_, _, _, hv, hx⟩
    · exact hw.next e _ _ _ hy

/-- Reading a lazy array gives what its generators give, whatever is in the caches. -/
theorem array_runs (hk : SeparateKeys arrays) (e : Env) :
    ∀ v : Virtual, From arrays v → Runs arrays (v.array e) (fun q => q = v.generated e.same)
  | .user f n r cache key, hv => by
    simp only [Virtual.array, Virtual.generated]
    refine (cacheGet_runs hk e hv).andThen (fun found hf => ?_) (fun s hs => ?_) (fun hs => ?_)
    · refine (Runs.lift (Q := fun q => q = (r >>= checkGenerated f n)) ?_).andThen
        (fun out ho => ?_) (fun s hs => hs) (fun hs => hs)
      · rcases hf with hf | ⟨x, hf, hx⟩
        · simp only [ok.injEq] at hf; subst hf; rfl
        · simp only [ok.injEq] at hf; subst hf; simp only [hx]
      refine (cacheSet_runs e hv ho.symm).andThen (fun _ _ => Runs.lift ho) (fun s hs => ?_)
        (fun hs => ?_)
      · cases hs
      · cases hs
    · rcases hs with hs | ⟨x, hs, _⟩ <;> cases hs
    · rcases hs with hs | ⟨x, hs, _⟩ <;> cases hs
  | .slice f n s cut, hv => by
    simp only [Virtual.array, Virtual.generated]
    refine (array_runs hk e s hv).andThen (fun a ha => Runs.lift ?_) (fun x hx => ?_) (fun hx => ?_)
    · rw [← ha]; rfl
    · rw [← hx]; rfl
    · rw [← hx]; rfl

/-- What is found in the cache of a lazy array is what its generators give. -/
theorem peek_runs (hk : SeparateKeys arrays) (e : Env) {v : Virtual} (hv : From arrays v) :
    Runs arrays (v.peek e) (fun q => q = ok none ∨
      ∃ x, q = ok (some x) ∧ v.generated e.same = ok x) := by
  cases v with
  | user f n r cache key => exact cacheGet_runs hk e hv
  | slice f n s cut => exact Runs.lift (.inl rfl)

/-- The form of a lazy array is the promised one, or that of what its generators give. -/
theorem knownForm_runs (e : Env) (v : Virtual) :
    Runs arrays (v.knownForm e) (fun q => q = ok v.form ∨
      ∃ x, v.form = none ∧ q = ok (some x.form) ∧ v.generated e.same = ok x) := by
  intro w hw
  unfold Virtual.knownForm
  cases hf : v.form with
  | some f => exact ⟨hw, .inl rfl⟩
  | none =>
    simp only
    cases hg : v.generated e.same with
    | ok x =>
      refine ⟨hw, ?_⟩
      simp only
      split
      · exact .inr ⟨x, by simp⟩
      · exact .inl rfl
    | err s => exact ⟨hw, .inl rfl⟩
    | ub => exact ⟨hw, .inl rfl⟩

/-! ### Every operation leaves the caches consistent -/

/-- The result of an operation is there, or lazy and made from the arrays in the list. -/
def OutFrom (arrays : List Virtual) (r : R Out) : Prop := ∀ v, r = ok (.lazy v) → From arrays v

theorem real_from (r : R Content) : OutFrom arrays (r >>= fun c => ok (.real c)) := by
  intro v hv
  rw [bind_eq_ok] at hv
  obtain ⟨c, _, hc⟩ := hv
  simp at hc

theorem err_from (s : String) : OutFrom arrays (err s) := fun v hv => by cases hv

theorem lazy_from {v : Virtual} (h : From arrays v) : OutFrom arrays (ok (.lazy v)) := fun v' hv => by
  simp only [ok.injEq, Out.lazy.injEq] at hv
  subst hv; exact h

theorem nowrap_keeps (hk : SeparateKeys arrays) (e : Env) {v : Virtual} (hv : From arrays v)
    (start stop : Int) : Runs arrays (v.getitemRangeNowrap e start stop) (OutFrom arrays) := by
  unfold Virtual.getitemRangeNowrap
  refine (peek_runs hk e hv).andThen (fun found _ => ?_) (fun s _ => err_from s)
    (fun _ v hv => by cases hv)
  cases found with
  | some a => exact Runs.lift (real_from _)
  | none =>
    simp only
    split
    · exact Runs.lift (lazy_from hv)
    · refine (knownForm_runs e v).andThen (fun form _ => Runs.lift (lazy_from hv))
        (fun s _ => err_from s) (fun _ v hv => by cases hv)

theorem read_keeps (hk : SeparateKeys arrays) (e : Env) {v : Virtual} (hv : From arrays v)
    (f : Content → R Content) :
    Runs arrays ((v.array e).andThen fun a => Act.lift (f a >>= fun c => ok (.real c)))
      (OutFrom arrays) :=
  (array_runs hk e v hv).andThen (fun _ _ => Runs.lift (real_from _)) (fun s _ => err_from s)
    (fun _ v hv => by cases hv)

theorem on_keeps (hk : SeparateKeys arrays) (e : Env) (op : LazyOp) {out : Out}
    (ho : OutFrom arrays (ok out)) : Runs arrays (op.on e out) (OutFrom arrays) := by
  cases out with
  | real c => exact Runs.lift (real_from _)
  | lazy v =>
    have hv := ho v rfl
    have hitem : ∀ it, Runs arrays (v.getitemItem e it) (OutFrom arrays) := by
      intro it
      unfold Virtual.getitemItem
      refine (peek_runs hk e hv).andThen (fun found _ => ?_) (fun s _ => err_from s)
        (fun _ v hv => by cases hv)
      cases found with
      | some a => exact Runs.lift (real_from _)
      | none =>
        simp only
        have hread := read_keeps hk e hv (fun a => a.getitem [it] >>= Item.asArray)
        split
        · split
          · exact Runs.lift (err_from _)
          · split
            · exact Runs.lift (lazy_from hv)
            · exact hread
        · exact Runs.lift (lazy_from hv)
        · exact Runs.lift (lazy_from hv)
        · exact hread
    cases op with
    | steps start stop step => exact hitem _
    | positions idx => exact hitem _
    | newaxis => exact hitem _
    | range start stop =>
      simp only [LazyOp.on, LazyOp.onVirtual, Virtual.getitemRange]
      split
      · exact read_keeps hk e hv _
      · refine (peek_runs hk e hv).andThen (fun found _ => ?_) (fun s _ => err_from s)
          (fun _ v hv => by cases hv)
        cases found with
        | some a => exact Runs.lift (real_from _)
        | none => exact nowrap_keeps hk e hv _ _
    | fields s =>
      simp only [LazyOp.on, LazyOp.onVirtual, Virtual.getitemFields]
      refine (peek_runs hk e hv).andThen (fun found _ => ?_) (fun s _ => err_from s)
        (fun _ v hv => by cases hv)
      cases found with
      | some a => exact Runs.lift (real_from _)
      | none =>
        refine (knownForm_runs e v).andThen (fun form _ => ?_)
          (fun s _ => err_from s) (fun _ v hv => by cases hv)
        cases form with
        | none => exact Runs.lift (lazy_from hv)
        | some f =>
          refine Runs.lift ?_
          intro v' hv'
          rw [bind_eq_ok] at hv'
          obtain ⟨f', _, hf'⟩ := hv'
          simp only [ok.injEq, Out.lazy.injEq] at hf'
          subst hf'
          exact hv

theorem out_read_keeps (hk : SeparateKeys arrays) (e : Env) {out : Out}
    (ho : OutFrom arrays (ok out)) : Runs arrays (out.read e) (fun _ => True) := by
  cases out with
  | real c => exact Runs.lift trivial
  | lazy v => exact (array_runs hk e v (ho v rfl)).mono (fun _ _ => trivial)

theorem runOps_keeps (hk : SeparateKeys arrays) (e : Env) (ops : List LazyOp) {out : Out}
    (ho : OutFrom arrays (ok out)) : Runs arrays (runOps e ops out) (OutFrom arrays) := by
  induction ops generalizing out with
  | nil => exact Runs.lift ho
  | cons op ops ih =>
    exact (on_keeps hk e op ho).andThen (fun out' h' => ih h') (fun s _ => err_from s)
      (fun _ v hv => by cases hv)

theorem lazyList_keeps (hk : SeparateKeys arrays) (e : Env) (ops : List LazyOp) {v : Virtual}
    (hv : From arrays v) : Runs arrays (lazyList e v ops) (fun _ => True) :=
  (runOps_keeps hk e ops (lazy_from hv)).andThen
    (fun _ ho => (out_read_keeps hk e ho).andThen (fun _ _ => Runs.lift trivial) (fun _ _ => trivial)
      (fun _ => trivial)) (fun _ _ => trivial) (fun _ => trivial)

theorem made_from (hk : SeparateKeys arrays) {v : Virtual} (hv : v ∈ arrays) : From arrays v := by
  obtain ⟨f, n, x, c, k, rfl⟩ := hk.made v hv
  exact hv

theorem history_keeps (hk : SeparateKeys arrays) (e : Env) {uses : Uses} (hu : uses.Within arrays)
    {w : World} (hw : Consistent arrays w) : Consistent arrays (history e uses w) := by
  induction uses generalizing w with
  | nil => exact hw
  | cons p rest ih =>
    obtain ⟨v, ops⟩ := p
    simp only [history]
    refine ih (fun q hq => hu q (List.mem_cons_of_mem _ hq)) ?_
    exact (lazyList_keeps hk e ops (made_from hk (hu (v, ops) (by simp))) w hw).1

theorem start_consistent : Consistent arrays World.start := fun _ _ _ h => by cases h

end

end Awk
