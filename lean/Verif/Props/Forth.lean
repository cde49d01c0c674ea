import Verif.Lemmas.ForthSchedule
import Verif.Lemmas.ForthArith
/-
Property theorems C37 to C41: AwkwardForth.
-/

namespace Awk
open R Forth Forth.Spec

namespace Props

variable {α : Type}

/-- A conversion to integers, for examples. -/
def intConv : Conv Int := ⟨fun _ x => x, fun _ _ => 0, fun _ => (· + ·), fun _ => 0⟩

/-- Compile a program, begin and follow a schedule, for examples. -/
def scheduled (bits : Nat) (toks : List Tok) (inputs : List InBuf) (schedule : List Bool) :
    R (Option (State Int)) :=
  construct bits 10 10 10 2 intConv toks >>= fun m =>
    begin m inputs (initial m) >>= perform m 100 schedule

/-- What is on the stack at the end, for examples. -/
def stackOf (x : R (Option (State Int))) : Option (List Int) :=
  match x with
  | ok (some s) => some s.data.stack
  | _ => none

/-! ### C37: schedules -/

/-- C37, partial: for programs without `do` and `exit`, two schedules of steps and resumes that
finish (each in its own number of rounds) end in the same state: the same stack, variables, inputs,
outputs and error. Missing: programs with `do` loops or `exit`, where it is false. -/
theorem C37_schedules_partial {bits stackMax recMax : Nat} {size : Int} {resize : Rat}
    {conv : Conv α} {toks : List Tok} {m : Machine α}
    (hm : construct bits stackMax recMax size resize conv toks = ok m)
    (hdo : Tok.do_ ∉ toks) (hex : Tok.exit ∉ toks) {inputs : List InBuf} {s s0 : State α}
    (hb : begin m inputs s = ok s0) {bs bs' : List Bool} {fuel fuel' : Nat} {t t' : State α}
    (h : perform m fuel bs s0 = ok (some t)) (hf : finished t)
    (h' : perform m fuel' bs' s0 = ok (some t')) (hf' : finished t') : t = t' := by
  have hN : ∃ N, compile toks = ok N := by
    unfold construct at hm
    rw [bind_eq_ok] at hm
    exact ⟨_, hm.choose_spec.1⟩
  obtain ⟨N, hN⟩ := hN
  obtain ⟨E, hP, hmain, _, _, _, hw, he, hd, _⟩ := construct_ok hN hm True (.inl trivial) (.inl hex)
  have hw : E.weak := by rw [hw]; trivial
  have hE1 : ¬ E.allowDo := fun h => hdo (hd h)
  have hE2 : ¬ E.allowExit := fun h => hex (he h)
  obtain ⟨hi, hinv, hl⟩ := begin_inv hP hmain hw hb
  obtain ⟨n, u, p1, p2, p3⟩ := perform_path hP hw hE1 hE2 fuel bs s0 t hinv hl h hf
  obtain ⟨n', u', p1', p2', p3'⟩ := perform_path hP hw hE1 hE2 fuel' bs' s0 t' hinv hl h' hf'
  obtain rfl := p1.unique p2 p1' p2'
  rw [p3] at p3'
  cases p3'
  rfl

/-- C37, partial: if one schedule finishes, there is a length such that every schedule at least this
long finishes, in the same state. -/
theorem C37_all_finish_partial {bits stackMax recMax : Nat} {size : Int} {resize : Rat}
    {conv : Conv α} {toks : List Tok} {m : Machine α}
    (hm : construct bits stackMax recMax size resize conv toks = ok m)
    (hdo : Tok.do_ ∉ toks) (hex : Tok.exit ∉ toks) {inputs : List InBuf} {s s0 : State α}
    (hb : begin m inputs s = ok s0) {bs : List Bool} {fuel : Nat} {t : State α}
    (h : perform m fuel bs s0 = ok (some t)) (hf : finished t) :
    ∃ N, ∀ (bs' : List Bool) (fuel' : Nat), N ≤ bs'.length → N < fuel' →
      perform m fuel' bs' s0 = ok (some t) := by
  have hm' := hm
  have hN : ∃ N, compile toks = ok N := by
    unfold construct at hm
    rw [bind_eq_ok] at hm
    exact ⟨_, hm.choose_spec.1⟩
  obtain ⟨N, hN⟩ := hN
  obtain ⟨E, hP, hmain, _, _, _, hw, he, hd, _⟩ := construct_ok hN hm True (.inl trivial) (.inl hex)
  have hw : E.weak := by rw [hw]; trivial
  have hE1 : ¬ E.allowDo := fun h => hdo (hd h)
  have hE2 : ¬ E.allowExit := fun h => hex (he h)
  obtain ⟨hi, hinv, hl⟩ := begin_inv hP hmain hw hb
  obtain ⟨n, u, p1, p2, p3⟩ := perform_path hP hw hE1 hE2 fuel bs s0 t hinv hl h hf
  refine ⟨n, fun bs' fuel' h1 h2 => ?_⟩
  obtain ⟨t', e1, e2⟩ := perform_ends hP hw hE1 hE2 fuel' bs' n s0 u hinv hl p1 p2 h1 h2
  rw [e1, C37_schedules_partial hm' hdo hex hb h hf e1 e2]

/-- C37: a program with a word, a loop, a branch and a pause, that reads its input. -/
def c37Program : List Tok :=
  [.input, .name 0, .colon, .name 1, .name 0, .parser false false 2 0, .stack, .semi,
   .int 0, .begin_, .name 1, .builtin 39, .pause, .name 0, .end_, .until_,
   .builtin 32, .if_, .int 7, .else_, .int 8, .then_]

example : Tok.do_ ∉ c37Program ∧ Tok.exit ∉ c37Program := by decide

example : stackOf (scheduled 64 c37Program [⟨[1, 2, 255], 0⟩] [false, false, false, false]) =
      some [7, 2] ∧
    stackOf (scheduled 64 c37Program [⟨[1, 2, 255], 0⟩] (List.replicate 40 true)) = some [7, 2] ∧
    stackOf (scheduled 64 c37Program [⟨[1, 2, 255], 0⟩] [true, false, true, true, false, false,
      true, false]) = some [7, 2] := by
  decide

/-- C37 is violated: after five steps in `3 0 do i loop`, resuming repeats the first round of the
loop, because a step that reaches the end of a segment does not advance the loop. -/
theorem C37_violated_do :
    stackOf (scheduled 64 [.int 3, .int 0, .do_, .builtin 29, .loop] [] [false]) = some [2, 1, 0] ∧
    stackOf (scheduled 64 [.int 3, .int 0, .do_, .builtin 29, .loop] []
      [true, true, true, true, true, false]) = some [2, 1, 0, 0] := by
  decide

/-- C37 is violated: a step over `exit` goes on behind the place where the word was left, if there are
more instructions. -/
theorem C37_violated_exit :
    stackOf (scheduled 64 [.colon, .name 0, .exit, .int 5, .semi, .name 0] [] [false]) = some [] ∧
    stackOf (scheduled 64 [.colon, .name 0, .exit, .int 5, .semi, .name 0] []
      [true, true, false]) = some [5] := by
  decide

/-! ### C38: bounds -/

/-- What it means that the machine is within its bounds. The outputs can be read. -/
structure InBounds (m : Machine α) (s : State α) : Prop where
  stack : s.data.stack.length ≤ m.stackMax
  calls : s.frames.length ≤ m.recMax
  loops : s.loops.length ≤ m.recMax
  vars : s.data.vars.length = m.numVars
  inputs : ∀ b ∈ s.data.inputs, 0 ≤ b.pos ∧ b.pos ≤ b.data.length
  outputs : ∀ b ∈ s.data.outputs, ∃ xs, b.toList = ok xs

/-- C38, partial: a compiled program that does not use both `exit` and `do` is within its bounds
after any requests, and no further request leaves the buffers (the outcome is a new state, an
exception, or not finished after the given number of rounds). Missing: programs with `exit` and `do`,
negative counts of repeated reads, calls when the maximum depth is reached; there it is false. -/
theorem C38_bounds_partial {bits stackMax recMax : Nat} {size : Int} {resize : Rat}
    {conv : Conv α} {toks : List Tok} {N : Names} {m : Machine α} (hN : compile toks = ok N)
    (hm : construct bits stackMax recMax size resize conv toks = ok m) (hs : 1 ≤ size)
    (hr : 1 < resize) (hrec : 1 ≤ recMax) (hg : Tok.exit ∉ toks ∨ Tok.do_ ∉ toks) {s : State α}
    (h : Reachable m N.words s) :
    InBounds m s ∧ ∀ (r : Request) (fuel : Nat), Allowed m N.words s r → PoliteRun m s r →
      r.run m fuel s ≠ ub := by
  obtain ⟨E, hP, hmain, hwords, hi, hrm, hw, _⟩ := construct_ok hN hm False (.inr hr) hg
  have hw : ¬ E.weak := by rw [hw]; simp
  have hidle := reachable_idle hP hmain hwords (by omega) (by omega) h
  refine ⟨?_, fun r fuel ha hp hub => ?_⟩
  · have hd : DataOK m s.data := hidle.common.data.resolve_left hw
    refine ⟨hd.stack, hidle.common.frames, hidle.common.loops, hd.vars, fun b hb => ?_,
      fun b hb => ?_⟩
    · have := hd.input b hb
      exact ⟨this.1, this.2.1⟩
    · obtain ⟨xs, h1, _⟩ := hd.output b hb
      exact ⟨xs, h1.toList⟩
  · have := request_ok hP hwords hidle ha (fun _ => hp) fuel
    rw [hub] at this
    exact hw this

/-- C38, partial: a program without repeated reads and rewinds never asks for something absurd. -/
theorem C38_polite_partial {bits stackMax recMax : Nat} {size : Int} {resize : Rat}
    {conv : Conv α} {toks : List Tok} {N : Names} {m : Machine α} (hN : compile toks = ok N)
    (hm : construct bits stackMax recMax size resize conv toks = ok m) (hs : 1 ≤ size)
    (hr : 1 < resize) (hrec : 1 ≤ recMax) (hg : Tok.exit ∉ toks ∨ Tok.do_ ∉ toks)
    (h1 : ∀ big format width, Tok.parser true big format width ∉ toks) (h2 : Tok.rewind ∉ toks)
    {s : State α} (h : Reachable m N.words s) (hready : s.ready = true) (herr : s.err = .none)
    (r : Request) (ha : Allowed m N.words s r) : PoliteRun m s r := by
  obtain ⟨E, hP, hmain, hwords, hi, hrm, hw, _, _, hrep, hrew⟩ :=
    construct_ok hN hm False (.inr hr) hg
  have hidle := reachable_idle hP hmain hwords (by omega) (by omega) h
  exact static_polite hP hwords hidle ha
    (fun h => by obtain ⟨b, f, w, h'⟩ := hrep h; exact h1 b f w h') (fun h => h2 (hrew h)) hready herr

/-- C38: a program with a word, a loop and a read to an output. -/
def c38Program : List Tok :=
  [.input, .name 0, .output, .name 2, .dtype .int32, .colon, .name 1, .name 0,
   .parser false false 2 0, .name 2, .semi, .int 3, .int 0, .do_, .builtin 29, .name 1, .loop]

/-- What the compiler makes of it. -/
def c38Names : Names := match compile c38Program with
  | ok N => N
  | _ => ⟨[], [], [], 0, [], []⟩

/-- The machine for it. -/
def c38Machine : Machine Int := match construct 64 10 10 10 2 intConv c38Program with
  | ok m => m
  | _ => ⟨0, 0, 0, 0, 0, 0, 0, [], [], intConv⟩

example : compile c38Program = ok c38Names := by decide

/-- C38: a state after running the program that meets the hypotheses. -/
example : construct 64 10 10 10 2 intConv c38Program = ok c38Machine ∧
    (Tok.exit ∉ c38Program ∨ Tok.do_ ∉ c38Program) ∧
    ∃ s, Reachable c38Machine c38Names.words s ∧ s.data.stack = [2, 1, 0] ∧
      s.data.outputs.map OutBuf.toList = [ok [5, 6, 7]] ∧ Allowed c38Machine c38Names.words s (.call 1) := by
  have hc : compile c38Program = ok c38Names := by decide
  have hm : construct 64 10 10 10 2 intConv c38Program = ok c38Machine := rfl
  have hg : Tok.exit ∉ c38Program ∨ Tok.do_ ∉ c38Program := by decide
  refine ⟨hm, hg, ?_⟩
  have hin : ∀ b ∈ [(⟨[5, 6, 7, 8], 0⟩ : InBuf)], b.pos = 0 ∧ b.data.length < 2 ^ 62 := by decide
  cases hb : begin c38Machine [⟨[5, 6, 7, 8], 0⟩] (initial c38Machine) with
  | err e => exact absurd hb (by intro h; cases h)
  | ub => exact absurd hb (by intro h; cases h)
  | ok s0 =>
    have hr0 : Reachable c38Machine c38Names.words s0 := .begin hin rfl hb
    have hpol := C38_polite_partial hc hm (by norm_num) (by norm_num) (by norm_num) hg
      (by simp [c38Program]) (by decide) hr0 (by cases hb; rfl) (by cases hb; rfl) .resume trivial
    cases hb
    exact ⟨_, .request (fuel := 100) (r := .resume) hr0 trivial hpol rfl, rfl, rfl, ⟨1, by decide⟩, by decide⟩

/-- C38 is violated: `exit` in a word that is called in a `do` loop removes the loop of its caller, so
that `i` reads a loop variable that does not exist. -/
theorem C38_violated_exit :
    scheduled 64 [.colon, .name 0, .exit, .semi, .int 10, .int 0, .do_, .name 0, .builtin 29, .loop]
      [] [false] = ub := by
  decide

/-- C38 is violated: reading -1 items moves the position before the beginning of the input, and the
next read reads there. -/
theorem C38_violated_read :
    scheduled 64 [.input, .name 0, .int (-1), .name 0, .parser true false 2 0, .stack,
      .name 0, .parser false false 2 0, .stack] [⟨[1, 2, 3], 0⟩] [false] = ub := by
  decide

/-- C38 is violated: calling a word does not check the maximum depth. -/
theorem C38_violated_call :
    (construct 64 10 1 10 2 intConv [.colon, .name 0, .int 7, .semi] >>= fun m =>
      begin m [] (initial m) >>= Forth.call m 1 100) = ub := by
  decide

/-- C38: the documented errors. A full stack, an empty stack, the maximum number of calls and the end
of an input are reported, and nothing else changes. -/
theorem C38_errors (m : Machine α) (s : State α) (n x : Int) (b : InBuf) :
    (s.data.stack.length = m.stackMax →
      exec m false 0 s = fetch m s >>= fun _ => ok (.stop { advance 1 s with err := .stackOverflow })) ∧
    (s.data.stack = [] → exec m false 33 s = ok (.stop { s with err := .stackUnderflow })) ∧
    (s.frames.length = m.recMax → 66 ≤ n →
      exec m false n s = ok (.stop { s with err := .recursionDepthExceeded })) ∧
    (0 ≤ b.pos → 0 ≤ x → b.pos + x < 2 ^ 63 → b.data.length < b.pos + x →
      b.read x = (b, .readBeyond, 0)) := by
  refine ⟨fun h => ?_, fun h => ?_, fun h hn => ?_, fun h1 h2 h3 h4 => ?_⟩
  · have had : (advance 1 s).data = s.data := by unfold advance; split <;> rfl
    simp only [exec, operand, R.bind_assoc, bind_ok, argOp, Data.push, had, h]
    simp [onData, Data.fail, ← had]
  · simp [exec, plainOp, Data.pop1, h, onData, Data.fail]
  · unfold exec
    rw [if_neg (by omega), if_pos (by omega)]
    simp [enter, h, failWith]
  · have : wrap 64 (b.pos + x) = b.pos + x := wrap64_small (by omega) (by omega)
    simp only [InBuf.read, this]
    rw [if_pos (by omega)]

/-! ### C39: errors -/

/-- C39: after an error, no requests change anything but the kind of the error, and there always is
one. -/
theorem C39_stays (m : Machine α) (fuel : Nat) (rs : List Request) (s : State α)
    (h : s.err ≠ .none) : ∃ e, e ≠ .none ∧ (e = s.err ∨ e = .notReady ∨ e = .isDone) ∧
      requests m fuel rs s = ok (some { s with err := e }) := by
  induction rs generalizing s with
  | nil => exact ⟨s.err, h, .inl rfl, rfl⟩
  | cons r rs ih =>
    have one : ∃ e, e ≠ .none ∧ (e = s.err ∨ e = .notReady ∨ e = .isDone) ∧
        r.run m fuel s = ok (some { s with err := e }) := by
      have sr : ∀ single, ∃ e, e ≠ .none ∧ (e = s.err ∨ e = .notReady ∨ e = .isDone) ∧
          stepOrResume m single fuel s = ok (some { s with err := e }) := by
        intro single
        unfold stepOrResume
        split
        · exact ⟨_, by simp, .inr (.inl rfl), rfl⟩
        split
        · exact ⟨_, by simp, .inr (.inr rfl), rfl⟩
        · simp only [ne_eq, h, not_false_eq_true, if_true]
          exact ⟨_, h, .inl rfl, rfl⟩
      cases r with
      | step => exact sr true
      | resume => exact sr false
      | call w =>
        show ∃ e, _ ∧ _ ∧ Forth.call m w fuel s = _
        unfold Forth.call
        split
        · exact ⟨_, by simp, .inr (.inl rfl), rfl⟩
        · simp only [ne_eq, h, not_false_eq_true, if_true]
          exact ⟨_, h, .inl rfl, rfl⟩
    obtain ⟨e, h1, h2, h3⟩ := one
    obtain ⟨e', g1, g2, g3⟩ := ih { s with err := e } h1
    refine ⟨e', g1, ?_, ?_⟩
    · rcases g2 with rfl | g2
      · exact h2
      · exact .inr g2
    · unfold requests
      rw [h3, bind_ok]
      exact g3

/-- C39: an error in the middle of a program (not by `halt`) keeps its kind. -/
theorem C39_keeps_kind (m : Machine α) (fuel : Nat) (rs : List Request) (s : State α)
    (h : s.err ≠ .none) (hr : s.ready = true) (hd : s.done = false) :
    requests m fuel rs s = ok (some s) := by
  induction rs with
  | nil => rfl
  | cons r rs ih =>
    have one : r.run m fuel s = ok (some s) := by
      cases r <;> simp [Request.run, stepOrResume, Forth.call, hr, hd, h]
    unfold requests
    rw [one, bind_ok]
    exact ih

/-- C39: resetting gives the state of a new machine. -/
theorem C39_reset (m : Machine α) (s : State α) (h : s.data.vars.length = m.numVars) :
    reset s = initial m := by
  unfold reset initial
  simp [← h, List.map_const']

/-- C39: a new run after an error is the same as a run of a new machine. -/
theorem C39_begin_again (m : Machine α) (s : State α) (inputs : List InBuf)
    (h : s.data.vars.length = m.numVars) : begin m inputs s = begin m inputs (initial m) := by
  unfold begin
  rw [C39_reset m s h, C39_reset m (initial m) (by simp [initial])]

/-- C39: a program that divides by zero, and its error. -/
example : ∃ s, scheduled 64 [.int 1, .int 0, .builtin 42, .int 5] [] [false] = ok (some s) ∧
    s.err = .divisionByZero ∧ s.ready = true ∧ s.done = false := by
  refine ⟨_, rfl, ?_⟩
  decide

/-- C39: after `halt` the kind of the error becomes `not ready`. -/
example : ∃ m s s' : _, construct 64 10 10 10 2 intConv [.halt] = ok m ∧
    scheduled 64 [.halt] [] [false] = ok (some s) ∧ s.err = .userHalt ∧
    requests m 100 [.resume] s = ok (some s') ∧ s'.err = .notReady := by
  refine ⟨_, _, _, rfl, rfl, ?_, rfl, ?_⟩ <;> decide

/-! ### C40: division -/

/-- C40: `/` (bytecode 42) is floor division, for all numbers of the machine. Missing: the smallest
number divided by -1, which stops the process. -/
theorem C40_division_partial (m : Machine α) (hbits : 2 ≤ m.bits) {a b : Int} {rest : List Int}
    (ha : -2 ^ (m.bits - 1) ≤ a ∧ a < 2 ^ (m.bits - 1)) (h0 : b ≠ 0)
    (hmin : ¬ (a = -2 ^ (m.bits - 1) ∧ b = -1)) (d : Data α) (hd : d.stack = b :: a :: rest) :
    ∃ q r, FloorDiv a b q r ∧ plainOp m 42 d = ok ({ d with stack := q :: rest }, .none) := by
  obtain ⟨q, r, hq, hr⟩ := quotient_floor m hbits ha h0 hmin
  refine ⟨q, r, hr, ?_⟩
  simp [plainOp, Data.pop2, hd, h0, hq, Data.fine]

/-- C40: `mod` (bytecode 43) is the remainder with the sign of the divisor, and `/mod` (bytecode 44)
gives both, if the numbers have different signs or the divisor is at most a quarter of the range of
numbers. Missing: greater divisors of the same sign, where it is false. -/
theorem C40_mod_partial (m : Machine α) (hbits : 2 ≤ m.bits) {a b : Int} {rest : List Int}
    (ha : -2 ^ (m.bits - 1) ≤ a ∧ a < 2 ^ (m.bits - 1))
    (hb : -2 ^ (m.bits - 1) ≤ b ∧ b < 2 ^ (m.bits - 1)) (h0 : b ≠ 0)
    (hmin : ¬ (a = -2 ^ (m.bits - 1) ∧ b = -1))
    (hsmall : (a ≤ 0 ∧ 0 < b) ∨ (0 ≤ a ∧ b < 0) ∨ 2 * |b| ≤ 2 ^ (m.bits - 1))
    (d : Data α) (hd : d.stack = b :: a :: rest) :
    ∃ q r, FloorDiv a b q r ∧
      plainOp m 42 d = ok ({ d with stack := q :: rest }, .none) ∧
      plainOp m 43 d = ok ({ d with stack := r :: rest }, .none) ∧
      plainOp m 44 d = ok ({ d with stack := q :: r :: rest }, .none) := by
  obtain ⟨q, r, hq, hr⟩ := quotient_floor m hbits ha h0 hmin
  obtain ⟨q', r', hq', hr'⟩ := remainder_floor m hbits h0 hmin (remainder_fits h0 hb hsmall)
  obtain ⟨rfl, rfl⟩ := FloorDiv.unique h0 hr hr'
  refine ⟨q, r, hr, ?_, ?_, ?_⟩ <;>
    simp [plainOp, Data.pop2, hd, h0, hq, hq', Data.fine]

/-- C40: dividing by zero is the documented error. -/
theorem C40_by_zero (m : Machine α) {a : Int} {rest : List Int} (d : Data α)
    (hd : d.stack = 0 :: a :: rest) (c : Int) (hc : c = 42 ∨ c = 43 ∨ c = 44) :
    ∃ d', plainOp m c d = ok (d', .divisionByZero) := by
  rcases hc with rfl | rfl | rfl <;> simp [plainOp, Data.pop2, hd, Data.fail]

/-- C40: the hypotheses hold for all signs. -/
example : let P : Int := 2 ^ (32 - 1)
    (-P ≤ -7 ∧ (-7 : Int) < P) ∧ (-P ≤ 3 ∧ (3 : Int) < P) ∧ 2 * |(3 : Int)| ≤ P ∧ FloorDiv (-7) 3 (-3) 2 ∧
      FloorDiv 7 (-3) (-3) (-2) ∧ FloorDiv (-7) (-3) 2 (-1) := by
  simp [FloorDiv]

/-- C40 is violated: in a machine with 32 bits, `5 2147483647 mod` is negative, because
`b + a % b` overflows. -/
theorem C40_violated_mod :
    stackOf (scheduled 32 [.int 5, .int 2147483647, .builtin 43] [] [false]) = some [-2147483644] ∧
    FloorDiv 5 2147483647 0 5 := by
  refine ⟨by decide, by simp [FloorDiv]⟩

/-- C40 is violated: the smallest number divided by -1 stops the process. -/
theorem C40_violated_min :
    scheduled 32 [.int (-2147483648), .int (-1), .builtin 42] [] [false] = .err "trap" := by
  decide

/-! ### C41: outputs -/

/-- C41, partial: after any uses of a new output buffer in which no rewind is negative, the buffer
holds what the specification says, and each use sets the error that the specification says. Missing:
negative rewinds, where it is false. -/
theorem C41_output_partial {size : Int} {resize : Rat} (hs : 1 ≤ size) (hr : 1 < resize) (zero : α)
    (add : α → α → α) (ops : List (OutOp α)) (hops : ∀ n, .rewind n ∈ ops → 0 ≤ n) :
    ∃ b, (OutBuf.new size >>= OutOp.runAll resize zero add ops) =
        ok (b, (outApplyAll zero add ops []).2) ∧
      b.toList = ok (outApplyAll zero add ops []).1 := by
  obtain ⟨b, h1, h2, h3⟩ := new_rep (α := α) hs
  rw [h1, bind_ok]
  suffices key : ∀ (b : OutBuf α) (xs : List α), OutRep b xs → b.cells ≠ [] →
      ∃ b', OutOp.runAll resize zero add ops b = ok (b', (outApplyAll zero add ops xs).2) ∧
        b'.toList = ok (outApplyAll zero add ops xs).1 from key b [] h2 h3
  clear h1 h2 h3 b
  induction ops with
  | nil => exact fun b xs h2 _ => ⟨b, rfl, h2.toList⟩
  | cons op ops ih =>
    intro b xs h2 h3
    obtain ⟨b', g1, g2, g3⟩ := OutOp.run_rep hr (zero := zero) (add := add) h2 h3 op
      (fun n h => hops n (by simp [h]))
    obtain ⟨b'', e1, e2⟩ := ih (fun n h => hops n (by simp [h])) b' _ g2 g3
    refine ⟨b'', ?_, e2⟩
    unfold OutOp.runAll
    rw [g1, bind_ok, e1, bind_ok]
    rfl

/-- C41, partial: the words `<-`, `+<-`, `dup` and `rewind` of a program use the buffer so. -/
theorem C41_words_partial (m : Machine α) (hr : 1 < m.resize) (d : Data α) (n : Nat)
    {t : DType} (ht : m.outTypes[n]? = some t) {b : OutBuf α} (hb : d.outputs[n]? = some b)
    {xs : List α} (hxs : OutRep b xs) (hne : b.cells ≠ []) {x : Int} {rest : List Int}
    (hd : d.stack = x :: rest) {op : Int → OutOp α} {code : Int}
    (hop : (code = 19 ∧ op = fun x => .writeOne (m.conv.ofInt t x)) ∨
      (code = 20 ∧ op = fun x => .writeAdd (m.conv.ofInt t x)) ∨ (code = 21 ∧ op = .dup) ∨
      (code = 23 ∧ op = .rewind ∧ 0 ≤ x)) :
    ∃ b', argOp m code n d = ok ({ d with stack := rest, outputs := d.outputs.set n b' },
        (outApply (m.conv.ofInt t 0) (m.conv.add t) (op x) xs).2) ∧
      OutRep b' (outApply (m.conv.ofInt t 0) (m.conv.add t) (op x) xs).1 ∧
      b'.toList = ok (outApply (m.conv.ofInt t 0) (m.conv.add t) (op x) xs).1 := by
  have hrew : ∀ k, op x = .rewind k → 0 ≤ k := by
    intro k hk
    rcases hop with ⟨_, rfl⟩ | ⟨_, rfl⟩ | ⟨_, rfl⟩ | ⟨_, rfl, h⟩
    · cases hk
    · cases hk
    · cases hk
    · cases hk; exact h
  obtain ⟨b', g1, g2, _⟩ := OutOp.run_rep hr (zero := m.conv.ofInt t 0) (add := m.conv.add t) hxs hne
    (op x) hrew
  refine ⟨b', ?_, g2, g2.toList⟩
  have hrd : rd d.outputs (n : Int) = ok b := rd_eq_ok.mpr ⟨by omega, by simpa using hb⟩
  have hrt : rd m.outTypes (n : Int) = ok t := rd_eq_ok.mpr ⟨by omega, by simpa using ht⟩
  rcases hop with ⟨rfl, rfl⟩ | ⟨rfl, rfl⟩ | ⟨rfl, rfl⟩ | ⟨rfl, rfl, h⟩
  · simp [argOp, Data.pop1, hd, Data.onOutput, hrd, hrt, g1]
  · simp [argOp, Data.pop1, hd, Data.onOutput, hrd, hrt, g1]
  · have g1 : OutBuf.dup m.resize x b = _ := g1
    simp [argOp, Data.pop1, hd, Data.onOutput, hrd, g1]
  · have g1 := R.ok.inj (show ok (OutBuf.rewind x b) = _ from g1)
    simp only [argOp, Data.pop1, hd, Data.onOutput, hrd, bind_ok, g1, Int.toNat_natCast]

/-- C41: growing from one cell, with a rewind and a failing one. -/
example : outApplyAll (0 : Int) (· + ·) [.dup 1, .writeOne 3, .writeAdd 4, .dup 2, .rewind 1, .rewind 9] [] =
    ([3, 7, 7], [.rewindBeyond, .none, .none, .none, .none, .rewindBeyond]) := by
  decide

/-- C41 is violated: rewinding by a negative number makes the buffer longer than what was written. -/
theorem C41_violated :
    (OutBuf.new (α := Int) 2 >>= OutOp.runAll 2 0 (· + ·) [.writeOne 7, .rewind (-1)]) =
      ok (⟨[some 7, none], 2⟩, [.none, .none]) ∧
    (⟨[some 7, none], 2⟩ : OutBuf Int).toList = ub := by
  constructor
  · rfl
  · rfl

/-- C41 is violated: even beyond the block. -/
theorem C41_violated_block :
    (OutBuf.new (α := Int) 2 >>= OutOp.runAll 2 0 (· + ·) [.writeOne 7, .rewind (-5)]) =
      ok (⟨[some 7, none], 6⟩, [.none, .none]) := by
  rfl

/-! ### C49: calling a word while the program is paused -/

/-- C49, partial: calling a word of a paused program returns to the place where the program was, and
to the same loops (but not to the same counters). Missing: the counter of the innermost loop, where it
is false, and programs with `exit` and `do`. -/
theorem C49_call_partial {bits stackMax recMax : Nat} {size : Int} {resize : Rat}
    {conv : Conv α} {toks : List Tok} {N : Names} {m : Machine α} (hN : compile toks = ok N)
    (hm : construct bits stackMax recMax size resize conv toks = ok m) (hs : 1 ≤ size)
    (hr : 1 < resize) (hrec : 1 ≤ recMax) (hg : Tok.exit ∉ toks ∨ Tok.do_ ∉ toks) {s : State α}
    (h : Reachable m N.words s) (hready : s.ready = true) (herr : s.err = .none) {w : Int}
    (ha : Allowed m N.words s (.call w)) (hp : PoliteRun m s (.call w)) {fuel : Nat} {s' : State α}
    (hc : (Request.call w).run m fuel s = ok (some s')) (herr' : s'.err = .none)
    (hret : s'.targets.length = s.targets.length) :
    s'.frames = s.frames ∧ s'.targets = s.targets ∧
      s'.loops.map Loop.depth = s.loops.map Loop.depth := by
  obtain ⟨E, hP, hmain, hwords, hi, hrm, hw, _⟩ := construct_ok hN hm False (.inr hr) hg
  have hw : ¬ E.weak := by rw [hw]; simp
  have hidle := reachable_idle hP hmain hwords (by omega) (by omega) h
  exact call_returns hP hwords hidle hready herr ha (fun _ => hp) hc herr' hret

/-- C49 is violated: `: w 7 ; 3 0 do i pause loop` pauses at the end of the body; calling `w` then
advances the counter of the loop, so that 1 is skipped. -/
theorem C49_violated :
    let toks : List Tok := [.colon, .name 0, .int 7, .semi, .int 3, .int 0, .do_, .builtin 29, .pause, .loop]
    (construct 64 10 10 10 2 intConv toks >>= fun m => begin m [] (initial m) >>= fun s =>
      requests m 100 [.resume, .resume, .resume, .resume] s >>= fun s => ok (s.map (·.data.stack))) =
      ok (some [2, 1, 0]) ∧
    (construct 64 10 10 10 2 intConv toks >>= fun m => begin m [] (initial m) >>= fun s =>
      requests m 100 [.resume, .call 1, .resume, .resume] s >>= fun s => ok (s.map (·.data.stack))) =
      ok (some [2, 7, 0]) := by
  decide

/-! ### C50: reading numbers to the stack -/

/-- C50, partial: reading `num` numbers of the formats int8, int16, int32, uint8, uint16 pushes exactly
these numbers and moves the position behind them. Missing: uint32, int64, uint64, where it is false,
floating point numbers, and the variable-length formats. -/
theorem C50_read_partial (m : Machine α) {format size : Nat} {signed : Bool}
    (hf : (format, signed, size) ∈ smallFormats) (big : Bool)
    (num : Nat) (width : Int) {n : Nat} {d : Data α} {b : InBuf} (hb : d.inputs[n]? = some b) {pos : Nat}
    (hpos : b.pos = pos) (hroom : pos + num * size ≤ b.data.length) (hlen : b.data.length < 2 ^ 62)
    (hbytes : ∀ x ∈ b.data, x < 256) (hstack : d.stack.length + num ≤ m.stackMax) :
    readOp m format big num width n none d =
      ok ({ d with
            stack := ((List.range num).map fun i =>
              itemAt big signed size b.data (pos + i * size)).reverse ++ d.stack,
            inputs := d.inputs.set n { b with pos := pos + num * size } }, .none) := by
  have : ∃ k, formatOf format = some (k, size) ∧ ((signed = true ∧ k = .int ∧ size ≤ 4) ∨
      (signed = false ∧ k = .uint ∧ size ≤ 2)) := by
    simp only [smallFormats, List.mem_cons, Prod.mk.injEq, List.not_mem_nil, or_false] at hf
    rcases hf with ⟨rfl, rfl, rfl⟩ | ⟨rfl, rfl, rfl⟩ | ⟨rfl, rfl, rfl⟩ | ⟨rfl, rfl, rfl⟩ |
      ⟨rfl, rfl, rfl⟩ <;> simp [formatOf]
  obtain ⟨k, h1, h2⟩ := this
  exact readOp_items m signed h1 h2 big num width hb hpos hroom hlen hbytes hstack

/-- C50: two big-endian numbers of 16 bits. -/
example : stackOf (scheduled 64 [.input, .name 0, .int 2, .name 0, .parser true true 3 0, .stack]
      [⟨[255, 254, 1, 2, 9], 0⟩] [false]) = some [258, -2] ∧
    itemAt true true 2 [255, 254, 1, 2, 9] 0 = -2 ∧ itemAt true true 2 [255, 254, 1, 2, 9] 2 = 258 := by
  decide

/-- C50 is violated: in a machine with 64 bits, a number of 64 bits is cut to 32 bits. -/
theorem C50_violated_int64 :
    stackOf (scheduled 64 [.input, .name 0, .name 0, .parser false false 5 0, .stack]
      [⟨[5, 0, 0, 0, 1, 0, 0, 0], 0⟩] [false]) = some [5] ∧
    itemAt false true 8 [5, 0, 0, 0, 1, 0, 0, 0] 0 = 4294967301 := by
  decide

/-- C50 is violated: in a machine with 64 bits, a great uint32 becomes negative. -/
theorem C50_violated_uint32 :
    stackOf (scheduled 64 [.input, .name 0, .name 0, .parser false false 9 0, .stack]
      [⟨[255, 255, 255, 255], 0⟩] [false]) = some [-1] ∧
    itemAt false false 4 [255, 255, 255, 255] 0 = 4294967295 := by
  decide

end Props
end Awk
