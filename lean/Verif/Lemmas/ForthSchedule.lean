import Verif.Lemmas.ForthRuns
import Mathlib.Logic.Relation
/-
Programs without `do` and `exit`: steps and resumes go along the same sequence of states.
-/

namespace Awk.Forth
open Awk.R Spec

variable {α : Type}

/-- The machine has not finished. -/
def Live (s : State α) : Prop := s.err = .none ∧ s.frames ≠ []

/-- The smallest step: leave a segment at its end, or execute one instruction. -/
def micro (m : Machine α) (s : State α) : R (State α) :=
  segmentDone m s >>= fun done =>
  if done then popFrame s
  else fetch m s >>= fun c =>
    if c = 2 then ok (advance 1 s)
    else exec m false c (advance 1 s) >>= fun x =>
      match x with
      | .next s => ok s
      | .stop s => ok s
      | .leave s => ok s

/-- An instruction that stops has set an error, and does not leave. -/
def StopErr (x : R (Next α)) : Prop :=
  Sat (match x with | .ub => .err "" | x => x) fun y => match y with
    | .next _ => True
    | .stop s => s.err ≠ .none
    | .leave _ => False

theorem StopErr.ok_next {s : State α} : StopErr (ok (.next s)) := trivial

theorem StopErr.failWith {s : State α} {e : Err} (h : e ≠ .none) : StopErr (failWith s e) := h

theorem StopErr.onData {s : State α} {x : R (Data α × Err)} : StopErr (onData s x) := by
  unfold Forth.onData
  cases x with
  | ok r =>
    rw [bind_ok]
    split
    · trivial
    · assumption
  | err e => trivial
  | ub => trivial

theorem StopErr.bind {β : Type} {x : R β} {f : β → R (Next α)} (h : ∀ a, StopErr (f a)) :
    StopErr (x >>= f) := by
  cases x with
  | ok a => exact h a
  | err e => trivial
  | ub => trivial

theorem StopErr.popThen {s : State α} {k : Int → State α → R (Next α)}
    (h : ∀ x s, StopErr (k x s)) : StopErr (popThen s k) := by
  unfold Forth.popThen
  split
  · exact h _ _
  · exact .failWith (by simp)

theorem StopErr.enter {m : Machine α} {c : Int} {s : State α} : StopErr (enter m c s) := by
  unfold Forth.enter
  split
  · exact .failWith (by simp)
  · exact .bind fun _ => .ok_next

theorem StopErr.exec {m : Machine α} {single : Bool} {c : Int} {s : State α} (h2 : c ≠ 2)
    (h10 : c ≠ 10) : StopErr (exec m single c s) := by
  unfold Forth.exec
  split
  · unfold execRead
    dsimp only
    refine .bind fun r => ?_
    split
    · exact .popThen fun x s => .bind fun _ => .bind fun _ => .onData
    · exact .bind fun _ => .bind fun _ => .onData
  split
  · exact .enter
  split
  · exact fun h => by cases h
  · exact absurd rfl h2
  · exact .popThen fun x s => .ok_next
  · refine .popThen fun x s => ?_
    split
    · exact .ok_next
    · exact .bind fun _ => .enter
  · unfold startLoop
    split
    · dsimp only
      split
      · exact .failWith (by simp)
      · split
        · exact .ok_next
        · trivial
    · exact .failWith (by simp)
  · unfold startLoop
    split
    · dsimp only
      split
      · exact .failWith (by simp)
      · split
        · exact .ok_next
        · trivial
    · exact .failWith (by simp)
  · exact .ok_next
  · exact .popThen fun x s => .ok_next
  · refine .popThen fun x s => ?_
    split
    · exact .ok_next
    · exact .bind fun _ => .enter
  · exact absurd rfl h10
  · unfold loopVar
    split
    · exact .failWith (by simp)
    · exact .bind fun _ => .onData
  · unfold loopVar
    split
    · exact .failWith (by simp)
    · exact .bind fun _ => .onData
  · unfold loopVar
    split
    · exact .failWith (by simp)
    · exact .bind fun _ => .onData
  · split
    · exact .bind fun _ => .onData
    · exact .onData

/-- Only `exit` looks at whether it is a single step. -/
theorem exec_single {m : Machine α} {single : Bool} {c : Int} {s : State α} (h10 : c ≠ 10) :
    exec m single c s = exec m false c s := by
  unfold exec
  split
  · rfl
  split
  · rfl
  split
  all_goals first | rfl | exact absurd rfl h10

section
variable {m : Machine α} {E : Env} {s : State α}

/-- What holds between the smallest steps. -/
abbrev Inv (m : Machine α) (E : Env) (s : State α) : Prop := After m E [] [] [0] true s

theorem Inv.loops (hdo : ¬ E.allowDo) (h : Inv m E s) (he : s.err = .none) : s.loops = [] := by
  obtain ⟨⟨fs, ds, ex, dd, b, _, hl, hf⟩, _⟩ := h.good he
  rw [(hf.nodo hdo).1] at hl
  simpa using hl

theorem live_cases (hP : ProgOK m E) (hw : E.weak) (hdo : ¬ E.allowDo) (hex : ¬ E.allowExit)
    (h : Inv m E s) (hl : Live s) :
    segmentDone m s = ok true ∨ (segmentDone m s = ok false ∧ ∃ c, fetch m s = ok c ∧ c ≠ 10 ∧
      SatE E (exec m false c (advance 1 s)) (NextOK m E [] [] [0]) ∧
      (c = 2 → ∃ f fs ds ex dd, Here m E [] [] [0] (advance 1 s) f fs ds ex dd false)) := by
  obtain ⟨he, hne⟩ := hl
  obtain ⟨⟨fs, ds, ex, dd, b, hf, hlo, hfok⟩, htg, hr⟩ := h.good he
  cases fs with
  | nil => exact absurd (by simpa using hf) hne
  | cons f fs =>
    obtain ⟨_, rfl⟩ := hfok.nodo hdo
    have hh : Here m E [] [] [0] s f fs ds ex dd false := ⟨h.common, he, hr, htg, hf, hlo, hfok⟩
    obtain ⟨done, hd, _⟩ := segmentDone_ok hh.frames hh.fok.1
    cases done with
    | true => exact .inl hd
    | false =>
      refine .inr ⟨hd, ?_⟩
      obtain ⟨k, pre, suf, w1, w2, w3, w4, w5⟩ := hh.fok.1
      generalize hpos : f.pos = p at w5
      cases w5 with
      | start =>
        cases suf with
        | nil =>
          exfalso
          unfold segmentDone at hd
          rw [hf] at hd
          simp only [List.cons_append] at hd
          rw [w1, show rd m.segments ((k : Nat) : Int) = ok (flat (pre ++ [])) from
            rd_eq_ok.mpr ⟨by omega, by simpa using w3⟩, bind_ok] at hd
          simp [hpos] at hd
        | cons i suf =>
          have hraw := hh.raw (off := 0) w1 (by simpa using hpos) w2 w3 w4
          obtain ⟨c, hc', hs'⟩ := exec_start hP (by simp) (fun _ => rfl) false hraw
            (fun h => absurd hw h)
          have hi := w4 _ (List.mem_append_right pre List.mem_cons_self)
          have hget : ∀ x, i.encode[0]? = some x → x = c := by
            intro x hx
            have := hraw.fetch (n := 0) rfl hx
            rw [hc'] at this
            cases this; rfl
          refine ⟨c, hc', ?_, hs', ?_⟩
          · rintro rfl
            cases i with
            | plain c =>
              have := hget _ rfl
              simp only [Instr.OK] at hi; omega
            | arg c n =>
              have := hget _ rfl
              simp only [Instr.OK] at hi; omega
            | read r b f n w o =>
              have := hget _ rfl
              have hdec := (readCode_decode r b o.isSome f (by have := hi.2.1; omega)).1
              omega
            | exit n => exact hex hi.1
            | doLoop b k => exact hdo hi.1
            | _ => have := hget _ rfl; omega
          · rintro rfl
            cases i with
            | plain c => exact ⟨_, _, _, _, _, (hraw.adv 1).behind rfl⟩
            | arg c n =>
              have := hget _ rfl
              simp only [Instr.OK] at hi; omega
            | read r b f n w o =>
              have := hget _ rfl
              have hdec := (readCode_decode r b o.isSome f (by have := hi.2.1; omega)).1
              omega
            | exit n => exact absurd hi.1 hex
            | doLoop b k => exact absurd hi.1 hdo
            | _ => have := hget _ rfl; omega
      | @mid i off suf' hs hm =>
        subst hs
        have hraw := hh.raw w1 hpos w2 w3 w4
        obtain ⟨c, hc', hs'⟩ := exec_mid hP (by simp) false hraw hm
        have hget : ∀ x, i.encode[off]? = some x → x = c := by
          intro x hx
          have := hraw.fetch (n := off) rfl hx
          rw [hc'] at this
          cases this; rfl
        refine ⟨c, hc', ?_, hs', ?_⟩
        · rintro rfl
          cases hm <;> (have := hget _ rfl; omega)
        · rintro rfl
          cases hm <;> (have := hget _ rfl; omega)

theorem endSegment_nil (h : s.loops = []) :
    endSegment s = popFrame s >>= fun s' => ok (s', false) := by
  unfold endSegment
  unfold popFrame
  split
  · simp only [bind_ok]
    have : ∀ fs, inLoop { s with frames := fs } = none := by intro fs; simp [inLoop, h]
    rw [this]
  · rfl

/-- Leaving a segment. -/
theorem Inv.pop (hdo : ¬ E.allowDo) (h : Inv m E s) (hl : Live s) :
    ∃ s', popFrame s = ok s' ∧ Inv m E s' ∧ s'.err = .none := by
  obtain ⟨he, hne⟩ := hl
  obtain ⟨⟨fs, ds, ex, dd, b, hf, hlo, hfok⟩, htg, hr⟩ := h.good he
  cases fs with
  | nil => exact absurd (by simpa using hf) hne
  | cons f fs =>
    obtain ⟨_, rfl⟩ := hfok.nodo hdo
    obtain ⟨s', h1, h2, _, h3, _⟩ := popFrame_after (stop := true) h.common hf hlo hfok he hr
    rw [htg] at h2
    exact ⟨s', h1, h2, h3⟩

theorem micro_done (h : segmentDone m s = ok true) : micro m s = popFrame s := by
  unfold micro
  rw [h, bind_ok, if_pos rfl]

theorem micro_inv (hP : ProgOK m E) (hw : E.weak) (hdo : ¬ E.allowDo) (hex : ¬ E.allowExit)
    (h : Inv m E s) (hl : Live s) {s' : State α} (hs : micro m s = ok s') : Inv m E s' := by
  rcases live_cases hP hw hdo hex h hl with hd | ⟨hd, c, hc, h10, hx, h2⟩
  · rw [micro_done hd] at hs
    obtain ⟨s1, g1, g2, _⟩ := h.pop hdo hl
    rw [g1] at hs
    cases hs
    exact g2
  · unfold micro at hs
    rw [hd, bind_ok, if_neg (by simp), hc, bind_ok] at hs
    split at hs
    · rename_i hc2
      cases hs
      obtain ⟨f, fs, ds, ex, dd, hh⟩ := h2 hc2
      exact hh.after true
    · rename_i hc2
      rw [bind_eq_ok] at hs
      obtain ⟨y, hy, hs⟩ := hs
      rw [hy] at hx
      have hse := StopErr.exec (m := m) (single := false) (s := advance 1 s) hc2 h10
      rw [hy] at hse
      cases y with
      | next s1 =>
        cases hs
        obtain ⟨hc, he, hr, htg, f, fs, ds, ex, dd, b, h1, h2, h3⟩ := hx
        exact ⟨hc, fun _ => ⟨⟨f :: fs, ds, ex, dd, b, h1, h2, h3⟩, htg, hr⟩, fun h => absurd he h⟩
      | stop s1 => cases hs; exact hx
      | leave s1 => exact absurd hse (by simp [StopErr])

/-- The result of a round is one or two of the smallest steps. -/
inductive Steps (m : Machine α) (s : State α) : State α → Bool → Prop where
  | one {s' : State α} {b : Bool} : micro m s = ok s' → (s'.err ≠ .none → b = true) → Steps m s s' b
  | two {s1 s' : State α} : micro m s = ok s1 → Live s1 → micro m s1 = ok s' → Steps m s s' true

theorem Steps.round (hP : ProgOK m E) (hw : E.weak) (hdo : ¬ E.allowDo) (hex : ¬ E.allowExit)
    (h : Inv m E s) (hl : Live s) (single : Bool) {s1 : State α} (hs : micro m s = ok s1) :
    ∃ s' b, round m single 0 s = ok (s', b) ∧ Steps m s s' b := by
  have hdep : s.depth ≠ 0 := by
    have := hl.2
    simp [State.depth, this]
  have hloops := h.loops hdo hl.1
  have hin : inLoop s = none := by simp [inLoop, hloops]
  unfold Forth.round
  rw [if_neg hdep]
  rcases live_cases hP hw hdo hex h hl with hd | ⟨hd, c, hc, h10, hx, h2⟩
  · rw [hd, bind_ok, if_pos rfl, endSegment_nil hloops]
    obtain ⟨s2, g1, g2, g3⟩ := h.pop hdo hl
    rw [g1, bind_ok]
    exact ⟨_, _, rfl, .one (by rw [micro_done hd, g1]) (fun h => absurd g3 h)⟩
  · rw [hd, bind_ok, if_neg (by simp), hc, bind_ok, hin]
    simp only
    by_cases hc2 : c = 2
    · subst hc2
      have hm1 : micro m s = ok (advance 1 s) := by
        unfold micro
        rw [hd, bind_ok, if_neg (by simp), hc, bind_ok, if_pos rfl]
      obtain ⟨f, fs, ds, ex, dd, hh⟩ := h2 rfl
      have hinv : Inv m E (advance 1 s) := hh.after true
      have hl1 : Live (advance 1 s) := ⟨hh.err, by rw [hh.frames]; simp⟩
      rw [exec_pause]
      obtain ⟨done, hd1, _⟩ := segmentDone_ok hh.frames hh.fok.1
      rw [hd1, bind_ok]
      cases done with
      | true =>
        rw [if_pos rfl, endSegment_nil (hinv.loops hdo hh.err)]
        obtain ⟨s2, g1, g2, g3⟩ := hinv.pop hdo hl1
        rw [g1]
        exact ⟨_, _, rfl, .two hm1 hl1 (by rw [micro_done hd1, g1])⟩
      | false =>
        rw [if_neg (by simp)]
        exact ⟨_, _, rfl, .one hm1 (fun _ => rfl)⟩
    · rw [exec_single h10]
      have hse := StopErr.exec (m := m) (single := false) (s := advance 1 s) hc2 h10
      have hmic : ∀ y, exec m false c (advance 1 s) = ok y → micro m s = (match y with
          | .next s => ok s | .stop s => ok s | .leave s => ok s) := by
        intro y hy
        unfold micro
        rw [hd, bind_ok, if_neg (by simp), hc, bind_ok, if_neg hc2, hy, bind_ok]
      cases hy : exec m false c (advance 1 s) with
      | err e =>
        unfold micro at hs
        rw [hd, bind_ok, if_neg (by simp), hc, bind_ok, if_neg hc2, hy] at hs
        simp at hs
      | ub =>
        unfold micro at hs
        rw [hd, bind_ok, if_neg (by simp), hc, bind_ok, if_neg hc2, hy] at hs
        simp at hs
      | ok y =>
        rw [hy] at hx hse
        have hm := hmic y hy
        rw [bind_ok]
        cases y with
        | stop s2 => exact ⟨_, _, rfl, .one hm (fun _ => rfl)⟩
        | leave s2 => exact absurd hse (by simp [StopErr])
        | next s2 =>
          obtain ⟨hc, he, hr, htg, f, fs, ds, ex, dd, b, g1, g2, g3⟩ := hx
          simp only [afterInstr]
          split
          · obtain ⟨done, hd1, _⟩ := segmentDone_ok (s := s2) g1 g3.1
            rw [hd1, bind_ok]
            cases done with
            | true =>
              rw [if_pos rfl]
              have hinv : Inv m E s2 := ⟨hc, fun _ => ⟨⟨f :: fs, ds, ex, dd, b, g1, g2, g3⟩, htg, hr⟩,
                fun h => absurd he h⟩
              have hl2 : Live s2 := ⟨he, by rw [g1]; simp⟩
              obtain ⟨s3, p1, p2, p3⟩ := hinv.pop hdo hl2
              rw [p1, bind_ok]
              exact ⟨_, _, rfl, .two hm hl2 (by rw [micro_done hd1, p1])⟩
            | false =>
              rw [if_neg (by simp)]
              exact ⟨_, _, rfl, .one hm (fun _ => rfl)⟩
          · exact ⟨_, _, rfl, .one hm (fun h => absurd he h)⟩

theorem micro_of_round (hP : ProgOK m E) (hw : E.weak) (hdo : ¬ E.allowDo) (hex : ¬ E.allowExit)
    (h : Inv m E s) (hl : Live s) {single : Bool} {r : State α × Bool}
    (hr : round m single 0 s = ok r) : ∃ s1, micro m s = ok s1 := by
  have hdep : s.depth ≠ 0 := by
    have := hl.2
    simp [State.depth, this]
  have hin : inLoop s = none := by simp [inLoop, h.loops hdo hl.1]
  unfold Forth.round at hr
  rw [if_neg hdep] at hr
  rcases live_cases hP hw hdo hex h hl with hd | ⟨hd, c, hc, h10, hx, h2⟩
  · obtain ⟨s2, g1, g2, g3⟩ := h.pop hdo hl
    exact ⟨s2, by rw [micro_done hd, g1]⟩
  · rw [hd, bind_ok, if_neg (by simp), hc, bind_ok, hin] at hr
    simp only at hr
    unfold micro
    rw [hd, bind_ok, if_neg (by simp), hc, bind_ok]
    split
    · exact ⟨_, rfl⟩
    · rw [exec_single h10, bind_eq_ok] at hr
      obtain ⟨y, hy, _⟩ := hr
      rw [hy, bind_ok]
      cases y <;> exact ⟨_, rfl⟩

end

/-- `n` of the smallest steps. -/
inductive Path (m : Machine α) : Nat → State α → State α → Prop where
  | zero (s : State α) : Path m 0 s s
  | succ {n : Nat} {s s1 t : State α} : Live s → micro m s = ok s1 → Path m n s1 t →
      Path m (n + 1) s t

theorem Path.trans {m : Machine α} {a b : Nat} {s t u : State α} (h : Path m a s t)
    (h' : Path m b t u) : Path m (a + b) s u := by
  induction h with
  | zero s => simpa using h'
  | succ hl hm _ ih => rw [Nat.add_right_comm]; exact .succ hl hm (ih h')

theorem Path.split {m : Machine α} {a n : Nat} {s t u : State α} (h : Path m a s u)
    (h' : Path m n s t) (ht : ¬ Live t) : a ≤ n ∧ Path m (n - a) u t := by
  induction h generalizing n with
  | zero s => exact ⟨by omega, by simpa using h'⟩
  | @succ k s s1 u hl hm _ ih =>
    cases h' with
    | zero => exact absurd hl ht
    | @succ k' _ s1' _ hl' hm' h'' =>
      rw [hm] at hm'
      cases hm'
      obtain ⟨h1, h2⟩ := ih h''
      exact ⟨by omega, by rwa [Nat.add_sub_add_right]⟩

theorem Path.unique {m : Machine α} {a n : Nat} {s t u : State α} (h : Path m a s u)
    (hu : ¬ Live u) (h' : Path m n s t) (ht : ¬ Live t) : t = u := by
  obtain ⟨h1, h2⟩ := h.split h' ht
  cases hn : n - a with
  | zero =>
    rw [hn] at h2
    cases h2
    rfl
  | succ k =>
    rw [hn] at h2
    cases h2 with
    | succ hl _ _ => exact absurd hl hu

section
variable {m : Machine α} {E : Env}

theorem Path.inv (hP : ProgOK m E) (hw : E.weak) (hdo : ¬ E.allowDo) (hex : ¬ E.allowExit) {n : Nat}
    {s t : State α} (h : Path m n s t) : Inv m E s → Inv m E t := by
  induction h with
  | zero s => exact id
  | succ hl hm _ ih => exact fun h => ih (micro_inv hP hw hdo hex h hl hm)

theorem Steps.path {s s' : State α} {b : Bool} (hl : Live s) (h : Steps m s s' b) :
    ∃ n, 1 ≤ n ∧ Path m n s s' := by
  cases h with
  | one h _ => exact ⟨1, by omega, .succ hl h (.zero _)⟩
  | two h hl1 h1 => exact ⟨2, by omega, .succ hl h (.succ hl1 h1 (.zero _))⟩

theorem Steps.alive {s s' : State α} (h : Steps m s s' false) : s'.err = .none := by
  cases h with
  | one _ h =>
    by_contra hne
    exact absurd (h hne) (by simp)

theorem depth_zero {s : State α} (he : s.err = .none) (hl : ¬ Live s) : s.depth = 0 := by
  have : s.frames = [] := by
    by_contra hne
    exact hl ⟨he, hne⟩
  simp [State.depth, this]

theorem internalRun_path (hP : ProgOK m E) (hw : E.weak) (hdo : ¬ E.allowDo) (hex : ¬ E.allowExit)
    (single : Bool) (fuel : Nat) : ∀ s s' : State α, Inv m E s → s.err = .none →
      internalRun m single 0 fuel s = ok (some s') → ∃ n, Path m n s s' ∧ (Live s → 1 ≤ n) := by
  induction fuel with
  | zero => intro s s' _ _ h; simp [internalRun] at h
  | succ k ih =>
    intro s s' hi he h
    unfold internalRun at h
    rw [bind_eq_ok] at h
    obtain ⟨r, hr, h⟩ := h
    by_cases hl : Live s
    · obtain ⟨s1, hs1⟩ := micro_of_round hP hw hdo hex hi hl hr
      obtain ⟨s2, b, hr2, hst⟩ := Steps.round hP hw hdo hex hi hl single hs1
      rw [hr] at hr2
      cases hr2
      obtain ⟨n, hn, hp⟩ := hst.path hl
      cases b with
      | true => simp at h; subst h; exact ⟨n, hp, fun _ => hn⟩
      | false =>
        simp at h
        obtain ⟨n', hp', _⟩ := ih s2 s' (hp.inv hP hw hdo hex hi) hst.alive h
        exact ⟨n + n', hp.trans hp', fun _ => by omega⟩
    · have hd := depth_zero he hl
      unfold Forth.round at hr
      rw [if_pos hd] at hr
      cases hr
      simp at h
      subst h
      exact ⟨0, .zero s, fun h => absurd h hl⟩

theorem internalRun_ends (hP : ProgOK m E) (hw : E.weak) (hdo : ¬ E.allowDo) (hex : ¬ E.allowExit)
    (single : Bool) (fuel : Nat) : ∀ (n : Nat) (s t : State α), Inv m E s → s.err = .none →
      Path m n s t → ¬ Live t → n < fuel → ∃ s', internalRun m single 0 fuel s = ok (some s') := by
  induction fuel with
  | zero => intro n s t _ _ _ _ h; omega
  | succ k ih =>
    intro n s t hi he hp ht hn
    unfold internalRun
    by_cases hl : Live s
    · cases hp with
      | zero => exact absurd hl ht
      | @succ n' _ s1 _ _ hm hp' =>
        obtain ⟨s2, b, hr2, hst⟩ := Steps.round hP hw hdo hex hi hl single hm
        rw [hr2, bind_ok]
        cases b with
        | true => exact ⟨_, rfl⟩
        | false =>
          obtain ⟨a, ha, hpa⟩ := hst.path hl
          obtain ⟨h1, h2⟩ := hpa.split (.succ hl hm hp') ht
          exact ih _ s2 t (hpa.inv hP hw hdo hex hi) hst.alive h2 ht (by omega)
    · unfold Forth.round
      rw [if_pos (depth_zero he hl), bind_ok]
      exact ⟨_, rfl⟩

theorem begin_inv (hP : ProgOK m E) (hmain : E.info[0]? = some (0, 0)) (hw : E.weak)
    {inputs : List InBuf} {s s' : State α} (h : begin m inputs s = ok s') :
    Idle m E s' ∧ Inv m E s' ∧ Live s' := by
  obtain ⟨h1, h2, h3, h4, h5⟩ := begin_weak hP hmain hw h
  refine ⟨h1, ⟨h1.common, fun he => ⟨?_, h4, h2⟩, fun he => absurd h3 he⟩, h3, ?_⟩
  · have := h1.stk h2 h3
    rw [h4] at this
    generalize hts : ([0] : List Int) = ts at this
    generalize hfs : s'.frames = frs at this
    generalize hls : List.map Loop.depth s'.loops = ls at this
    cases this with
    | nil => simp at hts
    | @cons base bds ts fs ds ex dd b h0 hf =>
      simp at hts
      obtain ⟨hbase, rfl⟩ := hts
      cases h0
      exact ⟨fs, ds, ex, dd, b, hfs, hls, hf⟩
  · intro hn
    rw [hn] at h5
    simp at h5

/-- What `popTarget` makes of the state in which `internal_run` returns. -/
theorem Inv.target {s : State α} (h : Inv m E s) : ∃ s', popTarget s = ok s' ∧
    (Live s → s' = s) ∧ (¬ Live s → finished s') := by
  have htg : s.targets ≠ [] := by
    by_cases he : s.err = .none
    · rw [(h.good he).2.1]; simp
    · exact (h.failed he).2
  unfold popTarget
  cases hts : s.targets with
  | nil => exact absurd hts htg
  | cons t ts =>
    refine ⟨_, rfl, fun hl => ?_, fun hl => ?_⟩
    · have := (h.good hl.1).2.1
      rw [hts] at this
      cases this
      rw [if_neg]
      simp [State.depth, hl.2]
    · by_cases he : s.err = .none
      · have := (h.good he).2.1
        rw [hts] at this
        cases this
        rw [if_pos (depth_zero he hl)]
        exact .inl rfl
      · right
        split <;> exact he

theorem Inv.notFinished {s : State α} (h : Inv m E s) (hl : Live s) : ¬ finished s := by
  rintro (hd | he)
  · rw [State.done, (h.good hl.1).2.1] at hd
    simp at hd
  · exact he hl.1

theorem stepOrResume_eq {s : State α} (h : Inv m E s) (hl : Live s) (single : Bool) (fuel : Nat) :
    stepOrResume m single fuel s = internalRun m single 0 fuel s >>= fun r =>
      match r with
      | some s => popTarget s >>= fun s => ok (some s)
      | none => ok none := by
  obtain ⟨_, htg, hr⟩ := h.good hl.1
  unfold stepOrResume
  rw [hr, if_neg (by simp), if_neg (by simp [State.done, htg]), if_neg (by simp [hl.1])]
  unfold runInternal
  rw [htg]
  rfl

/-- A schedule that finishes ends where the smallest steps end. -/
theorem perform_path (hP : ProgOK m E) (hw : E.weak) (hdo : ¬ E.allowDo) (hex : ¬ E.allowExit)
    (fuel : Nat) : ∀ (bs : List Bool) (s s' : State α), Inv m E s → Live s →
      perform m fuel bs s = ok (some s') → finished s' →
      ∃ n t, Path m n s t ∧ ¬ Live t ∧ popTarget t = ok s' := by
  intro bs
  induction bs with
  | nil =>
    intro s s' h hl hp hf
    simp [perform] at hp
    subst hp
    exact absurd hf (h.notFinished hl)
  | cons b bs ih =>
    intro s s' h hl hp hf
    unfold perform at hp
    rw [if_neg (h.notFinished hl), stepOrResume_eq h hl, R.bind_assoc, bind_eq_ok] at hp
    obtain ⟨r, hr, hp⟩ := hp
    cases r with
    | none => simp at hp
    | some s1 =>
      obtain ⟨n, hpath, _⟩ := internalRun_path hP hw hdo hex b fuel s s1 h hl.1 hr
      have hi := hpath.inv hP hw hdo hex h
      obtain ⟨s2, t1, t2, t3⟩ := hi.target
      simp only [t1, bind_ok] at hp
      by_cases hl1 : Live s1
      · obtain rfl := t2 hl1
        obtain ⟨n', t, p1, p2, p3⟩ := ih s2 s' hi hl1 hp hf
        exact ⟨n + n', t, hpath.trans p1, p2, p3⟩
      · have : s2 = s' := by
          cases bs with
          | nil => simpa [perform] using hp
          | cons b bs => simpa [perform, t3 hl1] using hp
        subst this
        exact ⟨n, s1, hpath, hl1, t1⟩

/-- If the smallest steps come to an end, long schedules with enough rounds do. -/
theorem perform_ends (hP : ProgOK m E) (hw : E.weak) (hdo : ¬ E.allowDo) (hex : ¬ E.allowExit)
    (fuel : Nat) : ∀ (bs : List Bool) (n : Nat) (s t : State α), Inv m E s → Live s →
      Path m n s t → ¬ Live t → n ≤ bs.length → n < fuel →
      ∃ s', perform m fuel bs s = ok (some s') ∧ finished s' := by
  intro bs
  induction bs with
  | nil =>
    intro n s t h hl hp ht hn _
    simp at hn
    subst hn
    cases hp
    exact absurd hl ht
  | cons b bs ih =>
    intro n s t h hl hp ht hn hfuel
    unfold perform
    obtain ⟨s1, hr⟩ := internalRun_ends hP hw hdo hex b fuel n s t h hl.1 hp ht hfuel
    rw [if_neg (h.notFinished hl), stepOrResume_eq h hl, R.bind_assoc, hr, bind_ok]
    obtain ⟨a, hpath, ha⟩ := internalRun_path hP hw hdo hex b fuel s s1 h hl.1 hr
    have hi := hpath.inv hP hw hdo hex h
    obtain ⟨s2, t1, t2, t3⟩ := hi.target
    simp only [t1, bind_ok]
    obtain ⟨h1, h2⟩ := hpath.split hp ht
    have := ha hl
    simp at hn
    by_cases hl1 : Live s1
    · obtain rfl := t2 hl1
      exact ih _ s2 t hi hl1 h2 ht (by omega) (by omega)
    · refine ⟨s2, ?_, t3 hl1⟩
      cases bs with
      | nil => simp [perform]
      | cons b bs => simp [perform, t3 hl1]

end

end Awk.Forth
