import Verif.Lemmas.ForthSafe
/-
All requests keep the machine within its bounds.
-/

namespace Awk.Forth
open Awk.R Spec

variable {α : Type}

section
variable {m : Machine α} {E : Env} {base : List Frame} {bds targets : List Int} {s : State α}

theorem Here.raw {f : Frame} {fs : List Frame} {ds : List Int} {ex dd : Nat}
    (h : Here m E base bds targets s f fs ds ex dd false) {k : Nat} {pre : List Instr} {i : Instr}
    {suf : List Instr} {off : Int} (hf : f.which = k) (hp : f.pos = (flat pre).length + off)
    (hi : E.info[k]? = some (ex, dd)) (hs : m.segments[k]? = some (flat (pre ++ i :: suf)))
    (ho : ∀ j ∈ pre ++ i :: suf, j.OK E ex dd) :
    Raw m E base bds targets s k pre i suf off fs ds ex dd := by
  refine ⟨h.common, h.err, h.ready, h.targets, ?_, h.loops, ?_, hi, hs, ho⟩
  · rw [h.frames, ← hf, ← hp]; rfl
  · intro f' hf'
    exact ⟨hf', h.fok.2⟩

/-- Whether the top frame runs a loop. -/
theorem Here.inLoop {f : Frame} {fs : List Frame} {ds : List Int} {ex dd : Nat} {b : Bool}
    (h : Here m E base bds targets s f fs ds ex dd b) (hb : ∀ x ∈ bds, x ≤ (base.length : Int)) :
    (b = true → ∃ l, inLoop s = some l ∧ ∃ ls, s.loops = l :: ls) ∧
      (b = false → inLoop s = none) := by
  obtain ⟨_, ds0, ex0, dd0, b0, f0, hds, _⟩ := h.fok
  have hdep : s.depth = ((base.length + fs.length + 1 : Nat) : Int) := by
    simp [State.depth, h.frames]; omega
  have hl := h.loops
  rw [hds] at hl
  constructor
  · rintro rfl
    cases hls : s.loops with
    | nil => rw [hls] at hl; simp at hl
    | cons l ls =>
      rw [hls] at hl
      simp at hl
      refine ⟨l, ?_, ls, rfl⟩
      unfold Forth.inLoop
      rw [hls]
      simp only
      rw [if_pos]
      rw [hdep, hl.1]; push_cast; ring
  · rintro rfl
    have hle : ∀ x ∈ ds0 ++ bds, x ≤ ((base.length + fs.length : Nat) : Int) := by
      intro x hx
      rcases List.mem_append.mp hx with hx | hx
      · exact f0.le x hx
      · have := hb x hx; push_cast; omega
    unfold Forth.inLoop
    split
    · rename_i l ls hls
      rw [if_neg]
      rw [hls] at hl
      simp only [List.map_cons, Bool.false_eq_true, if_false, List.nil_append] at hl
      have := hle l.depth (by rw [← hl]; simp)
      rw [hdep]
      push_cast at this ⊢
      omega
    · rfl

theorem round_ok (hP : ProgOK m E) (ht : targets ≠ []) (hb : ∀ x ∈ bds, x ≤ (base.length : Int))
    (hbds : ¬ E.allowDo → bds = []) (single : Bool) (hc : Common m E s) (he : s.err = .none)
    (hr : s.ready = true) (htg : s.targets = targets) (hg : Good m E base bds s)
    (hpol : ¬ E.weak → s.depth ≠ (base.length : Int) → Polite m s) :
    SatE E (round m single base.length s) fun r => After m E base bds targets r.2 r.1 := by
  obtain ⟨fs, ds, ex, dd, b, hf, hl, hfok⟩ := hg
  cases fs with
  | nil =>
    unfold round
    rw [if_pos (by simp [State.depth, hf])]
    exact ⟨hc, fun _ => ⟨⟨[], ds, ex, dd, b, hf, hl, hfok⟩, htg, hr⟩, fun h => absurd he h⟩
  | cons f fs =>
    have h : Here m E base bds targets s f fs ds ex dd b := ⟨hc, he, hr, htg, hf, hl, hfok⟩
    unfold round
    have hdep : s.depth ≠ (base.length : Int) := by simp [State.depth, hf]; omega
    rw [if_neg hdep]
    have hpol := fun hw => hpol hw hdep
    obtain ⟨done, hd, hbd⟩ := segmentDone_ok h.frames h.fok.1
    rw [hd, bind_ok]
    split
    · rename_i hdone
      obtain rfl := hbd hdone
      have := endSegment_after hc hf hl hfok he hr (by rw [htg]; exact ht)
      rwa [htg] at this
    · rename_i hdone
      obtain ⟨k, pre, suf, w1, w2, w3, w4, w5⟩ := h.fok.1
      generalize hpos : f.pos = p at w5
      cases w5 with
      | start =>
        cases suf with
        | nil =>
          exfalso
          apply hdone
          unfold segmentDone at hd
          rw [hf] at hd
          simp only [List.cons_append] at hd
          rw [w1, show rd m.segments ((k : Nat) : Int) = ok (flat (pre ++ [])) from
            rd_eq_ok.mpr ⟨by omega, by simpa using w3⟩, bind_ok] at hd
          cases hd
          simp [hpos]
        | cons i suf =>
          have hraw := h.raw (off := 0) w1 (by simpa using hpos) w2 w3 w4
          obtain ⟨c, hc', hs'⟩ := exec_start hP ht hbds single hraw hpol
          rw [hc', bind_ok, (h.inLoop hb).2 rfl]
          exact hs'.bind fun x hx => afterInstr_after ht hx
      | mid hs hm =>
        subst hs
        have hraw := h.raw w1 hpos w2 w3 w4
        obtain ⟨c, hc', hs'⟩ := exec_mid hP ht single hraw hm
        rw [hc', bind_ok, (h.inLoop hb).2 rfl]
        exact hs'.bind fun x hx => afterInstr_after ht hx
      | loop hs =>
        rename_i b' k' suf'
        subst hs
        obtain ⟨l, hl1, ls, hl2⟩ := (h.inLoop hb).1 rfl
        have hfe : fetch m s = ok ((k' : Int) + 66) := by
          unfold fetch
          rw [hf]
          simp only [List.cons_append]
          rw [w1, show rd m.segments ((k : Nat) : Int) = ok (flat (pre ++ .doLoop b' k' :: suf'))
            from rd_eq_ok.mpr ⟨by omega, by simpa using w3⟩, bind_ok, hpos]
          have e : flat (pre ++ .doLoop b' k' :: suf') =
              flat pre ++ ((Instr.doLoop b' k').encode ++ flat suf') := by simp [flat]
          rw [e]
          exact rd_append _ _ 1
        have hok : Instr.OK E ex dd (.doLoop b' k') :=
          w4 _ (List.mem_append_right pre List.mem_cons_self)
        rw [hfe, bind_ok, hl1]
        simp only
        split
        · -- the loop is over
          obtain ⟨_, ds0, ex0, dd0, b0, f0, hds, frel⟩ := h.fok
          simp only [if_true] at hds
          subst hds
          rw [advance_eq 1 hf]
          have hfl := hc.frames
          have hll := hc.loops
          refine ⟨⟨hc.data, ?_, ?_⟩, fun _ => ⟨⟨{ f with pos := f.pos + 1 } :: fs, ds0, ex, dd, false,
            rfl, ?_, ⟨k, pre ++ [.doLoop b' k'], suf', w1, w2, by simpa using w3, by simpa using w4, ?_⟩,
            ds0, ex0, dd0, b0, f0, by simp, frel⟩, htg, hr⟩, fun h => absurd he h⟩
          · rw [hf] at hfl; simpa using hfl
          · rw [hl2] at hll ⊢; simp at hll ⊢; omega
          · rw [hl2] at hl ⊢; simp at hl ⊢; exact hl.2
          · have : f.pos + 1 = ((flat (pre ++ [.doLoop b' k'])).length : Int) := by
              rw [hpos]; simp [flat, Instr.encode]; omega
            simp only [this]
            exact .start
        · rw [exec_call]
          exact (h.enter hP ht hok.2 (.inr ⟨rfl, rfl⟩)).bind fun x hx => afterInstr_after ht hx

/-- A program without repeated reads and rewinds does not ask for something absurd. -/
theorem polite_of_static (h1 : ¬ E.allowRepeat) (h2 : ¬ E.allowRewind) (hg : Good m E base bds s)
    (hd : s.depth ≠ (base.length : Int)) : Polite m s := by
  obtain ⟨fs, ds, ex, dd, b, hf, _, hfok⟩ := hg
  cases fs with
  | nil => exact absurd (by simp [State.depth, hf]) hd
  | cons f fs =>
    obtain ⟨⟨k, pre, suf, w1, w2, w3, w4, w5⟩, _⟩ := hfok
    intro c hc
    have hseg : rd m.segments f.which = ok (flat (pre ++ suf)) := by
      rw [w1]; exact rd_eq_ok.mpr ⟨by omega, by simpa using w3⟩
    unfold fetch at hc
    rw [hf] at hc
    simp only [List.cons_append] at hc
    rw [hseg, bind_ok] at hc
    -- the bytecode comes from an instruction
    have key : ∃ (i : Instr) (n : Nat), i.OK E ex dd ∧ i.encode[n]? = some c ∧
        (n = 0 ∨ Mid i n ∨ ∃ b k, i = .doLoop b k ∧ n = 1) := by
      generalize hpos : f.pos = p at w5
      rw [hpos] at hc
      have get : ∀ (i : Instr) (suf' : List Instr) (n : Nat), suf = i :: suf' →
          n < i.encode.length → p = (flat pre).length + n → i.OK E ex dd ∧ i.encode[n]? = some c := by
        intro i suf' n hs hn hp
        subst hs
        refine ⟨w4 _ (List.mem_append_right pre List.mem_cons_self), ?_⟩
        have e : flat (pre ++ i :: suf') = flat pre ++ (i.encode ++ flat suf') := by simp [flat]
        rw [e, hp, rd_append] at hc
        have := (rd_eq_ok.mp hc).2
        simpa [List.getElem?_append_left hn] using this
      cases w5 with
      | start =>
        cases suf with
        | nil =>
          have := (rd_eq_ok.mp hc).2
          simp at this
        | cons i suf' =>
          have hlen : 0 < i.encode.length := by cases i <;> simp [Instr.encode]
          obtain ⟨g1, g2⟩ := get i suf' 0 rfl hlen (by simp)
          exact ⟨i, 0, g1, g2, .inl rfl⟩
      | @mid i off suf' hs hm =>
        obtain ⟨g1, g2⟩ := get i suf' off hs (by cases hm <;> simp [Instr.encode]) rfl
        exact ⟨i, off, g1, g2, .inr (.inl hm)⟩
      | @loop b' k' suf' hs =>
        obtain ⟨g1, g2⟩ := get _ suf' 1 hs (by simp [Instr.encode]) rfl
        exact ⟨_, 1, g1, g2, .inr (.inr ⟨_, _, rfl, rfl⟩)⟩
    obtain ⟨i, n, hi, hn, hpl⟩ := key
    rcases hpl with rfl | hm | ⟨b', k', rfl, rfl⟩
    · cases i with
      | plain c' =>
        simp [Instr.encode] at hn
        subst hn
        simp only [Instr.OK] at hi
        exact ⟨fun h => by omega, fun h => by omega⟩
      | arg c' n' =>
        simp [Instr.encode] at hn
        subst hn
        simp only [Instr.OK] at hi
        refine ⟨fun h => by omega, fun h => ?_⟩
        rcases hi with h' | h' | h' | h' | h' | ⟨_, _, _, _, h'⟩
        · omega
        · omega
        · omega
        · omega
        · omega
        · exact absurd (h' h) h2
      | read repeated big format inNum width out =>
        simp [Instr.encode] at hn
        subst hn
        obtain ⟨i1, i2, i3, i4, i5, i6, i7⟩ := hi
        obtain ⟨d1, d2, d3, d4, d5⟩ := readCode_decode repeated big out.isSome format (by omega)
        exact ⟨fun _ h => absurd (i7 (d3.mp h)) h1, fun h => by omega⟩
      | doLoop b' k' =>
        simp [Instr.encode] at hn
        subst hn
        cases b' <;> exact ⟨fun h => by simp at h, fun h => by simp at h⟩
      | _ =>
        simp [Instr.encode] at hn
        subst hn
        exact ⟨fun h => by omega, fun h => by omega⟩
    · cases hm <;> simp [Instr.encode] at hn <;> subst hn <;>
        exact ⟨fun h => by omega, fun h => by omega⟩
    · simp [Instr.encode] at hn
      subst hn
      exact ⟨fun h => by omega, fun h => by omega⟩

theorem visits_polite (hP : ProgOK m E) (ht : targets ≠ [])
    (hb : ∀ x ∈ bds, x ≤ (base.length : Int)) (hbds : ¬ E.allowDo → bds = []) {single : Bool}
    (h1 : ¬ E.allowRepeat) (h2 : ¬ E.allowRewind) {s' : State α}
    (hv : Visits m single base.length s s') :
    After m E base bds targets false s → s'.depth ≠ (base.length : Int) → Polite m s' := by
  induction hv with
  | here s =>
    intro h hd
    have he : s.err = .none := by
      by_contra hne
      exact absurd (h.failed hne).1 (by simp)
    exact polite_of_static h1 h2 (h.good he).1 hd
  | round hr hv ih =>
    rename_i s s' s''
    intro h hd
    have he : s.err = .none := by
      by_contra hne
      exact absurd (h.failed hne).1 (by simp)
    obtain ⟨hg, htg, hrd⟩ := h.good he
    have := round_ok hP ht hb hbds single h.common he hrd htg hg
      (fun _ hd => polite_of_static h1 h2 hg hd)
    rw [hr] at this
    exact ih this hd

/-- The whole of `internal_run`. -/
theorem internalRun_ok (hP : ProgOK m E) (ht : targets ≠ [])
    (hb : ∀ x ∈ bds, x ≤ (base.length : Int)) (hbds : ¬ E.allowDo → bds = []) (single : Bool)
    (fuel : Nat) : ∀ s : State α, After m E base bds targets false s →
      (¬ E.weak → ∀ s', Visits m single base.length s s' → s'.depth ≠ (base.length : Int) →
        Polite m s') →
      SatE E (internalRun m single base.length fuel s) fun r => ∀ s', r = some s' →
        After m E base bds targets true s' := by
  induction fuel with
  | zero => intro s _ _ s' h; cases h
  | succ n ih =>
    intro s h hpol
    have he : s.err = .none := by
      by_contra hne
      exact absurd (h.failed hne).1 (by simp)
    obtain ⟨hg, htg, hr⟩ := h.good he
    have hround := round_ok hP ht hb hbds single h.common he hr htg hg
      (fun hw => hpol hw s (.here s))
    unfold internalRun
    cases hx : round m single base.length s with
    | err e => trivial
    | ub => rw [hx] at hround; exact hround
    | ok r =>
      rw [hx] at hround
      rw [bind_ok]
      split
      · rename_i hstop
        intro s' hs'
        cases hs'
        have : After m E base bds targets r.2 r.1 := hround
        rwa [hstop] at this
      · rename_i hstop
        have hfalse : r.2 = false := by simpa using hstop
        have hround : After m E base bds targets r.2 r.1 := hround
        rw [hfalse] at hround
        refine ih r.1 hround fun hw s' hs' => hpol hw s' (.round ?_ hs')
        rw [hx, ← hfalse]

end

/-- The frames, the depths of the loops and the targets fit together. -/
inductive StackOK (m : Machine α) (E : Env) : List Frame → List Int → List Int → Prop where
  | nil : StackOK m E [] [] []
  | cons {base : List Frame} {bds ts : List Int} {fs : List Frame} {ds : List Int} {ex dd : Nat}
      {b : Bool} : StackOK m E base bds ts → FramesOK m E base.length fs ds ex dd b →
      StackOK m E (fs ++ base) (ds ++ bds) ((base.length : Int) :: ts)

theorem StackOK.le {m : Machine α} {E : Env} {fs : List Frame} {ds ts : List Int}
    (h : StackOK m E fs ds ts) : ∀ x ∈ ds, x ≤ (fs.length : Int) := by
  induction h with
  | nil => simp
  | cons _ hf ih =>
    intro x hx
    rcases List.mem_append.mp hx with hx | hx
    · have := hf.le x hx
      simp at this ⊢; omega
    · have := ih x hx
      simp at this ⊢; omega

theorem StackOK.nodo {m : Machine α} {E : Env} (hE : ¬ E.allowDo) {fs : List Frame}
    {ds ts : List Int} (h : StackOK m E fs ds ts) : ds = [] := by
  induction h with
  | nil => rfl
  | cons _ hf ih => simp [(hf.nodo hE).1, ih]

/-- Between requests. -/
structure Idle (m : Machine α) (E : Env) (s : State α) : Prop where
  common : Common m E s
  stk : s.ready = true → s.err = .none →
    StackOK m E s.frames (s.loops.map Loop.depth) s.targets

theorem runInternal_ok {m : Machine α} {E : Env} (hP : ProgOK m E) (single : Bool) (fuel : Nat)
    {s : State α} (hc : Common m E s) (he : s.err = .none) (hr : s.ready = true)
    (hs : StackOK m E s.frames (s.loops.map Loop.depth) s.targets) (hne : s.targets ≠ [])
    (hpol : ¬ E.weak → ∀ t ts s', s.targets = t :: ts → Visits m single t s s' → s'.depth ≠ t →
      Polite m s') :
    SatE E (runInternal m single fuel s) fun r => ∀ s', r = some s' → Idle m E s' := by
  obtain ⟨d, frames, loops, targets, ready, err⟩ := s
  simp only at he hr hs hne
  subst he hr
  generalize hds : List.map Loop.depth loops = ds0 at hs
  cases hs with
  | nil => exact absurd rfl hne
  | @cons base bds ts fs ds ex dd b h0 hf =>
    have hA : After m E base bds ((base.length : Int) :: ts) false
        (⟨d, fs ++ base, loops, (base.length : Int) :: ts, true, .none⟩ : State α) :=
      ⟨hc, fun _ => ⟨⟨fs, ds, ex, dd, b, rfl, hds, hf⟩, rfl, rfl⟩, fun h => absurd rfl h⟩
    have hrun := internalRun_ok hP (by simp) h0.le h0.nodo single fuel _ hA
      (fun hw s' hv => hpol hw _ _ s' rfl hv)
    unfold runInternal
    simp only
    refine hrun.bind fun r hr => ?_
    cases r with
    | none => intro s' h; cases h
    | some s1 =>
      have hA1 := hr s1 rfl
      simp only
      have htg : s1.targets ≠ [] := by
        by_cases he : s1.err = .none
        · rw [(hA1.good he).2.1]; simp
        · exact (hA1.failed he).2
      unfold popTarget
      cases hts : s1.targets with
      | nil => exact absurd hts htg
      | cons t ts' =>
        simp only [bind_ok]
        intro s' hs'
        cases hs'
        split
        · rename_i hdep
          refine ⟨⟨hA1.common.data, hA1.common.frames, hA1.common.loops⟩, fun _ he => ?_⟩
          obtain ⟨⟨fs1, ds1, ex1, dd1, b1, g1, g2, g3⟩, g4, _⟩ := hA1.good he
          rw [hts] at g4
          cases g4
          have hnil : fs1 = [] := by
            simp [State.depth, g1] at hdep
            exact hdep
          subst hnil
          obtain ⟨rfl, _⟩ := g3
          simp only [g1, g2]
          simpa using h0
        · refine ⟨hA1.common, fun _ he => ?_⟩
          obtain ⟨⟨fs1, ds1, ex1, dd1, b1, g1, g2, g3⟩, g4, _⟩ := hA1.good he
          rw [g1, g2, g4]
          exact .cons h0 g3

theorem Idle.withErr {m : Machine α} {E : Env} {s : State α} (h : Idle m E s) {e : Err}
    (he : e ≠ .none) : Idle m E { s with err := e } :=
  ⟨⟨h.common.data, h.common.frames, h.common.loops⟩, fun _ h => absurd h he⟩

theorem request_ok {m : Machine α} {E : Env} (hP : ProgOK m E) {words : List (Nat × Int)}
    (hw : ∀ w ∈ words, ∃ k : Nat, w.2 = (k : Int) + 66 ∧ E.info[k]? = some (0, 0)) {s : State α}
    (h : Idle m E s) {r : Request} (ha : Allowed m words s r) (hp : ¬ E.weak → PoliteRun m s r)
    (fuel : Nat) : SatE E (r.run m fuel s) fun x => ∀ s', x = some s' → Idle m E s' := by
  have sr : ∀ single, (¬ E.weak → ∀ t ts s', s.targets = t :: ts → Visits m single t s s' → s'.depth ≠ t →
      Polite m s') →
      SatE E (stepOrResume m single fuel s) fun x => ∀ s', x = some s' → Idle m E s' := by
    intro single hp
    unfold stepOrResume
    split
    · intro s' hs'; cases hs'; exact h.withErr (by simp)
    split
    · intro s' hs'; cases hs'; exact h.withErr (by simp)
    split
    · intro s' hs'; cases hs'; exact h
    · rename_i h1 h2 h3
      have hr : s.ready = true := by simpa using h1
      have he : s.err = .none := by simpa using h3
      refine runInternal_ok hP single fuel h.common he hr (h.stk hr he) ?_ hp
      simpa [State.done] using h2
  cases r with
  | step => exact sr true hp
  | resume => exact sr false hp
  | call w =>
    show SatE E (Forth.call m w fuel s) _
    unfold Forth.call
    split
    · intro s' hs'; cases hs'; exact h.withErr (by simp)
    split
    · intro s' hs'; cases hs'; exact h
    · rename_i h1 h3
      have hr : s.ready = true := by simpa using h1
      have he : s.err = .none := by simpa using h3
      obtain ⟨⟨name, hname⟩, hlt⟩ := ha
      obtain ⟨k, hk1, hk2⟩ := hw _ hname
      have hwk : w = (k : Int) := by simp only at hk1; omega
      subst hwk
      rw [pushFrame, if_pos hlt, bind_ok]
      refine runInternal_ok hP false fuel ⟨h.common.data, ?_, h.common.loops⟩ he hr ?_ (by simp) ?_
      · have := h.common.frames; simp; omega
      · have hF : FramesOK m E s.frames.length [⟨k, 0⟩] [] 0 0 false :=
          ⟨hP.frame hk2, [], 0, 0, false, ⟨rfl, rfl⟩, rfl, .inl ⟨rfl, rfl⟩⟩
        exact .cons (h.stk hr he) hF
      · exact hp

/-- A call that comes back returns to the place where it was made. -/
theorem call_returns {m : Machine α} {E : Env} (hP : ProgOK m E) {words : List (Nat × Int)}
    (hw : ∀ w ∈ words, ∃ k : Nat, w.2 = (k : Int) + 66 ∧ E.info[k]? = some (0, 0)) {s : State α}
    (h : Idle m E s) (hr : s.ready = true) (he : s.err = .none) {w : Int}
    (ha : Allowed m words s (.call w)) (hp : ¬ E.weak → PoliteRun m s (.call w)) {fuel : Nat}
    {s' : State α} (hc : Forth.call m w fuel s = ok (some s')) (he' : s'.err = .none)
    (hret : s'.targets.length = s.targets.length) :
    s'.frames = s.frames ∧ s'.targets = s.targets ∧
      s'.loops.map Loop.depth = s.loops.map Loop.depth := by
  obtain ⟨⟨name, hname⟩, hlt⟩ := ha
  obtain ⟨k, hk1, hk2⟩ := hw _ hname
  have hwk : w = (k : Int) := by simp only at hk1; omega
  subst hwk
  have hstk := h.stk hr he
  unfold Forth.call at hc
  rw [if_neg (by simp [hr]), if_neg (by simp [he]), pushFrame, if_pos hlt, bind_ok] at hc
  unfold runInternal at hc
  simp only at hc
  rw [bind_eq_ok] at hc
  obtain ⟨r, hrun, hc⟩ := hc
  have hA : After m E s.frames (s.loops.map Loop.depth) (s.depth :: s.targets) false
      (starts s (.call k)) := by
    refine ⟨⟨h.common.data, ?_, h.common.loops⟩, fun _ => ⟨⟨[⟨k, 0⟩], [], 0, 0, false, rfl, rfl, ?_⟩,
      rfl, hr⟩, fun h => absurd he h⟩
    · simp [starts]; omega
    · exact ⟨hP.frame hk2, [], 0, 0, false, ⟨rfl, rfl⟩, rfl, .inl ⟨rfl, rfl⟩⟩
  have hok := internalRun_ok hP (by simp) hstk.le (fun hd => hstk.nodo hd) false fuel _ hA
    (fun hw s' hv => hp hw s.depth s.targets s' rfl hv)
  have hrun' : internalRun m false (s.frames.length : Int) fuel (starts s (.call k)) = ok r := hrun
  rw [hrun'] at hok
  cases r with
  | none => simp at hc
  | some s1 =>
    have hA1 := hok s1 rfl
    simp only at hc
    unfold popTarget at hc
    cases hts : s1.targets with
    | nil => rw [hts] at hc; simp at hc
    | cons t ts =>
      rw [hts] at hc
      simp only [bind_ok] at hc
      cases hc
      split at he' <;> rename_i hdep
      · rw [if_pos hdep] at hret ⊢
        obtain ⟨⟨fs1, ds1, ex1, dd1, b1, g1, g2, g3⟩, g4, _⟩ := hA1.good he'
        rw [hts] at g4
        cases g4
        have hnil : fs1 = [] := by
          simp [State.depth, g1] at hdep
          exact hdep
        subst hnil
        obtain ⟨rfl, _⟩ := g3
        exact ⟨by simpa using g1, rfl, by simpa using g2⟩
      · rw [if_neg hdep] at hret
        obtain ⟨_, g4, _⟩ := hA1.good he'
        rw [g4] at hret
        simp at hret

/-- A program without repeated reads and rewinds is polite in every request. -/
theorem static_polite {m : Machine α} {E : Env} (hP : ProgOK m E) {words : List (Nat × Int)}
    (hw : ∀ w ∈ words, ∃ k : Nat, w.2 = (k : Int) + 66 ∧ E.info[k]? = some (0, 0)) {s : State α}
    (h : Idle m E s) {r : Request} (ha : Allowed m words s r) (h1 : ¬ E.allowRepeat)
    (h2 : ¬ E.allowRewind) (hr : s.ready = true) (he : s.err = .none) : PoliteRun m s r := by
  have gen : ∀ (single : Bool) (s : State α), Common m E s → s.ready = true → s.err = .none →
      StackOK m E s.frames (s.loops.map Loop.depth) s.targets → ∀ t ts s', s.targets = t :: ts →
      Visits m single t s s' → s'.depth ≠ t → Polite m s' := by
    intro single s hc hr he hs t ts s' hts hv hd
    obtain ⟨d, frames, loops, targets, ready, err⟩ := s
    simp only at he hr hs hts
    subst he hr hts
    generalize hds : List.map Loop.depth loops = ds0 at hs
    cases hs with
    | @cons base bds ts fs ds ex dd b h0 hf =>
      exact visits_polite (targets := (base.length : Int) :: ts) hP (by simp) h0.le h0.nodo h1 h2 hv
        ⟨hc, fun _ => ⟨⟨fs, ds, ex, dd, b, rfl, hds, hf⟩, rfl, rfl⟩, fun h => absurd rfl h⟩ hd
  intro t ts s' hts hv hd
  cases r with
  | step => exact gen _ _ h.common hr he (h.stk hr he) t ts s' hts hv hd
  | resume => exact gen _ _ h.common hr he (h.stk hr he) t ts s' hts hv hd
  | call w =>
    obtain ⟨⟨name, hname⟩, hlt⟩ := ha
    obtain ⟨k, hk1, hk2⟩ := hw _ hname
    have hwk : w = (k : Int) := by simp only at hk1; omega
    subst hwk
    refine gen _ (starts s (.call k)) ⟨h.common.data, ?_, h.common.loops⟩ hr he ?_ t ts s' hts hv hd
    · simp [starts]; omega
    · have hF : FramesOK m E s.frames.length [⟨k, 0⟩] [] 0 0 false :=
        ⟨hP.frame hk2, [], 0, 0, false, ⟨rfl, rfl⟩, rfl, .inl ⟨rfl, rfl⟩⟩
      exact .cons (h.stk hr he) hF

theorem begin_ok {m : Machine α} {E : Env} (hP : ProgOK m E) (hmain : E.info[0]? = some (0, 0))
    (hini : 1 ≤ m.initial) (hrec : 1 ≤ m.recMax) {inputs : List InBuf}
    (hin : ∀ b ∈ inputs, b.pos = 0 ∧ b.data.length < 2 ^ 62) {s : State α}
    (hv : s.data.vars.length = m.numVars) :
    SatE E (begin m inputs s) (Idle m E) := by
  unfold begin
  split
  · trivial
  · rename_i hlen
    obtain ⟨b, hb, hrep, hne⟩ := new_rep (α := α) hini
    rw [mapN_ok' (fun _ => b) (fun _ _ => hb), bind_ok, pushFrame, if_pos (by simp [reset]; omega),
      bind_ok]
    refine ⟨⟨.inr ⟨by simp [reset], by simp [reset, hv], by simpa using hlen, ?_, by simp, ?_⟩, ?_, ?_⟩,
      fun _ _ => ?_⟩
    · intro b hb
      obtain ⟨h1, h2⟩ := hin b hb
      exact ⟨by omega, by omega, h2⟩
    · intro b' hb'
      simp at hb'
      obtain ⟨_, rfl⟩ := hb'
      exact ⟨[], hrep, hne⟩
    · simp [reset]; omega
    · simp [reset]
    · have hF : FramesOK m E 0 [⟨(0 : Nat), 0⟩] [] 0 0 false :=
        ⟨hP.frame hmain, [], 0, 0, false, ⟨rfl, rfl⟩, rfl, .inl ⟨rfl, rfl⟩⟩
      exact .cons (base := []) .nil hF

theorem reachable_idle {m : Machine α} {E : Env} (hP : ProgOK m E)
    (hmain : E.info[0]? = some (0, 0)) {words : List (Nat × Int)}
    (hw : ∀ w ∈ words, ∃ k : Nat, w.2 = (k : Int) + 66 ∧ E.info[k]? = some (0, 0))
    (hini : 1 ≤ m.initial) (hrec : 1 ≤ m.recMax) {s : State α} (h : Reachable m words s) :
    Idle m E s := by
  induction h with
  | begin h1 h2 h3 =>
    have := begin_ok hP hmain hini hrec h1 h2
    rw [h3] at this
    exact this
  | request _ h2 h3 h4 ih =>
    have := request_ok hP hw ih h2 (fun _ => h3) ‹Nat›
    rw [h4] at this
    exact this _ rfl

theorem begin_weak {m : Machine α} {E : Env} (hP : ProgOK m E) (hmain : E.info[0]? = some (0, 0))
    (hw : E.weak) {inputs : List InBuf} {s s' : State α} (h : begin m inputs s = ok s') :
    Idle m E s' ∧ s'.ready = true ∧ s'.err = .none ∧ s'.targets = [0] ∧ s'.frames.length = 1 := by
  unfold begin at h
  simp only at h
  split at h
  · simp at h
  · rw [bind_eq_ok] at h
    obtain ⟨outs, _, h⟩ := h
    rw [bind_eq_ok] at h
    obtain ⟨s1, h1, h⟩ := h
    unfold pushFrame at h1
    split at h1
    · rename_i hlt
      cases h1
      cases h
      refine ⟨⟨⟨.inl hw, ?_, ?_⟩, fun _ _ => ?_⟩, rfl, rfl, rfl, ?_⟩
      · simp [reset] at hlt ⊢; omega
      · simp [reset]
      · have hF : FramesOK m E 0 [⟨(0 : Nat), 0⟩] [] 0 0 false :=
          ⟨hP.frame hmain, [], 0, 0, false, ⟨rfl, rfl⟩, rfl, .inl ⟨rfl, rfl⟩⟩
        exact .cons (base := []) .nil hF
      · simp [reset]
    · simp at h1

/-- The machine that the compiler makes. -/
theorem construct_ok {bits stackMax recMax : Nat} {initial : Int} {resize : Rat} {conv : Conv α}
    {toks : List Tok} {N : Names} {m : Machine α} (hN : compile toks = ok N)
    (hm : construct bits stackMax recMax initial resize conv toks = ok m) (weak : Prop)
    (hr : weak ∨ 1 < resize) (hg : Tok.exit ∉ toks ∨ Tok.do_ ∉ toks) :
    ∃ E, ProgOK m E ∧ E.info[0]? = some (0, 0) ∧
      (∀ w ∈ N.words, ∃ k : Nat, w.2 = (k : Int) + 66 ∧ E.info[k]? = some (0, 0)) ∧
      m.initial = initial ∧ m.recMax = recMax ∧ E.weak = weak ∧
      (E.allowExit → Tok.exit ∈ toks) ∧ (E.allowDo → Tok.do_ ∈ toks) ∧
      (E.allowRepeat → ∃ big format width, Tok.parser true big format width ∈ toks) ∧
      (E.allowRewind → Tok.rewind ∈ toks) := by
  obtain ⟨info, h1, h2⟩ := compile_ok hN
  unfold construct at hm
  rw [hN, bind_ok] at hm
  cases hm
  have hle : (envOf toks N info).Le { envOf toks N info with weak := weak } :=
    ⟨le_refl _, le_refl _, le_refl _, List.prefix_refl _, id, id, id, id⟩
  exact ⟨{ envOf toks N info with weak := weak }, ⟨rfl, rfl, by simp [envOf], h1.len,
    fun k c ex dd hk hi => (h1.segs k c ex dd hk hi).mono hle, hr, hg⟩, h2, h1.words, rfl, rfl, rfl,
    id, id, id, id⟩

end Awk.Forth
