import Verif.Lemmas.ForthTyped
import Verif.Lemmas.ForthData
import Verif.Spec.Forth
/-
A compiled program keeps its stacks within their bounds and stays inside its segments.
-/

namespace Awk.Forth
open Awk.R Spec

variable {α : Type}

/-- The bytecodes of instructions. -/
abbrev flat (is : List Instr) : List Int := is.flatMap Instr.encode

/-- The outcome satisfies `P`; it is defined unless only weak claims are made. -/
def SatE (E : Env) {β : Type} (x : R β) (P : β → Prop) : Prop :=
  match x with
  | .ok a => P a
  | .err _ => True
  | .ub => E.weak

theorem SatE.bind {E : Env} {β γ : Type} {x : R β} {P : β → Prop} {f : β → R γ} {Q : γ → Prop}
    (hx : SatE E x P) (hf : ∀ a, P a → SatE E (f a) Q) : SatE E (x >>= f) Q := by
  cases x with
  | ok a => exact hf a hx
  | err e => trivial
  | ub => exact hx

theorem SatE.mono {E : Env} {β : Type} {x : R β} {P Q : β → Prop} (hx : SatE E x P)
    (h : ∀ a, P a → Q a) : SatE E x Q := by
  cases x with
  | ok a => exact h a hx
  | err e => trivial
  | ub => exact hx

/-- The data is within its bounds, unless only weak claims are made. -/
def DataE (m : Machine α) (E : Env) (d : Data α) : Prop := E.weak ∨ DataOK m d

def KeepsE (m : Machine α) (E : Env) (x : R (Data α × Err)) : Prop := SatE E x fun r => DataE m E r.1

theorem KeepsE.of {m : Machine α} {E : Env} {x : R (Data α × Err)} {d : Data α} (hd : DataE m E d)
    (h : ¬ E.weak → DataOK m d → Keeps m x) : KeepsE m E x := by
  by_cases hw : E.weak
  · unfold KeepsE SatE
    split
    · exact .inl hw
    · trivial
    · exact hw
  · have hk := h hw (hd.resolve_left hw)
    unfold Keeps at hk
    unfold KeepsE SatE
    split
    · exact .inr hk
    · trivial
    · exact absurd hk (by simp)

theorem DataE.withStack {m : Machine α} {E : Env} {d : Data α} (h : DataE m E d) {s : List Int}
    (hs : s.length ≤ d.stack.length) : DataE m E { d with stack := s } := by
  rcases h with h | h
  · exact .inl h
  · exact .inr (h.withStack (hs.trans h.stack))

/-- The program of the machine is well-formed. -/
structure ProgOK (m : Machine α) (E : Env) : Prop where
  vars : E.vars = m.numVars
  inputs : E.inputs = m.numInputs
  outs : E.outs = m.outTypes.length
  len : m.segments.length = E.info.length
  segs : ∀ (k : Nat) (c : List Int) (ex dd : Nat), m.segments[k]? = some c →
    E.info[k]? = some (ex, dd) → CodeOK E ex dd c
  resize : E.weak ∨ 1 < m.resize
  guard : ¬ E.allowExit ∨ ¬ E.allowDo

/-- The places inside an instruction where a frame can be. -/
inductive Mid : Instr → Nat → Prop where
  | ifThen (k : Nat) : Mid (.ifThen k) 1
  | ifElse (k k' : Nat) : Mid (.ifElse k k') 2
  | again (k : Nat) : Mid (.again k) 1
  | until_ (k : Nat) : Mid (.until_ k) 1
  | while_ (k k' : Nat) : Mid (.while_ k k') 1

/-- Where a frame is in the instructions `pre ++ suf` of its segment. `true`: it runs a `do` loop. -/
inductive PosAt (pre suf : List Instr) : Int → Bool → Prop where
  | start : PosAt pre suf (flat pre).length false
  | mid {i : Instr} {off : Nat} {suf' : List Instr} : suf = i :: suf' → Mid i off →
      PosAt pre suf ((flat pre).length + off) false
  | loop {b : Bool} {k : Nat} {suf' : List Instr} : suf = .doLoop b k :: suf' →
      PosAt pre suf ((flat pre).length + 1) true

/-- The frame is at a place in a segment of these depths. -/
def FrameAt (m : Machine α) (E : Env) (f : Frame) (ex dd : Nat) (b : Bool) : Prop :=
  ∃ (k : Nat) (pre suf : List Instr), f.which = k ∧ E.info[k]? = some (ex, dd) ∧
    m.segments[k]? = some (flat (pre ++ suf)) ∧ (∀ i ∈ pre ++ suf, i.OK E ex dd) ∧
    PosAt pre suf f.pos b

/-- The frames above `n0` others, with the depths of their `do` loops. -/
def FramesOK (m : Machine α) (E : Env) (n0 : Nat) :
    List Frame → List Int → Nat → Nat → Bool → Prop
  | [], ds, _, _, b => ds = [] ∧ b = false
  | f :: fs, ds, ex, dd, b => FrameAt m E f ex dd b ∧ ∃ ds0 ex0 dd0 b0,
      FramesOK m E n0 fs ds0 ex0 dd0 b0 ∧
      ds = (if b then [((n0 + fs.length + 1 : Nat) : Int)] else []) ++ ds0 ∧
      ((ex = 0 ∧ dd = 0) ∨ (fs ≠ [] ∧ ex = ex0 + 1 ∧ dd = dd0 + b0.toNat))

theorem FramesOK.dd_le {m : Machine α} {E : Env} {n0 : Nat} {fs : List Frame} :
    ∀ {ds : List Int} {ex dd : Nat} {b : Bool}, FramesOK m E n0 fs ds ex dd b → fs ≠ [] →
      dd + b.toNat ≤ ds.length := by
  induction fs with
  | nil => intro ds ex dd b _ h; exact absurd rfl h
  | cons f fs ih =>
    rintro ds ex dd b ⟨_, ds0, ex0, dd0, b0, h0, rfl, hrel⟩ _
    have hb : (if b then [((n0 + fs.length + 1 : Nat) : Int)] else []).length = b.toNat := by
      cases b <;> rfl
    rw [List.length_append, hb]
    rcases hrel with ⟨_, rfl⟩ | ⟨hne, _, rfl⟩
    · omega
    · have := ih h0 hne; omega

theorem FramesOK.le {m : Machine α} {E : Env} {n0 : Nat} {fs : List Frame} :
    ∀ {ds : List Int} {ex dd : Nat} {b : Bool}, FramesOK m E n0 fs ds ex dd b →
      ∀ x ∈ ds, x ≤ ((n0 + fs.length : Nat) : Int) := by
  induction fs with
  | nil => rintro ds ex dd b ⟨rfl, _⟩; simp
  | cons f fs ih =>
    rintro ds ex dd b ⟨_, ds0, ex0, dd0, b0, h0, rfl, _⟩ x hx
    rcases List.mem_append.mp hx with hx | hx
    · cases b
      · simp at hx
      · simp at hx
        simp; omega
    · have := ih h0 x hx
      simp at this ⊢; omega

theorem FramesOK.nodo {m : Machine α} {E : Env} (hE : ¬ E.allowDo) {n0 : Nat} {fs : List Frame} :
    ∀ {ds : List Int} {ex dd : Nat} {b : Bool}, FramesOK m E n0 fs ds ex dd b →
      ds = [] ∧ b = false := by
  induction fs with
  | nil => rintro ds ex dd b h; exact h
  | cons f fs ih =>
    rintro ds ex dd b ⟨⟨k, pre, suf, _, _, _, hok, hp⟩, ds0, ex0, dd0, b0, h0, rfl, _⟩
    have hb : b = false := by
      generalize f.pos = p at hp
      cases hp with
      | start => rfl
      | mid _ _ => rfl
      | loop hs =>
        subst hs
        have := hok _ (List.mem_append_right pre List.mem_cons_self)
        exact absurd this.1 hE
    subst hb
    exact ⟨by simpa using (ih h0).1, rfl⟩

/-- Leaving a word from a nested place. -/
theorem FramesOK.drop {m : Machine α} {E : Env} (hE : ¬ E.allowDo) {n0 : Nat} {fs : List Frame} :
    ∀ {ds : List Int} {ex dd : Nat} {b : Bool}, FramesOK m E n0 fs ds ex dd b → fs ≠ [] →
      ex < fs.length ∧ ∃ ds' dd', FramesOK m E n0 (fs.drop ex) ds' 0 dd' false := by
  induction fs with
  | nil => intro ds ex dd b _ h; exact absurd rfl h
  | cons f fs ih =>
    intro ds ex dd b h _
    obtain ⟨_, rfl⟩ := h.nodo hE
    have h' := h
    obtain ⟨_, ds0, ex0, dd0, b0, h0, rfl, hrel⟩ := h
    rcases hrel with ⟨rfl, _⟩ | ⟨hne, rfl, _⟩
    · exact ⟨by simp, _, _, h'⟩
    · obtain ⟨h1, ds', dd', h2⟩ := ih h0 hne
      exact ⟨by simpa using h1, ds', dd', by simpa using h2⟩

/-- The stacks are within their bounds. -/
structure Common (m : Machine α) (E : Env) (s : State α) : Prop where
  data : DataE m E s.data
  frames : s.frames.length ≤ m.recMax
  loops : s.loops.length ≤ m.recMax

/-- The frames above `base` are well-formed. -/
def Good (m : Machine α) (E : Env) (base : List Frame) (bds : List Int) (s : State α) : Prop :=
  ∃ fs ds ex dd b, s.frames = fs ++ base ∧ s.loops.map Loop.depth = ds ++ bds ∧
    FramesOK m E base.length fs ds ex dd b

/-- What holds after a part of the run that started with these targets. `stop` says that
`internal_run` returns. -/
structure After (m : Machine α) (E : Env) (base : List Frame) (bds : List Int) (targets : List Int)
    (stop : Bool) (s : State α) : Prop where
  common : Common m E s
  good : s.err = .none → Good m E base bds s ∧ s.targets = targets ∧ s.ready = true
  failed : s.err ≠ .none → stop = true ∧ s.targets ≠ []

theorem popFrame_after {m : Machine α} {E : Env} {base : List Frame} {bds : List Int}
    {f : Frame} {fs : List Frame} {ds : List Int} {ex dd : Nat} {stop : Bool} {s : State α}
    (hc : Common m E s) (hf : s.frames = (f :: fs) ++ base)
    (hl : s.loops.map Loop.depth = ds ++ bds)
    (h : FramesOK m E base.length (f :: fs) ds ex dd false) (he : s.err = .none)
    (hr : s.ready = true) :
    ∃ s', popFrame s = ok s' ∧ After m E base bds s.targets stop s' ∧ s'.loops = s.loops ∧
      s'.err = .none ∧ s'.data = s.data ∧ s'.targets = s.targets ∧ s'.ready = true := by
  obtain ⟨_, ds0, ex0, dd0, b0, h0, hds, _⟩ := h
  refine ⟨{ s with frames := fs ++ base }, by simp [popFrame, hf], ?_, rfl, he, rfl, rfl, hr⟩
  have hfl := hc.frames
  rw [hf] at hfl
  simp at hfl
  refine ⟨⟨hc.data, by simp; omega, hc.loops⟩, fun _ => ⟨?_, rfl, hr⟩, fun h => absurd he h⟩
  exact ⟨fs, ds0, ex0, dd0, b0, rfl, by simpa [hds] using hl, h0⟩

theorem endSegment_after {m : Machine α} {E : Env} {base : List Frame} {bds : List Int}
    {f : Frame} {fs : List Frame} {ds : List Int} {ex dd : Nat} {s : State α}
    (hc : Common m E s) (hf : s.frames = (f :: fs) ++ base)
    (hl : s.loops.map Loop.depth = ds ++ bds)
    (h : FramesOK m E base.length (f :: fs) ds ex dd false) (he : s.err = .none)
    (hr : s.ready = true) (ht : s.targets ≠ []) :
    SatE E (endSegment s) fun r => After m E base bds s.targets r.2 r.1 := by
  obtain ⟨s', h1, h2, h3, h4, h5, h6, h7⟩ := popFrame_after (stop := false) hc hf hl h he hr
  unfold endSegment
  rw [h1, bind_ok]
  obtain ⟨hg, _⟩ := h2.good h4
  split
  · rename_i l hl'
    -- the loop of the frame below goes on
    have hlt : ∃ ls, s'.loops = l :: ls := by
      unfold inLoop at hl'
      split at hl'
      · rename_i l' ls hls
        split at hl' <;> simp at hl'
        subst hl'
        exact ⟨ls, hls⟩
      · simp at hl'
    obtain ⟨ls, hls⟩ := hlt
    have hgood : ∀ (d : Data α) (i : Int), Good m E base bds
        { s' with data := d, loops := { l with i := i } :: s'.loops.tail } := by
      intro d i
      obtain ⟨fs, ds, ex, dd, b, g1, g2, g3⟩ := hg
      refine ⟨fs, ds, ex, dd, b, g1, ?_, g3⟩
      rw [hls] at g2
      simpa [hls] using g2
    have hll : ∀ i, ({ l with i := i } :: s'.loops.tail).length ≤ m.recMax := by
      intro i
      have := h2.common.loops
      simp [hls] at this ⊢; omega
    split
    · split
      · rename_i x r hx
        refine ⟨⟨h2.common.data.withStack (by rw [hx]; simp), h2.common.frames, hll _⟩,
          fun _ => ⟨hgood _ _, h6, h7⟩, fun h => absurd h4 h⟩
      · exact ⟨⟨h2.common.data, h2.common.frames, h2.common.loops⟩, by simp,
          fun _ => ⟨rfl, by simp [h6, ht]⟩⟩
    · exact ⟨⟨h2.common.data, h2.common.frames, hll _⟩, fun _ => ⟨hgood _ _, h6, h7⟩,
        fun h => absurd h4 h⟩
  · exact ⟨h2.common, h2.good, fun h => absurd h4 h⟩

/-- What holds after an instruction. -/
def NextOK (m : Machine α) (E : Env) (base : List Frame) (bds : List Int) (targets : List Int) :
    Next α → Prop
  | .next s => Common m E s ∧ s.err = .none ∧ s.ready = true ∧ s.targets = targets ∧
      ∃ f fs ds ex dd b, s.frames = (f :: fs) ++ base ∧ s.loops.map Loop.depth = ds ++ bds ∧
        FramesOK m E base.length (f :: fs) ds ex dd b
  | .stop s => After m E base bds targets true s
  | .leave s => Common m E s ∧ s.err = .none ∧ s.ready = true ∧ s.targets = targets ∧
      ∃ f fs ds ex dd, s.frames = (f :: fs) ++ base ∧ s.loops.map Loop.depth = ds ++ bds ∧
        FramesOK m E base.length (f :: fs) ds ex dd false

/-- The segment of a frame. -/
theorem FrameAt.segment {m : Machine α} {E : Env} {f : Frame} {ex dd : Nat} {b : Bool}
    (h : FrameAt m E f ex dd b) : ∃ seg, rd m.segments f.which = ok seg ∧ 0 ≤ f.pos ∧
      f.pos ≤ seg.length ∧ (f.pos = seg.length → b = false) := by
  obtain ⟨k, pre, suf, hk, _, hs, _, hp⟩ := h
  refine ⟨_, by rw [hk]; exact rd_eq_ok.mpr ⟨by omega, by simpa using hs⟩, ?_⟩
  generalize f.pos = p at hp
  cases hp with
  | start => exact ⟨by omega, by simp, fun _ => rfl⟩
  | mid hs hm =>
    subst hs
    refine ⟨by omega, ?_, fun _ => rfl⟩
    cases hm <;> simp [flat, Instr.encode] <;> omega
  | loop hs =>
    subst hs
    refine ⟨by omega, ?_, ?_⟩ <;> simp [flat, Instr.encode] <;> omega

theorem segmentDone_ok {m : Machine α} {E : Env} {s : State α} {f : Frame} {fs : List Frame}
    (hf : s.frames = f :: fs) {ex dd : Nat} {b : Bool} (h : FrameAt m E f ex dd b) :
    ∃ r, segmentDone m s = ok r ∧ (r = true → b = false) := by
  obtain ⟨seg, h1, h2, h3, h4⟩ := h.segment
  unfold segmentDone
  rw [hf]
  simp only
  rw [h1, bind_ok]
  refine ⟨_, rfl, fun hd => h4 ?_⟩
  simp at hd
  omega

theorem afterInstr_after {m : Machine α} {E : Env} {base : List Frame} {bds : List Int}
    {targets : List Int} (ht : targets ≠ []) {single : Bool} {x : Next α}
    (h : NextOK m E base bds targets x) :
    SatE E (afterInstr m single x) fun r => After m E base bds targets r.2 r.1 := by
  cases x with
  | stop s => exact h
  | leave s =>
    obtain ⟨hc, he, hr, rfl, f, fs, ds, ex, dd, h1, h2, h3⟩ := h
    exact endSegment_after hc h1 h2 h3 he hr ht
  | next s =>
    obtain ⟨hc, he, hr, rfl, f, fs, ds, ex, dd, b, h1, h2, h3⟩ := h
    have hgood : ∀ stop, After m E base bds s.targets stop s := fun stop =>
      ⟨hc, fun _ => ⟨⟨f :: fs, ds, ex, dd, b, h1, h2, h3⟩, rfl, hr⟩, fun h => absurd he h⟩
    simp only [afterInstr]
    split
    · obtain ⟨done, hd, hb⟩ := segmentDone_ok (s := s) h1 h3.1
      rw [hd, bind_ok]
      split
      · rename_i hdone
        obtain rfl := hb hdone
        obtain ⟨s', g1, g2, _⟩ := popFrame_after (stop := true) hc h1 h2 h3 he hr
        rw [g1, bind_ok]
        exact g2
      · exact hgood true
    · exact hgood false

/-- The machine is in the frame `f`, above `fs` and `base`. -/
structure Here (m : Machine α) (E : Env) (base : List Frame) (bds targets : List Int)
    (s : State α) (f : Frame) (fs : List Frame) (ds : List Int) (ex dd : Nat) (b : Bool) : Prop where
  common : Common m E s
  err : s.err = .none
  ready : s.ready = true
  targets : s.targets = targets
  frames : s.frames = (f :: fs) ++ base
  loops : s.loops.map Loop.depth = ds ++ bds
  fok : FramesOK m E base.length (f :: fs) ds ex dd b

/-- The machine is in the instruction `i` of a segment, `off` behind its beginning. -/
structure Raw (m : Machine α) (E : Env) (base : List Frame) (bds targets : List Int)
    (s : State α) (k : Nat) (pre : List Instr) (i : Instr) (suf : List Instr) (off : Int)
    (fs : List Frame) (ds : List Int) (ex dd : Nat) : Prop where
  common : Common m E s
  err : s.err = .none
  ready : s.ready = true
  targets : s.targets = targets
  frames : s.frames = ⟨k, (flat pre).length + off⟩ :: (fs ++ base)
  loops : s.loops.map Loop.depth = ds ++ bds
  fok : ∀ f, FrameAt m E f ex dd false → FramesOK m E base.length (f :: fs) ds ex dd false
  info : E.info[k]? = some (ex, dd)
  seg : m.segments[k]? = some (flat (pre ++ i :: suf))
  iok : ∀ j ∈ pre ++ i :: suf, j.OK E ex dd

section
variable {m : Machine α} {E : Env} {base : List Frame} {bds targets : List Int} {s : State α}

theorem Here.nextOK {f : Frame} {fs : List Frame} {ds : List Int} {ex dd : Nat} {b : Bool}
    (h : Here m E base bds targets s f fs ds ex dd b) : NextOK m E base bds targets (.next s) :=
  ⟨h.common, h.err, h.ready, h.targets, f, fs, ds, ex, dd, b, h.frames, h.loops, h.fok⟩

theorem Here.after {f : Frame} {fs : List Frame} {ds : List Int} {ex dd : Nat} {b : Bool}
    (h : Here m E base bds targets s f fs ds ex dd b) (stop : Bool) :
    After m E base bds targets stop s :=
  ⟨h.common, fun _ => ⟨⟨f :: fs, ds, ex, dd, b, h.frames, h.loops, h.fok⟩, h.targets, h.ready⟩,
    fun he => absurd h.err he⟩

theorem Here.failWith {f : Frame} {fs : List Frame} {ds : List Int} {ex dd : Nat} {b : Bool}
    (h : Here m E base bds targets s f fs ds ex dd b) (ht : targets ≠ []) {e : Err}
    (he : e ≠ .none) : SatE E (failWith s e) (NextOK m E base bds targets) :=
  ⟨⟨h.common.data, h.common.frames, h.common.loops⟩, fun h => absurd h he,
    fun _ => ⟨rfl, by simpa [h.targets] using ht⟩⟩

theorem Raw.failWith {k : Nat} {pre : List Instr} {i : Instr} {suf : List Instr} {off : Int}
    {fs : List Frame} {ds : List Int} {ex dd : Nat}
    (h : Raw m E base bds targets s k pre i suf off fs ds ex dd) (ht : targets ≠ []) {e : Err}
    (he : e ≠ .none) : SatE E (Forth.failWith s e) (NextOK m E base bds targets) :=
  ⟨⟨h.common.data, h.common.frames, h.common.loops⟩, fun h => absurd h he,
    fun _ => ⟨rfl, by simpa [h.targets] using ht⟩⟩

theorem advance_eq {f : Frame} {fs : List Frame} (n : Int) (h : s.frames = f :: fs) :
    advance n s = { s with frames := { f with pos := f.pos + n } :: fs } := by
  simp [advance, h]

section
variable {k : Nat} {pre : List Instr} {i : Instr} {suf : List Instr} {off : Int}
  {fs : List Frame} {ds : List Int} {ex dd : Nat}

theorem Raw.adv (h : Raw m E base bds targets s k pre i suf off fs ds ex dd) (n : Int) :
    Raw m E base bds targets (advance n s) k pre i suf (off + n) fs ds ex dd := by
  rw [advance_eq n h.frames]
  refine ⟨⟨h.common.data, ?_, h.common.loops⟩, h.err, h.ready, h.targets, ?_, h.loops, h.fok,
    h.info, h.seg, h.iok⟩
  · have := h.common.frames
    rw [h.frames] at this
    simpa using this
  · simp [add_assoc]

theorem Raw.withData (h : Raw m E base bds targets s k pre i suf off fs ds ex dd) {d : Data α}
    (hd : DataE m E d) :
    Raw m E base bds targets { s with data := d } k pre i suf off fs ds ex dd :=
  ⟨⟨hd, h.common.frames, h.common.loops⟩, h.err, h.ready, h.targets, h.frames, h.loops, h.fok,
    h.info, h.seg, h.iok⟩

theorem rd_append {β : Type} (A B : List β) (n : Nat) :
    rd (A ++ B) ((A.length : Int) + n) = rd B (n : Int) := by
  rw [show (A.length : Int) + n = ((A.length + n : Nat) : Int) by push_cast; ring, rd_nat, rd_nat,
    List.getElem?_append_right (by omega)]
  simp

theorem Raw.fetch (h : Raw m E base bds targets s k pre i suf off fs ds ex dd) {n : Nat} {x : Int}
    (ho : off = n) (hn : i.encode[n]? = some x) : fetch m s = ok x := by
  unfold Forth.fetch
  rw [h.frames]
  simp only
  rw [show rd m.segments ((k : Nat) : Int) = ok (flat (pre ++ i :: suf)) from
    rd_eq_ok.mpr ⟨by omega, by simpa using h.seg⟩, bind_ok, ho]
  have e : flat (pre ++ i :: suf) = flat pre ++ (i.encode ++ flat suf) := by simp [flat]
  rw [e, rd_append, rd_nat, List.getElem?_append_left (List.getElem?_eq_some_iff.mp hn).1, hn]

theorem Raw.operand (h : Raw m E base bds targets s k pre i suf off fs ds ex dd) {n : Nat} {x : Int}
    (ho : off = n) (hn : i.encode[n]? = some x) : operand m s = ok (x, advance 1 s) := by
  unfold Forth.operand
  rw [h.fetch ho hn, bind_ok]

theorem Raw.here (h : Raw m E base bds targets s k pre i suf off fs ds ex dd)
    (hp : FrameAt m E ⟨k, (flat pre).length + off⟩ ex dd false) :
    Here m E base bds targets s ⟨k, (flat pre).length + off⟩ fs ds ex dd false :=
  ⟨h.common, h.err, h.ready, h.targets, h.frames, h.loops, h.fok _ hp⟩

/-- Behind the instruction. -/
theorem Raw.behind (h : Raw m E base bds targets s k pre i suf off fs ds ex dd)
    (ho : off = i.encode.length) :
    Here m E base bds targets s ⟨k, (flat pre).length + off⟩ fs ds ex dd false := by
  refine h.here ⟨k, pre ++ [i], suf, rfl, h.info, by simpa using h.seg, by simpa using h.iok, ?_⟩
  have : ((flat pre).length : Int) + off = (flat (pre ++ [i])).length := by
    simp [flat, ho]
  simp only [this]
  exact .start

/-- At its beginning. -/
theorem Raw.before (h : Raw m E base bds targets s k pre i suf off fs ds ex dd) (ho : off = 0) :
    Here m E base bds targets s ⟨k, (flat pre).length + off⟩ fs ds ex dd false := by
  refine h.here ⟨k, pre, i :: suf, rfl, h.info, h.seg, h.iok, ?_⟩
  subst ho
  simp only [add_zero]
  exact .start

/-- Inside the instruction. -/
theorem Raw.inside (h : Raw m E base bds targets s k pre i suf off fs ds ex dd) {n : Nat}
    (ho : off = n) (hm : Mid i n) :
    Here m E base bds targets s ⟨k, (flat pre).length + off⟩ fs ds ex dd false := by
  refine h.here ⟨k, pre, i :: suf, rfl, h.info, h.seg, h.iok, ?_⟩
  subst ho
  exact .mid rfl hm

theorem Raw.onData (h : Raw m E base bds targets s k pre i suf off fs ds ex dd)
    (ho : off = i.encode.length) (ht : targets ≠ []) {x : R (Data α × Err)} (hx : KeepsE m E x) :
    SatE E (onData s x) (NextOK m E base bds targets) := by
  unfold Forth.onData
  refine hx.bind fun r hr => ?_
  split
  · exact ((h.withData hr).behind ho).nextOK
  · rename_i he
    exact ⟨⟨hr, h.common.frames, h.common.loops⟩, fun h => absurd h he,
      fun _ => ⟨rfl, by simpa [h.targets] using ht⟩⟩

theorem Raw.popThen (h : Raw m E base bds targets s k pre i suf off fs ds ex dd)
    (ht : targets ≠ []) {q : Int → State α → R (Next α)}
    (hq : ∀ x r, s.data.stack = x :: r →
      Raw m E base bds targets { s with data := { s.data with stack := r } } k pre i suf off fs ds
        ex dd → SatE E (q x { s with data := { s.data with stack := r } }) (NextOK m E base bds targets)) :
    SatE E (popThen s q) (NextOK m E base bds targets) := by
  unfold Forth.popThen
  split
  · rename_i x r hx
    exact hq x r hx (h.withData (h.common.data.withStack (by rw [hx]; simp)))
  · exact h.failWith ht (by simp)

end

theorem ProgOK.frame (hP : ProgOK m E) {k ex dd : Nat} (hk : E.info[k]? = some (ex, dd)) :
    FrameAt m E ⟨k, 0⟩ ex dd false := by
  have hlt : k < m.segments.length := by rw [hP.len]; exact (List.getElem?_eq_some_iff.mp hk).1
  obtain ⟨is, h1, h2⟩ := hP.segs k _ ex dd (List.getElem?_eq_getElem hlt) hk
  refine ⟨k, [], is, rfl, hk, ?_, by simpa using h2, ?_⟩
  · rw [List.getElem?_eq_getElem hlt, h1]; simp
  · exact PosAt.start (pre := []) (suf := is)

/-- Calling a segment. -/
theorem Here.enter (hP : ProgOK m E) {f : Frame} {fs : List Frame} {ds : List Int} {ex dd : Nat}
    {b : Bool} (h : Here m E base bds targets s f fs ds ex dd b) (ht : targets ≠ []) {k e d : Nat}
    (hk : E.info[k]? = some (e, d)) (hrel : (e = 0 ∧ d = 0) ∨ (e = ex + 1 ∧ d = dd + b.toNat)) :
    SatE E (enter m ((k : Int) + 66) s) (NextOK m E base bds targets) := by
  unfold Forth.enter
  split
  · exact h.failWith ht (by simp)
  · rename_i hne
    have hfl := h.common.frames
    rw [pushFrame, if_pos (by omega), bind_ok]
    refine ⟨⟨h.common.data, by simp; omega, h.common.loops⟩, h.err, h.ready, h.targets,
      ⟨k, 0⟩, f :: fs, ds, e, d, false, ?_, h.loops, hP.frame hk, ds, ex, dd, b, h.fok, rfl, ?_⟩
    · simp [h.frames]
    · rcases hrel with h | h
      · exact .inl h
      · exact .inr ⟨by simp, h⟩

theorem readCode_decode (repeated big direct : Bool) (format : Nat) (hf : format < 32) :
    let n := (-(readCode repeated big direct format) - 1).toNat
    readCode repeated big direct format < 0 ∧ (n % 2 = 1 ↔ direct = true) ∧
      (n / 2 % 2 = 1 ↔ repeated = true) ∧ (n / 4 % 2 = 1 ↔ big = true) ∧ n / 8 % 32 = format := by
  unfold readCode
  cases repeated <;> cases big <;> cases direct <;> simp <;> omega

/-- Executing a call of a segment. -/
theorem exec_call (single : Bool) (k : Nat) (s : State α) :
    exec m single ((k : Int) + 66) s = enter m ((k : Int) + 66) s := by
  unfold exec
  rw [if_neg (by omega), if_pos (by omega)]

theorem loopVar_ok {k : Nat} {pre : List Instr} {i : Instr} {suf : List Instr} {off : Int}
    {fs : List Frame} {ds : List Int} {ex dd : Nat}
    (h : Raw m E base bds targets s k pre i suf off fs ds ex dd)
    (ho : off = i.encode.length) (ht : targets ≠ []) {j : Nat} (hj : j < dd) :
    SatE E (loopVar m j s) (NextOK m E base bds targets) := by
  unfold loopVar
  split
  · exact h.failWith ht (by simp)
  · have hdd := (h.behind ho).fok.dd_le (by simp)
    have hlen : ds.length ≤ s.loops.length := by
      have := congrArg List.length h.loops
      simp at this; omega
    rw [rd_nat_ok (by simp at hdd; omega), bind_ok]
    exact h.onData ho ht (.of h.common.data fun _ hd => hd.push _)

theorem execRead_ok (hP : ProgOK m E) (ht : targets ≠ []) {k : Nat} {pre : List Instr}
    {suf : List Instr} {fs : List Frame} {ds : List Int} {ex dd : Nat} {repeated big : Bool}
    {format : Nat} {inNum width : Int} {out : Option Int}
    (h : Raw m E base bds targets s k pre (.read repeated big format inNum width out) suf 1 fs ds
      ex dd)
    (hpol : ¬ E.weak → repeated = true → ∀ x r, s.data.stack = x :: r → 0 ≤ x ∧ x < 2 ^ 58) :
    SatE E (execRead m (readCode repeated big out.isSome format) s) (NextOK m E base bds targets) := by
  obtain ⟨o1, o2, o3, o4, o5, o6, _⟩ : Instr.OK E ex dd (.read repeated big format inNum width out) :=
    h.iok _ (List.mem_append_right pre List.mem_cons_self)
  obtain ⟨d1, d2, d3, d4, d5⟩ := readCode_decode repeated big out.isSome format (by omega)
  unfold execRead
  simp only [d2, d3, d4, d5]
  have hlen : ((Instr.read repeated big format inNum width out).encode.length : Int) =
      2 + (if format = 16 then 1 else 0) + (if out.isSome then 1 else 0) := by
    cases out <;> simp [Instr.encode] <;> split <;> simp
  rw [h.operand (n := 1) (x := inNum) rfl (by simp [Instr.encode]), bind_ok]
  -- the rest of the operands
  have rest : ∀ (num : Int) (s : State α), (¬ E.weak → 0 ≤ num ∧ num < 2 ^ 58) →
      Raw m E base bds targets s k pre (.read repeated big format inNum width out) suf 2 fs ds
        ex dd →
      SatE E ((if format = 16 then operand m s else ok (0, s)) >>= fun (p : Int × State α) =>
        (if out.isSome = true then operand m p.2 >>= fun (q : Int × State α) => ok (some q.1, q.2)
          else ok (none, p.2)) >>=
        fun (q : Option Int × State α) =>
          onData q.2 (readOp m format (decide (big = true)) num p.1 inNum q.1 q.2.data))
        (NextOK m E base bds targets) := by
    intro num s hnum h
    have hin1 : inNum < m.numInputs := by rw [← hP.inputs]; exact o4
    have hout : ∀ o, out = some o → 0 ≤ o ∧ o < m.outTypes.length := by
      rw [← hP.outs]; exact o6
    by_cases hf : format = 16
    · rw [if_pos hf, h.operand (n := 2) (x := width) rfl (by simp [Instr.encode, hf]), bind_ok]
      have h := h.adv 1
      cases out with
      | none =>
        simp only [Option.isSome_none, Bool.false_eq_true, if_false, bind_ok]
        refine h.onData (by rw [hlen]; simp [hf]) ht ?_
        exact .of h.common.data fun hw hd => keeps_readOp (hP.resize.resolve_left hw) o3 hin1
          (fun hf => o5 hf) (by simp) (hnum hw).1 (hnum hw).2 hd
      | some o =>
        simp only [Option.isSome_some, if_true]
        rw [h.operand (n := 3) (x := o) (by norm_num) (by simp [Instr.encode, hf]), bind_ok, bind_ok]
        have h := h.adv 1
        refine h.onData (by rw [hlen]; simp [hf]) ht ?_
        exact .of h.common.data fun hw hd => keeps_readOp (hP.resize.resolve_left hw) o3 hin1
          (fun hf => o5 hf) hout (hnum hw).1 (hnum hw).2 hd
    · rw [if_neg hf, bind_ok]
      cases out with
      | none =>
        simp only [Option.isSome_none, Bool.false_eq_true, if_false, bind_ok]
        refine h.onData (by rw [hlen]; simp [hf]) ht ?_
        exact .of h.common.data fun hw hd => keeps_readOp (hP.resize.resolve_left hw) o3 hin1
          (fun h => absurd h hf) (by simp) (hnum hw).1 (hnum hw).2 hd
      | some o =>
        simp only [Option.isSome_some, if_true]
        rw [h.operand (n := 2) (x := o) (by norm_num) (by simp [Instr.encode, hf]), bind_ok, bind_ok]
        have h := h.adv 1
        refine h.onData (by rw [hlen]; simp [hf]) ht ?_
        exact .of h.common.data fun hw hd => keeps_readOp (hP.resize.resolve_left hw) o3 hin1
          (fun h => absurd h hf) hout (hnum hw).1 (hnum hw).2 hd
  have hs : (advance 1 s).data = s.data := by rw [advance_eq 1 h.frames]
  have h := h.adv 1
  split
  · rename_i hrep
    refine h.popThen ht fun x r hx hr => ?_
    rw [hs] at hx
    exact rest x _ (fun hw => hpol hw hrep x r hx) hr
  · exact rest 1 _ (fun _ => by norm_num) h

theorem halt_after (hc : Common m E s) (ht : s.targets ≠ []) :
    After m E base bds targets true (halt s) := by
  refine ⟨⟨hc.data, by simp [halt], by simp [halt]⟩, by simp [halt], fun _ => ⟨rfl, ?_⟩⟩
  simp only [halt, ne_eq, List.drop_eq_nil_iff]
  have := List.length_pos_iff.mpr ht
  omega

theorem exec_plain (single : Bool) {c : Int} (s : State α) (h1 : 26 ≤ c) (h2 : c ≤ 65)
    (h3 : c ≠ 29) (h4 : c ≠ 30) (h5 : c ≠ 31) :
    exec m single c s = onData s (plainOp m c s.data) := by
  unfold exec
  rw [if_neg (by omega), if_neg (by omega)]
  split
  all_goals try omega
  rw [if_neg (by omega)]

theorem exec_arg (single : Bool) {c : Int} (s : State α) (h : c = 0 ∨ (11 ≤ c ∧ c ≤ 25)) :
    exec m single c s = operand m s >>= fun r => onData r.2 (argOp m c r.1 r.2.data) := by
  unfold exec
  rw [if_neg (by omega), if_neg (by omega)]
  split
  all_goals try omega
  rw [if_pos (by omega)]

theorem exec_pause (single : Bool) (s : State α) : exec m single 2 s =
    segmentDone m s >>= fun done =>
      if done then endSegment s >>= fun r => ok (.stop r.1) else ok (.stop s) := rfl

theorem exec_if (single : Bool) (s : State α) : exec m single 3 s =
    popThen s fun x s => ok (.next (if x = 0 then advance 1 s else s)) := rfl

theorem exec_ifElse (single : Bool) (s : State α) : exec m single 4 s =
    popThen s fun x s => if x = 0 then ok (.next (advance 1 s))
      else fetch m s >>= fun c => enter m c (advance 2 s) := rfl

theorem exec_do (single b : Bool) (s : State α) :
    exec m single (if b then 6 else 5) s = startLoop m b s := by cases b <;> rfl

theorem exec_again (single : Bool) (s : State α) :
    exec m single 7 s = ok (.next (advance (-2) s)) := rfl

theorem exec_until (single : Bool) (s : State α) : exec m single 8 s =
    popThen s fun x s => ok (.next (if x = 0 then advance (-2) s else s)) := rfl

theorem exec_while (single : Bool) (s : State α) : exec m single 9 s =
    popThen s fun x s => if x = 0 then ok (.next (advance 1 s))
      else fetch m s >>= fun c => enter m c (advance (-2) s) := rfl

theorem exec_exit (single : Bool) (s : State α) : exec m single 10 s =
    operand m s >>= fun r =>
        if 0 ≤ r.1 ∧ r.1 < r.2.depth then
          let s := { r.2 with frames := r.2.frames.drop r.1.toNat }
          let s := { s with loops := s.loops.dropWhile (fun l => decide (l.depth ≠ s.depth)) }
          if single then
            segmentDone m s >>= fun done =>
            if done then popFrame s >>= fun s => ok (.stop s) else ok (.stop s)
          else ok (.leave s)
        else ub := rfl

theorem exec_start_plain (hP : ProgOK m E) (ht : targets ≠ []) (hbds : ¬ E.allowDo → bds = [])
    (single : Bool) {k : Nat} {pre : List Instr} {c : Int}
    {suf : List Instr} {fs : List Frame}
    {ds : List Int} {ex dd : Nat} (h : Raw m E base bds targets s k pre (.plain c) suf 0 fs ds ex dd)
    (hpol : ¬ E.weak → Polite m s) : ∃ c, fetch m s = ok c ∧
      SatE E (exec m single c (advance 1 s)) (NextOK m E base bds targets) := by
  have hiok : Instr.OK E ex dd (.plain c) := h.iok _ (List.mem_append_right pre List.mem_cons_self)
  have h1 : Raw m E base bds targets (advance 1 s) k pre (.plain c) suf 1 fs ds ex dd := by
    simpa using h.adv 1
  have hsd : (advance 1 s).data = s.data := by rw [advance_eq 1 h.frames]
  have hfe : fetch m s = ok c := h.fetch (n := 0) rfl rfl
  refine ⟨c, hfe, ?_⟩
  have hb := h1.behind rfl
  rcases hiok with rfl | rfl | ⟨c1, c2, c3, c4, c5⟩
  · exact halt_after h1.common (by rw [h1.targets]; exact ht)
  · -- pause
    rw [exec_pause]
    obtain ⟨done, hd, _⟩ := segmentDone_ok hb.frames hb.fok.1
    rw [hd, bind_ok]
    split
    · refine (endSegment_after hb.common hb.frames hb.loops hb.fok hb.err hb.ready
        (by rw [hb.targets]; exact ht)).bind fun r hr => ?_
      rw [hb.targets] at hr
      exact ⟨hr.common, hr.good, fun he => ⟨rfl, (hr.failed he).2⟩⟩
    · exact hb.after true
  · by_cases e29 : c = 29
    · subst e29
      exact loopVar_ok (j := 0) h1 rfl ht (by have := c3 rfl; omega)
    by_cases e30 : c = 30
    · subst e30
      exact loopVar_ok (j := 1) h1 rfl ht (by have := c4 rfl; omega)
    by_cases e31 : c = 31
    · subst e31
      exact loopVar_ok (j := 2) h1 rfl ht (by have := c5 rfl; omega)
    rw [exec_plain single _ c1 c2 e29 e30 e31]
    exact h1.onData rfl ht (.of h1.common.data fun _ hd => keeps_plainOp hd c)

theorem exec_start_arg (hP : ProgOK m E) (ht : targets ≠ []) (hbds : ¬ E.allowDo → bds = [])
    (single : Bool) {k : Nat} {pre : List Instr} {c n : Int}
    {suf : List Instr} {fs : List Frame}
    {ds : List Int} {ex dd : Nat} (h : Raw m E base bds targets s k pre (.arg c n) suf 0 fs ds ex dd)
    (hpol : ¬ E.weak → Polite m s) : ∃ c, fetch m s = ok c ∧
      SatE E (exec m single c (advance 1 s)) (NextOK m E base bds targets) := by
  have hiok : Instr.OK E ex dd (.arg c n) := h.iok _ (List.mem_append_right pre List.mem_cons_self)
  have h1 : Raw m E base bds targets (advance 1 s) k pre (.arg c n) suf 1 fs ds ex dd := by
    simpa using h.adv 1
  have hsd : (advance 1 s).data = s.data := by rw [advance_eq 1 h.frames]
  have hfe : fetch m s = ok c := h.fetch (n := 0) rfl rfl
  refine ⟨c, hfe, ?_⟩
  simp only [Instr.OK] at hiok
  rw [exec_arg single _ (by omega), h1.operand (n := 1) (x := n) rfl rfl, bind_ok]
  have h2 := h1.adv 1
  have hsd2 : (advance 1 (advance 1 s)).data = s.data := by
    rw [advance_eq 1 h1.frames]; exact hsd
  refine h2.onData rfl ht (.of h2.common.data fun hw hd =>
    keeps_argOp (hP.resize.resolve_left hw) hd ?_ ?_)
  · unfold ArgOK
    rw [← hP.vars, ← hP.inputs, ← hP.outs]
    omega
  · intro hc x r hx
    rw [hsd2] at hx
    exact (hpol hw _ hfe).2 hc x r hx

theorem exec_start_read (hP : ProgOK m E) (ht : targets ≠ []) (hbds : ¬ E.allowDo → bds = [])
    (single : Bool) {k : Nat} {pre : List Instr} {repeated big : Bool} {format : Nat} {inNum width : Int} {out : Option Int}
    {suf : List Instr} {fs : List Frame}
    {ds : List Int} {ex dd : Nat} (h : Raw m E base bds targets s k pre (.read repeated big format inNum width out) suf 0 fs ds ex dd)
    (hpol : ¬ E.weak → Polite m s) : ∃ c, fetch m s = ok c ∧
      SatE E (exec m single c (advance 1 s)) (NextOK m E base bds targets) := by
  have hiok : Instr.OK E ex dd (.read repeated big format inNum width out) := h.iok _ (List.mem_append_right pre List.mem_cons_self)
  have h1 : Raw m E base bds targets (advance 1 s) k pre (.read repeated big format inNum width out) suf 1 fs ds ex dd := by
    simpa using h.adv 1
  have hsd : (advance 1 s).data = s.data := by rw [advance_eq 1 h.frames]
  have hfe : fetch m s = ok (readCode repeated big out.isSome format) :=
    h.fetch (n := 0) rfl (by simp [Instr.encode])
  refine ⟨_, hfe, ?_⟩
  obtain ⟨d1, d2, d3, d4, d5⟩ := readCode_decode repeated big out.isSome format
    (by have := hiok.2.1; omega)
  unfold exec
  rw [if_pos d1]
  refine execRead_ok hP ht h1 fun hw hrep x r hx => ?_
  rw [hsd] at hx
  exact (hpol hw _ hfe).1 d1 (d3.mpr hrep) x r hx

theorem exec_start_word (hP : ProgOK m E) (ht : targets ≠ []) (hbds : ¬ E.allowDo → bds = [])
    (single : Bool) {k : Nat} {pre : List Instr} {k' : Nat}
    {suf : List Instr} {fs : List Frame}
    {ds : List Int} {ex dd : Nat} (h : Raw m E base bds targets s k pre (.word k') suf 0 fs ds ex dd)
    (hpol : ¬ E.weak → Polite m s) : ∃ c, fetch m s = ok c ∧
      SatE E (exec m single c (advance 1 s)) (NextOK m E base bds targets) := by
  have hiok : Instr.OK E ex dd (.word k') := h.iok _ (List.mem_append_right pre List.mem_cons_self)
  have h1 : Raw m E base bds targets (advance 1 s) k pre (.word k') suf 1 fs ds ex dd := by
    simpa using h.adv 1
  have hsd : (advance 1 s).data = s.data := by rw [advance_eq 1 h.frames]
  refine ⟨_, h.fetch (n := 0) rfl rfl, ?_⟩
  rw [exec_call]
  exact (h1.behind rfl).enter hP ht hiok (.inl ⟨rfl, rfl⟩)

theorem exec_start_ifThen (hP : ProgOK m E) (ht : targets ≠ []) (hbds : ¬ E.allowDo → bds = [])
    (single : Bool) {k : Nat} {pre : List Instr} {k' : Nat}
    {suf : List Instr} {fs : List Frame}
    {ds : List Int} {ex dd : Nat} (h : Raw m E base bds targets s k pre (.ifThen k') suf 0 fs ds ex dd)
    (hpol : ¬ E.weak → Polite m s) : ∃ c, fetch m s = ok c ∧
      SatE E (exec m single c (advance 1 s)) (NextOK m E base bds targets) := by
  have hiok : Instr.OK E ex dd (.ifThen k') := h.iok _ (List.mem_append_right pre List.mem_cons_self)
  have h1 : Raw m E base bds targets (advance 1 s) k pre (.ifThen k') suf 1 fs ds ex dd := by
    simpa using h.adv 1
  have hsd : (advance 1 s).data = s.data := by rw [advance_eq 1 h.frames]
  refine ⟨3, h.fetch (n := 0) rfl rfl, ?_⟩
  rw [exec_if]
  refine h1.popThen ht fun x r hx hr => ?_
  show NextOK m E base bds targets (.next (if x = 0 then advance 1 _ else _))
  split
  · exact ((hr.adv 1).behind rfl).nextOK
  · exact (hr.inside (n := 1) rfl (.ifThen k')).nextOK

theorem exec_start_ifElse (hP : ProgOK m E) (ht : targets ≠ []) (hbds : ¬ E.allowDo → bds = [])
    (single : Bool) {k : Nat} {pre : List Instr} {k' k'' : Nat}
    {suf : List Instr} {fs : List Frame}
    {ds : List Int} {ex dd : Nat} (h : Raw m E base bds targets s k pre (.ifElse k' k'') suf 0 fs ds ex dd)
    (hpol : ¬ E.weak → Polite m s) : ∃ c, fetch m s = ok c ∧
      SatE E (exec m single c (advance 1 s)) (NextOK m E base bds targets) := by
  have hiok : Instr.OK E ex dd (.ifElse k' k'') := h.iok _ (List.mem_append_right pre List.mem_cons_self)
  have h1 : Raw m E base bds targets (advance 1 s) k pre (.ifElse k' k'') suf 1 fs ds ex dd := by
    simpa using h.adv 1
  have hsd : (advance 1 s).data = s.data := by rw [advance_eq 1 h.frames]
  refine ⟨4, h.fetch (n := 0) rfl rfl, ?_⟩
  rw [exec_ifElse]
  refine h1.popThen ht fun x r hx hr => ?_
  simp only
  split
  · exact ((hr.adv 1).inside (n := 2) rfl (.ifElse k' k'')).nextOK
  · rw [hr.fetch (n := 1) (x := (k' : Int) + 66) rfl rfl, bind_ok]
    exact ((hr.adv 2).behind rfl).enter hP ht hiok.1 (.inr ⟨rfl, by simp⟩)

theorem exec_start_doLoop (hP : ProgOK m E) (ht : targets ≠ []) (hbds : ¬ E.allowDo → bds = [])
    (single : Bool) {k : Nat} {pre : List Instr} {b : Bool} {k' : Nat}
    {suf : List Instr} {fs : List Frame}
    {ds : List Int} {ex dd : Nat} (h : Raw m E base bds targets s k pre (.doLoop b k') suf 0 fs ds ex dd)
    (hpol : ¬ E.weak → Polite m s) : ∃ c, fetch m s = ok c ∧
      SatE E (exec m single c (advance 1 s)) (NextOK m E base bds targets) := by
  have hiok : Instr.OK E ex dd (.doLoop b k') := h.iok _ (List.mem_append_right pre List.mem_cons_self)
  have h1 : Raw m E base bds targets (advance 1 s) k pre (.doLoop b k') suf 1 fs ds ex dd := by
    simpa using h.adv 1
  have hsd : (advance 1 s).data = s.data := by rw [advance_eq 1 h.frames]
  refine ⟨if b then 6 else 5, h.fetch (n := 0) rfl (by cases b <;> rfl), ?_⟩
  rw [exec_do]
  unfold startLoop
  split
  · rename_i start stop r hx
    have h2 := h1.withData (h1.common.data.withStack (s := r) (by rw [hx]; simp; omega))
    dsimp only
    split
    · exact h2.failWith ht (by simp)
    · rename_i hne
      have hl := h2.common.loops
      rw [if_pos (by simp only at hl hne ⊢; omega)]
      -- the frame now runs a loop
      have hb := (h2.adv (-1)).before (by norm_num)
      obtain ⟨_, ds0, ex0, dd0, b0, f0, hds, frel⟩ := hb.fok
      refine ⟨⟨h2.common.data, h2.common.frames, by simp only at hl hne ⊢; simp; omega⟩, h2.err,
        h2.ready, h2.targets, ⟨k, (flat pre).length + 1⟩, fs,
        ((base.length + fs.length + 1 : Nat) : Int) :: ds, ex, dd, true, h2.frames, ?_, ?_⟩
      · have hfr := h2.frames
        have hlo := h2.loops
        simp only at hfr hlo
        simp only [List.map_cons, State.depth, hfr, hlo]
        simp
        omega
      · refine ⟨⟨k, pre, _, rfl, h2.info, h2.seg, h2.iok, .loop rfl⟩, ds0, ex0, dd0, b0, f0, ?_,
          frel⟩
        simp only [if_true]
        rw [hds]
        simp
  · exact h1.failWith ht (by simp)

theorem exec_start_again (hP : ProgOK m E) (ht : targets ≠ []) (hbds : ¬ E.allowDo → bds = [])
    (single : Bool) {k : Nat} {pre : List Instr} {k' : Nat}
    {suf : List Instr} {fs : List Frame}
    {ds : List Int} {ex dd : Nat} (h : Raw m E base bds targets s k pre (.again k') suf 0 fs ds ex dd)
    (hpol : ¬ E.weak → Polite m s) : ∃ c, fetch m s = ok c ∧
      SatE E (exec m single c (advance 1 s)) (NextOK m E base bds targets) := by
  have hiok : Instr.OK E ex dd (.again k') := h.iok _ (List.mem_append_right pre List.mem_cons_self)
  have h1 : Raw m E base bds targets (advance 1 s) k pre (.again k') suf 1 fs ds ex dd := by
    simpa using h.adv 1
  have hsd : (advance 1 s).data = s.data := by rw [advance_eq 1 h.frames]
  refine ⟨_, h.fetch (n := 0) rfl rfl, ?_⟩
  rw [exec_call]
  exact (h1.inside (n := 1) rfl (.again k')).enter hP ht hiok (.inr ⟨rfl, by simp⟩)

theorem exec_start_until_ (hP : ProgOK m E) (ht : targets ≠ []) (hbds : ¬ E.allowDo → bds = [])
    (single : Bool) {k : Nat} {pre : List Instr} {k' : Nat}
    {suf : List Instr} {fs : List Frame}
    {ds : List Int} {ex dd : Nat} (h : Raw m E base bds targets s k pre (.until_ k') suf 0 fs ds ex dd)
    (hpol : ¬ E.weak → Polite m s) : ∃ c, fetch m s = ok c ∧
      SatE E (exec m single c (advance 1 s)) (NextOK m E base bds targets) := by
  have hiok : Instr.OK E ex dd (.until_ k') := h.iok _ (List.mem_append_right pre List.mem_cons_self)
  have h1 : Raw m E base bds targets (advance 1 s) k pre (.until_ k') suf 1 fs ds ex dd := by
    simpa using h.adv 1
  have hsd : (advance 1 s).data = s.data := by rw [advance_eq 1 h.frames]
  refine ⟨_, h.fetch (n := 0) rfl rfl, ?_⟩
  rw [exec_call]
  exact (h1.inside (n := 1) rfl (.until_ k')).enter hP ht hiok (.inr ⟨rfl, by simp⟩)

theorem exec_start_while_ (hP : ProgOK m E) (ht : targets ≠ []) (hbds : ¬ E.allowDo → bds = [])
    (single : Bool) {k : Nat} {pre : List Instr} {k' k'' : Nat}
    {suf : List Instr} {fs : List Frame}
    {ds : List Int} {ex dd : Nat} (h : Raw m E base bds targets s k pre (.while_ k' k'') suf 0 fs ds ex dd)
    (hpol : ¬ E.weak → Polite m s) : ∃ c, fetch m s = ok c ∧
      SatE E (exec m single c (advance 1 s)) (NextOK m E base bds targets) := by
  have hiok : Instr.OK E ex dd (.while_ k' k'') := h.iok _ (List.mem_append_right pre List.mem_cons_self)
  have h1 : Raw m E base bds targets (advance 1 s) k pre (.while_ k' k'') suf 1 fs ds ex dd := by
    simpa using h.adv 1
  have hsd : (advance 1 s).data = s.data := by rw [advance_eq 1 h.frames]
  refine ⟨_, h.fetch (n := 0) rfl rfl, ?_⟩
  rw [exec_call]
  exact (h1.inside (n := 1) rfl (.while_ k' k'')).enter hP ht hiok.1 (.inr ⟨rfl, by simp⟩)

theorem exec_start_exit (hP : ProgOK m E) (ht : targets ≠ []) (hbds : ¬ E.allowDo → bds = [])
    (single : Bool) {k : Nat} {pre : List Instr} {n : Nat}
    {suf : List Instr} {fs : List Frame}
    {ds : List Int} {ex dd : Nat} (h : Raw m E base bds targets s k pre (.exit n) suf 0 fs ds ex dd)
    (hpol : ¬ E.weak → Polite m s) : ∃ c, fetch m s = ok c ∧
      SatE E (exec m single c (advance 1 s)) (NextOK m E base bds targets) := by
  have hiok : Instr.OK E ex dd (.exit n) := h.iok _ (List.mem_append_right pre List.mem_cons_self)
  have h1 : Raw m E base bds targets (advance 1 s) k pre (.exit n) suf 1 fs ds ex dd := by
    simpa using h.adv 1
  have hsd : (advance 1 s).data = s.data := by rw [advance_eq 1 h.frames]
  refine ⟨10, h.fetch (n := 0) rfl rfl, ?_⟩
  obtain ⟨hex, rfl⟩ := hiok
  have hnd : ¬ E.allowDo := by
    rcases hP.guard with hg | hg
    · exact absurd hex hg
    · exact hg
  rw [exec_exit, h1.operand (n := 1) (x := (n : Int)) rfl rfl, bind_ok]
  have hb := (h1.adv 1).behind rfl
  generalize hf : (Frame.mk _ _ : Frame) = f at hb
  obtain ⟨e1, ds', dd', e2⟩ := hb.fok.drop hnd (by simp)
  have hlo : (advance 1 (advance 1 s)).loops = [] := by
    have := hb.loops
    rw [(hb.fok.nodo hnd).1, hbds hnd] at this
    simpa using this
  simp only
  rw [if_pos ⟨by omega, by simp [State.depth, hb.frames] at e1 ⊢; omega⟩]
  have hdrop : ∃ g gs, (f :: fs).drop n = g :: gs := by
    cases hd : (f :: fs).drop n with
    | nil => simp [List.drop_eq_nil_iff] at hd; simp at e1; omega
    | cons g gs => exact ⟨g, gs, rfl⟩
  obtain ⟨g, gs, hg⟩ := hdrop
  rw [hg] at e2
  have hfr : (advance 1 (advance 1 s)).frames.drop (n : Int).toNat = (g :: gs) ++ base := by
    rw [hb.frames, Int.toNat_natCast, List.drop_append_of_le_length (by simp at e1 ⊢; omega), hg]
  rw [hfr, hlo]
  simp only [List.dropWhile_nil]
  obtain ⟨hds, _⟩ := e2.nodo hnd
  subst hds
  have hh : Here m E base bds targets
      { advance 1 (advance 1 s) with frames := (g :: gs) ++ base, loops := [] } g gs [] 0 dd'
      false := by
    refine ⟨⟨hb.common.data, ?_, by simp⟩, hb.err, hb.ready, hb.targets, rfl, by simp [hbds hnd],
      e2⟩
    have := hb.common.frames
    rw [hb.frames] at this
    have hle : (g :: gs).length ≤ (f :: fs).length := by
      rw [← hg, List.length_drop]; omega
    simp only [List.length_append] at this ⊢
    omega
  split
  · obtain ⟨done, hd, _⟩ := segmentDone_ok hh.frames hh.fok.1
    rw [hd, bind_ok]
    split
    · obtain ⟨s', g1, g2, _⟩ := popFrame_after (stop := true) hh.common hh.frames hh.loops hh.fok
        hh.err hh.ready
      rw [g1, bind_ok]
      rw [hh.targets] at g2
      exact g2
    · exact hh.after true
  · exact ⟨hh.common, hh.err, hh.ready, hh.targets, g, gs, [], 0, dd', hh.frames, hh.loops, hh.fok⟩

/-- An instruction that starts here. -/
theorem exec_start (hP : ProgOK m E) (ht : targets ≠ []) (hbds : ¬ E.allowDo → bds = [])
    (single : Bool) {k : Nat} {pre : List Instr} {i : Instr} {suf : List Instr} {fs : List Frame}
    {ds : List Int} {ex dd : Nat} (h : Raw m E base bds targets s k pre i suf 0 fs ds ex dd)
    (hpol : ¬ E.weak → Polite m s) : ∃ c, fetch m s = ok c ∧
      SatE E (exec m single c (advance 1 s)) (NextOK m E base bds targets) := by
  cases i with
  | plain c => exact exec_start_plain hP ht hbds single h hpol
  | arg c n => exact exec_start_arg hP ht hbds single h hpol
  | read repeated big format inNum width out => exact exec_start_read hP ht hbds single h hpol
  | word k' => exact exec_start_word hP ht hbds single h hpol
  | ifThen k' => exact exec_start_ifThen hP ht hbds single h hpol
  | ifElse k' k'' => exact exec_start_ifElse hP ht hbds single h hpol
  | doLoop b k' => exact exec_start_doLoop hP ht hbds single h hpol
  | again k' => exact exec_start_again hP ht hbds single h hpol
  | until_ k' => exact exec_start_until_ hP ht hbds single h hpol
  | while_ k' k'' => exact exec_start_while_ hP ht hbds single h hpol
  | exit n => exact exec_start_exit hP ht hbds single h hpol

/-- An instruction in whose middle we are. -/
theorem exec_mid (hP : ProgOK m E) (ht : targets ≠ [])
    (single : Bool) {k : Nat} {pre : List Instr} {i : Instr} {suf : List Instr} {n : Nat}
    {fs : List Frame} {ds : List Int} {ex dd : Nat}
    (h : Raw m E base bds targets s k pre i suf n fs ds ex dd) (hm : Mid i n) :
    ∃ c, fetch m s = ok c ∧ SatE E (exec m single c (advance 1 s)) (NextOK m E base bds targets) := by
  have hiok : i.OK E ex dd := h.iok _ (List.mem_append_right pre List.mem_cons_self)
  have h1 := h.adv 1
  cases hm with
  | ifThen k' =>
    refine ⟨_, h.fetch (n := 1) rfl rfl, ?_⟩
    rw [exec_call]
    exact (h1.behind rfl).enter hP ht hiok (.inr ⟨rfl, by simp⟩)
  | ifElse k' k'' =>
    refine ⟨_, h.fetch (n := 2) rfl rfl, ?_⟩
    rw [exec_call]
    exact (h1.behind rfl).enter hP ht hiok.2 (.inr ⟨rfl, by simp⟩)
  | again k' =>
    refine ⟨7, h.fetch (n := 1) rfl rfl, ?_⟩
    exact ((h1.adv (-2)).before rfl).nextOK
  | until_ k' =>
    refine ⟨8, h.fetch (n := 1) rfl rfl, ?_⟩
    rw [exec_until]
    refine h1.popThen ht fun x r hx hr => ?_
    show NextOK m E base bds targets (.next (if x = 0 then advance (-2) _ else _))
    split
    · exact ((hr.adv (-2)).before rfl).nextOK
    · exact (hr.behind rfl).nextOK
  | while_ k' k'' =>
    refine ⟨9, h.fetch (n := 1) rfl rfl, ?_⟩
    rw [exec_while]
    refine h1.popThen ht fun x r hx hr => ?_
    simp only
    split
    · exact ((hr.adv 1).behind rfl).nextOK
    · rw [hr.fetch (n := 2) (x := (k'' : Int) + 66) rfl rfl, bind_ok]
      exact ((hr.adv (-2)).before rfl).enter hP ht hiok.2 (.inr ⟨rfl, by simp⟩)

end

end Awk.Forth
