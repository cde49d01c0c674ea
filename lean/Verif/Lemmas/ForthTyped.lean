import Verif.Model.ForthCompile
/-
Every segment that the compiler makes is a sequence of well-formed instructions.
-/

namespace Awk.Forth
open Awk.R

/-- An instruction with its operands. The numbers `k` are segments. -/
inductive Instr where
  | plain (c : Int)
  | arg (c n : Int)
  | read (repeated big : Bool) (format : Nat) (inNum : Int) (width : Int) (out : Option Int)
  | word (k : Nat)
  | ifThen (k : Nat)
  | ifElse (k k' : Nat)
  | doLoop (isStep : Bool) (k : Nat)
  | again (k : Nat)
  | until_ (k : Nat)
  | while_ (k k' : Nat)
  | exit (n : Nat)

/-- The bytecodes of an instruction. -/
def Instr.encode : Instr → List Int
  | .plain c => [c]
  | .arg c n => [c, n]
  | .read repeated big format inNum width out =>
    [readCode repeated big out.isSome format, inNum] ++ (if format = 16 then [width] else []) ++
      out.toList
  | .word k => [(k : Int) + 66]
  | .ifThen k => [3, (k : Int) + 66]
  | .ifElse k k' => [4, (k : Int) + 66, (k' : Int) + 66]
  | .doLoop isStep k => [if isStep then 6 else 5, (k : Int) + 66]
  | .again k => [(k : Int) + 66, 7]
  | .until_ k => [(k : Int) + 66, 8]
  | .while_ k k' => [(k : Int) + 66, 9, (k' : Int) + 66]
  | .exit n => [10, (n : Int)]

/-- What instructions may refer to. `info` gives for every segment how deep it is nested in its
word, and how deep in `do` loops. -/
structure Env where
  vars : Nat
  inputs : Nat
  outs : Nat
  info : List (Nat × Nat)
  allowExit : Prop
  allowDo : Prop
  allowRepeat : Prop
  allowRewind : Prop
  /-- Only what holds if nothing is undefined is of interest. -/
  weak : Prop

/-- The instruction is well-formed in a segment of the nesting depths `ex` and `dd`. -/
def Instr.OK (E : Env) (ex dd : Nat) : Instr → Prop
  | .plain c => c = 1 ∨ c = 2 ∨ (26 ≤ c ∧ c ≤ 65 ∧ (c = 29 → 1 ≤ dd) ∧ (c = 30 → 2 ≤ dd) ∧
      (c = 31 → 3 ≤ dd))
  | .arg c n => c = 0 ∨ c = 24 ∨ c = 25 ∨ (11 ≤ c ∧ c ≤ 13 ∧ 0 ≤ n ∧ n < E.vars) ∨
      (14 ≤ c ∧ c ≤ 18 ∧ 0 ≤ n ∧ n < E.inputs) ∨ (19 ≤ c ∧ c ≤ 23 ∧ 0 ≤ n ∧ n < E.outs ∧
        (c = 23 → E.allowRewind))
  | .read repeated _ format inNum width out => 1 ≤ format ∧ format ≤ 16 ∧ 0 ≤ inNum ∧ inNum < E.inputs ∧
      (format = 16 → 1 ≤ width) ∧ (∀ o, out = some o → 0 ≤ o ∧ o < E.outs) ∧
      (repeated = true → E.allowRepeat)
  | .word k => E.info[k]? = some (0, 0)
  | .ifThen k => E.info[k]? = some (ex + 1, dd)
  | .ifElse k k' => E.info[k]? = some (ex + 1, dd) ∧ E.info[k']? = some (ex + 1, dd)
  | .doLoop _ k => E.allowDo ∧ E.info[k]? = some (ex + 1, dd + 1)
  | .again k => E.info[k]? = some (ex + 1, dd)
  | .until_ k => E.info[k]? = some (ex + 1, dd)
  | .while_ k k' => E.info[k]? = some (ex + 1, dd) ∧ E.info[k']? = some (ex + 1, dd)
  | .exit n => E.allowExit ∧ n = ex

/-- `E'` knows more than `E`. -/
structure Env.Le (E E' : Env) : Prop where
  vars : E.vars ≤ E'.vars
  inputs : E.inputs ≤ E'.inputs
  outs : E.outs ≤ E'.outs
  info : E.info <+: E'.info
  exit : E.allowExit → E'.allowExit
  doo : E.allowDo → E'.allowDo
  rep : E.allowRepeat → E'.allowRepeat
  rew : E.allowRewind → E'.allowRewind

theorem prefix_getElem? {α : Type} {l l' : List α} (h : l <+: l') {k : Nat} {x : α}
    (hk : l[k]? = some x) : l'[k]? = some x := by
  obtain ⟨t, rfl⟩ := h
  rw [List.getElem?_append_left (List.getElem?_eq_some_iff.mp hk).1]; exact hk

theorem Instr.OK.mono {E E' : Env} (hE : E.Le E') {ex dd : Nat} {i : Instr} (h : i.OK E ex dd) :
    i.OK E' ex dd := by
  have hi := @prefix_getElem? _ _ _ hE.info
  have := hE.vars; have := hE.inputs; have := hE.outs
  cases i with
  | plain c => exact h
  | arg c n =>
    have hrew := hE.rew
    simp only [Instr.OK] at h ⊢
    rcases h with h | h | h | h | h | ⟨h1, h2, h3, h4, h5⟩
    · omega
    · omega
    · omega
    · omega
    · omega
    · exact .inr (.inr (.inr (.inr (.inr ⟨h1, h2, h3, by omega, fun hc => hrew (h5 hc)⟩))))
  | read r b f n w o =>
    obtain ⟨h1, h2, h3, h4, h5, h6, h7⟩ := h
    exact ⟨h1, h2, h3, by omega, h5, fun o ho => by have := h6 o ho; omega, fun h => hE.rep (h7 h)⟩
  | word k => exact hi h
  | ifThen k => exact hi h
  | ifElse k k' => exact ⟨hi h.1, hi h.2⟩
  | doLoop s k => exact ⟨hE.doo h.1, hi h.2⟩
  | again k => exact hi h
  | until_ k => exact hi h
  | while_ k k' => exact ⟨hi h.1, hi h.2⟩
  | exit n => exact ⟨hE.exit h.1, h.2⟩

/-- The bytecodes are those of well-formed instructions. -/
def CodeOK (E : Env) (ex dd : Nat) (c : List Int) : Prop :=
  ∃ is : List Instr, c = is.flatMap Instr.encode ∧ ∀ i ∈ is, i.OK E ex dd

theorem CodeOK.nil {E : Env} {ex dd : Nat} : CodeOK E ex dd [] := ⟨[], rfl, by simp⟩

theorem CodeOK.append {E : Env} {ex dd : Nat} {c c' : List Int} (h : CodeOK E ex dd c)
    (h' : CodeOK E ex dd c') : CodeOK E ex dd (c ++ c') := by
  obtain ⟨is, rfl, hi⟩ := h
  obtain ⟨is', rfl, hi'⟩ := h'
  refine ⟨is ++ is', by simp, ?_⟩
  intro i hm
  rcases List.mem_append.mp hm with h | h
  · exact hi i h
  · exact hi' i h

theorem CodeOK.one {E : Env} {ex dd : Nat} {i : Instr} (h : i.OK E ex dd) :
    CodeOK E ex dd i.encode := ⟨[i], by simp, by simpa using h⟩

theorem CodeOK.mono {E E' : Env} (hE : E.Le E') {ex dd : Nat} {c : List Int}
    (h : CodeOK E ex dd c) : CodeOK E' ex dd c := by
  obtain ⟨is, rfl, hi⟩ := h
  exact ⟨is, rfl, fun i hm => (hi i hm).mono hE⟩

/-- The environment of these tables. -/
def envOf (toks : List Tok) (N : Names) (info : List (Nat × Nat)) : Env :=
  ⟨N.vars.length, N.inputs.length, N.outputs.length, info, Tok.exit ∈ toks, Tok.do_ ∈ toks,
    ∃ big format width, Tok.parser true big format width ∈ toks, Tok.rewind ∈ toks, False⟩

/-- The tables are consistent. -/
structure NamesOK (toks : List Tok) (N : Names) (info : List (Nat × Nat)) : Prop where
  len : N.dict.length = info.length
  segs : ∀ (k : Nat) (c : List Int) (ex dd : Nat), N.dict[k]? = some c → info[k]? = some (ex, dd) →
    CodeOK (envOf toks N info) ex dd c
  words : ∀ w ∈ N.words, ∃ k : Nat, w.2 = (k : Int) + 66 ∧ info[k]? = some (0, 0)

/-- Later tables. -/
structure Later (N N' : Names) (info info' : List (Nat × Nat)) : Prop where
  vars : N.vars.length ≤ N'.vars.length
  inputs : N.inputs.length ≤ N'.inputs.length
  outs : N.outputs.length ≤ N'.outputs.length
  info : info <+: info'

theorem Later.refl {N : Names} {info : List (Nat × Nat)} : Later N N info info :=
  ⟨le_refl _, le_refl _, le_refl _, List.prefix_refl _⟩

theorem Later.trans {N N' N'' : Names} {i i' i'' : List (Nat × Nat)} (h : Later N N' i i')
    (h' : Later N' N'' i' i'') : Later N N'' i i'' :=
  ⟨h.vars.trans h'.vars, h.inputs.trans h'.inputs, h.outs.trans h'.outs, h.info.trans h'.info⟩

theorem Later.env {toks : List Tok} {N N' : Names} {info info' : List (Nat × Nat)}
    (h : Later N N' info info') : (envOf toks N info).Le (envOf toks N' info') :=
  ⟨h.vars, h.inputs, h.outs, h.info, id, id, id, id⟩

/-- Declaring something keeps the tables consistent. -/
theorem NamesOK.declare {toks : List Tok} {N N' : Names} {info : List (Nat × Nat)}
    (h : NamesOK toks N info) (hl : Later N N' info info) (hd : N'.dict = N.dict)
    (hw : N'.words = N.words) : NamesOK toks N' info :=
  ⟨by rw [hd]; exact h.len,
   fun k c ex dd hk hi => (h.segs k c ex dd (by rw [← hd]; exact hk) hi).mono hl.env,
   by rw [hw]; exact h.words⟩

/-- A new, still empty segment. -/
theorem NamesOK.alloc {toks : List Tok} {N : Names} {info : List (Nat × Nat)}
    (h : NamesOK toks N info) (x : Nat × Nat) :
    NamesOK toks { N with dict := N.dict ++ [[]] } (info ++ [x]) := by
  have hl : Later N { N with dict := N.dict ++ [[]] } info (info ++ [x]) :=
    ⟨le_refl _, le_refl _, le_refl _, List.prefix_append _ _⟩
  refine ⟨by simp [h.len], ?_, fun w hw => ?_⟩
  · intro k c ex dd hk hi
    by_cases hlt : k < N.dict.length
    · rw [List.getElem?_append_left hlt] at hk
      rw [List.getElem?_append_left (by rw [← h.len]; exact hlt)] at hi
      exact (h.segs k c ex dd hk hi).mono hl.env
    · have : k = N.dict.length := by
        have := (List.getElem?_eq_some_iff.mp hk).1
        simp at this; omega
      subst this
      simp at hk
      subst hk
      exact CodeOK.nil
  · obtain ⟨k, h1, h2⟩ := h.words w hw
    exact ⟨k, h1, prefix_getElem? (List.prefix_append _ _) h2⟩

/-- Filling a segment. -/
theorem NamesOK.fill {toks : List Tok} {N : Names} {info : List (Nat × Nat)}
    (h : NamesOK toks N info) {k ex dd : Nat} {c : List Int} (hk : info[k]? = some (ex, dd))
    (hc : CodeOK (envOf toks N info) ex dd c) :
    NamesOK toks { N with dict := N.dict.set k c } info := by
  refine ⟨by simp [h.len], ?_, h.words⟩
  intro k' c' ex' dd' hk' hi
  by_cases he : k = k'
  · subst he
    have hlt : k < N.dict.length := by rw [h.len]; exact (List.getElem?_eq_some_iff.mp hk).1
    rw [List.getElem?_set_self hlt] at hk'
    rw [hk] at hi
    cases hi
    cases hk'
    exact hc
  · rw [List.getElem?_set_ne he] at hk'
    exact h.segs k' c' ex' dd' hk' hi

theorem idxOf?_lt {l : List Nat} {x n : Nat} (h : l.idxOf? x = some n) : n < l.length := by
  induction l generalizing n with
  | nil => simp at h
  | cons y ys ih =>
    rw [List.idxOf?_cons] at h
    split at h
    · simp at h; subst h; simp
    · rw [Option.map_eq_some_iff] at h
      obtain ⟨a, h1, rfl⟩ := h
      have := ih h1
      simp; omega

theorem CodeOK.words {toks : List Tok} {N : Names} {info : List (Nat × Nat)}
    (h : NamesOK toks N info) {ex dd : Nat} : ∀ l : List (Nat × Int), (∀ w ∈ l, w ∈ N.words) →
      CodeOK (envOf toks N info) ex dd (l.map Prod.snd) := by
  intro l
  induction l with
  | nil => intro _; exact CodeOK.nil
  | cons w l ih =>
    intro hl
    obtain ⟨k, h1, h2⟩ := h.words w (hl w (by simp))
    have := (CodeOK.one (i := .word k) (ex := ex) (dd := dd) (E := envOf toks N info) h2).append
      (ih (fun w hw => hl w (by simp [hw])))
    simpa [Instr.encode, h1] using this

theorem parseVariable_ok {toks : List Tok} {stop pos n : Nat} {N : Names}
    {info : List (Nat × Nat)} {ex dd : Nat} (hn : n < N.vars.length) {r : List Int × Nat}
    (h : parseVariable toks stop pos n = ok r) : CodeOK (envOf toks N info) ex dd r.1 := by
  have key : ∀ c : Int, 11 ≤ c → c ≤ 13 → CodeOK (envOf toks N info) ex dd [c, (n : Int)] := by
    intro c h1 h2
    exact CodeOK.one (i := .arg c n) (by simp [Instr.OK, envOf]; omega)
  unfold parseVariable at h
  repeat' split at h
  all_goals first | (cases h; exact key _ (by omega) (by omega)) | exact absurd h (by simp)

theorem parseInput_ok {toks : List Tok} {stop pos n : Nat} {N : Names}
    {info : List (Nat × Nat)} {ex dd : Nat} (hn : n < N.inputs.length) {r : List Int × Nat}
    (h : parseInput toks stop pos n N = ok r) : CodeOK (envOf toks N info) ex dd r.1 := by
  have key : ∀ c : Int, 14 ≤ c → c ≤ 18 → CodeOK (envOf toks N info) ex dd [c, (n : Int)] := by
    intro c h1 h2
    exact CodeOK.one (i := .arg c n) (by simp [Instr.OK, envOf]; omega)
  unfold parseInput at h
  split at h
  · split at h
    all_goals try (cases h; exact key _ (by omega) (by omega))
    · rename_i repeated big format width htok
      have htok := List.mem_of_getElem? htok
      simp only at h
      split at h
      · simp at h
      · rename_i hf
        split at h
        · split at h
          · cases h
            have hc : CodeOK (envOf toks N info) ex dd
                (Instr.read repeated big format n width none).encode := by
              refine CodeOK.one ?_
              simp only [Instr.OK, envOf]
              exact ⟨by omega, by omega, by omega, by omega, fun _ => by omega, by simp,
                by rintro rfl; exact ⟨_, _, _, htok⟩⟩
            simpa [Instr.encode] using hc
          · split at h
            · rename_i o ho
              cases h
              have ho := idxOf?_lt ho
              simp at ho
              have hc : CodeOK (envOf toks N info) ex dd
                  (Instr.read repeated big format n width (some o)).encode := by
                refine CodeOK.one ?_
                simp only [Instr.OK, envOf]
                refine ⟨by omega, by omega, by omega, by omega, fun _ => by omega, ?_,
                  by rintro rfl; exact ⟨_, _, _, htok⟩⟩
                rintro _ ⟨⟩
                omega
              simpa [Instr.encode] using hc
            · simp at h
          · simp at h
        · simp at h
    · simp at h
  · simp at h

theorem parseOutput_ok {toks : List Tok} {stop pos n : Nat} {N : Names}
    {info : List (Nat × Nat)} {ex dd : Nat} (hn : n < N.outputs.length) {r : List Int × Nat}
    (h : parseOutput toks stop pos n = ok r) : CodeOK (envOf toks N info) ex dd r.1 := by
  have key : ∀ c : Int, 19 ≤ c → c ≤ 23 → (c = 23 → Tok.rewind ∈ toks) →
      CodeOK (envOf toks N info) ex dd [c, (n : Int)] := by
    intro c h1 h2 h3
    refine CodeOK.one (i := .arg c n) ?_
    simp only [Instr.OK, envOf]
    exact .inr (.inr (.inr (.inr (.inr ⟨h1, h2, by omega, by omega, h3⟩))))
  unfold parseOutput at h
  split at h
  · split at h
    · split at h
      · cases h; exact key _ (by omega) (by omega) (by omega)
      · simp at h
    · split at h
      · cases h; exact key _ (by omega) (by omega) (by omega)
      · simp at h
    · cases h; exact key _ (by omega) (by omega) (by omega)
    · cases h; exact key _ (by omega) (by omega) (by omega)
    · rename_i htok
      cases h; exact key _ (by omega) (by omega) (fun _ => List.mem_of_getElem? htok)
    · simp at h
  · simp at h

/-- What the compiler guarantees: the tables stay consistent, and the code is well-formed. -/
def ParseOK (toks : List Tok) (N : Names) (info : List (Nat × Nat)) (ex dd : Nat)
    (r : List Int × Names) : Prop :=
  ∃ info', Later N r.2 info info' ∧ NamesOK toks r.2 info' ∧ CodeOK (envOf toks r.2 info') ex dd r.1

/-- A body is a new segment. -/
theorem body_ok {toks : List Tok} {N : Names} {info : List (Nat × Nat)} {ex dd : Nat}
    (hN : NamesOK toks N info) {x : R (List Int × Names)}
    (hx : ∀ info₁ r, NamesOK toks { N with dict := N.dict ++ [[]] } info₁ → x = ok r →
      ParseOK toks { N with dict := N.dict ++ [[]] } info₁ ex dd r) {b : Int × Names}
    (h : (x >>= fun r => ok ((N.dict.length : Int) + 66,
      ({ r.2 with dict := r.2.dict.set N.dict.length r.1 } : Names))) = ok b) :
    ∃ info', Later N b.2 info info' ∧ NamesOK toks b.2 info' ∧
      ∃ k : Nat, b.1 = (k : Int) + 66 ∧ info'[k]? = some (ex, dd) := by
  rw [bind_eq_ok] at h
  obtain ⟨r, hr, h⟩ := h
  obtain ⟨info', h1, h2, h3⟩ := hx _ r (hN.alloc (ex, dd)) hr
  cases h
  have hk : info'[N.dict.length]? = some (ex, dd) :=
    prefix_getElem? h1.info (by rw [hN.len]; simp)
  refine ⟨info', ?_, h2.fill hk h3, N.dict.length, rfl, hk⟩
  exact ⟨h1.vars, h1.inputs, h1.outs, (List.prefix_append _ _).trans h1.info⟩

theorem parse_ok {toks : List Tok} (fuel : Nat) : ∀ (defn : Option Nat) (ex dd pos stop : Nat)
    (code : List Int) (N : Names) (info : List (Nat × Nat)) (r : List Int × Names),
    NamesOK toks N info → CodeOK (envOf toks N info) ex dd code →
    parse toks fuel defn ex dd pos stop code N = ok r → ParseOK toks N info ex dd r := by
  induction fuel with
  | zero => intro _ _ _ _ _ _ _ _ _ _ _ h; simp [parse] at h
  | succ fuel ih =>
    intro defn ex dd pos stop code N info r hN hc h
    -- go on after an instruction
    have step : ∀ (N' : Names) (info' : List (Nat × Nat)) (p : Nat) (c : List Int),
        Later N N' info info' → NamesOK toks N' info' → CodeOK (envOf toks N' info') ex dd c →
        parse toks fuel defn ex dd p stop (code ++ c) N' = ok r → ParseOK toks N info ex dd r := by
      intro N' info' p c hl hN' hc' h
      obtain ⟨info'', h1, h2, h3⟩ := ih _ _ _ _ _ _ _ _ _ hN' ((hc.mono hl.env).append hc') h
      exact ⟨info'', hl.trans h1, h2, h3⟩
    have step' : ∀ (p : Nat) (i : Instr), i.OK (envOf toks N info) ex dd →
        parse toks fuel defn ex dd p stop (code ++ i.encode) N = ok r →
        ParseOK toks N info ex dd r :=
      fun p i hi h => step N info p _ Later.refl hN (CodeOK.one hi) h
    have stepn : ∀ (p : Nat), parse toks fuel defn ex dd p stop code N = ok r →
        ParseOK toks N info ex dd r :=
      fun p h => step N info p [] Later.refl hN CodeOK.nil (by simpa using h)
    have hbody : ∀ (defn' : Option Nat) (ex' dd' a b : Nat) (N' : Names)
        (info' : List (Nat × Nat)) (y : Int × Names), NamesOK toks N' info' →
        (parse toks fuel defn' ex' dd' a b [] { N' with dict := N'.dict ++ [[]] } >>= fun r =>
          ok ((N'.dict.length : Int) + 66,
            ({ r.2 with dict := r.2.dict.set N'.dict.length r.1 } : Names))) = ok y →
        ∃ info'', Later N' y.2 info' info'' ∧ NamesOK toks y.2 info'' ∧
          ∃ k : Nat, y.1 = (k : Int) + 66 ∧ info''[k]? = some (ex', dd') := by
      intro defn' ex' dd' a b N' info' y hN' h
      exact body_ok hN' (fun info₁ r' hN₁ hr' => ih _ _ _ _ _ _ _ _ _ hN₁ CodeOK.nil hr') h
    unfold parse at h
    simp only at h
    split at h
    swap
    · cases h; exact ⟨info, Later.refl, hN, hc⟩
    · split at h
      · -- (
        rw [bind_eq_ok] at h
        obtain ⟨p, _, h⟩ := h
        exact stepn _ h
      · exact stepn _ h
      · exact stepn _ (by simpa using h)
      · exact stepn _ (by simpa using h)
      · -- :
        split at h
        · simp at h
        · rw [bind_eq_ok] at h
          obtain ⟨k, _, h⟩ := h
          rw [bind_eq_ok] at h
          obtain ⟨p, _, h⟩ := h
          rw [bind_eq_ok] at h
          obtain ⟨y, hy, h⟩ := h
          rw [bind_eq_ok] at hy
          obtain ⟨y', hy', hy⟩ := hy
          have hA := hN.alloc (0, 0)
          have hk0 : (info ++ [(0, 0)])[N.dict.length]? = some (0, 0) := by rw [hN.len]; simp
          have hB : NamesOK toks ⟨N.vars, N.inputs, N.outputs, N.strings,
              N.words ++ [(k, (N.dict.length : Int) + 66)], N.dict ++ [[]]⟩ (info ++ [(0, 0)]) := by
            refine ⟨hA.len, hA.segs, ?_⟩
            intro w hw
            rcases List.mem_append.mp hw with hw | hw
            · exact hA.words w hw
            · simp at hw
              subst hw
              exact ⟨N.dict.length, rfl, hk0⟩
          obtain ⟨info', l1, n1, c1⟩ := ih _ _ _ _ _ _ _ _ _ hB CodeOK.nil hy'
          cases hy
          refine step _ info' (p + 1) [] ?_ (n1.fill (prefix_getElem? l1.info hk0) c1) CodeOK.nil
            (by simpa using h)
          exact ⟨l1.vars, l1.inputs, l1.outs, (List.prefix_append _ _).trans l1.info⟩
      · -- recurse
        split at h
        · simp at h
        · exact step N info _ _ Later.refl hN (CodeOK.words hN _ (fun w hw =>
            (List.mem_filter.mp hw).1)) h
      · split at h
        · simp at h
        · rw [bind_eq_ok] at h
          obtain ⟨k, _, h⟩ := h
          have hl : Later N { N with vars := N.vars ++ [k] } info info :=
            ⟨by simp, le_refl _, le_refl _, List.prefix_refl _⟩
          exact step _ _ _ _ hl (hN.declare hl rfl rfl) CodeOK.nil h
      · split at h
        · simp at h
        · rw [bind_eq_ok] at h
          obtain ⟨k, _, h⟩ := h
          have hl : Later N { N with inputs := N.inputs ++ [k] } info info :=
            ⟨le_refl _, by simp, le_refl _, List.prefix_refl _⟩
          exact step _ _ _ _ hl (hN.declare hl rfl rfl) CodeOK.nil h
      · split at h
        · simp at h
        · rw [bind_eq_ok] at h
          obtain ⟨k, _, h⟩ := h
          split at h
          · rename_i t _
            have hl : Later N { N with outputs := N.outputs ++ [(k, t)] } info info :=
              ⟨le_refl _, le_refl _, by simp, List.prefix_refl _⟩
            exact step _ _ _ _ hl (hN.declare hl rfl rfl) CodeOK.nil h
          · simp at h
      · exact step' _ (.plain 1) (by simp [Instr.OK]) h
      · exact step' _ (.plain 2) (by simp [Instr.OK]) h
      · -- if
        rw [bind_eq_ok] at h
        obtain ⟨p, _, h⟩ := h
        split at h
        · rw [bind_eq_ok] at h
          obtain ⟨y, hy, h⟩ := h
          obtain ⟨info₁, l1, n1, k, e1, i1⟩ := hbody _ _ _ _ _ _ _ _ hN hy
          refine step _ _ (p.1 + 1) _ l1 n1 (CodeOK.one (i := .ifThen k) i1) ?_
          simpa [Instr.encode, e1] using h
        · rw [bind_eq_ok] at h
          obtain ⟨y, hy, h⟩ := h
          rw [bind_eq_ok] at h
          obtain ⟨z, hz, h⟩ := h
          obtain ⟨info₁, l1, n1, k, e1, i1⟩ := hbody _ _ _ _ _ _ _ _ hN hy
          obtain ⟨info₂, l2, n2, k', e2, i2⟩ := hbody _ _ _ _ _ _ _ _ n1 hz
          refine step _ _ (p.1 + 1) _ (l1.trans l2) n2 (CodeOK.one (i := .ifElse k k')
            ⟨prefix_getElem? l2.info i1, i2⟩) ?_
          simpa [Instr.encode, e1, e2] using h
      · -- do
        rename_i htok
        rw [bind_eq_ok] at h
        obtain ⟨p, _, h⟩ := h
        rw [bind_eq_ok] at h
        obtain ⟨y, hy, h⟩ := h
        obtain ⟨info₁, l1, n1, k, e1, i1⟩ := hbody _ _ _ _ _ _ _ _ hN hy
        refine step _ _ (p.1 + 1) _ l1 n1 (CodeOK.one (i := .doLoop p.2 k)
          ⟨List.mem_of_getElem? htok, i1⟩) ?_
        simpa [Instr.encode, e1] using h
      · -- begin
        rw [bind_eq_ok] at h
        obtain ⟨p, _, h⟩ := h
        split at h
        · rw [bind_eq_ok] at h
          obtain ⟨y, hy, h⟩ := h
          obtain ⟨info₁, l1, n1, k, e1, i1⟩ := hbody _ _ _ _ _ _ _ _ hN hy
          refine step _ _ (p.1 + 1) _ l1 n1 (CodeOK.one (i := .again k) i1) ?_
          simpa [Instr.encode, e1] using h
        · rw [bind_eq_ok] at h
          obtain ⟨y, hy, h⟩ := h
          obtain ⟨info₁, l1, n1, k, e1, i1⟩ := hbody _ _ _ _ _ _ _ _ hN hy
          refine step _ _ (p.1 + 1) _ l1 n1 (CodeOK.one (i := .until_ k) i1) ?_
          simpa [Instr.encode, e1] using h
        · rw [bind_eq_ok] at h
          obtain ⟨y, hy, h⟩ := h
          rw [bind_eq_ok] at h
          obtain ⟨z, hz, h⟩ := h
          obtain ⟨info₁, l1, n1, k, e1, i1⟩ := hbody _ _ _ _ _ _ _ _ hN hy
          obtain ⟨info₂, l2, n2, k', e2, i2⟩ := hbody _ _ _ _ _ _ _ _ n1 hz
          refine step _ _ (p.1 + 1) _ (l1.trans l2) n2 (CodeOK.one (i := .while_ k k')
            ⟨prefix_getElem? l2.info i1, i2⟩) ?_
          simpa [Instr.encode, e1, e2] using h
      · -- exit
        rename_i htok
        exact step' _ (.exit ex) ⟨List.mem_of_getElem? htok, rfl⟩ h
      · split at h
        · simp at h
        · have hl : Later N { N with strings := N.strings + 1 } info info :=
            ⟨le_refl _, le_refl _, le_refl _, List.prefix_refl _⟩
          exact step _ _ _ _ hl (hN.declare hl rfl rfl)
            (CodeOK.one (i := .arg 24 N.strings) (by simp [Instr.OK])) h
      · split at h
        · simp at h
        · have hl : Later N { N with strings := N.strings + 1 } info info :=
            ⟨le_refl _, le_refl _, le_refl _, List.prefix_refl _⟩
          exact step _ _ _ _ hl (hN.declare hl rfl rfl)
            (CodeOK.one (i := .arg 25 N.strings) (by simp [Instr.OK])) h
      · -- builtin
        split at h
        · simp at h
        · split at h
          · refine step' _ (.plain _) ?_ h
            simp only [Instr.OK]
            omega
          · simp at h
      · exact step' _ (.arg 0 _) (by simp [Instr.OK]) h
      · -- name
        split at h
        · rename_i n hn
          rw [bind_eq_ok] at h
          obtain ⟨c, hc', h⟩ := h
          exact step _ _ _ _ Later.refl hN (parseVariable_ok (idxOf?_lt hn) hc') h
        · split at h
          · rename_i n hn
            rw [bind_eq_ok] at h
            obtain ⟨c, hc', h⟩ := h
            exact step _ _ _ _ Later.refl hN (parseInput_ok (idxOf?_lt hn) hc') h
          · split at h
            · rename_i n hn
              rw [bind_eq_ok] at h
              obtain ⟨c, hc', h⟩ := h
              exact step _ _ _ _ Later.refl hN
                (parseOutput_ok (by simpa using idxOf?_lt hn) hc') h
            · split at h
              · rename_i w hw
                obtain ⟨k, e1, i1⟩ := hN.words w (List.mem_of_find?_eq_some hw)
                refine step' (pos + 1) (.word k) i1 ?_
                simpa [Instr.encode, e1] using h
              · simp at h
      · simp at h

/-- What the compiler makes is well-formed, with segment 0 the main program. -/
theorem compile_ok {toks : List Tok} {N : Names} (h : compile toks = ok N) :
    ∃ info, NamesOK toks N info ∧ info[0]? = some (0, 0) := by
  unfold compile at h
  rw [bind_eq_ok] at h
  obtain ⟨r, hr, h⟩ := h
  have h0 : NamesOK toks ⟨[], [], [], 0, [], [[]]⟩ [(0, 0)] := by
    refine ⟨rfl, ?_, by simp⟩
    intro k c ex dd hk hi
    cases k with
    | zero => simp at hk; subst hk; exact CodeOK.nil
    | succ k => simp at hk
  obtain ⟨info, h1, h2, h3⟩ := parse_ok _ _ _ _ _ _ _ _ _ _ h0 CodeOK.nil hr
  have hk : info[0]? = some (0, 0) := prefix_getElem? h1.info (by simp)
  cases h
  exact ⟨info, h2.fill hk h3, hk⟩

end Awk.Forth
