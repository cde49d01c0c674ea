import Verif.Model.Forth
/-
Specification of AwkwardForth: what output buffers contain and what a user observes of a run.
-/

namespace Awk.Forth.Spec
open Awk.Forth

/-- What a use of an output buffer does to the list of values in it, and the error it raises:
writing appends, `dup` appends the last value `n` more times, `rewind` removes the last `n` values,
`+<-` appends the sum of the last value (or zero) and the given one. -/
def outApply {α : Type} (zero : α) (add : α → α → α) : OutOp α → List α → List α × Err
  | .writeOne x, l => (l ++ [x], .none)
  | .writeMany xs, l => (l ++ xs, .none)
  | .writeAdd x, l => (l ++ [add (l.getLast?.getD zero) x], .none)
  | .dup n, l =>
    match l.getLast? with
    | none => (l, .rewindBeyond)
    | some v => (l ++ List.replicate n.toNat v, .none)
  | .rewind n, l =>
    if l.length < n then (l, .rewindBeyond) else (l.take (l.length - n.toNat), .none)

/-- The next instruction does not ask for something absurd: a repeated read (`#`) has a count that
is not negative and below `2^58`, and a rewind is not negative. -/
def Polite {α : Type} (m : Machine α) (s : State α) : Prop :=
  ∀ c, fetch m s = .ok c →
    (c < 0 → (-c - 1).toNat / 2 % 2 = 1 → ∀ x r, s.data.stack = x :: r → 0 ≤ x ∧ x < 2 ^ 58) ∧
    (c = 23 → ∀ x r, s.data.stack = x :: r → 0 ≤ x)

/-- The states that `internal_run` goes through. -/
inductive Visits {α : Type} (m : Machine α) (single : Bool) (target : Int) :
    State α → State α → Prop where
  | here (s : State α) : Visits m single target s s
  | round {s s' s'' : State α} : round m single target s = .ok (s', false) →
      Visits m single target s' s'' → Visits m single target s s''

/-- The state in which a request starts to execute the program. -/
def starts {α : Type} (s : State α) : Request → State α
  | .step => s
  | .resume => s
  | .call w => { s with frames := ⟨w, 0⟩ :: s.frames, targets := s.depth :: s.targets }

/-- No state that this request goes through asks for something absurd. -/
def PoliteRun {α : Type} (m : Machine α) (s : State α) (r : Request) : Prop :=
  ∀ t ts s', (starts s r).targets = t :: ts →
    Visits m (r == .step) t (starts s r) s' → s'.depth ≠ t → Polite m s'

/-- A request that the machine can take: a word is called by a name that exists, and there is room
for one more call. -/
def Allowed {α : Type} (m : Machine α) (words : List (Nat × Int)) (s : State α) : Request → Prop
  | .call w => (∃ name, (name, w + 66) ∈ words) ∧ s.frames.length < m.recMax
  | _ => True

/-- The states between requests: after `begin`, any number of allowed requests. -/
inductive Reachable {α : Type} (m : Machine α) (words : List (Nat × Int)) : State α → Prop where
  | begin {inputs : List InBuf} {s s' : State α} :
      (∀ b ∈ inputs, b.pos = 0 ∧ b.data.length < 2 ^ 62) → s.data.vars.length = m.numVars →
      begin m inputs s = .ok s' → Reachable m words s'
  | request {s s' : State α} {r : Request} {fuel : Nat} : Reachable m words s →
      Allowed m words s r → PoliteRun m s r → r.run m fuel s = .ok (some s') →
      Reachable m words s'

/-- Several requests, one after the other. -/
def requests {α : Type} (m : Machine α) (fuel : Nat) : List Request → State α → R (Option (State α))
  | [], s => .ok (some s)
  | r :: rs, s => r.run m fuel s >>= fun x =>
      match x with
      | some s => requests m fuel rs s
      | none => .ok none

/-- `q` and `r` are quotient and remainder of `a` divided by `b`, rounding down: the remainder has
the sign of the divisor. -/
def FloorDiv (a b q r : Int) : Prop :=
  a = b * q + r ∧ (0 < b → 0 ≤ r ∧ r < b) ∧ (b < 0 → b < r ∧ r ≤ 0)

/-- The number that these bytes stand for, least significant byte first, in two's complement if it is
signed. -/
def number (signed : Bool) (bs : List Nat) : Int :=
  let n : Nat := (bs.zipIdx.map fun (b, i) => b * 256 ^ i).sum
  if signed ∧ 256 ^ bs.length ≤ 2 * n then (n : Int) - 256 ^ bs.length else n

/-- Formats whose numbers fit in 32 bits with a sign: `b`, `h`, `i`, `B`, `H` (by their codes,
ForthMachine.cpp:21-33), whether they are signed and how many bytes they have. -/
def smallFormats : List (Nat × Bool × Nat) :=
  [(2, true, 1), (3, true, 2), (4, true, 4), (7, false, 1), (8, false, 2)]

/-- The item of this size at a position of the input, in the given byte order. -/
def itemAt (big : Bool) (signed : Bool) (size : Nat) (data : List Nat) (pos : Nat) : Int :=
  let bs := (data.drop pos).take size
  number signed (if big then bs.reverse else bs)

/-- The items of an output buffer and the errors after several uses. -/
def outApplyAll {α : Type} (zero : α) (add : α → α → α) (ops : List (OutOp α)) (l : List α) :
    List α × List Err :=
  match ops with
  | [] => (l, [])
  | op :: ops =>
    let r := outApply zero add op l
    let r' := outApplyAll zero add ops r.1
    (r'.1, r.2 :: r'.2)

/-- The program has come to its end or to an error. -/
def finished {α : Type} (s : State α) : Prop := s.done = true ∨ s.err ≠ .none

instance {α : Type} (s : State α) : Decidable (finished s) := by unfold finished; infer_instance

/-- A schedule: `true` is a step, `false` is a resume. Nothing more is asked for when the program has
finished. -/
def perform {α : Type} (m : Machine α) (fuel : Nat) : List Bool → State α → R (Option (State α))
  | [], s => .ok (some s)
  | b :: bs, s =>
    if finished s then .ok (some s)
    else stepOrResume m b fuel s >>= fun r =>
      match r with
      | some s => perform m fuel bs s
      | none => .ok none

end Awk.Forth.Spec
