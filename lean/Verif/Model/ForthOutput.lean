import Mathlib.Data.Rat.Floor
import Verif.Basic
/-
Model of `ForthOutputBufferOf<OUT>` (src/libawkward/forth/ForthOutputBuffer.cpp).

`α` stands for the values of the C++ type `OUT`. A cell is `none` before the first write; reading it
then is undefined. `reservation * resize_` is exact here (a product of floating point numbers in the
code). Not modelled: that `toNumpyArray` shares the block with the buffer.
-/

namespace Awk.Forth
open Awk.R

/-- include/awkward/util.h:219-236 `ForthError`. -/
inductive Err where
  | none | notReady | isDone | userHalt | recursionDepthExceeded | stackUnderflow | stackOverflow
  | readBeyond | seekBeyond | skipBeyond | rewindBeyond | divisionByZero | varintTooBig
deriving Repr, DecidableEq

/-- ForthOutputBuffer.h: `ptr_` (its `reserved_` cells) and `length_`. -/
structure OutBuf (α : Type) where
  cells : List (Option α)
  length : Int
deriving Repr, DecidableEq

namespace OutBuf
variable {α : Type}

/-- ForthOutputBuffer.cpp:54-57, 80-83: the constructor. A negative size is not allowed. -/
def new (initial : Int) : R (OutBuf α) :=
  if initial < 0 then ub else ok ⟨List.replicate initial.toNat none, 0⟩

/-- ForthOutputBuffer.cpp:710-713: the loop that computes the new reservation. Every round makes the
reservation grow or none does, so `next - reserved_` rounds are enough unless the loop never ends. -/
def reservation (resize : Rat) (next : Int) : Nat → Int → R Int
  | 0, r => if next > r then ub else ok r
  | n + 1, r => if next > r then reservation resize next n ⌈(r : Rat) * resize⌉ else ok r

/-- ForthOutputBuffer.cpp:706-721 `maybe_resize`. -/
def maybeResize (resize : Rat) (next : Int) (b : OutBuf α) : R (OutBuf α) :=
  if next > b.cells.length then
    reservation resize next (next - b.cells.length).toNat b.cells.length >>= fun r =>
    if r < b.cells.length then ub
    else ok { b with cells := b.cells ++ List.replicate (r.toNat - b.cells.length) none }
  else ok b

/-- `ptr_.get()[i]`. -/
def load (b : OutBuf α) (i : Int) : R α :=
  rd b.cells i >>= fun x => match x with
    | some x => ok x
    | none => ub

/-- `ptr_.get()[i] = x`. -/
def store (b : OutBuf α) (i : Int) (x : α) : R (OutBuf α) :=
  wr b.cells i (some x) >>= fun cells => ok { b with cells := cells }

/-- ForthOutputBuffer.cpp:67-75 `rewind`. -/
def rewind (n : Int) (b : OutBuf α) : OutBuf α × Err :=
  let next := b.length - n
  if next < 0 then (b, .rewindBeyond) else ({ b with length := next }, .none)

/-- ForthOutputBuffer.cpp:91-105 `dup`. -/
def dup (resize : Rat) (n : Int) (b : OutBuf α) : R (OutBuf α × Err) :=
  if b.length = 0 then ok (b, .rewindBeyond)
  else if n > 0 then
    maybeResize resize (b.length + n) b >>= fun b =>
    load b (b.length - 1) >>= fun value =>
    forN n.toNat (fun i c => store c (b.length + i) value) b >>= fun c =>
    ok ({ c with length := b.length + n }, .none)
  else ok (b, .none)

/-- ForthOutputBuffer.h:306-311 `write_one`. -/
def writeOne (resize : Rat) (x : α) (b : OutBuf α) : R (OutBuf α) :=
  maybeResize resize (b.length + 1) { b with length := b.length + 1 } >>= fun b =>
  store b (b.length - 1) x

/-- ForthOutputBuffer.h:314-322 `write_copy`, and the specialisations with `memcpy`
(ForthOutputBuffer.cpp:536-682). -/
def writeMany (resize : Rat) (xs : List α) (b : OutBuf α) : R (OutBuf α) :=
  maybeResize resize (b.length + xs.length) b >>= fun b =>
  forN xs.length (fun i c => rd xs i >>= store c (b.length + i)) b >>= fun c =>
  ok { c with length := b.length + xs.length }

/-- ForthOutputBuffer.cpp:684-704 `write_add_int32`, `write_add_int64`. -/
def writeAdd (resize : Rat) (zero : α) (add : α → α → α) (x : α) (b : OutBuf α) : R (OutBuf α) :=
  (if b.length ≠ 0 then load b (b.length - 1) else ok zero) >>= fun previous =>
  maybeResize resize (b.length + 1) { b with length := b.length + 1 } >>= fun b =>
  store b (b.length - 1) (add previous x)

/-- ForthOutputBuffer.cpp:107-157 `toNumpyArray`: the first `length_` cells. -/
def toList (b : OutBuf α) : R (List α) := mapN b.length.toNat (fun i => load b i)

end OutBuf

/-- A use of an output buffer. -/
inductive OutOp (α : Type) where
  | writeOne (x : α)
  | writeMany (xs : List α)
  | writeAdd (x : α)
  | dup (n : Int)
  | rewind (n : Int)
deriving Repr

/-- One call on an output buffer, with the error it sets. -/
def OutOp.run {α : Type} (resize : Rat) (zero : α) (add : α → α → α) :
    OutOp α → OutBuf α → R (OutBuf α × Err)
  | .writeOne x, b => b.writeOne resize x >>= fun b => ok (b, .none)
  | .writeMany xs, b => b.writeMany resize xs >>= fun b => ok (b, .none)
  | .writeAdd x, b => b.writeAdd resize zero add x >>= fun b => ok (b, .none)
  | .dup n, b => b.dup resize n
  | .rewind n, b => ok (b.rewind n)

/-- Several calls on an output buffer, with the errors they set. -/
def OutOp.runAll {α : Type} (resize : Rat) (zero : α) (add : α → α → α) :
    List (OutOp α) → OutBuf α → R (OutBuf α × List Err)
  | [], b => ok (b, [])
  | op :: ops, b => op.run resize zero add b >>= fun r =>
    OutOp.runAll resize zero add ops r.1 >>= fun r' => ok (r'.1, r.2 :: r'.2)

end Awk.Forth
