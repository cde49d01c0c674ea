import Verif.Model.ForthOutput
import Verif.Model.Content
/-
Model of the AwkwardForth virtual machine (src/libawkward/forth/ForthMachine.cpp,
src/libawkward/forth/ForthInputBuffer.cpp, include/awkward/forth/ForthMachine.h).

Simplifications:
* The stacks (`stack_buffer_`, `current_which_`/`current_where_`, `do_*_`, `recursion_target_depth_`)
  are lists with the top first. Accessing an entry that does not exist is undefined, and so is
  pushing a frame beyond `recursion_max_depth_`.
* `bytecodes_`/`bytecodes_offsets_` are a list of segments. Fetching outside the current segment is
  undefined (the code would read a part of another segment or beyond the vector).
* Signed integers wrap (two's complement). Shift counts are taken modulo the width. The quotient
  `INT_MIN / -1` is the outcome `err "trap"` (SIGFPE).
* Printing and the counters `count_*_` are left out.
* How a value is converted to the type of an output buffer, and floating point numbers, are
  parameters of the machine (`Conv`).
* Two names are never bound to the same input buffer.
-/

namespace Awk.Forth
open Awk.R

variable {α : Type}

/-- Two's complement of the given width. -/
def wrap (bits : Nat) (x : Int) : Int := x.bmod (2 ^ bits)

/-- Conversions to the type of an output buffer, `(OUT)value`, and from floating point numbers
(given by their bytes, least significant first). -/
structure Conv (α : Type) where
  ofInt : DType → Int → α
  ofFloat : DType → List Nat → α
  add : DType → α → α → α
  floatToInt : List Nat → Int

/-- ForthInputBuffer.h: the bytes and `pos_`. -/
structure InBuf where
  data : List Nat
  pos : Int
deriving Repr, DecidableEq

namespace InBuf

/-- ForthInputBuffer.cpp:16-28 `read`: the position of the bytes that were asked for. -/
def read (n : Int) (b : InBuf) : InBuf × Err × Int :=
  let next := wrap 64 (b.pos + n)
  if next > b.data.length then (b, .readBeyond, 0) else ({ b with pos := next }, .none, b.pos)

/-- ForthInputBuffer.cpp:30-38 `seek`. -/
def seek (to_ : Int) (b : InBuf) : InBuf × Err :=
  if to_ < 0 ∨ to_ > b.data.length then (b, .seekBeyond) else ({ b with pos := to_ }, .none)

/-- ForthInputBuffer.cpp:40-49 `skip`. -/
def skip (n : Int) (b : InBuf) : InBuf × Err :=
  let next := wrap 64 (b.pos + n)
  if next < 0 ∨ next > b.data.length then (b, .skipBeyond) else ({ b with pos := next }, .none)

/-- The `n` bytes at a position. -/
def bytes (b : InBuf) (start : Int) (n : Nat) : R (List Nat) :=
  mapN n (fun i => rd b.data (start + i))

end InBuf

/-- The compiled program and the sizes given to the constructor (ForthMachine.cpp:217-255). -/
structure Machine (α : Type) where
  /-- 32 for `ForthMachine32`, 64 for `ForthMachine64`: the width of a stack item. -/
  bits : Nat
  stackMax : Nat
  recMax : Nat
  initial : Int
  resize : Rat
  numVars : Nat
  numInputs : Nat
  outTypes : List DType
  segments : List (List Int)
  conv : Conv α

/-- What a user can observe: the stack (top first), variables, inputs and outputs. -/
structure Data (α : Type) where
  stack : List Int
  vars : List Int
  inputs : List InBuf
  outputs : List (OutBuf α)
deriving DecidableEq

/-- An entry of `current_which_`, `current_where_`. -/
structure Frame where
  which : Int
  pos : Int
deriving Repr, DecidableEq

/-- An entry of `do_recursion_depth_` (its absolute value and its sign), `do_stop_`, `do_i_`. -/
structure Loop where
  depth : Int
  isStep : Bool
  stop : Int
  i : Int
deriving Repr, DecidableEq

/-- The members of `ForthMachineOf` that change. -/
structure State (α : Type) where
  data : Data α
  frames : List Frame
  loops : List Loop
  targets : List Int
  ready : Bool
  err : Err
deriving DecidableEq

/-- `recursion_current_depth_`. -/
def State.depth (s : State α) : Int := s.frames.length

/-! ### Operations on the data

Their outcome is the new data and the error that they set (`none` if there is none). -/

namespace Data

/-- Continue without an error. -/
def fine (d : Data α) : R (Data α × Err) := ok (d, .none)

/-- Stop with an error. -/
def fail (d : Data α) (e : Err) : R (Data α × Err) := ok (d, e)

/-- `stack_cannot_push`, `stack_push` (ForthMachine.h:390-394, :420-424). -/
def push (m : Machine α) (x : Int) (d : Data α) : R (Data α × Err) :=
  if d.stack.length = m.stackMax then d.fail .stackOverflow
  else fine { d with stack := x :: d.stack }

/-- `stack_cannot_pop`, `stack_pop`. -/
def pop1 (d : Data α) (k : Int → Data α → R (Data α × Err)) : R (Data α × Err) :=
  match d.stack with
  | x :: r => k x { d with stack := r }
  | [] => d.fail .stackUnderflow

/-- `stack_cannot_pop2`, `stack_pop2`: `k` gets the second item, the top item and the rest. -/
def pop2 (d : Data α) (k : Int → Int → List Int → R (Data α × Err)) : R (Data α × Err) :=
  match d.stack with
  | y :: x :: r => k x y r
  | _ => d.fail .stackUnderflow

/-- An operation on the top item. -/
def op1 (m : Machine α) (f : Int → Int) (d : Data α) : R (Data α × Err) :=
  d.pop1 fun x d => fine { d with stack := wrap m.bits (f x) :: d.stack }

/-- An operation on two items. -/
def op2 (m : Machine α) (f : Int → Int → Int) (d : Data α) : R (Data α × Err) :=
  d.pop2 fun x y r => fine { d with stack := wrap m.bits (f x y) :: r }

/-- Use an input buffer. -/
def onInput (d : Data α) (n : Int) (f : InBuf → InBuf × Err) : R (Data α × Err) :=
  rd d.inputs n >>= fun b =>
  ok ({ d with inputs := d.inputs.set n.toNat (f b).1 }, (f b).2)

/-- Use an output buffer. -/
def onOutput (d : Data α) (n : Int) (f : OutBuf α → R (OutBuf α × Err)) : R (Data α × Err) :=
  rd d.outputs n >>= fun b => f b >>= fun r =>
  ok ({ d with outputs := d.outputs.set n.toNat r.1 }, r.2)

end Data

open Data

/-- ForthMachine.cpp:3548-3551, 3581-3583: the quotient. -/
def quotient (m : Machine α) (a b : Int) : R Int :=
  if a = -2 ^ (m.bits - 1) ∧ b = -1 then .err "trap"
  else
    let tmp := a.tdiv b
    ok (if wrap m.bits (tmp * b) = a then tmp
        else wrap m.bits (tmp - if (a < 0) ≠ (b < 0) then 1 else 0))

/-- ForthMachine.cpp:3567, 3584-3585: the remainder. -/
def remainder (m : Machine α) (a b : Int) : R Int :=
  if a = -2 ^ (m.bits - 1) ∧ b = -1 then .err "trap"
  else ok ((wrap m.bits (b + a.tmod b)).tmod b)

/-- `x ? -1 : 0`. -/
def truth (p : Prop) [Decidable p] : Int := if p then -1 else 0

/-- ForthMachine.cpp:3351-3368, 3408-3783: instructions without an operand that only use the data
(`i`, `j`, `k` and the instructions of the control flow are in `exec`). -/
def plainOp (m : Machine α) (code : Int) (d : Data α) : R (Data α × Err) :=
  match code with
  | 26 => d.pop1 fun _ d => d.fine                                  -- CODE_PRINT
  | 27 => d.fine                                                    -- CODE_PRINT_CR
  | 28 => d.fine                                                    -- CODE_PRINT_STACK
  | 32 => match d.stack with                                        -- CODE_DUP
          | x :: _ => d.push m x
          | [] => d.fail .stackUnderflow
  | 33 => d.pop1 fun _ d => d.fine                                  -- CODE_DROP
  | 34 => d.pop2 fun x y r => fine { d with stack := x :: y :: r }  -- CODE_SWAP
  | 35 => d.pop2 fun x _ _ => d.push m x                            -- CODE_OVER
  | 36 => match d.stack with                                        -- CODE_ROT
          | z :: y :: x :: r => fine { d with stack := x :: z :: y :: r }
          | _ => d.fail .stackUnderflow
  | 37 => d.pop2 fun _ y r => fine { d with stack := y :: r }       -- CODE_NIP
  | 38 => d.pop2 fun x y r =>                                       -- CODE_TUCK
          if d.stack.length = m.stackMax then d.fail .stackOverflow
          else fine { d with stack := y :: x :: y :: r }
  | 39 => d.op2 m (· + ·)                                           -- CODE_ADD
  | 40 => d.op2 m (· - ·)                                           -- CODE_SUB
  | 41 => d.op2 m (· * ·)                                           -- CODE_MUL
  | 42 => d.pop2 fun x y r =>                                       -- CODE_DIV
          if y = 0 then { d with stack := x :: r }.fail .divisionByZero
          else quotient m x y >>= fun q => fine { d with stack := q :: r }
  | 43 => d.pop2 fun x y r =>                                       -- CODE_MOD
          if y = 0 then { d with stack := x :: r }.fail .divisionByZero
          else remainder m x y >>= fun q => fine { d with stack := q :: r }
  | 44 => d.pop2 fun x y r =>                                       -- CODE_DIVMOD
          if y = 0 then d.fail .divisionByZero
          else quotient m x y >>= fun q => remainder m x y >>= fun p =>
            fine { d with stack := q :: p :: r }
  | 45 => d.op1 m (fun x => -x)                                     -- CODE_NEGATE
  | 46 => d.op1 m (· + 1)                                           -- CODE_ADD1
  | 47 => d.op1 m (· - 1)                                           -- CODE_SUB1
  | 48 => d.op1 m (fun x => if x < 0 then -x else x)                -- CODE_ABS
  | 49 => d.op2 m (fun x y => if y < x then y else x)               -- CODE_MIN
  | 50 => d.op2 m (fun x y => if x < y then y else x)               -- CODE_MAX
  | 51 => d.op2 m (fun x y => truth (x = y))                        -- CODE_EQ
  | 52 => d.op2 m (fun x y => truth (x ≠ y))                        -- CODE_NE
  | 53 => d.op2 m (fun x y => truth (x > y))                        -- CODE_GT
  | 54 => d.op2 m (fun x y => truth (x ≥ y))                        -- CODE_GE
  | 55 => d.op2 m (fun x y => truth (x < y))                        -- CODE_LT
  | 56 => d.op2 m (fun x y => truth (x ≤ y))                        -- CODE_LE
  | 57 => d.op1 m (fun x => truth (x = 0))                          -- CODE_EQ0
  | 58 => d.op1 m (fun x => -x - 1)                                 -- CODE_INVERT
  | 59 => d.op2 m (fun x y => (BitVec.ofInt m.bits x &&& BitVec.ofInt m.bits y).toInt) -- CODE_AND
  | 60 => d.op2 m (fun x y => (BitVec.ofInt m.bits x ||| BitVec.ofInt m.bits y).toInt) -- CODE_OR
  | 61 => d.op2 m (fun x y => (BitVec.ofInt m.bits x ^^^ BitVec.ofInt m.bits y).toInt) -- CODE_XOR
  | 62 => d.op2 m (fun x y => x * 2 ^ (y.emod m.bits).toNat)        -- CODE_LSHIFT
  | 63 => d.op2 m (fun x y => x.fdiv (2 ^ (y.emod m.bits).toNat))   -- CODE_RSHIFT
  | 64 => d.push m 0                                                -- CODE_FALSE
  | 65 => d.push m (-1)                                             -- CODE_TRUE
  | _ => d.fine

/-- ForthMachine.cpp:2990-2999, 3177-3349: instructions with one operand. A number pushed on the
stack as `(I)value` keeps 32 bits. -/
def argOp (m : Machine α) (code n : Int) (d : Data α) : R (Data α × Err) :=
  match code with
  | 0 => d.push m n                                                 -- CODE_LITERAL
  | 11 => d.pop1 fun x d => wr d.vars n x >>= fun v => fine { d with vars := v }  -- CODE_PUT
  | 12 => d.pop1 fun x d => rd d.vars n >>= fun y =>                -- CODE_INC
          wr d.vars n (wrap m.bits (y + x)) >>= fun v => fine { d with vars := v }
  | 13 => if d.stack.length = m.stackMax then d.fail .stackOverflow -- CODE_GET
          else rd d.vars n >>= fun x => d.push m x
  | 14 => if d.stack.length = m.stackMax then d.fail .stackOverflow -- CODE_LEN_INPUT
          else rd d.inputs n >>= fun b => d.push m (wrap 32 b.data.length)
  | 15 => if d.stack.length = m.stackMax then d.fail .stackOverflow -- CODE_POS
          else rd d.inputs n >>= fun b => d.push m (wrap 32 b.pos)
  | 16 => if d.stack.length = m.stackMax then d.fail .stackOverflow -- CODE_END
          else rd d.inputs n >>= fun b => d.push m (truth (b.pos = b.data.length))
  | 17 => d.pop1 fun x d => d.onInput n (InBuf.seek x)              -- CODE_SEEK
  | 18 => d.pop1 fun x d => d.onInput n (InBuf.skip x)              -- CODE_SKIP
  | 19 => d.pop1 fun x d => d.onOutput n fun b =>                   -- CODE_WRITE
          rd m.outTypes n >>= fun t =>
          OutOp.run m.resize (m.conv.ofInt t 0) (m.conv.add t) (.writeOne (m.conv.ofInt t x)) b
  | 20 => d.pop1 fun x d => d.onOutput n fun b =>                   -- CODE_WRITE_ADD
          rd m.outTypes n >>= fun t =>
          OutOp.run m.resize (m.conv.ofInt t 0) (m.conv.add t) (.writeAdd (m.conv.ofInt t x)) b
  | 21 => d.pop1 fun x d => d.onOutput n (OutBuf.dup m.resize x)    -- CODE_WRITE_DUP
  | 22 => if d.stack.length = m.stackMax then d.fail .stackOverflow -- CODE_LEN_OUTPUT
          else rd d.outputs n >>= fun b => d.push m (wrap 32 b.length)
  | 23 => d.pop1 fun x d => d.onOutput n fun b => ok (b.rewind x)   -- CODE_REWIND
  | 24 => d.push m n                                                -- CODE_STRING
  | 25 => d.fine                                                    -- CODE_PRINT_STRING
  | _ => d.fine

/-- Repeat an operation until the count is reached or an error is set. -/
def repeatN (f : Nat → Data α → R (Data α × Err)) : Nat → Nat → Data α → R (Data α × Err)
  | _, 0, d => d.fine
  | i, n + 1, d => f i d >>= fun r => if r.2 = .none then repeatN f (i + 1) n r.1 else ok r

/-- A fixed-size format of the input (ForthMachine.cpp:21-33): its size in bytes. -/
inductive Kind where
  | bool | int | uint | float
deriving Repr, DecidableEq

/-- ForthMachine.cpp:21-33 (`intp` and `uintp` have 64 bits). -/
def formatOf : Nat → Option (Kind × Nat)
  | 1 => some (.bool, 1) | 2 => some (.int, 1) | 3 => some (.int, 2) | 4 => some (.int, 4)
  | 5 => some (.int, 8) | 6 => some (.int, 8) | 7 => some (.uint, 1) | 8 => some (.uint, 2)
  | 9 => some (.uint, 4) | 10 => some (.uint, 8) | 11 => some (.uint, 8) | 12 => some (.float, 4)
  | 13 => some (.float, 8)
  | _ => none

/-- The number in these bytes, least significant first. -/
def unsigned : List Nat → Nat
  | [] => 0
  | b :: bs => b + 256 * unsigned bs

/-- The value of an item, as an integer. -/
def decodeInt (k : Kind) (bs : List Nat) : Int :=
  match k with
  | .bool => if unsigned bs = 0 then 0 else 1
  | .int => wrap (8 * bs.length) (unsigned bs)
  | _ => unsigned bs

/-- `byteswap16`, `byteswap32`, `byteswap64` (ForthOutputBuffer.cpp:15-50). -/
def swapBytes (swap : Bool) (bs : List Nat) : List Nat := if swap then bs.reverse else bs

/-- ForthMachine.cpp:2884-2901, 2903-2925: what is pushed for an item. One-byte formats are pushed
as they are, all others as `(I)value`, which has 32 bits. -/
def stackValue (m : Machine α) (k : Kind) (bs : List Nat) : Int :=
  match k with
  | .float => m.conv.floatToInt bs
  | _ => if bs.length = 1 then decodeInt k bs else wrap 32 (decodeInt k bs)

/-- The value of an item converted to the type of the output (ForthOutputBuffer.cpp:236-366). -/
def outValue (m : Machine α) (t : DType) (k : Kind) (bs : List Nat) : α :=
  match k with
  | .float => m.conv.ofFloat t bs
  | _ => m.conv.ofInt t (decodeInt k bs)

/-- Where a parsed number goes: the stack or an output buffer. -/
def deliver (m : Machine α) (out : Option Int) (toStack toOut : Int) (d : Data α) : R (Data α × Err) :=
  match out with
  | none => d.push m toStack
  | some o => d.onOutput o fun b => rd m.outTypes o >>= fun t =>
      b.writeOne m.resize (m.conv.ofInt t toOut) >>= fun b => ok (b, .none)

/-- ForthMachine.cpp:2706-2718, 2747-2759: one variable-length number, at most 9 bytes of 7 bits.
The first argument counts the bytes that may still be read. -/
def varint (inNum : Int) : Nat → Nat → Nat → Data α → R (Data α × Err × Nat)
  | 0, _, _, d => rd d.inputs inNum >>= fun b =>
      let r := b.read 1
      let d := { d with inputs := d.inputs.set inNum.toNat r.1 }
      ok (d, if r.2.1 = .none then .varintTooBig else r.2.1, 0)
  | n + 1, shift, result, d => rd d.inputs inNum >>= fun b =>
      let r := b.read 1
      let d := { d with inputs := d.inputs.set inNum.toNat r.1 }
      if r.2.1 = .none then
        rd b.data r.2.2 >>= fun byte =>
        let result := result + (byte % 128) * 2 ^ shift
        if byte ≥ 128 then varint inNum n (shift + 7) result d else ok (d, .none, result)
      else ok (d, r.2.1, 0)

/-- ForthMachine.cpp:2762: `(result >> 1) ^ (-(result & 1))`. -/
def zigzag (result : Nat) : Int := if result % 2 = 0 then (result / 2 : Nat) else -((result / 2 : Nat) : Int) - 1

/-- ForthMachine.cpp:104-106, 2818: the bits of a byte in the opposite order. -/
def bitswap (b : Nat) : Nat :=
  ((List.range 8).map fun i => if b.testBit i then 2 ^ (7 - i) else 0).sum

/-- ForthMachine.cpp:2799: `(1 << bit_width) - 1` in 32-bit arithmetic. -/
def nbitMask (width : Nat) : Nat := (wrap 32 (wrap 32 (2 ^ (width % 32)) - 1)).toNat

/-- ForthMachine.cpp:2808-2822 and 2844-2853: one more byte of the input. -/
def nbitByte (inNum : Int) (flip : Bool) (d : Data α) : R (Data α × Err × Nat) :=
  rd d.inputs inNum >>= fun b =>
  let r := b.read 1
  let d := { d with inputs := d.inputs.set inNum.toNat r.1 }
  if r.2.1 = .none then
    rd b.data r.2.2 >>= fun byte => ok (d, .none, if flip then bitswap byte else byte)
  else ok (d, r.2.1, 0)

/-- ForthMachine.cpp:2823-2857: the loop over the items. Out of rounds is the outcome `ub`, but
`nbit` gives enough of them. -/
def nbitLoop (m : Machine α) (inNum : Int) (flip : Bool) (width : Nat) (out : Option Int) :
    Nat → Nat → Nat → Nat → Int → Data α → R (Data α × Err)
  | 0, _, _, _, _, _ => ub
  | fuel + 1, wl, wr, word, items, d =>
    if items = 0 then d.fine
    else if wr ≥ 8 then
      nbitLoop m inNum flip width out fuel (wl - 8) (wr - 8) (word / 256) items d
    else if wl - wr ≥ width then
      let x : Int := (word / 2 ^ wr) &&& nbitMask width
      deliver m out (wrap m.bits x) (wrap m.bits x) d >>= fun r =>
      if r.2 = .none then
        nbitLoop m inNum flip width out fuel wl (wr + width) word (items - 1) r.1
      else ok r
    else
      nbitByte inNum flip d >>= fun r =>
      if r.2.1 = .none then
        nbitLoop m inNum flip width out fuel (wl + 8) wr
          ((word ||| (r.2.2 * 2 ^ (wl % 64))) % 2 ^ 64) items r.1
      else ok (r.1, r.2.1)

/-- ForthMachine.cpp:2779-2858: fields of `width` bits. An item takes at least one bit and a byte is
read or dropped in one round, so 24 rounds for every byte that is left are enough. -/
def nbit (m : Machine α) (inNum : Int) (flip : Bool) (width : Nat) (out : Option Int)
    (items : Int) (d : Data α) : R (Data α × Err) :=
  if items = 0 then d.fine
  else rd d.inputs inNum >>= fun b => nbitByte inNum flip d >>= fun r =>
    if r.2.1 = .none then
      nbitLoop m inNum flip width out (24 * (b.data.length - b.pos + 1).toNat) 8 0 r.2.2 items r.1
    else ok (r.1, r.2.1)

/-- ForthMachine.cpp:2670-2973: read items from an input to the stack or to an output. -/
def readOp (m : Machine α) (format : Nat) (big : Bool) (num : Int) (width : Int) (inNum : Int)
    (out : Option Int) (d : Data α) : R (Data α × Err) :=
  if format = 14 then                                               -- READ_VARINT
    repeatN (fun _ d => varint inNum 9 0 0 d >>= fun r =>
      if r.2.1 = .none then deliver m out (wrap m.bits r.2.2) r.2.2 r.1 else ok (r.1, r.2.1))
      0 num.toNat d
  else if format = 15 then                                          -- READ_ZIGZAG
    repeatN (fun _ d => varint inNum 9 0 0 d >>= fun r =>
      if r.2.1 = .none then
        deliver m out (wrap m.bits (zigzag r.2.2)) (wrap m.bits (zigzag r.2.2)) r.1
      else ok (r.1, r.2.1)) 0 num.toNat d
  else if format = 16 then nbit m inNum big width.toNat out num d   -- READ_NBIT
  else match formatOf format with
    | none => d.fine
    | some (k, size) =>
      rd d.inputs inNum >>= fun b =>
      let r := b.read (wrap 64 (num * size))
      let d := { d with inputs := d.inputs.set inNum.toNat r.1 }
      if r.2.1 = .none then
        let start := r.2.2
        match out with
        | none => repeatN (fun i d => b.bytes (start + i * size) size >>= fun bs =>
            d.push m (stackValue m k (swapBytes big bs))) 0 num.toNat d
        | some o => d.onOutput o fun c => rd m.outTypes o >>= fun t =>
            -- a negative size is passed to `memcpy` or `write_copy`
            if num < 0 then ub
            else mapN num.toNat (fun i => b.bytes (start + i * size) size) >>= fun items =>
              let xs := items.map fun bs => outValue m t k (swapBytes big bs)
              (if num = 1 then mapN 1 (fun i => rd xs i) >>= fun ys =>
                  ys.foldl (fun c x => c >>= fun c => c.writeOne m.resize x) (ok c)
                else c.writeMany m.resize xs) >>= fun c => ok (c, .none)
      else ok (d, r.2.1)

/-! ### Control flow -/

/-- How an instruction ends: go on with the next instruction, return from `internal_run`, or go to
`after_end_of_segment`. -/
inductive Next (α : Type) where
  | next (s : State α)
  | stop (s : State α)
  | leave (s : State α)

/-- The segment of the top frame. -/
def segment (m : Machine α) (s : State α) : R (List Int) :=
  match s.frames with
  | f :: _ => rd m.segments f.which
  | [] => ub

/-- ForthMachine.h:435-439 `bytecode_get`. -/
def fetch (m : Machine α) (s : State α) : R Int :=
  match s.frames with
  | f :: _ => rd m.segments f.which >>= fun seg => rd seg f.pos
  | [] => ub

/-- `bytecodes_pointer_where() += n`. -/
def advance (n : Int) (s : State α) : State α :=
  match s.frames with
  | f :: fs => { s with frames := { f with pos := f.pos + n } :: fs }
  | [] => s

/-- `bytecode_get(); bytecodes_pointer_where()++`. -/
def operand (m : Machine α) (s : State α) : R (Int × State α) :=
  fetch m s >>= fun x => ok (x, advance 1 s)

/-- ForthMachine.h:442-447 `bytecodes_pointer_push`. -/
def pushFrame (m : Machine α) (which : Int) (s : State α) : R (State α) :=
  if s.frames.length < m.recMax then ok { s with frames := ⟨which, 0⟩ :: s.frames } else ub

/-- ForthMachine.h:450-453 `bytecodes_pointer_pop`. -/
def popFrame (s : State α) : R (State α) :=
  match s.frames with
  | _ :: fs => ok { s with frames := fs }
  | [] => ub

/-- ForthMachine.h:330-336 `is_segment_done`. -/
def segmentDone (m : Machine α) (s : State α) : R Bool :=
  match s.frames with
  | f :: _ => rd m.segments f.which >>= fun seg => ok (decide ¬ f.pos < seg.length)
  | [] => ub

/-- `do_current_depth_ != 0 && do_abs_recursion_depth() == recursion_current_depth_`. -/
def inLoop (s : State α) : Option Loop :=
  match s.loops with
  | l :: _ => if l.depth = s.depth then some l else none
  | [] => none

/-- ForthMachine.cpp:3798-3811 (and 3019-3035): after the end of a segment. `true` means that
`internal_run` returns. -/
def endSegment (s : State α) : R (State α × Bool) :=
  popFrame s >>= fun s =>
  match inLoop s with
  | some l =>
    if l.isStep then
      match s.data.stack with
      | x :: r => ok ({ s with data := { s.data with stack := r },
                               loops := { l with i := wrap 64 (l.i + x) } :: s.loops.tail }, false)
      | [] => ok ({ s with err := .stackUnderflow }, true)
    else ok ({ s with loops := { l with i := wrap 64 (l.i + 1) } :: s.loops.tail }, false)
  | none => ok (s, false)

/-- Run an operation on the data as an instruction. -/
def onData (s : State α) (e : R (Data α × Err)) : R (Next α) :=
  e >>= fun r =>
  if r.2 = .none then ok (.next { s with data := r.1 })
  else ok (.stop { s with data := r.1, err := r.2 })

/-- Set the error and return. -/
def failWith (s : State α) (e : Err) : R (Next α) := ok (.stop { s with err := e })

/-- Call a segment (ForthMachine.cpp:2978-2984 and others): the depth is checked first. -/
def enter (m : Machine α) (bytecode : Int) (s : State α) : R (Next α) :=
  if s.frames.length = m.recMax then failWith s .recursionDepthExceeded
  else pushFrame m (bytecode - 66) s >>= fun s => ok (.next s)

/-- Take the top item off the stack or fail. -/
def popThen (s : State α) (k : Int → State α → R (Next α)) : R (Next α) :=
  match s.data.stack with
  | x :: r => k x { s with data := { s.data with stack := r } }
  | [] => failWith s .stackUnderflow

/-- ForthMachine.cpp:3083-3110 `CODE_DO`, `CODE_DO_STEP`. -/
def startLoop (m : Machine α) (isStep : Bool) (s : State α) : R (Next α) :=
  match s.data.stack with
  | start :: stop :: r =>
    let s := { s with data := { s.data with stack := r } }
    if s.loops.length = m.recMax then failWith s .recursionDepthExceeded
    else if s.loops.length < m.recMax then
      ok (.next { s with loops := ⟨s.depth, isStep, stop, start⟩ :: s.loops })
    else ub
  | _ => failWith s .stackUnderflow

/-- ForthMachine.cpp:3378-3402 `CODE_I`, `CODE_J`, `CODE_K`. -/
def loopVar (m : Machine α) (k : Int) (s : State α) : R (Next α) :=
  if s.data.stack.length = m.stackMax then failWith s .stackOverflow
  else rd s.loops k >>= fun l => onData s (s.data.push m (wrap 32 l.i))

/-- ForthMachine.cpp:2672-2693: the operands of a read. -/
def execRead (m : Machine α) (bytecode : Int) (s : State α) : R (Next α) :=
  let n := (-bytecode - 1).toNat
  let direct := n % 2 = 1
  let repeated := n / 2 % 2 = 1
  let big := decide (n / 4 % 2 = 1)
  let format := n / 8 % 32
  operand m s >>= fun (inNum, s) =>
  let rest := fun (num : Int) (s : State α) =>
    (if format = 16 then operand m s else ok (0, s)) >>= fun (width, s) =>
    (if direct then operand m s >>= fun (o, s) => ok (some o, s) else ok (none, s)) >>=
      fun (out, s) => onData s (readOp m format big num width inNum out s.data)
  if repeated then popThen s rest else rest 1 s

/-- ForthMachine.cpp:3001-3014 `CODE_HALT`. -/
def halt (s : State α) : State α :=
  { data := s.data, frames := [], loops := [], targets := s.targets.drop (s.targets.length - 1),
    ready := false, err := .userHalt }

/-- ForthMachine.cpp:2670-3784: one instruction, after its bytecode was fetched. -/
def exec (m : Machine α) (single : Bool) (bytecode : Int) (s : State α) : R (Next α) :=
  if bytecode < 0 then execRead m bytecode s
  else if bytecode ≥ 66 then enter m bytecode s
  else match bytecode with
    | 1 => ok (.stop (halt s))                                               -- CODE_HALT
    | 2 => segmentDone m s >>= fun done =>                                   -- CODE_PAUSE
        if done then endSegment s >>= fun r => ok (.stop r.1) else ok (.stop s)
    | 3 => popThen s fun x s =>                                              -- CODE_IF
        ok (.next (if x = 0 then advance 1 s else s))
    | 4 => popThen s fun x s =>                                              -- CODE_IF_ELSE
        if x = 0 then ok (.next (advance 1 s))
        else fetch m s >>= fun c => enter m c (advance 2 s)
    | 5 => startLoop m false s                                               -- CODE_DO
    | 6 => startLoop m true s                                                -- CODE_DO_STEP
    | 7 => ok (.next (advance (-2) s))                                       -- CODE_AGAIN
    | 8 => popThen s fun x s =>                                              -- CODE_UNTIL
        ok (.next (if x = 0 then advance (-2) s else s))
    | 9 => popThen s fun x s =>                                              -- CODE_WHILE
        if x = 0 then ok (.next (advance 1 s))
        else fetch m s >>= fun c => enter m c (advance (-2) s)
    | 10 => operand m s >>= fun (n, s) =>                                    -- CODE_EXIT
        if 0 ≤ n ∧ n < s.depth then
          let s := { s with frames := s.frames.drop n.toNat }
          let s := { s with loops := s.loops.dropWhile (fun l => decide (l.depth ≠ s.depth)) }
          if single then
            segmentDone m s >>= fun done =>
            if done then popFrame s >>= fun s => ok (.stop s) else ok (.stop s)
          else ok (.leave s)
        else ub
    | 29 => loopVar m 0 s                                                    -- CODE_I
    | 30 => loopVar m 1 s                                                    -- CODE_J
    | 31 => loopVar m 2 s                                                    -- CODE_K
    | code =>
      if code = 0 ∨ (11 ≤ code ∧ code ≤ 25) then
        operand m s >>= fun (n, s) => onData s (argOp m code n s.data)
      else onData s (plainOp m code s.data)

/-- ForthMachine.cpp:2785-2793: after an instruction. -/
def afterInstr (m : Machine α) (single : Bool) : Next α → R (State α × Bool)
  | .stop s => ok (s, true)
  | .leave s => endSegment s
  | .next s =>
    if single then
      segmentDone m s >>= fun done =>
      if done then popFrame s >>= fun s => ok (s, true) else ok (s, true)
    else ok (s, false)

/-- ForthMachine.cpp:2650-3813: one round of the loops of `internal_run`. `true` means that it
returns. -/
def round (m : Machine α) (single : Bool) (target : Int) (s : State α) : R (State α × Bool) :=
  if s.depth = target then ok (s, true)
  else segmentDone m s >>= fun done =>
    if done then endSegment s
    else fetch m s >>= fun bytecode =>
      match inLoop s with
      | none => exec m single bytecode (advance 1 s) >>= afterInstr m single
      | some l =>
        if l.i ≥ l.stop then ok ({ advance 1 s with loops := s.loops.tail }, false)
        else exec m single bytecode s >>= afterInstr m single

/-- ForthMachine.cpp:2650-3813 `internal_run`, for at most the given number of rounds; `none` means
that it has not returned yet. -/
def internalRun (m : Machine α) (single : Bool) (target : Int) : Nat → State α → R (Option (State α))
  | 0, _ => ok none
  | n + 1, s => round m single target s >>= fun r =>
      if r.2 then ok (some r.1) else internalRun m single target n r.1

/-! ### The interface -/

/-- ForthMachine.cpp:217-255: the state after construction. -/
def initial (m : Machine α) : State α :=
  { data := ⟨[], List.replicate m.numVars 0, [], []⟩, frames := [], loops := [], targets := [],
    ready := false, err := .none }

/-- ForthMachine.cpp:1006-1022 `reset`. -/
def reset (s : State α) : State α :=
  { data := ⟨[], s.data.vars.map (fun _ => 0), [], []⟩, frames := [], loops := [], targets := [],
    ready := false, err := .none }

/-- ForthMachine.cpp:1024-1108 `begin`. The inputs are given in the order of their declarations. -/
def begin (m : Machine α) (inputs : List InBuf) (s : State α) : R (State α) :=
  let s := reset s
  if inputs.length ≠ m.numInputs then .err "an input was not provided"
  else
    mapN m.outTypes.length (fun _ => OutBuf.new m.initial) >>= fun outs =>
    pushFrame m 0 { s with data := { s.data with inputs := inputs, outputs := outs },
                           targets := [0] } >>= fun s =>
    ok { s with ready := true }

/-- `is_done` (ForthMachine.h). -/
def State.done (s : State α) : Bool := s.targets.isEmpty

/-- ForthMachine.cpp:1144-1146 (and others): after `internal_run`. -/
def popTarget (s : State α) : R (State α) :=
  match s.targets with
  | t :: ts => ok (if s.depth = t then { s with targets := ts } else s)
  | [] => ub

/-- Run to the end of `internal_run` and then `popTarget`. -/
def runInternal (m : Machine α) (single : Bool) (fuel : Nat) (s : State α) :
    R (Option (State α)) :=
  match s.targets with
  | t :: _ => internalRun m single t fuel s >>= fun r =>
      match r with
      | some s => popTarget s >>= fun s => ok (some s)
      | none => ok none
  | [] => ub

/-- ForthMachine.cpp:1119-1149 `step` and 1181-1211 `resume`. -/
def stepOrResume (m : Machine α) (single : Bool) (fuel : Nat) (s : State α) :
    R (Option (State α)) :=
  if !s.ready then ok (some { s with err := .notReady })
  else if s.done then ok (some { s with err := .isDone })
  else if s.err ≠ .none then ok (some s)
  else runInternal m single fuel s

/-- ForthMachine.cpp:1225-1256 `call`, of the word in this segment. -/
def call (m : Machine α) (word : Int) (fuel : Nat) (s : State α) : R (Option (State α)) :=
  if !s.ready then ok (some { s with err := .notReady })
  else if s.err ≠ .none then ok (some s)
  else
    pushFrame m word { s with targets := s.depth :: s.targets } >>= fun s =>
    runInternal m false fuel s

/-- ForthMachine.cpp:1151-1173 `run`. -/
def run (m : Machine α) (inputs : List InBuf) (fuel : Nat) (s : State α) : R (Option (State α)) :=
  begin m inputs s >>= runInternal m false fuel

/-- The requests of a user to a machine that has begun. -/
inductive Request where
  | step
  | resume
  | call (word : Int)
deriving Repr, DecidableEq

/-- Carry out a request. -/
def Request.run (m : Machine α) (fuel : Nat) (s : State α) : Request → R (Option (State α))
  | .step => stepOrResume m true fuel s
  | .resume => stepOrResume m false fuel s
  | .call w => Forth.call m w fuel s

end Awk.Forth
