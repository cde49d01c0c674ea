import Mathlib.Data.Rat.Floor
import Verif.Basic
/-
Model of `GrowableBuffer` (src/libawkward/builder/GrowableBuffer.cpp) and of the memory that it shares
with snapshots.

The memory is a list of blocks that only grows: a block is not reused while a `shared_ptr` to it
exists, and blocks to which no pointer exists cannot be read. A cell is `none` before the first
write; reading it then is undefined.

`reserved_ * options_.resize()` is a product of floating point numbers. Here it is exact. (Rounding
does not matter: for a factor greater than 1 and a size below 2^53, the rounded product is still
greater than the size.)
-/

namespace Awk
open R

/-- A block of memory of items. -/
abbrev Block (α : Type) := List (Option α)

/-- The memory. -/
abbrev Heap (α : Type) := List (Block α)

/-- ArrayBuilderOptions.cpp:6-18. -/
structure BufOptions where
  initial : Int
  resize : Rat
deriving Repr

/-- include/awkward/builder/GrowableBuffer.h: the members `ptr_`, `length_` and `reserved_`. -/
structure Buf where
  block : Nat
  length : Int
  reserved : Int
deriving Repr, DecidableEq

namespace Heap
variable {α : Type}

/-- src/libawkward/kernel-dispatch.cpp `kernel::malloc`. -/
def malloc (h : Heap α) (n : Int) : R (Heap α × Nat) :=
  if n < 0 then ub else ok (h ++ [List.replicate n.toNat none], h.length)

/-- `ptr.get()[i]`. -/
def load (h : Heap α) (block : Nat) (i : Int) : R α :=
  rd h block >>= fun cells => rd cells i >>= fun x => match x with
    | some x => ok x
    | none => ub

/-- `ptr.get()[i] = x`. -/
def store (h : Heap α) (block : Nat) (i : Int) (x : α) : R (Heap α) :=
  rd h block >>= fun cells => wr cells i (some x) >>= fun cells => ok (h.set block cells)

/-- `memcpy` of the first `n` items. -/
def copy (h : Heap α) (dst src : Nat) (n : Int) : R (Heap α) :=
  rd h src >>= fun s => rd h dst >>= fun d =>
  if n < 0 ∨ s.length < n ∨ d.length < n then ub
  else ok (h.set dst (s.take n.toNat ++ d.drop n.toNat))

/-- The items of a block that a snapshot of this length sees. -/
def view (h : Heap α) (block : Nat) (length : Int) : R (List α) :=
  mapN length.toNat (fun i => load h block i)

end Heap

namespace Buf
variable {α : Type}
open Heap

/-- GrowableBuffer.cpp:18-28 `empty` (also the constructor in lines 69-74). -/
def empty (o : BufOptions) (minreserve : Int) (h : Heap α) : R (Heap α × Buf) :=
  let actual := if o.initial < minreserve then minreserve else o.initial
  malloc h actual >>= fun (h, p) => ok (h, ⟨p, 0, actual⟩)

/-- GrowableBuffer.cpp:31-41 `full`. -/
def full (o : BufOptions) (value : α) (length : Nat) (h : Heap α) : R (Heap α × Buf) :=
  empty o length h >>= fun (h, b) =>
  forN length (fun i h => store h b.block i value) h >>= fun h =>
  ok (h, ⟨b.block, length, b.reserved⟩)

/-- GrowableBuffer.cpp:104-112 `set_reserved`. -/
def setReserved (b : Buf) (minreserved : Int) (h : Heap α) : R (Heap α × Buf) :=
  if minreserved > b.reserved then
    malloc h minreserved >>= fun (h, p) =>
    copy h p b.block b.length >>= fun h =>
    ok (h, ⟨p, b.length, minreserved⟩)
  else ok (h, b)

/-- GrowableBuffer.cpp:89-95 `set_length`. -/
def setLength (b : Buf) (newlength : Int) (h : Heap α) : R (Heap α × Buf) :=
  (if newlength > b.reserved then setReserved b newlength h else ok (h, b)) >>= fun (h, b) =>
  ok (h, { b with length := newlength })

/-- GrowableBuffer.cpp:115-120 `clear`. -/
def clear (o : BufOptions) (h : Heap α) : R (Heap α × Buf) :=
  malloc h o.initial >>= fun (h, p) => ok (h, ⟨p, 0, o.initial⟩)

/-- GrowableBuffer.cpp:123-130 `append`. -/
def append (o : BufOptions) (b : Buf) (x : α) (h : Heap α) : R (Heap α × Buf) :=
  (if b.length = b.reserved then setReserved b ⌈(b.reserved : Rat) * o.resize⌉ h
    else ok (h, b)) >>= fun (h, b) =>
  store h b.block b.length x >>= fun h =>
  ok (h, { b with length := b.length + 1 })

/-- Float64Builder.cpp:22-34 `fromint64` and Complex128Builder.cpp:36-48 `fromfloat64`: a new buffer
with the converted items. (Both types of items are `α` here.) -/
def convert (o : BufOptions) (f : α → α) (old : Buf) (h : Heap α) : R (Heap α × Buf) :=
  empty o old.reserved h >>= fun (h, b) =>
  forN old.length.toNat (fun i h => load h old.block i >>= fun x => store h b.block i (f x)) h
    >>= fun h => setLength b old.length h

end Buf

/-- What a builder does with its buffers. -/
inductive BufOp (α : Type) where
  | create
  | full (x : α) (n : Nat)
  | append (i : Nat) (x : α)
  | clear (i : Nat)
  | convert (i : Nat) (f : α → α)

/-- The memory and the buffers of a builder. -/
structure BufState (α : Type) where
  heap : Heap α
  bufs : List Buf

namespace BufState
variable {α : Type}

/-- One operation. There is no buffer with a number that is too large. -/
def step (o : BufOptions) (s : BufState α) : BufOp α → R (BufState α)
  | .create => Buf.empty o 0 s.heap >>= fun (h, b) => ok ⟨h, s.bufs ++ [b]⟩
  | .full x n => Buf.full o x n s.heap >>= fun (h, b) => ok ⟨h, s.bufs ++ [b]⟩
  | .append i x => match s.bufs[i]? with
    | none => ok s
    | some b => Buf.append o b x s.heap >>= fun (h, b) => ok ⟨h, s.bufs.set i b⟩
  | .clear i => match s.bufs[i]? with
    | none => ok s
    | some _ => Buf.clear o s.heap >>= fun (h, b) => ok ⟨h, s.bufs.set i b⟩
  | .convert i f => match s.bufs[i]? with
    | none => ok s
    | some b => Buf.convert o f b s.heap >>= fun (h, b) => ok ⟨h, s.bufs.set i b⟩

/-- A sequence of operations. -/
def run (o : BufOptions) : BufState α → List (BufOp α) → R (BufState α)
  | s, [] => ok s
  | s, op :: ops => step o s op >>= fun s => run o s ops

end BufState
end Awk
