import Verif.Basic
/-
Model of range slices of one list: `awkward_regularize_rangeslice` and
`RegularArray::getitem_next(SliceRange)` with its kernel.
-/

namespace Awk
open R

/-- include/awkward/common.h:70 `kSliceNone = kMaxInt64 + 1` (= 2^63 - 1). -/
def kSliceNone : Int := 9223372036854775807

/-- How a Python slice bound is passed to C++: `None` becomes `kSliceNone`
(src/python/content.cpp:450-461). -/
def sliceArg : Option Int → Int
  | none => kSliceNone
  | some x => x

/-- A bound that is representable: not the reserved value itself. -/
def GoodArg (x : Option Int) : Prop := x ≠ some kSliceNone

instance (x : Option Int) : Decidable (GoodArg x) := inferInstanceAs (Decidable (x ≠ some kSliceNone))

/-- src/cpu-kernels/kernel-utils.cpp:109-141 `awkward_regularize_rangeslice`;
returns the new `(*start, *stop)`. -/
def regularize_rangeslice (start stop : Int) (posstep hasstart hasstop : Bool) (length : Int) :
    Int × Int :=
  if posstep then
    let start := if !hasstart then 0 else if start < 0 then start + length else start
    let start := if start < 0 then 0 else start
    let start := if start > length then length else start
    let stop := if !hasstop then length else if stop < 0 then stop + length else stop
    let stop := if stop < 0 then 0 else stop
    let stop := if stop > length then length else stop
    let stop := if stop < start then start else stop
    (start, stop)
  else
    let start := if !hasstart then length - 1 else if start < 0 then start + length else start
    let start := if start < -1 then -1 else start
    let start := if start > length - 1 then length - 1 else start
    let stop := if !hasstop then -1 else if stop < 0 then stop + length else stop
    let stop := if stop < -1 then -1 else stop
    let stop := if stop > length - 1 then length - 1 else stop
    let stop := if stop > start then start else stop
    (start, stop)

/-- src/libawkward/array/RegularArray.cpp:1391-1405: the number of items of a regularised
range (C++ `/` and `%` truncate; both operands are positive here). -/
def regular_nextsize (regular_start regular_stop step : Int) : Int :=
  let regular_step : Int := step.natAbs
  if step > 0 ∧ regular_stop - regular_start > 0 then
    let diff := regular_stop - regular_start
    diff.tdiv regular_step + (if diff.tmod regular_step ≠ 0 then 1 else 0)
  else if step < 0 ∧ regular_stop - regular_start < 0 then
    let diff := regular_start - regular_stop
    diff.tdiv regular_step + (if diff.tmod regular_step ≠ 0 then 1 else 0)
  else 0

/-- src/cpu-kernels/awkward_RegularArray_getitem_next_range.cpp:8-21. -/
def RegularArray_getitem_next_range (tocarry : List Int)
    (regular_start step length size nextsize : Int) : R (List Int) :=
  forI length (fun i tocarry =>
    forI nextsize (fun j tocarry =>
      wr tocarry (i * nextsize + j) (i * size + regular_start + j * step)) tocarry) tocarry

/-- A freshly allocated buffer. Its initial contents are arbitrary in C++; here it is filled
with a fixed value, and kernel lemmas are proved for every initial content. -/
def alloc (n : Int) : List Int := List.replicate n.toNat (-559038737)

/-- src/libawkward/array/RegularArray.cpp:1370-1412, the carry computed by
`RegularArray::getitem_next(SliceRange)` for `len` lists of `size` items. -/
def regular_range_carry (len size start stop step : Int) : R (Int × List Int) :=
  if step = 0 then err "RegularArray::getitem_next(SliceRange): range.step() == 0"
  else
    let (regular_start, regular_stop) :=
      regularize_rangeslice start stop (decide (step > 0)) (start != kSliceNone) (stop != kSliceNone) size
    let nextsize := regular_nextsize regular_start regular_stop step
    RegularArray_getitem_next_range (alloc (len * nextsize)) regular_start step len size nextsize
      >>= fun nextcarry => ok (nextsize, nextcarry)

/-- Read all the given positions. -/
def gather (xs : List α) (carry : List Int) : R (List α) :=
  mapN carry.length fun i => rd carry i >>= fun j => rd xs j

/-- src/libawkward/Content.cpp `Content::getitem` applied to a slice consisting of one
`SliceRange`, on an array whose elements are `xs`: the array is wrapped in a `RegularArray`
with one list of `size = length`, `RegularArray::getitem_next(SliceRange)` computes a carry
(SliceRange, Slice.cpp:62-70, maps a missing step to 1 and rejects 0), the elements are
gathered, and item 0 of the wrapper is returned. -/
def getitem_slicerange (xs : List α) (start stop step : Int) : R (List α) :=
  let step := if step = kSliceNone then 1 else step
  if step = 0 then err "step must not be zero"
  else regular_range_carry 1 xs.length start stop step >>= fun (_, carry) => gather xs carry

/-- A `getitem_range_nowrap` on an array whose elements are `xs`: the view
`[start, stop)`; undefined behaviour when it is not inside the array. -/
def getitem_range_nowrap (xs : List α) (start stop : Int) : R (List α) :=
  if 0 ≤ start ∧ start ≤ stop ∧ stop ≤ xs.length then
    ok ((xs.drop start.toNat).take (stop - start).toNat)
  else ub

end Awk
