import Verif.Model.Getitem
/-
Model of NumPy arrays in any number of dimensions: `NumpyArray` with a byte buffer, a shape, strides
(in bytes, of any sign) and a byte offset. The other files model one-dimensional contiguous
`NumpyArray`s only (`Content.numpy`). Every array has its `shape_` and `strides_` of the same size
(the constructor throws otherwise, NumpyArray.cpp:325-330); byte offsets are exact integers
(no wrap-around of `ssize_t`).
-/

namespace Awk
open R

/-- src/libawkward/array/NumpyArray.cpp:306-331, a NumpyArray without identities. `decode` is how
one item of `itemsize_` bytes is read according to `format_` and `dtype_`. -/
structure Nd where
  params : Params
  ptr : List UInt8
  shape : List Nat
  strides : List Int
  byteoffset : Int
  itemsize : Nat
  dtype : DType
  decode : List UInt8 → Atom

/-- One item of a slice of a NumPy array: those of `SliceItem` and `...`. -/
inductive NdItem
  | item (it : SliceItem)
  | ellipsis
deriving DecidableEq

namespace Nd

/-- The item that starts at byte `pos` of the buffer. -/
def readItem (a : Nd) (pos : Int) : R Atom :=
  mapN a.itemsize (fun (j : Nat) => rd a.ptr (pos + (j : Int))) >>= fun bytes => ok (a.decode bytes)

/-- The value of an array of the given shape and strides at byte `pos` of the buffer of `a`:
iterating over an array takes `getitem_at_nowrap(i)` for `i < shape_[0]`, which is the array at
`byteoffset_ + strides_[0]*i` with the remaining shape and strides (NumpyArray.cpp:1222-1247). -/
def valueAt (a : Nd) : List Nat → List Int → Int → R Val
  | [], _, pos => a.readItem pos >>= fun x => ok (.atom x)
  | n :: ns, s :: ss, pos =>
    mapN n (fun (i : Nat) => a.valueAt ns ss (pos + (i : Int) * s)) >>= fun vs => ok (.list vs)
  | _ :: _, [], _ => ub

/-- `to_list` of the array. -/
def toVal (a : Nd) : R Val := a.valueAt a.shape a.strides a.byteoffset

/-- The loop of `iscontiguous` from the last dimension: the running `x`, or `none` when some stride
differs from it. -/
def contiguousFrom (itemsize : Nat) : List Nat → List Int → Option Int
  | n :: ns, s :: ss =>
    match contiguousFrom itemsize ns ss with
    | some x => if x ≠ s then none else some (x * (n : Int))
    | none => none
  | _, _ => some (itemsize : Int)

/-- NumpyArray.cpp:3947-3955 `iscontiguous`. -/
def iscontiguous (a : Nd) : Bool := (contiguousFrom a.itemsize a.shape a.strides).isSome

/-- NumpyArray.cpp:1630-1639 `flatten_shape` (for two or more dimensions) and 1641-1649
`flatten_strides`, with the byte offset moved by `d`: the array in which the first two dimensions
are one. -/
def flat (a : Nd) (d : Int) : Nd :=
  { a with
    shape := (a.shape.getD 0 0 * a.shape.getD 1 0) :: a.shape.drop 2
    strides := a.strides.tail
    byteoffset := a.byteoffset + d }

theorem flat_lt {a : Nd} (d : Int) (h : ¬ a.shape.length < 2) :
    (a.flat d).shape.length < a.shape.length := by
  simp only [flat, List.length_cons, List.length_drop]; omega

/-- `memcpy(&toptr[to], &fromptr[from], n)`. -/
def memcpy (toptr fromptr : List UInt8) (to_ from_ : Int) (n : Nat) : R (List UInt8) :=
  forN n (fun (j : Nat) toptr =>
    rd fromptr (from_ + (j : Int)) >>= fun x => wr toptr (to_ + (j : Int)) x) toptr

/-- `kernel::malloc` of bytes. The contents are arbitrary in C++. -/
def allocBytes (n : Int) : List UInt8 := List.replicate n.toNat 0xDE

/-- src/cpu-kernels/awkward_NumpyArray_contiguous_init.cpp:8-16. -/
def NumpyArray_contiguous_init (toptr : List Int) (skip : Nat) (stride : Int) : R (List Int) :=
  forN skip (fun (i : Nat) toptr => wr toptr (i : Int) ((i : Int) * stride)) toptr

/-- src/cpu-kernels/awkward_NumpyArray_contiguous_next.cpp:8-20. -/
def NumpyArray_contiguous_next (topos frompos : List Int) (length skip : Nat) (stride : Int) :
    R (List Int) :=
  forN length (fun (i : Nat) topos =>
    forN skip (fun (j : Nat) topos =>
      rd frompos (i : Int) >>= fun p =>
      wr topos ((i * skip + j : Nat) : Int) (p + (j : Int) * stride)) topos) topos

/-- src/cpu-kernels/awkward_NumpyArray_contiguous_copy.cpp:8-18; `data` is the byte offset of
`fromptr` in the buffer. -/
def NumpyArray_contiguous_copy (toptr fromptr : List UInt8) (data : Int) (len : Nat) (stride : Int)
    (pos : List Int) : R (List UInt8) :=
  forN len (fun (i : Nat) toptr =>
    rd pos (i : Int) >>= fun p =>
    memcpy toptr fromptr ((i : Int) * stride) (data + p) stride.toNat) toptr

/-- NumpyArray.cpp:3983-4071 `contiguous_next`. -/
def contiguousNext (a : Nd) (bytepos : List Int) : R Nd :=
  if a.iscontiguous then
    let stride := a.strides.getD 0 0
    NumpyArray_contiguous_copy (allocBytes (bytepos.length * stride)) a.ptr a.byteoffset
      bytepos.length stride bytepos >>= fun ptr =>
    ok { a with ptr := ptr, byteoffset := 0 }
  else if h : a.shape.length < 2 then
    NumpyArray_contiguous_copy (allocBytes (bytepos.length * a.itemsize)) a.ptr a.byteoffset
      bytepos.length a.itemsize bytepos >>= fun ptr =>
    ok { a with ptr := ptr, strides := [(a.itemsize : Int)], byteoffset := 0 }
  else
    NumpyArray_contiguous_next (alloc ((bytepos.length * a.shape.getD 1 0 : Nat) : Int)) bytepos
      bytepos.length (a.shape.getD 1 0) (a.strides.getD 1 0) >>= fun nextbytepos =>
    (a.flat 0).contiguousNext nextbytepos >>= fun out =>
    ok { out with
      shape := a.shape
      strides := ((a.shape.getD 1 0 : Nat) : Int) * out.strides.getD 0 0 :: out.strides }
termination_by a.shape.length
decreasing_by exact flat_lt 0 h

/-- NumpyArray.cpp:3957-3981 `contiguous`. -/
def contiguous (a : Nd) : R Nd :=
  if a.iscontiguous then ok a
  else
    NumpyArray_contiguous_init (alloc ((a.shape.getD 0 0 : Nat) : Int)) (a.shape.getD 0 0)
      (a.strides.getD 0 0) >>= fun bytepos =>
    a.contiguousNext bytepos

/-- NumpyArray.cpp:496-502, the loop of `toRegularArray` that wraps the flat array in one
`RegularArray` for every dimension but the first, from the last to the second:
`RegularArray(out, shape_[i], shape_[i - 1])`. -/
def wrapRegular : List Nat → Content → Content
  | m :: n :: rest, out => .regular {} (wrapRegular (n :: rest) out) n m
  | _, out => out

/-- NumpyArray.cpp:474-504 `toRegularArray` (a scalar is returned as it is: not modelled). -/
def toRegularArray (a : Nd) : R Content :=
  if a.shape.isEmpty then err "scalar"
  else
    a.contiguous >>= fun self =>
    mapN a.shape.prod (fun (i : Nat) => self.readItem (self.byteoffset + (i : Int) * (a.itemsize : Int)))
      >>= fun data =>
    ok (wrapRegular a.shape (.numpy a.params self.dtype data))

/-- src/libawkward/Slice.cpp:829-843 `dimlength`. -/
def dimlength : List NdItem → Nat
  | .item (.at _) :: rest => dimlength rest + 1
  | .item (.range ..) :: rest => dimlength rest + 1
  | .item (.array ..) :: rest => dimlength rest + 1
  | _ :: rest => dimlength rest
  | [] => 0

/-- NumpyArray.cpp:4177-4191 and 4485-4503: the start, the step and the number of items of a range
in a dimension of `n` items. The step was checked by the constructor (Slice.cpp:62-71). -/
def rangeHead (start stop : Option Int) (step : Int) (n : Nat) : R (Int × Int × Nat) :=
  let step := if step = kSliceNone then 1 else step
  if step = 0 then err "step must not be zero"
  else
    let r := regularize_rangeslice (sliceArg start) (sliceArg stop) (decide (step > 0))
      (sliceArg start != kSliceNone) (sliceArg stop != kSliceNone) n
    let numer := (r.1 - r.2).natAbs
    let denom := step.natAbs
    ok (r.1, step, numer / denom + (if numer % denom ≠ 0 then 1 else 0))

/-- NumpyArray.cpp:4123-4131 and 4437-4446: the position of an integer in a dimension of `n`
items. -/
def atHead (i : Int) (n : Nat) : R Int :=
  let i := if i < 0 then i + (n : Int) else i
  if i < 0 ∨ i ≥ (n : Int) then err "index out of range" else ok i

/-- The result of `At`: the first dimension becomes `length` (NumpyArray.cpp:4150-4162). -/
def afterAt (length : Nat) (out : Nd) : Nd := { out with shape := length :: out.shape.tail }

/-- The result of a newaxis (NumpyArray.cpp:4265-4280, 4639-4656). -/
def afterNewaxis (length : Nat) (out : Nd) : Nd :=
  { out with
    shape := length :: 1 :: out.shape.tail
    strides := out.strides.getD 0 0 :: out.strides }

/-- The result of a range by strides (NumpyArray.cpp:4211-4229). -/
def afterRange (length lenhead : Nat) (s0 s1 : Int) (out : Nd) : Nd :=
  { out with
    shape := length :: lenhead :: out.shape.tail
    strides := s0 :: s1 :: out.strides.tail }

/-- NumpyArray.cpp:4073-4281 `getitem_bystrides`; index arrays are not allowed here. -/
def bystrides (a : Nd) (items : List NdItem) (length : Nat) : R Nd :=
  match items with
  | [] => ok a
  | .ellipsis :: tail =>
    if tail.isEmpty ∨ a.shape.length = dimlength tail + 1 then a.bystrides tail length
    else if h : a.shape.length < 2 then err "too many dimensions in slice"
    else
      rangeHead none none 1 (a.shape.getD 1 0) >>= fun r =>
      (a.flat (r.1 * a.strides.getD 1 0)).bystrides (.ellipsis :: tail) (length * r.2.2) >>= fun out =>
      ok (afterRange length r.2.2 (a.strides.getD 0 0) (a.strides.getD 1 0 * r.2.1) out)
  | .item .newaxis :: tail => a.bystrides tail length >>= fun out => ok (afterNewaxis length out)
  | .item (.at i) :: tail =>
    if h : a.shape.length < 2 then err "too many dimensions in slice"
    else
      atHead i (a.shape.getD 1 0) >>= fun i =>
      (a.flat (i * a.strides.getD 1 0)).bystrides tail length >>= fun out => ok (afterAt length out)
  | .item (.range start stop step) :: tail =>
    if h : a.shape.length < 2 then err "too many dimensions in slice"
    else
      rangeHead start stop step (a.shape.getD 1 0) >>= fun r =>
      (a.flat (r.1 * a.strides.getD 1 0)).bystrides tail (length * r.2.2) >>= fun out =>
      ok (afterRange length r.2.2 (a.strides.getD 0 0) (a.strides.getD 1 0 * r.2.1) out)
  | .item (.array ..) :: _ => err "unrecognized slice item type for NumpyArray::getitem_bystrides"
termination_by items.length + a.shape.length
decreasing_by
  · simp
  · have := flat_lt (r.1 * a.strides.getD 1 0) h; simp at this ⊢; omega
  · simp
  · have := flat_lt (i * a.strides.getD 1 0) h; simp at this ⊢; omega
  · have := flat_lt (r.1 * a.strides.getD 1 0) h; simp at this ⊢; omega

/-- src/cpu-kernels/awkward_NumpyArray_getitem_next_null.cpp:8-18. -/
def NumpyArray_getitem_next_null (toptr fromptr : List UInt8) (data : Int) (len : Nat) (stride : Int)
    (pos : List Int) : R (List UInt8) :=
  forN len (fun (i : Nat) toptr =>
    rd pos (i : Int) >>= fun p =>
    memcpy toptr fromptr ((i : Int) * stride) (data + p * stride) stride.toNat) toptr

/-- src/cpu-kernels/awkward_NumpyArray_getitem_next_at.cpp:8-18. -/
def NumpyArray_getitem_next_at (nextcarry carry : List Int) (lencarry : Nat) (skip at_ : Int) :
    R (List Int) :=
  forN lencarry (fun (i : Nat) nextcarry =>
    (rd carry (i : Int) >>= fun c => ok (skip * c + at_)) >>= fun x => wr nextcarry (i : Int) x) nextcarry

/-- src/cpu-kernels/awkward_NumpyArray_getitem_next_range.cpp:8-22. -/
def NumpyArray_getitem_next_range (nextcarry carry : List Int) (lencarry lenhead : Nat)
    (skip start step : Int) : R (List Int) :=
  forN lencarry (fun (i : Nat) nextcarry =>
    forN lenhead (fun (j : Nat) nextcarry =>
      rd carry (i : Int) >>= fun c =>
      wr nextcarry ((i * lenhead + j : Nat) : Int) (skip * c + start + (j : Int) * step)) nextcarry)
    nextcarry

/-- src/cpu-kernels/awkward_NumpyArray_getitem_next_range_advanced.cpp:8-25, the second output (the
first one is that of `NumpyArray_getitem_next_range`: the two buffers are written independently). -/
def NumpyArray_getitem_next_range_advanced (nextadvanced advanced : List Int)
    (lencarry lenhead : Nat) : R (List Int) :=
  forN lencarry (fun (i : Nat) nextadvanced =>
    forN lenhead (fun (j : Nat) nextadvanced =>
      rd advanced (i : Int) >>= fun x =>
      wr nextadvanced ((i * lenhead + j : Nat) : Int) x) nextadvanced) nextadvanced

/-- src/cpu-kernels/awkward_regularize_arrayslice.cpp:8-22. -/
def regularize_arrayslice (flathead : List Int) (lenflathead : Nat) (length : Nat) : R (List Int) :=
  forN lenflathead (fun (i : Nat) flathead =>
    rd flathead (i : Int) >>= fun x =>
    let x := if x < 0 then x + (length : Int) else x
    if x < 0 ∨ x ≥ (length : Int) then err "index out of range"
    else wr flathead (i : Int) x) flathead

/-- src/cpu-kernels/awkward_NumpyArray_getitem_next_array.cpp:8-23, the first output. -/
def NumpyArray_getitem_next_array_carry (nextcarry carry flathead : List Int)
    (lencarry lenflathead : Nat) (skip : Int) : R (List Int) :=
  forN lencarry (fun (i : Nat) nextcarry =>
    forN lenflathead (fun (j : Nat) nextcarry =>
      rd carry (i : Int) >>= fun c => rd flathead (j : Int) >>= fun x =>
      wr nextcarry ((i * lenflathead + j : Nat) : Int) (skip * c + x)) nextcarry) nextcarry

/-- The second output of the same kernel. -/
def NumpyArray_getitem_next_array_advanced_out (nextadvanced : List Int)
    (lencarry lenflathead : Nat) : R (List Int) :=
  forN lencarry (fun (i : Nat) nextadvanced =>
    forN lenflathead (fun (j : Nat) nextadvanced =>
      wr nextadvanced ((i * lenflathead + j : Nat) : Int) (j : Int)) nextadvanced) nextadvanced

/-- src/cpu-kernels/awkward_NumpyArray_getitem_next_array_advanced.cpp:8-19. -/
def NumpyArray_getitem_next_array_advanced (nextcarry carry advanced flathead : List Int)
    (lencarry : Nat) (skip : Int) : R (List Int) :=
  forN lencarry (fun (i : Nat) nextcarry =>
    (rd carry (i : Int) >>= fun c => rd advanced (i : Int) >>= fun j => rd flathead j >>= fun x =>
      ok (skip * c + x)) >>= fun x => wr nextcarry (i : Int) x) nextcarry

/-- The result of a range in a contiguous array (NumpyArray.cpp:4532-4553, 4581-4602). -/
def afterRangeCopy (length lenhead : Nat) (out : Nd) : Nd :=
  { out with
    shape := length :: lenhead :: out.shape.tail
    strides := (lenhead : Int) * out.strides.getD 0 0 :: out.strides }

/-- The loop `for x = arrayshape.rbegin() …: outstrides.insert(begin, x*outstrides[0])`
(NumpyArray.cpp:4757-4759). -/
def arrayStrides : List Nat → List Int → List Int
  | [], strides => strides
  | n :: ns, strides =>
    let out := arrayStrides ns strides
    (n : Int) * out.getD 0 0 :: out

/-- The result of the first index array (NumpyArray.cpp:4742-4770). -/
def afterArray (length : Nat) (arrayshape : List Nat) (out : Nd) : Nd :=
  { out with
    shape := length :: (arrayshape ++ out.shape.tail)
    strides := arrayStrides arrayshape out.strides }

/-- NumpyArray.cpp:4479-4604, the carry and advanced index of a range. -/
def rangeCarry (carry : List Int) (advanced : Adv) (r : Int × Int × Nat) (n : Nat) :
    R (List Int × Adv) :=
  NumpyArray_getitem_next_range (alloc ((carry.length * r.2.2 : Nat) : Int)) carry carry.length r.2.2 n
    r.1 r.2.1 >>= fun nextcarry =>
  match advanced with
  | none => ok (nextcarry, none)
  | some adv =>
    if adv.isEmpty then ok (nextcarry, some adv)
    else
      NumpyArray_getitem_next_range_advanced (alloc ((carry.length * r.2.2 : Nat) : Int)) adv
        carry.length r.2.2 >>= fun nextadvanced =>
      ok (nextcarry, some nextadvanced)

/-- NumpyArray.cpp:4283-4820 `getitem_next` with a carry, for a contiguous array. The index array
`array` is given by its shape and its `ravel()` (Slice.cpp:380-404). -/
def getitemNext (a : Nd) (items : List NdItem) (carry : List Int) (advanced : Adv) (length : Nat)
    (stride : Int) : R Nd :=
  match items with
  | [] =>
    NumpyArray_getitem_next_null (allocBytes (carry.length * stride)) a.ptr a.byteoffset carry.length
      stride carry >>= fun ptr =>
    ok { a with
      ptr := ptr
      shape := carry.length :: a.shape.tail
      strides := stride :: a.strides.tail
      byteoffset := 0 }
  | .ellipsis :: tail =>
    if tail.isEmpty ∨ a.shape.length = dimlength tail + 1 then
      a.getitemNext tail carry advanced length stride
    else if h : a.shape.length < 2 then err "too many dimensions in slice"
    else
      rangeHead none none 1 (a.shape.getD 1 0) >>= fun r =>
      rangeCarry carry advanced r (a.shape.getD 1 0) >>= fun ca =>
      (a.flat 0).getitemNext (.ellipsis :: tail) ca.1 ca.2 (length * r.2.2) ((a.flat 0).strides.getD 0 0)
        >>= fun out =>
      ok (afterRangeCopy length r.2.2 out)
  | .item .newaxis :: tail =>
    a.getitemNext tail carry advanced length stride >>= fun out => ok (afterNewaxis length out)
  | .item (.at i) :: tail =>
    if h : a.shape.length < 2 then err "too many dimensions in slice"
    else
      atHead i (a.shape.getD 1 0) >>= fun regular_at =>
      NumpyArray_getitem_next_at (alloc carry.length) carry carry.length (a.shape.getD 1 0 : Nat)
        regular_at >>= fun nextcarry =>
      (a.flat 0).getitemNext tail nextcarry advanced length ((a.flat 0).strides.getD 0 0) >>= fun out =>
      ok (afterAt length out)
  | .item (.range start stop step) :: tail =>
    if h : a.shape.length < 2 then err "too many dimensions in slice"
    else
      rangeHead start stop step (a.shape.getD 1 0) >>= fun r =>
      rangeCarry carry advanced r (a.shape.getD 1 0) >>= fun ca =>
      (a.flat 0).getitemNext tail ca.1 ca.2 (length * r.2.2) ((a.flat 0).strides.getD 0 0) >>= fun out =>
      ok (afterRangeCopy length r.2.2 out)
  | .item (.array arrayshape flat) :: tail =>
    if h : a.shape.length < 2 then err "too many dimensions in slice"
    else
      regularize_arrayslice flat flat.length (a.shape.getD 1 0) >>= fun flathead =>
      match advanced with
      | none =>
        NumpyArray_getitem_next_array_carry (alloc ((carry.length * flathead.length : Nat) : Int)) carry
          flathead carry.length flathead.length (a.shape.getD 1 0 : Nat) >>= fun nextcarry =>
        NumpyArray_getitem_next_array_advanced_out (alloc ((carry.length * flathead.length : Nat) : Int))
          carry.length flathead.length >>= fun nextadvanced =>
        (a.flat 0).getitemNext tail nextcarry (some nextadvanced) (length * flathead.length)
          ((a.flat 0).strides.getD 0 0) >>= fun out =>
        ok (afterArray length arrayshape out)
      | some adv =>
        NumpyArray_getitem_next_array_advanced (alloc carry.length) carry adv flathead carry.length
          (a.shape.getD 1 0 : Nat) >>= fun nextcarry =>
        (a.flat 0).getitemNext tail nextcarry (some adv) (length * arrayshape.headD 0)
          ((a.flat 0).strides.getD 0 0) >>= fun out =>
        ok (afterAt length out)
termination_by items.length + a.shape.length
decreasing_by
  · simp
  · have := flat_lt 0 h; simp at this ⊢; omega
  · simp
  · have := flat_lt 0 h; simp at this ⊢; omega
  · have := flat_lt 0 h; simp at this ⊢; omega
  · have := flat_lt 0 h; simp at this ⊢; omega
  · have := flat_lt 0 h; simp at this ⊢; omega

/-- NumpyArray.cpp:1343-1346 and 1378-1386: one more dimension of one row in front. -/
def wrapped (a : Nd) : Nd :=
  { a with
    shape := 1 :: a.shape
    strides := ((a.shape.getD 0 0 : Nat) : Int) * a.strides.getD 0 0 :: a.strides }

/-- NumpyArray.cpp:1360-1374 and 1409-1422: the first dimension of the result is dropped. -/
def unwrapped (out : Nd) : Nd := { out with shape := out.shape.tail, strides := out.strides.tail }

/-- Slice.cpp:1094-1107 `isadvanced`. -/
def isAdvanced (items : List NdItem) : Bool :=
  items.any (fun | .item (.array ..) => true | _ => false)

/-- NumpyArray.cpp:1330-1430 `getitem` with a sealed slice without missing, jagged or field
items. -/
def getitem (a : Nd) (items : List NdItem) : R Nd :=
  if a.shape.isEmpty then err "cannot get-item on a scalar"
  else if isAdvanced items then
    a.contiguous >>= fun safe =>
    safe.wrapped.getitemNext items [0] none 1 (safe.wrapped.strides.getD 0 0) >>= fun out =>
    ok out.unwrapped
  else
    a.wrapped.bystrides items 1 >>= fun out => ok out.unwrapped

/-- The strides of a contiguous array, NumpyArray.cpp:5101-5106. -/
def cstrides (itemsize : Nat) : List Nat → List Int
  | [] => []
  | _ :: ns => ((itemsize * ns.prod : Nat) : Int) :: cstrides itemsize ns

/-- NumpyArray.cpp:5090-5218 `numbers_to_type` of a NumpyArray of numbers (not characters), with
`as_type` (5637-5710) and `cast_to_type`: `itemsize`, `dtype` and `decode` are those of the new
type and `cast` is the conversion of one item to the bytes of the new type. The buffer is made for
`contiguous_self.length()` items, and the shape is that of the array. -/
def numbersToType (a : Nd) (itemsize : Nat) (dtype : DType) (decode : List UInt8 → Atom)
    (cast : Atom → List UInt8) : R Nd :=
  a.contiguous >>= fun self =>
  mapN (self.shape.getD 0 0) (fun (i : Nat) =>
    self.readItem (self.byteoffset + (i : Int) * (self.itemsize : Int))) >>= fun data =>
  ok { self with
    ptr := (data.map cast).flatten
    strides := cstrides itemsize self.shape
    byteoffset := 0
    itemsize := itemsize
    dtype := dtype
    decode := decode }

end Nd
end Awk
