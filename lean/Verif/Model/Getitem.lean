import Verif.Model.List
/-
Model of `array[item, item, …]`: `Content::getitem` and `getitem_next` of every node class, for
integers, ranges, integer arrays and `newaxis`.

Simplifications, common to this file:
* `numpy.newaxis` applied to a NumpyArray makes a two-dimensional NumpyArray; here it makes a
  RegularArray of the same lists. `NumpyArray::getitem` (a top-level NumpyArray) is not this code
  and is modelled elsewhere;
* UnionArray raises, because its `getitem_next` ends with `simplify_uniontype`;
* functions that recurse through `carry` take a fuel argument; running out of fuel is `ub`.
-/

namespace Awk
open R

/-- One item of a slice (include/awkward/Slice.h): an integer, a range with optional bounds, an
integer array given by its shape and its entries in row-major order (`SliceArray64::ravel`), and
`numpy.newaxis`. -/
inductive SliceItem
  | at (i : Int)
  | range (start stop : Option Int) (step : Int)
  | array (shape : List Nat) (flat : List Int)
  | newaxis
deriving DecidableEq

/-- Slice.cpp:62-71, the constructor of `SliceRange`: the step `Slice::none()` becomes 1. -/
def SliceItem.constructed : SliceItem → SliceItem
  | .range start stop step => .range start stop (if step = kSliceNone then 1 else step)
  | it => it

/-- The `advanced` argument of `getitem_next`; `none` is `Index64::empty_advanced()`. -/
abbrev Adv := Option (List Int)

/-- `advanced.is_empty_advanced() || advanced.length() == 0`. -/
def Adv.isFirst : Adv → Bool
  | none => true
  | some a => a.isEmpty

/-- `for (int64_t j = a; j < b; j += s)` when `up`, otherwise `for (j = a; j > b; j += s)`. More
than `|b - a|` iterations (`s` of the wrong sign, or zero) count as undefined behaviour. -/
def forStep (up : Bool) (a b s : Int) (body : Int → σ → R σ) (st : σ) : R σ :=
  whileF (b - a).natAbs (fun p => if up then decide (p.1 < b) else decide (p.1 > b))
    (fun p => body p.1 p.2 >>= fun st => ok (p.1 + s, st)) (a, st) >>= fun p => ok p.2

/-- src/cpu-kernels/awkward_ListArray_getitem_next_at.cpp:8-26. -/
def ListArray_getitem_next_at (tocarry fromstarts fromstops : List Int) (lenstarts : Nat)
    (at_ : Int) : R (List Int) :=
  forN lenstarts (fun i tocarry =>
    (rd fromstops (i : Int) >>= fun stop => rd fromstarts (i : Int) >>= fun start =>
      let length := stop - start
      let regular_at := if at_ < 0 then at_ + length else at_
      if ¬ (0 ≤ regular_at ∧ regular_at < length) then err "index out of range"
      else ok (start + regular_at)) >>= fun x => wr tocarry (i : Int) x) tocarry

/-- src/cpu-kernels/awkward_ListArray_getitem_next_range_carrylength.cpp:9-37. -/
def ListArray_getitem_next_range_carrylength (fromstarts fromstops : List Int) (lenstarts : Nat)
    (start stop step : Int) : R Int :=
  forN lenstarts (fun i carrylength =>
    rd fromstops (i : Int) >>= fun stopi => rd fromstarts (i : Int) >>= fun starti =>
    let r := regularize_rangeslice start stop (decide (step > 0)) (start != kSliceNone)
      (stop != kSliceNone) (stopi - starti)
    forStep (decide (step > 0)) r.1 r.2 step (fun _ carrylength => ok (carrylength + 1)) carrylength)
    0

/-- src/cpu-kernels/awkward_ListArray_getitem_next_range.cpp:9-51. The state is `(tooffsets,
tocarry, k)`. -/
def ListArray_getitem_next_range (tooffsets tocarry fromstarts fromstops : List Int)
    (lenstarts : Nat) (start stop step : Int) : R (List Int × List Int) :=
  wr tooffsets 0 0 >>= fun tooffsets =>
  forN lenstarts (fun i (st : List Int × List Int × Int) =>
    rd fromstops (i : Int) >>= fun stopi => rd fromstarts (i : Int) >>= fun starti =>
    let r := regularize_rangeslice start stop (decide (step > 0)) (start != kSliceNone)
      (stop != kSliceNone) (stopi - starti)
    forStep (decide (step > 0)) r.1 r.2 step (fun j (ck : List Int × Int) =>
      wr ck.1 ck.2 (starti + j) >>= fun tocarry => ok (tocarry, ck.2 + 1)) (st.2.1, st.2.2)
      >>= fun ck =>
    wr st.1 ((i + 1 : Nat) : Int) ck.2 >>= fun tooffsets => ok (tooffsets, ck.1, ck.2))
    (tooffsets, tocarry, 0) >>= fun st => ok (st.1, st.2.1)

/-- src/cpu-kernels/awkward_ListArray_getitem_next_range_counts.cpp:8-17. -/
def ListArray_getitem_next_range_counts (fromoffsets : List Int) (lenstarts : Nat) : R Int :=
  forN lenstarts (fun i total =>
    rd fromoffsets ((i + 1 : Nat) : Int) >>= fun hi => rd fromoffsets (i : Int) >>= fun lo =>
    ok (total + hi - lo)) 0

/-- src/cpu-kernels/awkward_ListArray_getitem_next_range_spreadadvanced.cpp:8-20. -/
def ListArray_getitem_next_range_spreadadvanced (toadvanced fromadvanced fromoffsets : List Int)
    (lenstarts : Nat) : R (List Int) :=
  forN lenstarts (fun i toadvanced =>
    rd fromoffsets ((i + 1 : Nat) : Int) >>= fun hi => rd fromoffsets (i : Int) >>= fun lo =>
    forI (hi - lo) (fun j toadvanced =>
      rd fromadvanced (i : Int) >>= fun x => wr toadvanced (lo + j) x) toadvanced) toadvanced

/-- The two checks and the regularisation shared by the next two kernels
(awkward_ListArray_getitem_next_array.cpp:18-33): the position in the content of item `at_` of
the list `[start, stop)`. -/
def listArrayAt (start stop : Int) (lencontent : Nat) (at_ : Int) : R Int :=
  let length := stop - start
  let regular_at := if at_ < 0 then at_ + length else at_
  if ¬ (0 ≤ regular_at ∧ regular_at < length) then err "index out of range"
  else ok (start + regular_at)

/-- awkward_ListArray_getitem_next_array.cpp:18-24. -/
def listArrayCheck (start stop : Int) (lencontent : Nat) : R Unit :=
  if stop < start then err "stops[i] < starts[i]"
  else if start ≠ stop ∧ stop > lencontent then err "stops[i] > len(content)"
  else ok ()

/-- src/cpu-kernels/awkward_ListArray_getitem_next_array.cpp:8-39; returns `(tocarry, toadvanced)`. -/
def ListArray_getitem_next_array (tocarry toadvanced fromstarts fromstops fromarray : List Int)
    (lenstarts lenarray lencontent : Nat) : R (List Int × List Int) :=
  forN lenstarts (fun i st =>
    rd fromstarts (i : Int) >>= fun start => rd fromstops (i : Int) >>= fun stop =>
    listArrayCheck start stop lencontent >>= fun _ =>
    forN lenarray (fun j st =>
      (rd fromarray (j : Int) >>= fun a => listArrayAt start stop lencontent a) >>= fun x =>
      wr st.1 ((i * lenarray + j : Nat) : Int) x >>= fun tocarry =>
      wr st.2 ((i * lenarray + j : Nat) : Int) (j : Int) >>= fun toadvanced =>
      ok (tocarry, toadvanced)) st) (tocarry, toadvanced)

/-- src/cpu-kernels/awkward_ListArray_getitem_next_array_advanced.cpp:8-38; returns
`(tocarry, toadvanced)`. -/
def ListArray_getitem_next_array_advanced
    (tocarry toadvanced fromstarts fromstops fromarray fromadvanced : List Int)
    (lenstarts lencontent : Nat) : R (List Int × List Int) :=
  forN lenstarts (fun i st =>
    (rd fromstarts (i : Int) >>= fun start => rd fromstops (i : Int) >>= fun stop =>
    listArrayCheck start stop lencontent >>= fun _ =>
    rd fromadvanced (i : Int) >>= fun k => rd fromarray k >>= fun a =>
    listArrayAt start stop lencontent a) >>= fun x =>
    wr st.1 (i : Int) x >>= fun tocarry =>
    wr st.2 (i : Int) (i : Int) >>= fun toadvanced => ok (tocarry, toadvanced))
    (tocarry, toadvanced)

/-- src/cpu-kernels/awkward_RegularArray_getitem_next_at.cpp:8-24. -/
def RegularArray_getitem_next_at (tocarry : List Int) (at_ : Int) (length size : Nat) :
    R (List Int) :=
  let regular_at := if at_ < 0 then at_ + size else at_
  if ¬ (0 ≤ regular_at ∧ regular_at < size) then err "index out of range"
  else forN length (fun i tocarry =>
    ok ((i : Int) * size + regular_at) >>= fun x => wr tocarry (i : Int) x) tocarry

/-- src/cpu-kernels/awkward_RegularArray_getitem_next_range_spreadadvanced.cpp:8-19. -/
def RegularArray_getitem_next_range_spreadadvanced (toadvanced fromadvanced : List Int)
    (length nextsize : Nat) : R (List Int) :=
  forN length (fun i toadvanced =>
    forN nextsize (fun j toadvanced =>
      rd fromadvanced (i : Int) >>= fun x =>
      wr toadvanced ((i * nextsize + j : Nat) : Int) x) toadvanced) toadvanced

/-- src/cpu-kernels/awkward_RegularArray_getitem_next_array_regularize.cpp:8-23. -/
def RegularArray_getitem_next_array_regularize (toarray fromarray : List Int) (lenarray size : Nat) :
    R (List Int) :=
  forN lenarray (fun j toarray =>
    (rd fromarray (j : Int) >>= fun a =>
      let a' := if a < 0 then a + size else a
      if ¬ (0 ≤ a' ∧ a' < size) then err "index out of range" else ok a') >>= fun x =>
    wr toarray (j : Int) x) toarray

/-- src/cpu-kernels/awkward_RegularArray_getitem_next_array.cpp:8-22; returns
`(tocarry, toadvanced)`. -/
def RegularArray_getitem_next_array (tocarry toadvanced fromarray : List Int)
    (length lenarray size : Nat) : R (List Int × List Int) :=
  forN length (fun i st =>
    forN lenarray (fun j st =>
      (rd fromarray (j : Int) >>= fun a => ok ((i : Int) * size + a)) >>= fun x =>
      wr st.1 ((i * lenarray + j : Nat) : Int) x >>= fun tocarry =>
      wr st.2 ((i * lenarray + j : Nat) : Int) (j : Int) >>= fun toadvanced =>
      ok (tocarry, toadvanced)) st) (tocarry, toadvanced)

/-- src/cpu-kernels/awkward_RegularArray_getitem_next_array_advanced.cpp:8-21; returns
`(tocarry, toadvanced)`. -/
def RegularArray_getitem_next_array_advanced
    (tocarry toadvanced fromadvanced fromarray : List Int) (length size : Nat) :
    R (List Int × List Int) :=
  forN length (fun i st =>
    (rd fromadvanced (i : Int) >>= fun k => rd fromarray k >>= fun a =>
      ok ((i : Int) * size + a)) >>= fun x =>
    wr st.1 (i : Int) x >>= fun tocarry =>
    wr st.2 (i : Int) (i : Int) >>= fun toadvanced => ok (tocarry, toadvanced))
    (tocarry, toadvanced)

namespace Content

/-- Content.cpp:1871-1895 `getitem_next_array_wrap`: one RegularArray per dimension of the
index array, the last dimension innermost. The length passed for a dimension of size zero is the
size of the dimension outside of it, and zero for the outermost. -/
def arrayWrap (out : Content) : Nat → List Nat → Content
  | _, [] => out
  | outer, n :: ns => regular {} (arrayWrap out n ns) n outer

/-- The rest of the slice, applied to the next content. -/
abbrev Cont := Adv → Content → R Content

/-- RegularArray.cpp:1343-1366 `getitem_next(SliceAt)`. -/
def regularAt (i : Int) (k : Cont) (adv : Adv) (c : Content) (size length : Nat) : R Content :=
  if adv.isSome then err "RegularArray::getitem_next(SliceAt): !advanced.is_empty_advanced()"
  else
    RegularArray_getitem_next_at (alloc length) i length size >>= fun nextcarry =>
    c.carry true nextcarry >>= fun nextcontent => k adv nextcontent

/-- RegularArray.cpp:1368-1443 `getitem_next(SliceRange)`. -/
def regularRange (start stop : Option Int) (step : Int) (k : Cont) (adv : Adv) (p : Params)
    (c : Content) (size length : Nat) : R Content :=
  regular_range_carry length size (sliceArg start) (sliceArg stop) step >>= fun nc =>
  c.carry true nc.2 >>= fun nextcontent =>
  (if adv.isFirst then ok adv
    else RegularArray_getitem_next_range_spreadadvanced (alloc (length * nc.1)) (adv.getD [])
      length nc.1.toNat >>= fun a => ok (some a)) >>= fun nextadvanced =>
  k nextadvanced nextcontent >>= fun out => ok (regular p out nc.1.toNat length)

/-- RegularArray.cpp:1445-1520 `getitem_next(SliceArray64)`. -/
def regularArray (shape : List Nat) (flat : List Int) (k : Cont) (adv : Adv) (c : Content)
    (size length : Nat) : R Content :=
  RegularArray_getitem_next_array_regularize (alloc flat.length) flat flat.length size >>= fun reg =>
  if adv.isFirst then
    RegularArray_getitem_next_array (alloc (length * flat.length)) (alloc (length * flat.length))
      reg length reg.length size >>= fun ca =>
    c.carry true ca.1 >>= fun nextcontent =>
    k (some ca.2) nextcontent >>= fun out =>
    ok (if adv.isNone then arrayWrap out 0 shape else out)
  else if size = 0 then
    c.carry true [] >>= fun nextcontent => k (some []) nextcontent
  else
    RegularArray_getitem_next_array_advanced (alloc length) (alloc length) (adv.getD []) reg
      length size >>= fun ca =>
    c.carry true ca.1 >>= fun nextcontent => k (some ca.2) nextcontent

/-- ListArray.cpp:1580-1613 and ListOffsetArray.cpp:2097-2125 `getitem_next(SliceAt)`. -/
def listAt (i : Int) (k : Cont) (adv : Adv) (starts stops : List Int) (length : Nat)
    (c : Content) : R Content :=
  if adv.isSome then err "ListArray::getitem_next(SliceAt): !advanced.is_empty_advanced()"
  else
    ListArray_getitem_next_at (alloc length) starts stops length i >>= fun nextcarry =>
    c.carry true nextcarry >>= fun nextcontent => k adv nextcontent

/-- ListArray.cpp:1615-1692 and ListOffsetArray.cpp:2127-2198 `getitem_next(SliceRange)`. -/
def listRange (start stop : Option Int) (step : Int) (k : Cont) (adv : Adv) (p : Params)
    (starts stops : List Int) (length : Nat) (c : Content) : R Content :=
  ListArray_getitem_next_range_carrylength starts stops length (sliceArg start) (sliceArg stop)
    step >>= fun carrylength =>
  ListArray_getitem_next_range (alloc (length + 1)) (alloc carrylength) starts stops length
    (sliceArg start) (sliceArg stop) step >>= fun oc =>
  c.carry true oc.2 >>= fun nextcontent =>
  (if adv.isFirst then ok adv
    else ListArray_getitem_next_range_counts oc.1 length >>= fun total =>
      ListArray_getitem_next_range_spreadadvanced (alloc total) (adv.getD []) oc.1 length
        >>= fun a => ok (some a)) >>= fun nextadvanced =>
  k nextadvanced nextcontent >>= fun out => ok (listOffset p oc.1 out)

/-- ListArray.cpp:1694-1764 and ListOffsetArray.cpp:2200-2270 `getitem_next(SliceArray64)`. -/
def listArrayItem (shape : List Nat) (flat : List Int) (k : Cont) (adv : Adv)
    (starts stops : List Int) (length : Nat) (c : Content) : R Content :=
  if adv.isFirst then
    ListArray_getitem_next_array (alloc (length * flat.length)) (alloc (length * flat.length))
      starts stops flat length flat.length c.len >>= fun ca =>
    c.carry true ca.1 >>= fun nextcontent =>
    k (some ca.2) nextcontent >>= fun out =>
    ok (if adv.isNone then arrayWrap out 0 shape else out)
  else
    ListArray_getitem_next_array_advanced (alloc length) (alloc length) starts stops flat
      (adv.getD []) length c.len >>= fun ca =>
    c.carry true ca.1 >>= fun nextcontent => k (some ca.2) nextcontent

/-- Slice.cpp:46-363 `preserves_type`. -/
def preservesType (adv : Adv) : SliceItem → Bool
  | .range .. => true
  | .array .. => adv.isFirst
  | _ => false

/-- One item of the slice on a list node whose lists are `[starts[i], stops[i])`. -/
def listNext (it : SliceItem) (k : Cont) (adv : Adv) (p : Params) (starts stops : List Int)
    (length : Nat) (c : Content) : R Content :=
  match it with
  | .at i => listAt i k adv starts stops length c
  | .range start stop step => listRange start stop step k adv p starts stops length c
  | .array shape flat => listArrayItem shape flat k adv starts stops length c
  | .newaxis => err "not a list item"

/-- One item of the slice on a RegularArray of the given size and length. -/
def regularNext (it : SliceItem) (k : Cont) (adv : Adv) (p : Params) (c : Content)
    (size length : Nat) : R Content :=
  match it with
  | .at i => regularAt i k adv c size length
  | .range start stop step => regularRange start stop step k adv p c size length
  | .array shape flat => regularArray shape flat k adv c size length
  | .newaxis => err "not a list item"

/-- Content.cpp:1505-1518 `getitem_next(SliceNewAxis)`. -/
def newaxisWrap (nextcontent : Content) : Content := regular {} nextcontent 1 nextcontent.len

/-- `getitem_next` of each class for the head `it`, with the tail as a continuation:
EmptyArray.cpp:640-680, NumpyArray.cpp:4284-4310 (one dimension), RegularArray.cpp:1343-1520,
ListArray.cpp:1580-1764, ListOffsetArray.cpp:2097-2270, IndexedArray.cpp:1374-1443,
ByteMaskedArray.cpp:706-756, BitMaskedArray.cpp:732-737, UnmaskedArray.cpp:592-636,
RecordArray.cpp:1663-1701 (every field with an empty tail, then the tail on the record). -/
def stepF (it : SliceItem) : Nat → Cont → Adv → Content → R Content
  | 0, _, _, _ => ub
  | f + 1, k, adv, self => match self with
    | record p keys cs _ =>
      mapR (stepF it f (fun _ c => ok c) adv) cs >>= fun cs' =>
      k adv (recordOfContents (if preservesType adv it then p else {}) keys 0 cs')
    | self =>
      if it = .newaxis then k adv self >>= fun next => ok (newaxisWrap next)
      else match self with
        | empty _ => err "too many dimensions in slice"
        | numpy .. => err "too many dimensions in slice"
        | regular p c size _ => regularNext it k adv p c size self.len
        | listArray p starts stops c =>
          if stops.length < starts.length then err "len(stops) < len(starts)"
          else listNext it k adv p starts stops starts.length c
        | listOffset p offsets c =>
          listNext it k adv p (makeStarts offsets) (makeStops offsets) (offsets.length - 1) c
        | indexed .. => self.project >>= fun next => stepF it f k adv next
        | indexedOption p _ c | byteMasked p _ _ c =>
          self.nextcarryOutindex >>= fun nco =>
          c.carry true nco.2.1 >>= fun next => stepF it f k adv next >>= fun out =>
          indexedSimplify true p nco.2.2 out
        | bitMasked .. => self.toByteMasked >>= fun c' => stepF it f k adv c'
        | unmasked p c => stepF it f k adv c >>= fun out => simplifyOption (unmasked p out)
        | _ => err "union: simplify_uniontype is not modelled here"

/-- `getitem_next` for a whole slice (`head` and `tail`). -/
def next : List SliceItem → Cont
  | [] => fun _ c => ok c
  | it :: rest => fun adv c => stepF it (2 * c.rank) (next rest) adv c

/-- `getitem_nothing`, for the node that `getitem` can meet when an index array is empty:
RegularArray.cpp `getitem_nothing` is `content_.getitem_range_nowrap(0, 0)`. -/
def getitemNothing : Content → R Item
  | regular _ c _ _ => c.range 0 0 >>= fun c' => ok (.array c')
  | _ => err "getitem_nothing"

/-- The array seen as one list: RegularArray(self, size = length, zeros_length = 1). -/
def wrapped (c : Content) : Content := regular {} c c.len 1

/-- Content.cpp:1369-1389 `Content::getitem`. -/
def getitem (items : List SliceItem) (c : Content) : R Item :=
  next (items.map SliceItem.constructed) none c.wrapped >>= fun out =>
  if out.len = 0 then getitemNothing out else out.getitemAtNowrap 0

end Content

/-- src/cpu-kernels/awkward_NumpyArray_getitem_boolean_numtrue.cpp:6-16. -/
def NumpyArray_getitem_boolean_numtrue (fromptr : List Int) (length stride : Int) : R Int :=
  forStep true 0 length stride (fun i numtrue =>
    rd fromptr i >>= fun x => ok (numtrue + if x ≠ 0 then 1 else 0)) 0

/-- src/cpu-kernels/awkward_NumpyArray_getitem_boolean_nonzero.cpp:6-20. -/
def NumpyArray_getitem_boolean_nonzero (toptr fromptr : List Int) (length stride : Int) :
    R (List Int) :=
  forStep true 0 length stride (fun i (ck : List Int × Int) =>
    rd fromptr i >>= fun x =>
    if x ≠ 0 then wr ck.1 ck.2 i >>= fun toptr => ok (toptr, ck.2 + 1) else ok ck) (toptr, 0)
    >>= fun ck => ok ck.1

/-- NumpyArray.cpp:3097-3119 `asslice` of an array of booleans (one byte each). A boolean NumPy
array used directly as a slice goes through `numpy.nonzero` instead
(src/python/content.cpp:566-594), which finds the same positions. -/
def maskSlice (data : List Int) (length stride : Int) : R SliceItem :=
  NumpyArray_getitem_boolean_numtrue data length stride >>= fun numtrue =>
  NumpyArray_getitem_boolean_nonzero (alloc numtrue) data length stride >>= fun index =>
  ok (.array [numtrue.toNat] index)

/-- src/cpu-kernels/awkward_slicearray_ravel.cpp:6-33. The pointers are given as positions in
their buffers: `to` is where `&toptr[0]` lies, `frm` where `&fromptr[0]` lies. Without dimensions
the code reads `shape[0]` out of bounds. -/
def slicearray_ravel (fromptr : List Int) : List Nat → List Int → (to frm : Int) → List Int →
    R (List Int)
  | [n], s :: _, to, frm, toptr =>
    forN n (fun i toptr =>
      rd fromptr (frm + (i : Int) * s) >>= fun x => wr toptr (to + (i : Int)) x) toptr
  | n :: m :: shape, s :: strides, to, frm, toptr =>
    forN n (fun i toptr => slicearray_ravel fromptr (m :: shape) strides
      (to + (i : Int) * (m : Int)) (frm + (i : Int) * s) toptr) toptr
  | _, _, _, _, _ => ub

/-- Slice.cpp:379-405 `SliceArrayOf::ravel`: the entries of an index array with the given shape
and strides, whose first entry lies at position `offset` of its buffer. -/
def ravel (data : List Int) (offset : Int) (shape : List Nat) (strides : List Int) : R (List Int) :=
  slicearray_ravel data shape strides 0 offset (alloc (shape.prod : Nat))

end Awk
