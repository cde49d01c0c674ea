import Verif.Model.Option
/-
Model of the list-node operations: compact offsets, conversion between the three list
classes, `num`, `flatten` at axis 1, `localindex` and `rpad`/`rpad_and_clip`.

Simplifications, common to this file:
* an axis is a natural number relative to the node (`posaxis - depth` in the C++ code); negative
  axes (Content.cpp:1686-1711 `axis_wrap_if_negative`) are not modelled;
* functions that recurse through `project()` or `carry` take a fuel argument; running out of fuel
  is `ub`. `Props/List.lean` shows that the top-level fuel is always enough;
* `num` and `rpad` of a UnionArray call `simplify_uniontype`, which is not modelled here; they
  raise instead.
-/

namespace Awk
open R

namespace Content

mutual
/-- A bound on the number of nested calls that the recursive operations make; it is the fuel
of the top-level calls and models nothing in the code. -/
def rank : Content → Nat
  | empty _ => 1
  | numpy _ _ _ => 1
  | regular _ c _ _ => c.rank + 2
  | listArray _ _ _ c => c.rank + 2
  | listOffset _ _ c => c.rank + 2
  | indexed _ _ c => c.rank + 1
  | indexedOption _ _ c => c.rank + 2
  | byteMasked _ _ _ c => c.rank + 2
  | bitMasked _ _ _ _ _ c => c.rank + 3
  | unmasked _ c => c.rank + 1
  | record _ _ cs _ => rankAll cs + 1
  | union _ _ _ cs => rankAll cs + 1
/-- The largest `rank` of the members. -/
def rankAll : List Content → Nat
  | [] => 0
  | c :: cs => max c.rank (rankAll cs)
end

end Content

/-- A loop over a `std::vector` of contents that builds another vector. -/
def mapR (f : α → R β) : List α → R (List β)
  | [] => ok []
  | a :: as => f a >>= fun b => mapR f as >>= fun bs => ok (b :: bs)

/-- src/cpu-kernels/awkward_ListArray_compact_offsets.cpp:8-23. -/
def ListArray_compact_offsets (tooffsets fromstarts fromstops : List Int) (length : Nat) :
    R (List Int) :=
  wr tooffsets 0 0 >>= fun tooffsets =>
  forN length (fun i tooffsets =>
    rd fromstarts (i : Int) >>= fun start => rd fromstops (i : Int) >>= fun stop =>
    if stop < start then err "stops[i] < starts[i]"
    else rd tooffsets (i : Int) >>= fun x => wr tooffsets ((i + 1 : Nat) : Int) (x + (stop - start)))
    tooffsets

/-- src/cpu-kernels/awkward_ListOffsetArray_compact_offsets.cpp:8-18. -/
def ListOffsetArray_compact_offsets (tooffsets fromoffsets : List Int) (length : Nat) :
    R (List Int) :=
  rd fromoffsets 0 >>= fun diff =>
  wr tooffsets 0 0 >>= fun tooffsets =>
  forN length (fun i tooffsets =>
    rd fromoffsets ((i + 1 : Nat) : Int) >>= fun x =>
    wr tooffsets ((i + 1 : Nat) : Int) (x - diff)) tooffsets

/-- src/cpu-kernels/awkward_RegularArray_compact_offsets.cpp:8-17. -/
def RegularArray_compact_offsets (tooffsets : List Int) (length size : Nat) : R (List Int) :=
  wr tooffsets 0 0 >>= fun tooffsets =>
  forN length (fun i tooffsets =>
    wr tooffsets ((i + 1 : Nat) : Int) (((i + 1) * size : Nat) : Int)) tooffsets

/-- src/cpu-kernels/awkward_ListArray_broadcast_tooffsets.cpp:8-35; the state is
`(k, tocarry)`. -/
def ListArray_broadcast_tooffsets (tocarry fromoffsets : List Int) (offsetslength : Nat)
    (fromstarts fromstops : List Int) (lencontent : Nat) : R (List Int) :=
  forN (offsetslength - 1) (fun i st =>
    rd fromstarts (i : Int) >>= fun start => rd fromstops (i : Int) >>= fun stop =>
    if start ≠ stop ∧ stop > lencontent then err "stops[i] > len(content)"
    else
      rd fromoffsets ((i + 1 : Nat) : Int) >>= fun hi => rd fromoffsets (i : Int) >>= fun lo =>
      let count := hi - lo
      if count < 0 then err "broadcast's offsets must be monotonically increasing"
      else if stop - start ≠ count then err "cannot broadcast nested list"
      else forFrom start stop (fun j st => pushOpt st (some j)) st) (0, tocarry)
    >>= fun st => ok st.2

/-- src/cpu-kernels/awkward_RegularArray_broadcast_tooffsets.cpp:8-22. -/
def RegularArray_broadcast_tooffsets (fromoffsets : List Int) (offsetslength size : Nat) :
    R Unit :=
  forN (offsetslength - 1) (fun i _ =>
    rd fromoffsets ((i + 1 : Nat) : Int) >>= fun hi => rd fromoffsets (i : Int) >>= fun lo =>
    let count := hi - lo
    if count < 0 then err "broadcast's offsets must be monotonically increasing"
    else if (size : Int) ≠ count then err "cannot broadcast nested list"
    else ok ()) ()

/-- src/cpu-kernels/awkward_RegularArray_broadcast_tooffsets_size1.cpp:8-24; the state is
`(k, tocarry)`. -/
def RegularArray_broadcast_tooffsets_size1 (tocarry fromoffsets : List Int)
    (offsetslength : Nat) : R (List Int) :=
  forN (offsetslength - 1) (fun i st =>
    rd fromoffsets ((i + 1 : Nat) : Int) >>= fun hi => rd fromoffsets (i : Int) >>= fun lo =>
    let count := hi - lo
    if count < 0 then err "broadcast's offsets must be monotonically increasing"
    else forFrom 0 count (fun _ st => pushOpt st (some (i : Int))) st) (0, tocarry)
    >>= fun st => ok st.2

/-- src/cpu-kernels/awkward_ListArray_num.cpp:8-19. -/
def ListArray_num (tonum fromstarts fromstops : List Int) (length : Nat) : R (List Int) :=
  forN length (fun i tonum =>
    (rd fromstarts (i : Int) >>= fun start => rd fromstops (i : Int) >>= fun stop =>
      ok (stop - start)) >>= fun x => wr tonum (i : Int) x) tonum

/-- src/cpu-kernels/awkward_RegularArray_num.cpp:8-16. -/
def RegularArray_num (tonum : List Int) (size length : Nat) : R (List Int) :=
  forN length (fun i tonum => (ok (size : Int)) >>= fun x => wr tonum (i : Int) x) tonum

/-- src/cpu-kernels/awkward_IndexedArray_flatten_none2empty.cpp:8-33; `k` is always `i + 1`. -/
def IndexedArray_flatten_none2empty (outoffsets outindex : List Int) (outindexlength : Nat)
    (offsets : List Int) (offsetslength : Nat) : R (List Int) :=
  rd offsets 0 >>= fun x => wr outoffsets 0 x >>= fun outoffsets =>
  forN outindexlength (fun i outoffsets =>
    rd outindex (i : Int) >>= fun idx =>
    if idx < 0 then
      rd outoffsets (i : Int) >>= fun x => wr outoffsets ((i + 1 : Nat) : Int) x
    else if idx + 1 ≥ offsetslength then err "flattening offset out of range"
    else
      rd offsets (idx + 1) >>= fun hi => rd offsets idx >>= fun lo =>
      rd outoffsets (i : Int) >>= fun x => wr outoffsets ((i + 1 : Nat) : Int) (x + (hi - lo)))
    outoffsets

/-- src/cpu-kernels/awkward_UnionArray_flatten_length.cpp:8-23. -/
def UnionArray_flatten_length (fromtags fromindex : List Int) (length : Nat)
    (offsetsraws : List (List Int)) : R Int :=
  forN length (fun i total_length =>
    rd fromtags (i : Int) >>= fun tag => rd fromindex (i : Int) >>= fun idx =>
    rd offsetsraws tag >>= fun offsets =>
    rd offsets idx >>= fun start => rd offsets (idx + 1) >>= fun stop =>
    ok (total_length + (stop - start))) 0

/-- src/cpu-kernels/awkward_UnionArray_flatten_combine.cpp:12-35; the state is
`(tooffsets, k, (totags, toindex))` and the pair of output buffers of the same length is one
buffer of pairs. -/
def UnionArray_flatten_combine (toboth : List (Int × Int)) (tooffsets fromtags fromindex : List Int)
    (length : Nat) (offsetsraws : List (List Int)) : R (List Int × List (Int × Int)) :=
  wr tooffsets 0 0 >>= fun tooffsets =>
  forN length (fun i st =>
    rd fromtags (i : Int) >>= fun tag => rd fromindex (i : Int) >>= fun idx =>
    rd offsetsraws tag >>= fun offsets =>
    rd offsets idx >>= fun start => rd offsets (idx + 1) >>= fun stop =>
    rd st.1 (i : Int) >>= fun x =>
    wr st.1 ((i + 1 : Nat) : Int) (x + (stop - start)) >>= fun tooffsets =>
    forFrom start stop (fun j st => pushOpt st (some (tag, j))) st.2 >>= fun st' =>
    ok (tooffsets, st')) (tooffsets, (0, toboth))
    >>= fun st => ok (st.1, st.2.2)

/-- src/cpu-kernels/awkward_ListArray_localindex.cpp:8-20. -/
def ListArray_localindex (toindex offsets : List Int) (length : Nat) : R (List Int) :=
  forN length (fun i toindex =>
    rd offsets (i : Int) >>= fun start => rd offsets ((i + 1 : Nat) : Int) >>= fun stop =>
    forFrom start stop (fun j toindex => wr toindex j (j - start)) toindex) toindex

/-- src/cpu-kernels/awkward_RegularArray_localindex.cpp:8-18. -/
def RegularArray_localindex (toindex : List Int) (size length : Nat) : R (List Int) :=
  forN length (fun i toindex =>
    forN size (fun j toindex =>
      (ok (j : Int)) >>= fun x => wr toindex ((i * size + j : Nat) : Int) x) toindex) toindex

/-- src/cpu-kernels/awkward_localindex.cpp:8-15. -/
def localindex_kernel (toindex : List Int) (length : Nat) : R (List Int) :=
  forN length (fun i toindex => (ok (i : Int)) >>= fun x => wr toindex (i : Int) x) toindex

/-- src/cpu-kernels/awkward_ListOffsetArray_toRegularArray.cpp:8-29. -/
def ListOffsetArray_toRegularArray (fromoffsets : List Int) (offsetslength : Nat) : R Int :=
  forN (offsetslength - 1) (fun i size =>
    rd fromoffsets ((i + 1 : Nat) : Int) >>= fun hi => rd fromoffsets (i : Int) >>= fun lo =>
    let count := hi - lo
    if count < 0 then err "offsets must be monotonically increasing"
    else if size = -1 then ok count
    else if size ≠ count then err "cannot convert to RegularArray because subarray lengths are not regular"
    else ok size) (-1)
    >>= fun size => ok (if size = -1 then 0 else size)

/-- src/cpu-kernels/awkward_IndexedArray_getitem_nextcarry_outindex.cpp:8-30; the state is
`((k, tocarry), toindex)`. -/
def IndexedArray_getitem_nextcarry_outindex (tocarry toindex fromindex : List Int)
    (lenindex lencontent : Nat) : R (List Int × List Int) :=
  forN lenindex (fun i st =>
    rd fromindex (i : Int) >>= fun j =>
    if j ≥ lencontent then err "index out of range"
    else if j < 0 then wr st.2 (i : Int) (-1) >>= fun toindex => ok (st.1, toindex)
    else
      pushOpt st.1 (some j) >>= fun kc =>
      wr st.2 (i : Int) (st.1.1 : Int) >>= fun toindex => ok (kc, toindex))
    ((0, tocarry), toindex)
    >>= fun st => ok (st.1.2, st.2)

/-- src/cpu-kernels/awkward_ByteMaskedArray_getitem_nextcarry_outindex.cpp:8-26; the state is
`((k, tocarry), outindex)`. -/
def ByteMaskedArray_getitem_nextcarry_outindex (tocarry outindex mask : List Int)
    (length : Nat) (validwhen : Bool) : R (List Int × List Int) :=
  forN length (fun i st =>
    rd mask (i : Int) >>= fun m =>
    if decide (m ≠ 0) = validwhen then
      pushOpt st.1 (some (i : Int)) >>= fun kc =>
      wr st.2 (i : Int) (st.1.1 : Int) >>= fun outindex => ok (kc, outindex)
    else wr st.2 (i : Int) (-1) >>= fun outindex => ok (st.1, outindex))
    ((0, tocarry), outindex)
    >>= fun st => ok (st.1.2, st.2)

/-- src/cpu-kernels/awkward_ListArray_min_range.cpp:8-20: the first element is read before the
loop. -/
def ListArray_min_range (fromstarts fromstops : List Int) (lenstarts : Nat) : R Int :=
  rd fromstops 0 >>= fun stop => rd fromstarts 0 >>= fun start =>
  forFrom 1 lenstarts (fun i shorter =>
    rd fromstops i >>= fun stop => rd fromstarts i >>= fun start =>
    let rangeval := stop - start
    ok (if shorter < rangeval then shorter else rangeval)) (stop - start)

/-- src/cpu-kernels/awkward_ListArray_rpad_and_clip_length_axis1.cpp:8-21. -/
def ListArray_rpad_and_clip_length_axis1 (fromstarts fromstops : List Int) (target : Int)
    (lenstarts : Nat) : R Int :=
  forN lenstarts (fun i length =>
    rd fromstops (i : Int) >>= fun stop => rd fromstarts (i : Int) >>= fun start =>
    let rangeval := stop - start
    ok (length + (if target > rangeval then target else rangeval))) 0

/-- src/cpu-kernels/awkward_ListArray_rpad_axis1.cpp:8-30; the state is
`(offset, toindex, tostarts, tostops)`. -/
def ListArray_rpad_axis1 (toindex fromstarts fromstops tostarts tostops : List Int)
    (target : Int) (length : Nat) : R (List Int × List Int × List Int) :=
  forN length (fun i st =>
    let offset := st.1
    wr st.2.2.1 (i : Int) offset >>= fun tostarts =>
    rd fromstops (i : Int) >>= fun stop => rd fromstarts (i : Int) >>= fun start =>
    let rangeval := stop - start
    forFrom 0 rangeval (fun j toindex => wr toindex (offset + j) (start + j)) st.2.1
      >>= fun toindex =>
    forFrom rangeval target (fun j toindex => wr toindex (offset + j) (-1)) toindex
      >>= fun toindex =>
    let offset' := if target > rangeval then offset + target else offset + rangeval
    wr st.2.2.2 (i : Int) offset' >>= fun tostops =>
    ok (offset', toindex, tostarts, tostops)) (0, toindex, tostarts, tostops)
    >>= fun st => ok st.2

/-- src/cpu-kernels/awkward_ListOffsetArray_rpad_length_axis1.cpp:8-26; the result is
`(tooffsets, tolength)`. -/
def ListOffsetArray_rpad_length_axis1 (tooffsets fromoffsets : List Int) (fromlength : Nat)
    (target : Int) : R (List Int × Int) :=
  wr tooffsets 0 0 >>= fun tooffsets =>
  forN fromlength (fun i st =>
    rd fromoffsets ((i + 1 : Nat) : Int) >>= fun hi => rd fromoffsets (i : Int) >>= fun lo =>
    let rangeval := hi - lo
    let longer := if target < rangeval then rangeval else target
    rd st.1 (i : Int) >>= fun x => wr st.1 ((i + 1 : Nat) : Int) (x + longer) >>= fun tooffsets =>
    ok (tooffsets, st.2 + longer)) (tooffsets, 0)

/-- src/cpu-kernels/awkward_ListOffsetArray_rpad_axis1.cpp:8-27; the state is
`(count, toindex)`. -/
def ListOffsetArray_rpad_axis1 (toindex fromoffsets : List Int) (fromlength : Nat)
    (target : Int) : R (List Int) :=
  forN fromlength (fun i st =>
    rd fromoffsets ((i + 1 : Nat) : Int) >>= fun hi => rd fromoffsets (i : Int) >>= fun lo =>
    let rangeval := hi - lo
    forFrom 0 rangeval (fun j st => pushOpt st (some (lo + j))) st >>= fun st =>
    forFrom rangeval target (fun _ st => pushOpt st (some (-1))) st) (0, toindex)
    >>= fun st => ok st.2

/-- src/cpu-kernels/awkward_ListOffsetArray_rpad_and_clip_axis1.cpp:8-24. -/
def ListOffsetArray_rpad_and_clip_axis1 (toindex fromoffsets : List Int) (length : Nat)
    (target : Int) : R (List Int) :=
  forN length (fun i toindex =>
    rd fromoffsets ((i + 1 : Nat) : Int) >>= fun hi => rd fromoffsets (i : Int) >>= fun lo =>
    let rangeval := hi - lo
    let shorter := if target < rangeval then target else rangeval
    forFrom 0 shorter (fun j toindex => wr toindex ((i : Int) * target + j) (lo + j)) toindex
      >>= fun toindex =>
    forFrom shorter target (fun j toindex => wr toindex ((i : Int) * target + j) (-1)) toindex)
    toindex

/-- src/cpu-kernels/awkward_RegularArray_rpad_and_clip_axis1.cpp:8-23. -/
def RegularArray_rpad_and_clip_axis1 (toindex : List Int) (target size : Int) (length : Nat) :
    R (List Int) :=
  let shorter := if target < size then target else size
  forN length (fun i toindex =>
    forFrom 0 shorter
      (fun j toindex => wr toindex ((i : Int) * target + j) ((i : Int) * size + j)) toindex
      >>= fun toindex =>
    forFrom shorter target (fun j toindex => wr toindex ((i : Int) * target + j) (-1)) toindex)
    toindex

/-- src/cpu-kernels/awkward_index_rpad_and_clip_axis0.cpp:8-20. -/
def index_rpad_and_clip_axis0 (toindex : List Int) (target length : Int) : R (List Int) :=
  let shorter := if target < length then target else length
  forFrom 0 shorter (fun i toindex => wr toindex i i) toindex >>= fun toindex =>
  forFrom shorter target (fun i toindex => wr toindex i (-1)) toindex

/-- src/cpu-kernels/awkward_IndexedOptionArray_rpad_and_clip_mask_axis1.cpp:8-23; the state is
`(count, toindex)`. -/
def IndexedOptionArray_rpad_and_clip_mask_axis1 (toindex frommask : List Int) (length : Nat) :
    R (List Int) :=
  forN length (fun i st =>
    rd frommask (i : Int) >>= fun m =>
    if m ≠ 0 then wr st.2 (i : Int) (-1) >>= fun toindex => ok (st.1, toindex)
    else wr st.2 (i : Int) st.1 >>= fun toindex => ok (st.1 + 1, toindex))
    ((0 : Int), toindex)
    >>= fun st => ok st.2

/-- NumpyArray.cpp:381-391, the constructor from an `Index64`. -/
def intArray (data : List Int) : Content := .numpy {} .int64 (data.map .int)

namespace Content

/-- ListOffsetArray.cpp:290-309 `compact_offsets64(true)`, for 64-bit offsets. -/
def listOffsetCompact (offsets : List Int) : R (List Int) :=
  rd offsets 0 >>= fun first =>
  if first = 0 then ok offsets
  else ListOffsetArray_compact_offsets (alloc offsets.length) offsets (offsets.length - 1)

/-- ListArray.cpp:297-310 `compact_offsets64`. -/
def listArrayCompact (starts stops : List Int) : R (List Int) :=
  ListArray_compact_offsets (alloc (starts.length + 1)) starts stops starts.length

/-- RegularArray.cpp:277-288 `compact_offsets64`. -/
def regularCompact (length size : Nat) : R (List Int) :=
  RegularArray_compact_offsets (alloc (length + 1)) length size

/-- ListArray.cpp:312-350 and ListOffsetArray.cpp:325-366 `broadcast_tooffsets64`: the content of
the result; `length` is the length of the node. -/
def listBroadcast (offsets starts stops : List Int) (length : Nat) (c : Content) : R Content :=
  if offsets.length = 0 then err "broadcast_tooffsets64 can only be used with offsets that start at 0"
  else
    rd offsets 0 >>= fun first =>
    if first ≠ 0 then err "broadcast_tooffsets64 can only be used with offsets that start at 0"
    else if offsets.length - 1 > length then err "cannot broadcast"
    else
      rd offsets ((offsets.length - 1 : Nat) : Int) >>= fun carrylen =>
      ListArray_broadcast_tooffsets (alloc carrylen) offsets offsets.length starts stops c.len
        >>= fun nextcarry => c.carry true nextcarry

/-- RegularArray.cpp:290-339 `broadcast_tooffsets64`: the content of the result. -/
def regularBroadcast (offsets : List Int) (length size : Nat) (c : Content) : R Content :=
  if offsets.length = 0 then err "broadcast_tooffsets64 can only be used with offsets that start at 0"
  else
    rd offsets 0 >>= fun first =>
    if first ≠ 0 then err "broadcast_tooffsets64 can only be used with offsets that start at 0"
    else if offsets.length - 1 ≠ length then err "cannot broadcast"
    else if size = 1 then
      rd offsets ((offsets.length - 1 : Nat) : Int) >>= fun carrylen =>
      RegularArray_broadcast_tooffsets_size1 (alloc carrylen) offsets offsets.length
        >>= fun nextcarry => c.carry true nextcarry
    else RegularArray_broadcast_tooffsets offsets offsets.length size >>= fun _ => ok c

/-- `toListOffsetArray64(true)` of the list classes (ListArray.cpp:362-367,
ListOffsetArray.cpp:390-402, RegularArray.cpp:346-356): the offsets and the content of the
result. Other classes have no such method. -/
def listParts : Content → R (List Int × Content)
  | listArray _ starts stops c =>
    listArrayCompact starts stops >>= fun offsets =>
    listBroadcast offsets starts stops starts.length c >>= fun c' => ok (offsets, c')
  | listOffset _ offsets c =>
    rd offsets 0 >>= fun first =>
    if first = 0 then ok (offsets, c)
    else
      listOffsetCompact offsets >>= fun offsets' =>
      listBroadcast offsets' (makeStarts offsets) (makeStops offsets) (offsets.length - 1) c >>= fun c' => ok (offsets', c')
  | regular p c size zeros =>
    let length := (regular p c size zeros).len
    regularCompact length size >>= fun offsets =>
    regularBroadcast offsets length size c >>= fun c' => ok (offsets, c')
  | _ => err "no toListOffsetArray64"

/-- `toListOffsetArray64(true)`. -/
def toListOffset (c : Content) : R Content :=
  c.listParts >>= fun oc => ok (listOffset c.params oc.1 oc.2)

/-- ListOffsetArray.cpp:368-388 `toRegularArray`. -/
def listOffsetToRegular (p : Params) (offsets : List Int) (c : Content) : R Content :=
  rd offsets 0 >>= fun start => rd offsets ((offsets.length - 1 : Nat) : Int) >>= fun stop =>
  c.range start stop >>= fun c' =>
  ListOffsetArray_toRegularArray offsets offsets.length >>= fun size =>
  ok (regular p c' size.toNat (offsets.length - 1))

/-- `toRegularArray` (ListArray.cpp:352-360, ListOffsetArray.cpp:368-388,
RegularArray.cpp:341-344). -/
def toRegular : Content → R Content
  | listArray p starts stops c =>
    (listArray p starts stops c).listParts >>= fun oc => listOffsetToRegular p oc.1 oc.2
  | listOffset p offsets c => listOffsetToRegular p offsets c
  | regular p c size zeros => ok (regular p c size zeros)
  | _ => err "no toRegularArray"

/-- IndexedArray.cpp:2827-2850 and ByteMaskedArray.cpp:1470-1493 `nextcarry_outindex`: the
number of missing elements, `nextcarry` and `outindex`. -/
def nextcarryOutindex : Content → R (Nat × List Int × List Int)
  | indexedOption _ index c =>
    IndexedArray_numnull index index.length >>= fun numnull =>
    IndexedArray_getitem_nextcarry_outindex (alloc (index.length - numnull)) (alloc index.length)
      index index.length c.len >>= fun co => ok (numnull, co.1, co.2)
  | byteMasked _ mask vw _ =>
    ByteMaskedArray_numnull mask mask.length vw >>= fun numnull =>
    ByteMaskedArray_getitem_nextcarry_outindex (alloc (mask.length - numnull)) (alloc mask.length)
      mask mask.length vw >>= fun co => ok (numnull, co.1, co.2)
  | _ => err "no nextcarry_outindex"

/-- The pattern of `num` and `localindex` on IndexedOptionArray and ByteMaskedArray
(IndexedArray.cpp:1573-1585, 2299-2311, ByteMaskedArray.cpp:868-882, 1223-1236): apply `f` to the
non-missing elements and put the missing ones back. -/
def throughOption (f : Content → R Content) (self content : Content) : R Content :=
  self.nextcarryOutindex >>= fun nco =>
  content.carry false nco.2.1 >>= fun next => f next >>= fun out =>
  indexedSimplify true {} nco.2.2 out

/-- `num` of each class at a relative axis `a` of at least 1: EmptyArray.cpp:444,
NumpyArray.cpp:1577 (one dimension), RegularArray.cpp:813-839, ListArray.cpp:946-969,
ListOffsetArray.cpp:946-976, IndexedArray.cpp:1564-1590, ByteMaskedArray.cpp:860-883,
BitMaskedArray.cpp:829, UnmaskedArray.cpp:724-737, RecordArray.cpp:1064-1095. -/
def numF : Nat → Nat → Content → R Content
  | 0, _, _ => ub
  | f + 1, a, self => match self with
    | empty _ => ok (intArray [])
    | numpy _ _ _ => err "'axis' out of range for 'num'"
    | regular _ c size _ =>
      if a = 1 then
        RegularArray_num (alloc self.len) size self.len >>= fun tonum => ok (intArray tonum)
      else numF f (a - 1) c >>= fun next => ok (regular {} next size self.len)
    | listArray _ starts stops _ =>
      if a = 1 then
        ListArray_num (alloc starts.length) starts stops starts.length >>= fun tonum =>
        ok (intArray tonum)
      else
        self.listParts >>= fun oc => numF f (a - 1) oc.2 >>= fun next =>
        listOffsetCompact oc.1 >>= fun offsets => ok (listOffset {} offsets next)
    | listOffset _ offsets c =>
      if a = 1 then
        ListArray_num (alloc self.len) (makeStarts offsets) (makeStops offsets) self.len >>= fun tonum =>
        ok (intArray tonum)
      else
        numF f (a - 1) c >>= fun next =>
        listOffsetCompact offsets >>= fun offsets => ok (listOffset {} offsets next)
    | indexed .. => self.project >>= fun c' => numF f a c'
    | indexedOption _ _ c => throughOption (numF f a) self c
    | byteMasked _ _ _ c => throughOption (numF f a) self c
    | bitMasked .. => self.toByteMasked >>= fun c' => numF f a c'
    | unmasked _ c => numF f a c >>= fun c' => ok (unmasked {} c')
    | record _ keys cs length => mapR (numF f a) cs >>= fun cs' => ok (record {} keys cs' length)
    | union .. => err "union: simplify_uniontype is not modelled here"

/-- `offsets_and_flattened` of each class at `axis = 1`: EmptyArray.cpp:457-471,
NumpyArray.cpp:1652-1665 (one dimension), RegularArray.cpp:841-844, ListArray.cpp:971-975,
ListOffsetArray.cpp:978-1034, IndexedArray.cpp:1592-1638, ByteMaskedArray.cpp:885-926,
BitMaskedArray.cpp (through `toByteMaskedArray`), UnmaskedArray.cpp:739-762, RecordArray.cpp:1098-1108
(raises), UnionArray.cpp:1526-1592. At this axis the offsets are never empty, because a
UnionArray has at least one content (UnionArray.cpp:439-441). -/
def flattenF : Nat → Content → R (List Int × Content)
  | 0, _ => ub
  | f + 1, self => match self with
    | empty _ => ok ([0], empty {})
    | numpy _ _ _ => err "axis out of range for flatten"
    | regular .. | listArray .. | listOffset .. =>
      self.listParts >>= fun oc =>
      rd oc.1 ((oc.1.length - 1 : Nat) : Int) >>= fun stop =>
      oc.2.range 0 stop >>= fun content => ok (oc.1, content)
    | indexed .. => self.project >>= fun c' => flattenF f c'
    | indexedOption _ _ c | byteMasked _ _ _ c =>
      self.nextcarryOutindex >>= fun nco =>
      c.carry false nco.2.1 >>= fun next => flattenF f next >>= fun oc =>
      IndexedArray_flatten_none2empty (alloc (oc.1.length + nco.1)) nco.2.2 nco.2.2.length
        oc.1 oc.1.length >>= fun outoffsets => ok (outoffsets, oc.2)
    | bitMasked .. => self.toByteMasked >>= fun c' => flattenF f c'
    | unmasked _ c => flattenF f c
    | record .. => err "records cannot be flattened"
    | union _ tags index cs =>
      if cs.isEmpty then err "UnionArray must have at least one content" else
      mapR (flattenF f) cs >>= fun ocs =>
      UnionArray_flatten_length tags index tags.length (ocs.map Prod.fst) >>= fun total =>
      UnionArray_flatten_combine (List.replicate total.toNat (0, 0)) (alloc (tags.length + 1))
        tags index tags.length (ocs.map Prod.fst) >>= fun ob =>
      ok (ob.1, union {} (ob.2.map Prod.fst) (ob.2.map Prod.snd) (ocs.map Prod.snd))

/-- Content.cpp:1294-1303 `localindex_axis0`. -/
def localindexAxis0 (c : Content) : R Content :=
  localindex_kernel (alloc c.len) c.len >>= fun index => ok (intArray index)

/-- ListArray.cpp:1414-1431 and ListOffsetArray.cpp:1559-1576, the `depth + 1` case of
`localindex`. -/
def listLocalindex (offsets : List Int) : R Content :=
  rd offsets ((offsets.length - 1 : Nat) : Int) >>= fun innerlength =>
  ListArray_localindex (alloc innerlength) offsets (offsets.length - 1) >>= fun index =>
  ok (listOffset {} offsets (intArray index))

/-- `localindex` of each class at a relative axis `a` of at least 1: EmptyArray.cpp:581,
NumpyArray.cpp:3361 (one dimension), RegularArray.cpp:1127-1156, ListArray.cpp:1408-1440,
ListOffsetArray.cpp:1553-1583, IndexedArray.cpp:2290-2315, ByteMaskedArray.cpp:1217-1237,
BitMaskedArray.cpp:973, UnmaskedArray.cpp:922-935, RecordArray.cpp:1498-1515,
UnionArray.cpp:2038-2056. -/
def localindexF : Nat → Nat → Content → R Content
  | 0, _, _ => ub
  | f + 1, a, self => match self with
    | empty _ => ok (intArray [])
    | numpy _ _ _ => err "'axis' out of range for localindex"
    | regular _ c size _ =>
      if a = 1 then
        RegularArray_localindex (alloc (self.len * size)) size self.len >>= fun index =>
        ok (regular {} (intArray index) size self.len)
      else localindexF f (a - 1) c >>= fun next => ok (regular {} next size self.len)
    | listArray _ starts stops c =>
      if a = 1 then listArrayCompact starts stops >>= fun offsets => listLocalindex offsets
      else localindexF f (a - 1) c >>= fun next => ok (listArray {} starts stops next)
    | listOffset _ offsets c =>
      if a = 1 then listOffsetCompact offsets >>= fun offsets => listLocalindex offsets
      else localindexF f (a - 1) c >>= fun next => ok (listOffset {} offsets next)
    | indexed .. => self.project >>= fun c' => localindexF f a c'
    | indexedOption _ _ c => throughOption (localindexF f a) self c
    | byteMasked _ _ _ c => throughOption (localindexF f a) self c
    | bitMasked .. => self.toByteMasked >>= fun c' => localindexF f a c'
    | unmasked _ c => localindexF f a c >>= fun c' => ok (unmasked {} c')
    | record _ keys cs length =>
      mapR (localindexF f a) cs >>= fun cs' => ok (record {} keys cs' length)
    | union _ tags index cs =>
      mapR (localindexF f a) cs >>= fun cs' => ok (union {} tags index cs')

/-- Content.cpp:1274-1292 `rpad_axis0`. -/
def rpadAxis0 (target : Nat) (clip : Bool) (c : Content) : R Content :=
  if clip = false ∧ target < c.len then ok c
  else
    index_rpad_and_clip_axis0 (alloc target) target c.len >>= fun index =>
    indexedSimplify true {} index c

/-- RegularArray.cpp:1014-1051 `rpad_and_clip` at `depth + 1`. -/
def regularRpadAndClip (p : Params) (target size length : Nat) (c : Content) : R Content :=
  RegularArray_rpad_and_clip_axis1 (alloc (length * target)) target size length >>= fun index =>
  indexedSimplify true {} index c >>= fun next => ok (regular p next target length)

/-- ListOffsetArray.cpp:1297-1344 `rpad_and_clip` at `depth + 1`. The starts and stops that the
code fills first are never used and are left out. -/
def listOffsetRpadAndClip (p : Params) (target : Nat) (offsets : List Int) (c : Content) :
    R Content :=
  ListOffsetArray_rpad_and_clip_axis1 (alloc (target * (offsets.length - 1))) offsets
    (offsets.length - 1) target >>= fun index =>
  indexedSimplify true {} index c >>= fun next =>
  ok (regular p next target (offsets.length - 1))

/-- ListOffsetArray.cpp:1252-1295 `rpad` at `depth + 1`. -/
def listOffsetRpad (p : Params) (target : Nat) (offsets : List Int) (c : Content) : R Content :=
  ListOffsetArray_rpad_length_axis1 (alloc offsets.length) offsets (offsets.length - 1) target
    >>= fun ol =>
  ListOffsetArray_rpad_axis1 (alloc ol.2) offsets (offsets.length - 1) target >>= fun index =>
  indexedSimplify true p index c >>= fun next => ok (listOffset p ol.1 next)

/-- ListArray.cpp:1313-1378 `rpad` at `depth + 1`. -/
def listArrayRpad (p : Params) (target : Nat) (starts stops : List Int) (c : Content) :
    R Content :=
  ListArray_min_range starts stops starts.length >>= fun min =>
  if (target : Int) < min then ok (listArray p starts stops c)
  else
    ListArray_rpad_and_clip_length_axis1 starts stops target starts.length >>= fun tolength =>
    ListArray_rpad_axis1 (alloc tolength) starts stops (alloc starts.length) (alloc starts.length)
      target starts.length >>= fun iss =>
    indexedSimplify true {} iss.1 c >>= fun next => ok (listArray p iss.2.1 iss.2.2 next)

/-- RecordArray.cpp:1412-1437 and 1439-1467: the result is built without a length when there are
contents, so the length is the smallest length of a content (RecordArray.cpp, constructor). -/
def recordOfContents (p : Params) (keys : Option (List String)) (length : Nat) :
    List Content → Content
  | [] => record p keys [] length
  | c :: cs => record p keys (c :: cs) (cs.foldl (fun m d => min m d.len) c.len)

/-- `rpad` (`clip = false`) and `rpad_and_clip` (`clip = true`) of each class at a relative axis
`a` of at least 1: EmptyArray.cpp:532-556, NumpyArray.cpp:3135 (one dimension),
RegularArray.cpp:990-1051, ListArray.cpp:1313-1385, ListOffsetArray.cpp:1252-1344,
IndexedArray.cpp:2088-2167, ByteMaskedArray.cpp:1029-1095, BitMaskedArray.cpp:942,
UnmaskedArray.cpp:863-897, RecordArray.cpp:1412-1467. The target is a natural number. -/
def rpadF (target : Nat) (clip : Bool) : Nat → Nat → Content → R Content
  | 0, _, _ => ub
  | f + 1, a, self => match self with
    | empty _ => err "axis exceeds the depth of this array"
    | numpy _ _ _ => err "axis exceeds the depth of this array"
    | regular p c size _ =>
      if a = 1 then
        if clip = false ∧ target < size then ok self
        else regularRpadAndClip p target size self.len c
      else rpadF target clip f (a - 1) c >>= fun next => ok (regular p next size self.len)
    | listArray p starts stops c =>
      if clip then
        self.listParts >>= fun oc =>
        if a = 1 then listOffsetRpadAndClip p target oc.1 oc.2
        else rpadF target clip f (a - 1) oc.2 >>= fun next => ok (listOffset p oc.1 next)
      else if a = 1 then listArrayRpad p target starts stops c
      else rpadF target clip f (a - 1) c >>= fun next => ok (listArray p starts stops next)
    | listOffset p offsets c =>
      if a = 1 then
        if clip then listOffsetRpadAndClip p target offsets c
        else listOffsetRpad p target offsets c
      else rpadF target clip f (a - 1) c >>= fun next => ok (listOffset p offsets next)
    | indexed p index c =>
      if a = 1 then self.project >>= fun c' => rpadF target clip f a c'
      else rpadF target clip f a c >>= fun next => ok (indexed p index next)
    | indexedOption p index c =>
      if a = 1 then
        self.bytemask >>= fun mask =>
        IndexedOptionArray_rpad_and_clip_mask_axis1 (alloc mask.length) mask mask.length
          >>= fun index' =>
        self.project >>= fun c' => rpadF target clip f a c' >>= fun next =>
        indexedSimplify true {} index' next
      else rpadF target clip f a c >>= fun next => ok (indexedOption p index next)
    | byteMasked p mask vw c =>
      if a = 1 then
        self.bytemask >>= fun mask =>
        IndexedOptionArray_rpad_and_clip_mask_axis1 (alloc mask.length) mask mask.length
          >>= fun index' =>
        self.project >>= fun c' => rpadF target clip f a c' >>= fun next =>
        indexedSimplify true {} index' next
      else rpadF target clip f a c >>= fun next => ok (byteMasked p mask vw next)
    | bitMasked .. => self.toByteMasked >>= fun c' => rpadF target clip f a c'
    | unmasked p c =>
      if a = 1 then rpadF target clip f a c
      else rpadF target clip f a c >>= fun next => ok (unmasked p next)
    | record p keys cs length =>
      mapR (rpadF target clip f a) cs >>= fun cs' => ok (recordOfContents p keys length cs')
    | union .. => err "union: simplify_uniontype is not modelled here"

end Content

/-- What `ak.num` returns: an integer at axis 0, an array otherwise. A RecordArray at axis 0 gives
a record of integers (RecordArray.cpp:1064-1083), not modelled. -/
inductive NumResult where
  | scalar (n : Nat)
  | array (c : Content)
deriving Repr

namespace Content

/-- src/awkward/operations/structure.py:192-263 `num`. -/
def num (axis : Nat) (c : Content) : R NumResult :=
  if axis = 0 then ok (.scalar c.len)
  else numF c.rank axis c >>= fun c' => ok (.array c')

/-- src/awkward/operations/structure.py:1787-1950 `flatten` with `axis = 1`. -/
def flatten (c : Content) : R Content := flattenF c.rank c >>= fun oc => ok oc.2

/-- src/awkward/operations/structure.py:2416-2473 `local_index`. -/
def localIndex (axis : Nat) (c : Content) : R Content :=
  if axis = 0 then localindexAxis0 c else localindexF c.rank axis c

/-- src/awkward/operations/structure.py:2575-2702 `pad_none`: `rpad` or `rpad_and_clip`. At axis 0
every class runs `rpad_axis0` (`NumpyArray` and `EmptyArray` through `rpad_and_clip`, which gives
the same result), except that UnmaskedArray.cpp:880-887 passes `clip = false`. -/
def padNone (target axis : Nat) (clip : Bool) (c : Content) : R Content :=
  if axis = 0 then
    match c with
    | unmasked .. => rpadAxis0 target false c
    | _ => rpadAxis0 target clip c
  else rpadF target clip c.rank axis c

end Content
end Awk
