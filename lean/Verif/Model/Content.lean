import Verif.Model.Slice
/-
Model of the array node classes (src/libawkward/array): the node type itself, its length,
its value semantics (what `to_list` shows), and the basic operations
`getitem_at_nowrap`, `getitem_range_nowrap`, `carry` and `validityerror`.

Simplifications, common to the whole model:
* integers in index buffers are mathematical integers (no 8/32/64-bit width), except where
  a definition says otherwise;
* a `NumpyArray` node is one-dimensional and contiguous (strided and n-dimensional arrays are
  modelled in Model/Strided.lean);
* identities, VirtualArray nodes, caches and the GPU back end are not part of a node;
* parameters other than `__array__` and `__record__` are kept as an opaque list.
-/

namespace Awk
open R

/-- The values of the `__array__` parameter that the C++ code distinguishes. -/
inductive ArrKind where
  | none | string | bytestring | char | byte | categorical
deriving Repr, DecidableEq

/-- `util::Parameters` of a node. -/
structure Params where
  arr : ArrKind := .none
  recName : Option String := .none
  other : List (String × String) := []
deriving Repr, DecidableEq

/-- The dtypes of include/awkward/util.h:57-83 that the model distinguishes. -/
inductive DType where
  | bool | int8 | int16 | int32 | int64 | uint8 | uint16 | uint32 | uint64
  | float32 | float64 | complex64 | complex128 | datetime64 | timedelta64
deriving Repr, DecidableEq

/-- One item of a one-dimensional buffer. Reals are modelled by rationals (no rounding and
no NaN). -/
inductive Atom where
  | bool (b : Bool)
  | int (i : Int)
  | real (q : Rat)
  | complex (re im : Rat)
  | datetime (i : Int)
  | timedelta (i : Int)
deriving Repr, DecidableEq

/-- What `to_list` shows for one element. -/
inductive Val where
  | null
  | atom (a : Atom)
  | str (codes : List Val)
  | bytes (codes : List Val)
  | list (vs : List Val)
  | tuple (vs : List Val)
  | record (fields : List (String × Val))
deriving Repr

/-- The array nodes: include/awkward/array/*.h. `regular` has the members `size_` and the
constructor argument `zeros_length` (RegularArray.cpp:236-258); its constructor rejects
negative values, so they are natural numbers here, like the `length_` of `RecordArray` and
`BitMaskedArray`. -/
inductive Content where
  | empty (p : Params)
  | numpy (p : Params) (dt : DType) (data : List Atom)
  | regular (p : Params) (content : Content) (size zeros : Nat)
  | listArray (p : Params) (starts stops : List Int) (content : Content)
  | listOffset (p : Params) (offsets : List Int) (content : Content)
  | indexed (p : Params) (index : List Int) (content : Content)
  | indexedOption (p : Params) (index : List Int) (content : Content)
  | byteMasked (p : Params) (mask : List Int) (validWhen : Bool) (content : Content)
  | bitMasked (p : Params) (mask : List Nat) (validWhen : Bool) (length : Nat) (lsb : Bool)
      (content : Content)
  | unmasked (p : Params) (content : Content)
  | record (p : Params) (keys : Option (List String)) (contents : List Content) (length : Nat)
  | union (p : Params) (tags index : List Int) (contents : List Content)
deriving Repr

namespace Content

/-- Content.h `parameters()`. -/
def params : Content → Params
  | empty p => p
  | numpy p _ _ => p
  | regular p _ _ _ => p
  | listArray p _ _ _ => p
  | listOffset p _ _ => p
  | indexed p _ _ => p
  | indexedOption p _ _ => p
  | byteMasked p _ _ _ => p
  | bitMasked p _ _ _ _ _ => p
  | unmasked p _ => p
  | record p _ _ _ => p
  | union p _ _ _ => p

/-- `length()` of each class: EmptyArray.cpp:285, NumpyArray.cpp:1106, RegularArray.cpp:236-258,
ListArray.cpp:592, ListOffsetArray.cpp:603, IndexedArray.cpp `length`, ByteMaskedArray.cpp
`length`, BitMaskedArray.cpp `length`, UnmaskedArray.cpp `length`, RecordArray.cpp `length`,
UnionArray.cpp `length`. -/
def len : Content → Nat
  | empty _ => 0
  | numpy _ _ data => data.length
  | regular _ c size zeros => if size ≠ 0 then c.len / size else zeros
  | listArray _ starts _ _ => starts.length
  | listOffset _ offsets _ => offsets.length - 1
  | indexed _ index _ => index.length
  | indexedOption _ index _ => index.length
  | byteMasked _ mask _ _ => mask.length
  | bitMasked _ _ _ length _ _ => length
  | unmasked _ c => c.len
  | record _ _ _ length => length
  | union _ tags _ _ => tags.length

end Content

/-- A list element is shown as text or bytes when its node says so
(src/awkward/operations/convert.py, `to_list`: `CharBehavior`/`ByteBehavior`). -/
def wrapList (p : Params) (vs : List Val) : Val :=
  match p.arr with
  | .string => .str vs
  | .bytestring => .bytes vs
  | _ => .list vs

/-- A record element is shown as a dict or, without keys, as a tuple
(src/awkward/operations/convert.py `to_list`, `Record`). -/
def mkRecord (keys : Option (List String)) (vs : List Val) : Val :=
  match keys with
  | none => .tuple vs
  | some ks => .record (ks.zip vs)

/-- BitMaskedArray.cpp:646-652: bit number `i` of a bit mask. Bytes are natural numbers
below 256. -/
def bitAt (mask : List Nat) (lsb : Bool) (i : Nat) : R Bool :=
  rd mask ((i / 8 : Nat) : Int) >>= fun byte =>
  let shift := i % 8
  let asbool := if lsb then (byte >>> shift) &&& 1 else (byte <<< shift) &&& 128
  ok (decide (asbool ≠ 0))

/-- ListArray.cpp:681-712 and ListOffsetArray.cpp:673-702: the checks of
`getitem_at_nowrap` on one (start, stop) pair; the result is the normalised pair. -/
def checkStartStop (start stop : Int) (lencontent : Nat) : R (Int × Int) :=
  let (start, stop) := if start = stop then (0, 0) else (start, stop)
  if start < 0 then err "starts[i] < 0"
  else if start > stop then err "starts[i] > stops[i]"
  else if stop > lencontent then err "starts[i] != stops[i] and stops[i] > len(content)"
  else ok (start, stop)

/-- IndexedArray.cpp:1266-1292: the checks of `getitem_at_nowrap` on one index value;
`none` is a missing value. -/
def checkIndex (isoption : Bool) (index : Int) (lencontent : Nat) : R (Option Nat) :=
  if index < 0 then if isoption then ok none else err "index[i] < 0"
  else if index ≥ lencontent then err "index[i] >= len(content)"
  else ok (some index.toNat)

/-- UnionArray.cpp:1109-1134: the checks of `getitem_at_nowrap` on one (tag, index) pair,
before the length of the chosen content is looked at. -/
def checkTag (tag index : Int) (numcontents : Nat) : R (Nat × Int) :=
  if ¬ (0 ≤ tag ∧ tag < numcontents) then err "not 0 <= tag[i] < numcontents"
  else ok (tag.toNat, index)

namespace Content

mutual
/-- The value of element `i`: what iterating over the array and calling `to_list` on the
element shows. This is the meaning of each node class; `Props` relates it to the code of
`getitem_at_nowrap`. Raises where `getitem_at_nowrap` raises. -/
def val : Content → Nat → R Val
  | empty _, _ => err "index out of range"
  | numpy _ _ data, i => rd data (i : Int) >>= fun a => ok (.atom a)
  | regular p c size _, i =>
    mapN size (fun k => c.val (i * size + k)) >>= fun vs => ok (wrapList p vs)
  | listArray p starts stops c, i =>
    rd starts (i : Int) >>= fun start => rd stops (i : Int) >>= fun stop =>
    checkStartStop start stop c.len >>= fun (start, stop) =>
    mapN (stop - start).toNat (fun k => c.val (start.toNat + k)) >>= fun vs => ok (wrapList p vs)
  | listOffset p offsets c, i =>
    rd offsets (i : Int) >>= fun start => rd offsets ((i + 1 : Nat) : Int) >>= fun stop =>
    checkStartStop start stop c.len >>= fun (start, stop) =>
    mapN (stop - start).toNat (fun k => c.val (start.toNat + k)) >>= fun vs => ok (wrapList p vs)
  | indexed _ index c, i =>
    rd index (i : Int) >>= fun j => checkIndex false j c.len >>= fun
      | none => ok .null
      | some k => c.val k
  | indexedOption _ index c, i =>
    rd index (i : Int) >>= fun j => checkIndex true j c.len >>= fun
      | none => ok .null
      | some k => c.val k
  | byteMasked _ mask validWhen c, i =>
    rd mask (i : Int) >>= fun m => if decide (m ≠ 0) = validWhen then c.val i else ok .null
  | bitMasked _ mask validWhen _ lsb c, i =>
    bitAt mask lsb i >>= fun b => if b = validWhen then c.val i else ok .null
  | unmasked _ c, i => c.val i
  | record _ keys cs _, i => valFields cs i >>= fun vs => ok (mkRecord keys vs)
  | union _ tags index cs, i =>
    rd tags (i : Int) >>= fun tag => rd index (i : Int) >>= fun j =>
    checkTag tag j cs.length >>= fun (t, j) => valNth cs t j
/-- Element `i` of every field of a record. -/
def valFields : List Content → Nat → R (List Val)
  | [], _ => ok []
  | c :: cs, i => c.val i >>= fun v => valFields cs i >>= fun vs => ok (v :: vs)
/-- Element `j` of alternative number `t` of a union. -/
def valNth : List Content → Nat → Int → R Val
  | [], _, _ => ub
  | c :: _, 0, j =>
    if ¬ (0 ≤ j ∧ j < c.len) then err "index[i] > len(content(tag))" else c.val j.toNat
  | _ :: cs, t + 1, j => valNth cs t j
end

/-- `to_list(array)`. -/
def toList (c : Content) : R (List Val) := mapN c.len c.val

end Content

/-- Index.cpp:255-265 `IndexOf<T>::getitem_range_nowrap`. A negative length would be an
invalid buffer. -/
def idxRange (b : List α) (start stop : Int) : R (List α) :=
  if ¬ (0 ≤ start ∧ start < b.length ∧ 0 ≤ stop ∧ stop ≤ b.length) ∧ start ≠ stop then
    err "Index::getitem_range_nowrap with illegal start:stop for this length"
  else if start = stop then ok []
  else if stop < start then ub
  else ok ((b.drop start.toNat).take (stop - start).toNat)

/-- src/cpu-kernels/awkward_Index_iscontiguous.cpp:8-22: the `for` loop with its early
return, on the rest of the buffer with the current `expecting`. -/
def isContiguousFrom : List Int → Int → Bool
  | [], _ => true
  | x :: xs, expecting => if x ≠ expecting then false else isContiguousFrom xs (expecting + 1)

/-- Index.cpp:352 `iscontiguous`. -/
def isContiguous (idx : List Int) : Bool := isContiguousFrom idx 0

/-- src/cpu-kernels/awkward_BitMaskedArray_to_ByteMaskedArray.cpp:13-32 and 33-52, the eight
writes for one byte; the byte is shifted by one after each of them (`byte <<= 1` on an 8-bit
unsigned integer drops the top bit). -/
def BitMaskedArray_to_ByteMaskedArray_byte (validwhen lsb : Bool) (i : Nat) :
    Nat → List Int × Nat → R (List Int × Nat) := fun b st =>
  let bit := if lsb then decide (st.2 &&& 1 ≠ 0) else decide (st.2 &&& 128 ≠ 0)
  wr st.1 ((i * 8 + b : Nat) : Int) (if bit ≠ validwhen then 1 else 0) >>= fun out =>
  ok (out, if lsb then st.2 >>> 1 else (st.2 <<< 1) % 256)

/-- src/cpu-kernels/awkward_BitMaskedArray_to_ByteMaskedArray.cpp:7-54. -/
def BitMaskedArray_to_ByteMaskedArray (tobytemask : List Int) (frombitmask : List Nat)
    (bitmasklength : Nat) (validwhen lsb : Bool) : R (List Int) :=
  forN bitmasklength (fun i out =>
    rd frombitmask (i : Int) >>= fun byte =>
    forN 8 (BitMaskedArray_to_ByteMaskedArray_byte validwhen lsb i) (out, byte) >>= fun st =>
    ok st.1) tobytemask

/-- BitMaskedArray.cpp:364-381 `toByteMaskedArray`: the byte mask. -/
def bitMaskedByteMask (mask : List Nat) (length : Nat) (lsb : Bool) : R (List Int) :=
  BitMaskedArray_to_ByteMaskedArray (alloc (mask.length * 8)) mask mask.length false lsb
    >>= fun bytemask => idxRange bytemask 0 length

namespace Content

/-- NumpyArray.cpp:1258-1283 `getitem_range_nowrap`: a view; it is undefined behaviour to make
one that is not inside the buffer. -/
def numpyRange (p : Params) (dt : DType) (data : List Atom) (start stop : Int) : R Content :=
  getitem_range_nowrap data start stop >>= fun d => ok (numpy p dt d)

mutual
/-- `getitem_range_nowrap` of each class: EmptyArray.cpp:337, NumpyArray.cpp:1258,
RegularArray.cpp:642-654, ListArray.cpp:737-750, ListOffsetArray.cpp:724-737,
IndexedArray.cpp:1315-1328, ByteMaskedArray.cpp:650-662, BitMaskedArray.cpp:677,
UnmaskedArray.cpp:546, RecordArray.cpp:822-851, UnionArray.cpp:1153-1166. -/
def range : Content → Int → Int → R Content
  | empty p, _, _ => ok (empty p)
  | numpy p dt data, start, stop => numpyRange p dt data start stop
  | regular p c size _, start, stop =>
    c.range (start * size) (stop * size) >>= fun c' => ok (regular p c' size (stop - start).toNat)
  | listArray p starts stops c, start, stop =>
    idxRange starts start stop >>= fun starts' => idxRange stops start stop >>= fun stops' =>
    ok (listArray p starts' stops' c)
  | listOffset p offsets c, start, stop =>
    idxRange offsets start (stop + 1) >>= fun offsets' => ok (listOffset p offsets' c)
  | indexed p index c, start, stop =>
    idxRange index start stop >>= fun index' => ok (indexed p index' c)
  | indexedOption p index c, start, stop =>
    idxRange index start stop >>= fun index' => ok (indexedOption p index' c)
  | byteMasked p mask vw c, start, stop =>
    idxRange mask start stop >>= fun mask' => c.range start stop >>= fun c' =>
    ok (byteMasked p mask' vw c')
  | bitMasked p mask vw length lsb c, start, stop =>
    bitMaskedByteMask mask length lsb >>= fun bytemask =>
    idxRange bytemask start stop >>= fun mask' => c.range start stop >>= fun c' =>
    ok (byteMasked p mask' vw c')
  | unmasked p c, start, stop => c.range start stop >>= fun c' => ok (unmasked p c')
  | record p keys cs length, start, stop =>
    if cs.isEmpty then ok (record p keys cs (stop - start).toNat)
    else if start = 0 ∧ stop = length then ok (record p keys cs length)
    else rangeFields cs start stop >>= fun cs' => ok (record p keys cs' (stop - start).toNat)
  | union p tags index cs, start, stop =>
    idxRange tags start stop >>= fun tags' => idxRange index start stop >>= fun index' =>
    ok (union p tags' index' cs)
/-- RecordArray.cpp:838-841: the loop over the fields. -/
def rangeFields : List Content → Int → Int → R (List Content)
  | [], _, _ => ok []
  | c :: cs, start, stop =>
    c.range start stop >>= fun c' => rangeFields cs start stop >>= fun cs' => ok (c' :: cs')
end

end Content

/-- src/cpu-kernels/awkward_NumpyArray_getitem_next_null.cpp:8-18, with one item for each
`memcpy` of `stride` bytes. -/
def NumpyArray_getitem_next_null (toptr fromptr : List α) (len : Nat) (pos : List Int) :
    R (List α) :=
  forN len (fun i toptr =>
    (rd pos (i : Int) >>= fun j => rd fromptr j) >>= fun x => wr toptr (i : Int) x) toptr

/-- src/cpu-kernels/awkward_RegularArray_getitem_carry.cpp:8-19. -/
def RegularArray_getitem_carry (tocarry fromcarry : List Int) (lencarry size : Nat) :
    R (List Int) :=
  forN lencarry (fun i tocarry =>
    forN size (fun j tocarry =>
      (rd fromcarry (i : Int) >>= fun x => ok (x * size + j)) >>= fun x =>
      wr tocarry ((i * size + j : Nat) : Int) x) tocarry) tocarry

/-- src/cpu-kernels/awkward_ListArray_getitem_carry.cpp:8-24; the state is
`(tostarts, tostops)`. -/
def ListArray_getitem_carry (tostarts tostops fromstarts fromstops fromcarry : List Int)
    (lenstarts lencarry : Nat) : R (List Int × List Int) :=
  forN lencarry (fun i st =>
    rd fromcarry (i : Int) >>= fun j =>
    if j ≥ lenstarts then err "index out of range"
    else
      rd fromstarts j >>= fun x => wr st.1 (i : Int) x >>= fun tostarts =>
      rd fromstops j >>= fun y => wr st.2 (i : Int) y >>= fun tostops =>
      ok (tostarts, tostops)) (tostarts, tostops)

/-- src/cpu-kernels/awkward_IndexedArray_getitem_carry.cpp:8-21, and
src/cpu-kernels/awkward_ByteMaskedArray_getitem_carry.cpp:8-21, which has the same text with
masks for indexes. -/
def IndexedArray_getitem_carry (toindex fromindex fromcarry : List Int) (lenindex lencarry : Nat) :
    R (List Int) :=
  forN lencarry (fun i toindex =>
    (rd fromcarry (i : Int) >>= fun j =>
      if j ≥ lenindex then err "index out of range" else rd fromindex j) >>= fun x =>
    wr toindex (i : Int) x) toindex

/-- src/cpu-kernels/awkward_Index_carry.cpp:8-22 (the check is `j > lenfromindex`, one too
weak). -/
def Index_carry (toindex fromindex carry : List Int) (lenfromindex length : Nat) : R (List Int) :=
  forN length (fun i toindex =>
    (rd carry (i : Int) >>= fun j =>
      if j > lenfromindex then err "index out of range" else rd fromindex j) >>= fun x =>
    wr toindex (i : Int) x) toindex

/-- src/cpu-kernels/awkward_index_carry_nocheck.cpp:8-17. -/
def Index_carry_nocheck (toindex fromindex carry : List Int) (length : Nat) : R (List Int) :=
  forN length (fun i toindex =>
    (rd carry (i : Int) >>= fun j => rd fromindex j) >>= fun x => wr toindex (i : Int) x) toindex

namespace Content

/-- util.cpp:461-474 `make_starts`, `make_stops`. -/
def makeStarts (offsets : List Int) : List Int := offsets.take (offsets.length - 1)
def makeStops (offsets : List Int) : List Int := offsets.drop 1

/-- ByteMaskedArray.cpp:758-786 after the contiguous case; `carryContent` carries the
content. -/
def byteMaskedCarry (p : Params) (mask : List Int) (vw : Bool)
    (carryContent : List Int → R Content) (idx : List Int) : R Content :=
  IndexedArray_getitem_carry (alloc idx.length) mask idx mask.length idx.length >>= fun mask' =>
  carryContent idx >>= fun c' => ok (byteMasked p mask' vw c')

mutual
/-- `carry` of each class (`allow_lazy` = `lazy`): EmptyArray.cpp:372-382,
NumpyArray.cpp:1451-1495, RegularArray.cpp:698-728, ListArray.cpp:798-837,
ListOffsetArray.cpp:801-835, IndexedArray.cpp:1445-1473, ByteMaskedArray.cpp:758-786,
BitMaskedArray.cpp:739-750, UnmaskedArray.cpp:638-656, RecordArray.cpp:927-960,
UnionArray.cpp:1284-1332. -/
def carry (lazy : Bool) : Content → List Int → R Content
  | empty p, idx =>
    if idx.length = 0 then ok (empty p) else err "cannot extract elements from EmptyArray"
  | numpy p dt data, idx =>
    if isContiguous idx then
      if idx.length = (numpy p dt data).len then ok (numpy p dt data)
      else (numpy p dt data).range 0 idx.length
    else
      NumpyArray_getitem_next_null (List.replicate idx.length (.int (-559038737))) data
        idx.length idx >>= fun d => ok (numpy p dt d)
  | regular p c size zeros, idx =>
    if isContiguous idx then
      if idx.length = (regular p c size zeros).len then ok (regular p c size zeros)
      else (regular p c size zeros).range 0 idx.length
    else
      RegularArray_getitem_carry (alloc (idx.length * size)) idx idx.length size >>= fun nextcarry =>
      carry lazy c nextcarry >>= fun c' => ok (regular p c' size idx.length)
  | listArray p starts stops c, idx =>
    if isContiguous idx then
      if idx.length = (listArray p starts stops c).len then ok (listArray p starts stops c)
      else (listArray p starts stops c).range 0 idx.length
    else if stops.length < starts.length then err "len(stops) < len(starts)"
    else
      ListArray_getitem_carry (alloc idx.length) (alloc idx.length) starts stops idx
        starts.length idx.length >>= fun (nextstarts, nextstops) =>
      ok (listArray p nextstarts nextstops c)
  | listOffset p offsets c, idx =>
    if isContiguous idx then
      if idx.length = (listOffset p offsets c).len then ok (listOffset p offsets c)
      else (listOffset p offsets c).range 0 idx.length
    else
      ListArray_getitem_carry (alloc idx.length) (alloc idx.length) (makeStarts offsets)
        (makeStops offsets) idx (offsets.length - 1) idx.length >>= fun (nextstarts, nextstops) =>
      ok (listArray p nextstarts nextstops c)
  | indexed p index c, idx =>
    if isContiguous idx then
      if idx.length = (indexed p index c).len then ok (indexed p index c)
      else (indexed p index c).range 0 idx.length
    else
      IndexedArray_getitem_carry (alloc idx.length) index idx index.length idx.length
        >>= fun index' => ok (indexed p index' c)
  | indexedOption p index c, idx =>
    if isContiguous idx then
      if idx.length = (indexedOption p index c).len then ok (indexedOption p index c)
      else (indexedOption p index c).range 0 idx.length
    else
      IndexedArray_getitem_carry (alloc idx.length) index idx index.length idx.length
        >>= fun index' => ok (indexedOption p index' c)
  | byteMasked p mask vw c, idx =>
    if isContiguous idx then
      if idx.length = (byteMasked p mask vw c).len then ok (byteMasked p mask vw c)
      else (byteMasked p mask vw c).range 0 idx.length
    else byteMaskedCarry p mask vw (carry lazy c) idx
  | bitMasked p mask vw length lsb c, idx =>
    if isContiguous idx then
      if idx.length = (bitMasked p mask vw length lsb c).len then
        ok (bitMasked p mask vw length lsb c)
      else (bitMasked p mask vw length lsb c).range 0 idx.length
    else
      bitMaskedByteMask mask length lsb >>= fun bytemask =>
      byteMaskedCarry p bytemask vw (carry lazy c) idx
  | unmasked p c, idx =>
    if isContiguous idx then
      if idx.length = (unmasked p c).len then ok (unmasked p c)
      else (unmasked p c).range 0 idx.length
    else carry lazy c idx >>= fun c' => ok (unmasked p c')
  | record p keys cs length, idx =>
    if lazy = false ∧ isContiguous idx = true then
      if idx.length = (record p keys cs length).len then ok (record p keys cs length)
      else (record p keys cs length).range 0 idx.length
    else if lazy then ok (indexed {} idx (record p keys cs length))
    else carryFields lazy cs idx >>= fun cs' => ok (record p keys cs' idx.length)
  | union p tags index cs, idx =>
    if isContiguous idx then
      if idx.length = (union p tags index cs).len then ok (union p tags index cs)
      else (union p tags index cs).range 0 idx.length
    else if index.length < tags.length then err "len(index) < len(tags)"
    else
      Index_carry (alloc idx.length) tags idx tags.length idx.length >>= fun tags' =>
      Index_carry_nocheck (alloc idx.length) index idx idx.length >>= fun index' =>
      ok (union p tags' index' cs)
/-- RecordArray.cpp:950-952: the loop over the fields. -/
def carryFields (lazy : Bool) : List Content → List Int → R (List Content)
  | [], _ => ok []
  | c :: cs, idx =>
    carry lazy c idx >>= fun c' => carryFields lazy cs idx >>= fun cs' => ok (c' :: cs')
end

/-- The classes tested by the `dynamic_cast`s of the nested-option checks, e.g.
IndexedArray.cpp:1542-1549. -/
def isOptionOrIndexed : Content → Bool
  | bitMasked .. | byteMasked .. | indexed .. | indexedOption .. | unmasked .. => true
  | _ => false

/-- UnionArray.cpp:1457-1459. -/
def isUnion : Content → Bool
  | union .. => true
  | _ => false

/-- Content.cpp:1713-1869, the part for strings: what a list with `__array__` = "string"
(or "bytestring") must contain. -/
def stringContentOk (inner : ArrKind) : Content → Bool
  | numpy p dt _ => p.arr == inner && dt == .uint8
  | _ => false

/-- Content.cpp:1713-1869 `validityerror_parameters` for a list node. -/
def paramsOkList (p : Params) (content : Content) : R Unit :=
  match p.arr with
  | .string => if stringContentOk .char content then ok () else err "__array__ = \"string\""
  | .bytestring => if stringContentOk .byte content then ok () else err "__array__ = \"bytestring\""
  | .char => err "__array__ = \"char\" must be directly inside __array__ = \"string\""
  | .byte => err "__array__ = \"byte\" must be directly inside __array__ = \"bytestring\""
  | .categorical => err "__array__ = \"categorical\" only allowed for IndexedArray"
  | .none => ok ()

/-- Content.cpp:1713-1869 `validityerror_parameters` for the other nodes; `isIndexed` says
whether the node is an IndexedArray or IndexedOptionArray. Simplified: the requirement that a
categorical array has unique contents is left out, so this check accepts more than the
code. -/
def paramsOk (p : Params) (isIndexed : Bool) : R Unit :=
  match p.arr with
  | .none => ok ()
  | .categorical => if isIndexed then ok () else err "__array__ = \"categorical\""
  | _ => err "__array__"

/-- src/cpu-kernels/awkward_ListArray_validity.cpp:8-29. -/
def ListArray_validity (starts stops : List Int) (length lencontent : Nat) : R Unit :=
  forN length (fun i _ =>
    rd starts (i : Int) >>= fun start => rd stops (i : Int) >>= fun stop =>
    if start ≠ stop then
      if start > stop then err "start[i] > stop[i]"
      else if start < 0 then err "start[i] < 0"
      else if stop > lencontent then err "stop[i] > len(content)"
      else ok ()
    else ok ()) ()

/-- src/cpu-kernels/awkward_IndexedArray_validity.cpp:8-25. -/
def IndexedArray_validity (index : List Int) (length lencontent : Nat) (isoption : Bool) : R Unit :=
  forN length (fun i _ =>
    rd index (i : Int) >>= fun idx =>
    if !isoption ∧ idx < 0 then err "index[i] < 0"
    else if idx ≥ lencontent then err "index[i] >= len(content)"
    else ok ()) ()

/-- src/cpu-kernels/awkward_UnionArray_validity.cpp:8-32. -/
def UnionArray_validity (tags index : List Int) (length numcontents : Nat)
    (lencontents : List Nat) : R Unit :=
  forN length (fun i _ =>
    rd tags (i : Int) >>= fun tag => rd index (i : Int) >>= fun idx =>
    if tag < 0 then err "tags[i] < 0"
    else if idx < 0 then err "index[i] < 0"
    else if tag ≥ numcontents then err "tags[i] >= len(contents)"
    else rd lencontents tag >>= fun lencontent =>
      if idx ≥ lencontent then err "index[i] >= len(content[tags[i]])" else ok ()) ()

/-- The nested option/indexed check shared by IndexedArray, ByteMaskedArray, BitMaskedArray
and UnmaskedArray. -/
def nestedOk (c : Content) : R Unit :=
  if c.isOptionOrIndexed then err "might have forgotten to call 'simplify_optiontype()'" else ok ()

mutual
/-- `validityerror` of each class (an empty string is `ok ()`): EmptyArray.cpp:430,
NumpyArray.cpp:1542-1566, RegularArray.cpp:786-806, ListArray.cpp:903-938,
ListOffsetArray.cpp:901-938, IndexedArray.cpp:1523-1556, ByteMaskedArray.cpp:828-853,
BitMaskedArray.cpp:792-822, UnmaskedArray.cpp:697-717, RecordArray.cpp:1035-1057,
UnionArray.cpp:1450-1495. -/
def validity : Content → R Unit
  | empty p => paramsOk p false
  | numpy p _ _ => paramsOk p false
  | regular p c _ _ =>
    paramsOkList p c >>= fun _ =>
    if p.arr = .string ∨ p.arr = .bytestring then ok () else c.validity
  | listArray p starts stops c =>
    paramsOkList p c >>= fun _ =>
    if stops.length < starts.length then err "len(stops) < len(starts)"
    else ListArray_validity starts stops starts.length c.len >>= fun _ =>
      if p.arr = .string ∨ p.arr = .bytestring then ok () else c.validity
  | listOffset p offsets c =>
    paramsOkList p c >>= fun _ =>
    if offsets.length < 1 then err "len(offsets) < 1"
    else ListArray_validity (makeStarts offsets) (makeStops offsets) (offsets.length - 1) c.len
      >>= fun _ =>
      if p.arr = .string ∨ p.arr = .bytestring then ok () else c.validity
  | indexed p index c =>
    paramsOk p true >>= fun _ =>
    IndexedArray_validity index index.length c.len false >>= fun _ =>
    c.nestedOk >>= fun _ => c.validity
  | indexedOption p index c =>
    paramsOk p true >>= fun _ =>
    IndexedArray_validity index index.length c.len true >>= fun _ =>
    c.nestedOk >>= fun _ => c.validity
  | byteMasked p mask _ c =>
    paramsOk p false >>= fun _ =>
    if c.len < mask.length then err "len(content) < len(mask)"
    else c.nestedOk >>= fun _ => c.validity
  | bitMasked p mask _ length _ c =>
    paramsOk p false >>= fun _ =>
    if mask.length * 8 < length then err "len(mask) * 8 < length"
    else if c.len < length then err "len(content) < length"
    else c.nestedOk >>= fun _ => c.validity
  | unmasked p c =>
    paramsOk p false >>= fun _ => c.nestedOk >>= fun _ => c.validity
  | record p _ cs length =>
    paramsOk p false >>= fun _ =>
    if cs.any (fun c => decide (c.len < length)) then err "len(field) < len(recordarray)"
    else validityAll cs
  | union p tags index cs =>
    paramsOk p false >>= fun _ =>
    if cs.any isUnion then err "might have forgotten to call 'simplify_uniontype()'"
    else if index.length < tags.length then err "len(index) < len(tags)"
    else UnionArray_validity tags index tags.length cs.length (cs.map len) >>= fun _ =>
      validityAll cs
/-- RecordArray.cpp:1049-1055, UnionArray.cpp:1487-1493: the loop over the contents. -/
def validityAll : List Content → R Unit
  | [] => ok ()
  | c :: cs => c.validity >>= fun _ => validityAll cs
end

end Content

/-- What one C++ `getitem_at_nowrap` returns: `None`, a number, a record of a record array,
or a sub-array. -/
inductive Item where
  | none
  | scalar (a : Atom)
  | record (array : Content) (at_ : Nat)
  | array (c : Content)

namespace Content

mutual
/-- `getitem_at_nowrap` of each class: EmptyArray.cpp:323, NumpyArray.cpp:1222,
RegularArray.cpp:618, ListArray.cpp:681-712, ListOffsetArray.cpp:673-702,
IndexedArray.cpp:1266-1292, ByteMaskedArray.cpp:623-632, BitMaskedArray.cpp:645-659,
UnmaskedArray.cpp:522, RecordArray.cpp:798, UnionArray.cpp:1109-1134. -/
def getitemAtNowrap : Content → Nat → R Item
  | empty _, _ => err "index out of range"
  | numpy _ _ data, i => rd data (i : Int) >>= fun a => ok (.scalar a)
  | regular _ c size _, i => c.range (i * size) ((i + 1) * size) >>= fun c' => ok (.array c')
  | listArray _ starts stops c, i =>
    rd starts (i : Int) >>= fun start => rd stops (i : Int) >>= fun stop =>
    checkStartStop start stop c.len >>= fun (start, stop) =>
    c.range start stop >>= fun c' => ok (.array c')
  | listOffset _ offsets c, i =>
    rd offsets (i : Int) >>= fun start => rd offsets ((i + 1 : Nat) : Int) >>= fun stop =>
    checkStartStop start stop c.len >>= fun (start, stop) =>
    c.range start stop >>= fun c' => ok (.array c')
  | indexed _ index c, i =>
    rd index (i : Int) >>= fun j => checkIndex false j c.len >>= fun
      | none => ok .none
      | some k => c.getitemAtNowrap k
  | indexedOption _ index c, i =>
    rd index (i : Int) >>= fun j => checkIndex true j c.len >>= fun
      | none => ok .none
      | some k => c.getitemAtNowrap k
  | byteMasked _ mask validWhen c, i =>
    rd mask (i : Int) >>= fun m =>
    if decide (m ≠ 0) = validWhen then c.getitemAtNowrap i else ok .none
  | bitMasked _ mask validWhen _ lsb c, i =>
    bitAt mask lsb i >>= fun b => if b = validWhen then c.getitemAtNowrap i else ok .none
  | unmasked _ c, i => c.getitemAtNowrap i
  | record p keys cs length, i => ok (.record (record p keys cs length) i)
  | union _ tags index cs, i =>
    rd tags (i : Int) >>= fun tag => rd index (i : Int) >>= fun j =>
    checkTag tag j cs.length >>= fun (t, j) => getitemAtNth cs t j
/-- UnionArray.cpp:1122-1133: the access to the chosen content. -/
def getitemAtNth : List Content → Nat → Int → R Item
  | [], _, _ => ub
  | c :: _, 0, j =>
    if ¬ (0 ≤ j ∧ j < c.len) then err "index[i] > len(content(tag))"
    else c.getitemAtNowrap j.toNat
  | _ :: cs, t + 1, j => getitemAtNth cs t j
end

/-- `getitem_at` of each class, e.g. RegularArray.cpp:602-616: negative positions count from
the end, others outside the array raise. -/
def getitemAt (c : Content) (at_ : Int) : R Item :=
  let regular_at := if at_ < 0 then at_ + c.len else at_
  if ¬ (0 ≤ regular_at ∧ regular_at < c.len) then err "index out of range"
  else c.getitemAtNowrap regular_at.toNat

/-- `getitem_range` of each class, e.g. RegularArray.cpp:623-640. -/
def getitemRange (c : Content) (start stop : Int) : R Content :=
  let (regular_start, regular_stop) :=
    regularize_rangeslice start stop true (start != kSliceNone) (stop != kSliceNone) c.len
  c.range regular_start regular_stop

end Content
end Awk
