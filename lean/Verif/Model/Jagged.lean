import Verif.Model.Getitem
import Verif.Model.Reduce
/-
Ragged slices: `array[index]` where `index` is itself an awkward array of lists
(`Content::asslice`, `SliceJagged64`, `getitem_next_jagged`). The slice is the only item, so the
tail that the C++ passes along is empty and `getitem_next` with an empty tail returns its argument
(Content.cpp:1391-1396).
-/

namespace Awk
open R

/-- The slice items that a ragged array becomes (include/awkward/Slice.h: SliceArray64 with its
flag `frombool`, SliceJagged64, SliceMissing64). SliceVarNewAxis is not modelled. -/
inductive JSlice
  | array (index : List Int) (frombool : Bool)
  | jagged (offsets : List Int) (content : JSlice)
  | missing (index : List Int) (content : JSlice)

/-- src/libawkward/util.cpp:362-378 `is_integer`. -/
def DType.isInteger : DType → Bool
  | .int8 | .int16 | .int32 | .int64 | .uint8 | .uint16 | .uint32 | .uint64 => true
  | _ => false

/-! ### Kernels -/

/-- src/cpu-kernels/awkward_ListArray_getitem_jagged_carrylen.cpp:6-18. -/
def ListArray_getitem_jagged_carrylen (slicestarts slicestops : List Int) (sliceouterlen : Nat) :
    R Int :=
  forN sliceouterlen (fun i carrylen =>
    rd slicestops i >>= fun stop => rd slicestarts i >>= fun start =>
    ok (carrylen + (stop - start))) 0

/-- The body of the inner loop of `jagged_apply`: one position of the list `start … stop`. -/
def jaggedPut (sliceindex : List Int) (start count : Int) (j : Int) (st : List Int × Nat) :
    R (List Int × Nat) :=
  rd sliceindex j >>= fun raw =>
  let index := if raw < 0 then raw + count else raw
  if ¬ (0 ≤ index ∧ index < count) then err "index out of range" else
  wr st.1 (st.2 : Int) (start + index) >>= fun tocarry => ok (tocarry, st.2 + 1)

/-- src/cpu-kernels/awkward_ListArray_getitem_jagged_apply.cpp:8-58. -/
def ListArray_getitem_jagged_apply (tooffsets tocarry slicestarts slicestops : List Int)
    (sliceouterlen : Nat) (sliceindex : List Int) (sliceinnerlen : Nat)
    (fromstarts fromstops : List Int) (contentlen : Nat) : R (List Int × List Int) :=
  forN sliceouterlen (fun i (st : List Int × List Int × Nat) =>
    rd slicestarts i >>= fun slicestart => rd slicestops i >>= fun slicestop =>
    wr st.1 i (st.2.2 : Int) >>= fun tooffsets =>
    (if slicestart ≠ slicestop then
      if slicestop < slicestart then err "jagged slice's stops[i] < starts[i]" else
      if slicestop > sliceinnerlen then err "jagged slice's offsets extend beyond its content" else
      rd fromstarts i >>= fun start => rd fromstops i >>= fun stop =>
      if stop < start then err "stops[i] < starts[i]" else
      if start ≠ stop ∧ stop > contentlen then err "stops[i] > len(content)" else
      forFrom slicestart slicestop (jaggedPut sliceindex start (stop - start)) st.2
    else ok st.2) >>= fun ck =>
    wr tooffsets ((i + 1 : Nat) : Int) (ck.2 : Int) >>= fun tooffsets => ok (tooffsets, ck))
    (tooffsets, tocarry, 0) >>= fun st => ok (st.1, st.2.1)

/-- src/cpu-kernels/awkward_ListArray_getitem_jagged_descend.cpp:8-36. -/
def ListArray_getitem_jagged_descend (tooffsets slicestarts slicestops : List Int)
    (sliceouterlen : Nat) (fromstarts fromstops : List Int) : R (List Int) :=
  (if sliceouterlen = 0 then wr tooffsets 0 0
    else rd slicestarts 0 >>= fun s => wr tooffsets 0 s) >>= fun tooffsets =>
  forN sliceouterlen (fun i tooffsets =>
    rd slicestops i >>= fun slicestop => rd slicestarts i >>= fun slicestart =>
    rd fromstops i >>= fun stop => rd fromstarts i >>= fun start =>
    if slicestop - slicestart ≠ stop - start then
      err "jagged slice inner length differs from array inner length" else
    rd tooffsets i >>= fun o =>
    wr tooffsets ((i + 1 : Nat) : Int) (o + (stop - start))) tooffsets

/-- src/cpu-kernels/awkward_ListArray_getitem_jagged_numvalid.cpp:6-35. -/
def ListArray_getitem_jagged_numvalid (slicestarts slicestops : List Int) (length : Nat)
    (missing : List Int) (missinglength : Nat) : R Nat :=
  forN length (fun i numvalid =>
    rd slicestarts i >>= fun slicestart => rd slicestops i >>= fun slicestop =>
    if slicestart ≠ slicestop then
      if slicestop < slicestart then err "jagged slice's stops[i] < starts[i]" else
      if slicestop > missinglength then err "jagged slice's offsets extend beyond its content" else
      forFrom slicestart slicestop (fun j numvalid =>
        rd missing j >>= fun m => ok (numvalid + if m ≥ 0 then 1 else 0)) numvalid
    else ok numvalid) 0

/-- src/cpu-kernels/awkward_ListArray_getitem_jagged_shrink.cpp:8-48: the carry, the small and the
large offsets. -/
def ListArray_getitem_jagged_shrink (tocarry tosmall tolarge slicestarts slicestops : List Int)
    (length : Nat) (missing : List Int) : R (List Int × List Int × List Int) :=
  (if length = 0 then
    wr tosmall 0 0 >>= fun tosmall => wr tolarge 0 0 >>= fun tolarge => ok (tosmall, tolarge)
  else
    rd slicestarts 0 >>= fun s =>
    wr tosmall 0 s >>= fun tosmall => wr tolarge 0 s >>= fun tolarge => ok (tosmall, tolarge))
    >>= fun sl =>
  forN length (fun i (st : (List Int × Nat) × List Int × List Int) =>
    rd slicestarts i >>= fun slicestart => rd slicestops i >>= fun slicestop =>
    rd st.2.1 i >>= fun small => rd st.2.2 i >>= fun large =>
    (if slicestart ≠ slicestop then
      forFrom slicestart slicestop (fun j (cks : (List Int × Nat) × Int) =>
        rd missing j >>= fun m =>
        if m ≥ 0 then
          wr cks.1.1 (cks.1.2 : Int) j >>= fun tocarry => ok ((tocarry, cks.1.2 + 1), cks.2 + 1)
        else ok cks) (st.1, 0) >>= fun cks => ok (cks.1, small + cks.2)
    else ok (st.1, small)) >>= fun cs =>
    wr st.2.1 ((i + 1 : Nat) : Int) cs.2 >>= fun tosmall =>
    wr st.2.2 ((i + 1 : Nat) : Int) (large + (slicestop - slicestart)) >>= fun tolarge =>
    ok (cs.1, tosmall, tolarge)) ((tocarry, 0), sl.1, sl.2) >>= fun st =>
  ok (st.1.1, st.2.1, st.2.2)

/-- src/cpu-kernels/awkward_MaskedArray_getitem_next_jagged_project.cpp:8-24. -/
def MaskedArray_getitem_next_jagged_project (index startsIn stopsIn startsOut stopsOut : List Int)
    (length : Nat) : R (List Int × List Int) :=
  forN length (fun i (st : (List Int × List Int) × Nat) =>
    rd index i >>= fun j =>
    if j ≥ 0 then
      rd startsIn i >>= fun start => wr st.1.1 (st.2 : Int) start >>= fun startsOut =>
      rd stopsIn i >>= fun stop => wr st.1.2 (st.2 : Int) stop >>= fun stopsOut =>
      ok ((startsOut, stopsOut), st.2 + 1)
    else ok st) ((startsOut, stopsOut), 0) >>= fun st => ok st.1

/-- src/cpu-kernels/awkward_RegularArray_getitem_jagged_expand.cpp:8-22. -/
def RegularArray_getitem_jagged_expand (multistarts multistops singleoffsets : List Int)
    (regularsize regularlength : Nat) : R (List Int × List Int) :=
  forN regularlength (fun i st => forN regularsize (fun j (st : List Int × List Int) =>
    rd singleoffsets j >>= fun start =>
    wr st.1 ((i * regularsize + j : Nat) : Int) start >>= fun multistarts =>
    rd singleoffsets ((j + 1 : Nat) : Int) >>= fun stop =>
    wr st.2 ((i * regularsize + j : Nat) : Int) stop >>= fun multistops =>
    ok (multistarts, multistops)) st) (multistarts, multistops)

/-- src/cpu-kernels/awkward_ListOffsetArray_getitem_adjust_offsets.cpp:8-31. The
condition of the inner loop reads `nonzero[j]` only when `j < nonzerolength`. -/
def ListOffsetArray_getitem_adjust_offsets (tooffsets tononzero fromoffsets : List Int)
    (length : Nat) (nonzero : List Int) (nonzerolength : Nat) : R (List Int × List Int) :=
  rd fromoffsets 0 >>= fun o0 => wr tooffsets 0 o0 >>= fun tooffsets =>
  forN length (fun i (st : List Int × List Int × Nat) =>
    rd fromoffsets i >>= fun slicestart =>
    rd fromoffsets ((i + 1 : Nat) : Int) >>= fun slicestop =>
    whileF (nonzerolength + 1)
      (fun (s : List Int × Nat × Nat) =>
        decide (s.2.1 < nonzerolength) &&
          (match nonzero[s.2.1]? with | some x => decide (x < slicestop) | none => false))
      (fun s =>
        rd nonzero (s.2.1 : Int) >>= fun x =>
        wr s.1 (s.2.1 : Int) (x - slicestart) >>= fun tononzero =>
        ok (tononzero, s.2.1 + 1, s.2.2 + 1))
      (st.2.1, st.2.2, 0) >>= fun s =>
    rd st.1 i >>= fun o =>
    wr st.1 ((i + 1 : Nat) : Int) (o + (s.2.2 : Int)) >>= fun tooffsets =>
    ok (tooffsets, s.1, s.2.1)) (tooffsets, tononzero, 0) >>= fun st => ok (st.1, st.2.1)

namespace Content

/-! ### From an array to a slice -/

/-- ListOffsetArray.cpp:1159-1236 `ListOffsetArray64::asslice`, where `rec` is `asslice` of the
content. Booleans with missing values are not modelled. -/
def listAsslice (rec : Content → R JSlice) (offsets : List Int) (c : Content) : R JSlice :=
  rd offsets 0 >>= fun start => rd offsets ((offsets.length - 1 : Nat) : Int) >>= fun stop =>
  c.range start stop >>= fun next =>
  (if start ≠ 0 then
    ListOffsetArray_compact_offsets (alloc offsets.length) offsets (offsets.length - 1)
  else ok offsets) >>= fun offsets =>
  rec next >>= fun slicecontent =>
  match slicecontent with
  | .array nonzero true =>
    ListOffsetArray_getitem_adjust_offsets (alloc offsets.length) (alloc nonzero.length) offsets
      (offsets.length - 1) nonzero nonzero.length >>= fun on =>
    ok (.jagged on.1 (.array on.2 true))
  | slicecontent => ok (.jagged offsets slicecontent)

/-- `asslice` of each class: EmptyArray.cpp:518-524, NumpyArray.cpp:3003-3127 (one dimension, data
in one piece; the integers must fit in 64 bits), RegularArray.cpp:968-979 (size 1 is not modelled),
ListArray.cpp:1298-1301, ListOffsetArray.cpp:1159-1242, IndexedArray.cpp:1985-2045 (booleans with
missing values are not modelled), ByteMaskedArray.cpp:1020, BitMaskedArray.cpp:933,
UnmaskedArray.cpp:854, RecordArray.cpp:1394, UnionArray.cpp:1913 (not modelled). -/
def assliceF : Nat → Content → R JSlice
  | 0, _ => ub
  | f + 1, self => match self with
    | empty _ => ok (.array [] false)
    | numpy _ dt data =>
      if dt.isInteger then ok (.array (data.map Atom.toInt) false)
      else if dt = DType.bool then
        NumpyArray_getitem_boolean_numtrue (data.map Atom.toInt) data.length 1 >>= fun numtrue =>
        NumpyArray_getitem_boolean_nonzero (alloc numtrue) (data.map Atom.toInt) data.length 1
          >>= fun index => ok (.array index true)
      else err "only arrays of integers or booleans may be used as a slice"
    | listOffset _ offsets c => listAsslice (assliceF f) offsets c
    | listArray .. => self.listParts >>= fun oc => listAsslice (assliceF f) oc.1 oc.2
    | indexed .. => self.project >>= fun c' => assliceF f c'
    | unmasked _ c => assliceF f c
    | indexedOption _ _ c =>
      self.nextcarryOutindex >>= fun nco =>
      c.carry false nco.2.1 >>= fun next => assliceF f next >>= fun slicecontent =>
      match slicecontent with
      | .array _ true => err "missing booleans: not modelled"
      | slicecontent => ok (.missing nco.2.2 slicecontent)
    | byteMasked .. | bitMasked .. => self.toIndexedOption >>= fun c' => assliceF f c'
    | regular .. => err "fixed-size dimension in a ragged slice"
    | record .. => err "cannot use records as a slice"
    | union .. => err "union: simplify_uniontype is not modelled here"

/-- `Content::asslice`. -/
def asslice (c : Content) : R JSlice := assliceF c.rank c

/-- NumpyArray.cpp:3013-3023, `asslice` of 64-bit integers: the Index64 that ragged slices read is
the buffer from the byte offset on, whatever the stride is (ListArray.cpp:1845 uses `index()` and
not the stride). `buffer` holds the integers, `offset` and `stride` count integers. -/
def stridedAsslice (buffer : List Int) (offset : Nat) (length : Nat) (_stride : Int) :
    R (List Int) := idxRange buffer offset (offset + length)

/-! ### `getitem_next_jagged` -/

/-- ListArray.cpp:1814-1866: the positions `index` picked in the lists `lstarts … lstops`. -/
def jaggedArray (index : List Int) (starts stops lstarts lstops : List Int) (c : Content) :
    R Content :=
  if starts.length ≠ lstarts.length then err "cannot fit jagged slice" else
  if lstops.length < lstarts.length then err "len(stops) < len(starts)" else
  ListArray_getitem_jagged_carrylen starts stops starts.length >>= fun carrylen =>
  ListArray_getitem_jagged_apply (alloc (starts.length + 1)) (alloc carrylen) starts stops
    starts.length index index.length lstarts lstops c.len >>= fun oc =>
  c.carry true oc.2 >>= fun nextcontent => ok (listOffset {} oc.1 nextcontent)

/-- ListArray.cpp:1956-2001: one more level of lists; `k` is `getitem_next_jagged` with the
content of the slice. -/
def jaggedDescend (k : List Int → List Int → Content → R Content) (sliceoffsets : List Int)
    (starts stops lstarts lstops : List Int) (c : Content) : R Content :=
  if starts.length ≠ lstarts.length then err "cannot fit jagged slice" else
  ListArray_getitem_jagged_descend (alloc (starts.length + 1)) starts stops starts.length lstarts
    lstops >>= fun outoffsets =>
  (listArray {} lstarts lstops c).listParts >>= fun oc =>
  k (makeStarts sliceoffsets) (makeStops sliceoffsets) oc.2 >>= fun outcontent =>
  ok (listOffset {} outoffsets outcontent)

/-- ListArray.cpp:1868-1954: a slice with missing positions. `k` is `getitem_next_jagged` with the
content of the slice, `isjagged` tells that this content is a SliceJagged64. -/
def jaggedMissing (k : List Int → List Int → Content → R Content) (isjagged : Bool)
    (missing : List Int) (starts stops lstarts lstops : List Int) (c : Content) : R Content :=
  if starts.length ≠ lstarts.length then err "cannot fit jagged slice" else
  ListArray_getitem_jagged_numvalid starts stops starts.length missing missing.length
    >>= fun numvalid =>
  ListArray_getitem_jagged_shrink (alloc numvalid) (alloc (starts.length + 1))
    (alloc (starts.length + 1)) starts stops starts.length missing >>= fun csl =>
  (if isjagged then
    c.carry true csl.1 >>= fun nextcontent =>
    k (makeStarts csl.2.1) (makeStops csl.2.1) (listOffset {} csl.2.1 nextcontent)
  else k (makeStarts csl.2.1) (makeStops csl.2.1) (listArray {} lstarts lstops c)) >>= fun out =>
  match out with
  | listOffset _ _ content =>
    rd csl.2.2 ((csl.2.2.length - 1 : Nat) : Int) >>= fun stop =>
    idxRange missing 0 stop >>= fun trim =>
    indexedSimplify true {} trim content >>= fun content' => ok (listOffset {} csl.2.2 content')
  | _ => err "expected ListOffsetArray64 from ListArray::getitem_next_jagged"

/-- `getitem_next_jagged` of each class around `lh`, what it does to lists: EmptyArray.cpp:702-770
and NumpyArray.cpp:3855-3945 (raise), RegularArray.cpp:1563-1610, ListArray.cpp:1814-2001,
ListOffsetArray.cpp:2261-2346, IndexedArray.cpp:2768-2825, ByteMaskedArray.cpp:1430-1466,
BitMaskedArray.cpp:1064-1100, UnmaskedArray.cpp:1150-1161, RecordArray.cpp:1860-1882,
UnionArray.cpp:2298 (not modelled). -/
def jaggedF (lh : List Int → List Int → List Int → List Int → Content → R Content) :
    Nat → List Int → List Int → Content → R Content
  | 0, _, _, _ => ub
  | f + 1, starts, stops, self => match self with
    | empty _ => err "undefined operation: EmptyArray::getitem_next_jagged(array)"
    | numpy .. => err "undefined operation: NumpyArray::getitem_next_jagged(array)"
    | regular .. =>
      self.listParts >>= fun oc => lh starts stops (makeStarts oc.1) (makeStops oc.1) oc.2
    | listArray _ lstarts lstops c => lh starts stops lstarts lstops c
    | listOffset _ offsets c => lh starts stops (makeStarts offsets) (makeStops offsets) c
    | indexed .. =>
      if starts.length ≠ self.len then err "cannot fit jagged slice" else
      self.project >>= fun next => jaggedF lh f starts stops next
    | indexedOption p _ c | byteMasked p _ _ c =>
      if starts.length ≠ self.len then err "cannot fit jagged slice" else
      self.nextcarryOutindex >>= fun nco =>
      MaskedArray_getitem_next_jagged_project nco.2.2 starts stops (alloc (self.len - nco.1))
        (alloc (self.len - nco.1)) self.len >>= fun rs =>
      c.carry true nco.2.1 >>= fun next => jaggedF lh f rs.1 rs.2 next >>= fun out =>
      indexedSimplify true p nco.2.2 out
    | bitMasked .. => self.toByteMasked >>= fun c' => jaggedF lh f starts stops c'
    | unmasked p c => jaggedF lh f starts stops c >>= fun out => simplifyOption (unmasked p out)
    | record p keys cs length =>
      if cs = [] then ok self else
      mapR (fun c => c.range 0 length >>= fun trimmed => jaggedF lh f starts stops trimmed) cs
        >>= fun cs' => ok (recordOfContents p keys 0 cs')
    | union .. => err "union: simplify_uniontype is not modelled here"

/-- `getitem_next_jagged` with a slice and an empty tail (Content.cpp:1445-1470). -/
def nextJagged : JSlice → List Int → List Int → Content → R Content
  | .array index _ => fun starts stops c => jaggedF (jaggedArray index) (2 * c.rank) starts stops c
  | .jagged offsets content => fun starts stops c =>
    jaggedF (jaggedDescend (nextJagged content) offsets) (2 * c.rank) starts stops c
  | .missing index content => fun starts stops c =>
    jaggedF (jaggedMissing (nextJagged content)
      (match content with | .jagged .. => true | _ => false) index) (2 * c.rank) starts stops c

/-- RegularArray.cpp:1522-1560 `getitem_next(SliceJagged64)` of the array seen as one list
(Content.cpp:1369-1389), whose length is 1, and the first element of the result. -/
def getitemSlice (slice : JSlice) (c : Content) : R Item :=
  match slice with
  | .jagged offsets content =>
    if offsets.length - 1 ≠ c.len then err "cannot fit jagged slice" else
    RegularArray_getitem_jagged_expand (alloc ((offsets.length - 1) * 1 : Nat))
      (alloc ((offsets.length - 1) * 1 : Nat)) offsets (offsets.length - 1) 1 >>= fun ms =>
    nextJagged content ms.1 ms.2 c >>= fun down =>
    let out := regular {} down (offsets.length - 1) 1
    if out.len = 0 then getitemNothing out else out.getitemAtNowrap 0
  | _ => err "not a ragged slice: not modelled here"

/-- `array[index]` with a ragged index (src/python/content.cpp:577-591). -/
def getitemJagged (index c : Content) : R Item :=
  index.asslice >>= fun slice => getitemSlice slice c

end Content
end Awk
