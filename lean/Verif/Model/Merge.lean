import Verif.Model.List
/-
Model of merging arrays end to end (`mergeable`, `mergemany`, `reverse_merge`,
`merge_as_union`), of `simplify_uniontype` and of `fillna`.

Simplifications, common to this file:
* VirtualArray nodes are not modelled (the code looks through them);
* the dtypes float16, float128 and complex256 and the units of datetimes are not modelled;
* `mergemany` calls itself on contents and on partial results; it takes a fuel argument here, and
  running out of fuel is `ub`. `Props/Merge.lean` shows that the top-level fuel is always enough;
* `referentially_equal` (a comparison of pointers) is an arbitrary function `same`; the theorems
  assume only that arrays which are the same pointers are equal.
-/

namespace Awk
open R

/-- A loop over a `std::vector` that updates a state. -/
def foldR (f : σ → α → R σ) : σ → List α → R σ
  | s, [] => ok s
  | s, a :: as => f s a >>= fun s => foldR f s as

/-- util.cpp:602-664 `parameters_equal(self, other, false)`. -/
def Params.agree (p q : Params) : Bool := decide (p.arr = q.arr ∧ p.recName = q.recName)

/-- util.cpp:666-676 `merge_parameters`: the output keeps what the input has, too. -/
def Params.merge (out inp : Params) : Params where
  arr := if out.arr = inp.arr then out.arr else .none
  recName := if out.recName = inp.recName then out.recName else none
  other := out.other.filter (fun kv => decide (kv ∈ inp.other))

namespace DType

/-- util.cpp `is_complex`. -/
def isComplex (d : DType) : Bool := d = complex64 || d = complex128

/-- util.cpp `is_signed`. -/
def isSigned (d : DType) : Bool := d = int8 || d = int16 || d = int32 || d = int64

/-- The four dtypes that float32 cannot represent in NumpyArray.cpp:1967-1978. -/
def isWideInt (d : DType) : Bool := d = uint64 || d = int64 || d = uint32 || d = int32

/-- NumpyArray.cpp:1920-2082: the dtype of the merged array, one step of the loop. -/
def promote (next that : DType) : DType :=
  if next = complex128 || that = complex128 then complex128
  else if ((next = float64 || next.isWideInt) && that.isComplex)
      || ((that = float64 || that.isWideInt) && next.isComplex) then complex128
  else if next = complex64 || that = complex64 then complex64
  else if next = float64 || that = float64 then float64
  else if (next = float32 && that.isWideInt) || (that = float32 && next.isWideInt) then float64
  else if next = float32 || that = float32 then float32
  else if (next = uint64 && that.isSigned) || (that = uint64 && next.isSigned) then float64
  else if next = uint64 || that = uint64 then uint64
  else if next = int64 || that = int64 then int64
  else if (next = uint32 && that.isSigned) || (that = uint32 && next.isSigned) then int64
  else if next = uint32 || that = uint32 then uint32
  else if next = int32 || that = int32 then int32
  else if (next = uint16 && that.isSigned) || (that = uint16 && next.isSigned) then int32
  else if next = uint16 || that = uint16 then uint16
  else if next = int16 || that = int16 then int16
  else if (next = uint8 && that.isSigned) || (that = uint8 && next.isSigned) then int16
  else if next = uint8 || that = uint8 then uint8
  else if next = int8 || that = int8 then int8
  else next

/-- NumpyArray.cpp:2118-2956: the dtypes that the `switch` statements copy into `to`; the others
reach `throw std::runtime_error("dtype not in …")`. -/
def fillsFrom : DType → List DType
  | bool => [bool]
  | int8 => [bool, int8]
  | int16 => [bool, int8, int16, uint8]
  | int32 => [bool, int8, int16, int32, uint8, uint16]
  | int64 => [bool, int8, int16, int32, int64, uint8, uint16, uint32]
  | uint8 => [bool, uint8]
  | uint16 => [bool, uint8, uint16]
  | uint32 => [bool, uint8, uint16, uint32]
  | uint64 => [bool, uint8, uint16, uint32, uint64]
  | float32 => [bool, int8, int16, uint8, uint16, float32]
  | float64 => [bool, int8, int16, int32, int64, uint8, uint16, uint32, uint64, float32, float64]
  | complex64 => [bool, int8, int16, int32, int64, uint8, uint16, uint32, uint64, float32, float64,
      complex64]
  | complex128 => [bool, int8, int16, int32, int64, uint8, uint16, uint32, uint64, float32,
      float64, complex64, complex128]
  | datetime64 => [datetime64]
  | timedelta64 => [timedelta64]

end DType

namespace Atom

/-- awkward_NumpyArray_fill*.cpp: the C conversion of one item to the merged dtype. Integers are
exact in every wider dtype (the rounding of large integers to floating point is not modelled). -/
def convert (to : DType) (a : Atom) : Atom :=
  match to, a with
  | .complex64, .bool b | .complex128, .bool b => .complex (if b then 1 else 0) 0
  | .complex64, .int i | .complex128, .int i => .complex i 0
  | .complex64, .real q | .complex128, .real q => .complex q 0
  | .float32, .bool b | .float64, .bool b => .real (if b then 1 else 0)
  | .float32, .int i | .float64, .int i => .real i
  | .int8, .bool b | .int16, .bool b | .int32, .bool b | .int64, .bool b
  | .uint8, .bool b | .uint16, .bool b | .uint32, .bool b | .uint64, .bool b =>
    .int (if b then 1 else 0)
  | _, a => a

end Atom

namespace Content

/-- The node is an IndexedArray or one of the option types. -/
def isIndirect : Content → Bool
  | indexed .. | indexedOption .. | byteMasked .. | bitMasked .. | unmasked .. => true
  | _ => false

/-- The first lines of the `mergeable` methods of NumpyArray (NumpyArray.cpp:1669-1715),
RegularArray (RegularArray.cpp:848-893), ListArray, ListOffsetArray
(ListOffsetArray.cpp:1040-1085) and RecordArray (RecordArray.cpp:1133-1178): look through the
indexed and option nodes of `other`, comparing the parameters at every level. -/
def strip (p : Params) : Content → Option Content
  | indexed q index c => if p.agree q then strip p c else (none : Option Content)
  | indexedOption q index c => if p.agree q then strip p c else none
  | byteMasked q mask vw c => if p.agree q then strip p c else none
  | bitMasked q mask vw length lsb c => if p.agree q then strip p c else none
  | unmasked q c => if p.agree q then strip p c else none
  | other => if p.agree other.params then some other else none

/-- NumpyArray.cpp:1721-1787: two NumpyArrays. Dimensions are not modelled here. -/
def numpyMergeable (mergebool : Bool) (d e : DType) : Bool :=
  if !mergebool && d ≠ e && (d = .bool || e = .bool) then false
  else if d ≠ e && (d = .datetime64 || e = .datetime64) then false
  else if d ≠ e && (d = .timedelta64 || e = .timedelta64) then false
  else true

/-- RecordArray.cpp `field(key)`: the content of the first field with this key. -/
def fieldOf (keys : List String) (cs : List Content) (key : String) : Option Content :=
  (keys.zip cs).lookup key

/-- The list classes, where `rec` is `mergeable` of the content. -/
def mergeableList (rec : Content → Bool) (p : Params) (other : Content) : Bool :=
  match strip p other with
  | some (empty _) | some (union ..) => true
  | some (regular _ d _ _) | some (listArray _ _ _ d) | some (listOffset _ _ d) => rec d
  | _ => false

/-- The indexed and option classes, where `rec` is `mergeable` of the content. -/
def mergeableIndirect (rec : Content → Bool) (p : Params) (other : Content) : Bool :=
  p.agree other.params &&
  match other with
  | empty _ | union .. => true
  | indexed _ _ d | indexedOption _ _ d | byteMasked _ _ _ d | bitMasked _ _ _ _ _ d
  | unmasked _ d => rec d
  | other => rec other

mutual
/-- `mergeable(other, mergebool)` of each class: EmptyArray.cpp:473-479, NumpyArray.cpp:1668-1791,
RegularArray.cpp:846-926, ListArray.cpp `mergeable`, ListOffsetArray.cpp:1036-1118,
IndexedArray.cpp:1640-1694, ByteMaskedArray.cpp:928-980, BitMaskedArray.cpp and
UnmaskedArray.cpp `mergeable`, RecordArray.cpp:1131-1212, UnionArray.cpp:1594-1606. -/
def mergeable (mb : Bool) : Content → Content → Bool
  | empty p, other => p.agree other.params
  | numpy p d _, other =>
    match strip p other with
    | some (empty _) | some (union ..) => true
    | some (numpy _ e _) => numpyMergeable mb d e
    | _ => false
  | regular p c _ _, other => mergeableList (mergeable mb c) p other
  | listArray p _ _ c, other => mergeableList (mergeable mb c) p other
  | listOffset p _ c, other => mergeableList (mergeable mb c) p other
  | indexed p _ c, other => mergeableIndirect (mergeable mb c) p other
  | indexedOption p _ c, other => mergeableIndirect (mergeable mb c) p other
  | byteMasked p _ _ c, other => mergeableIndirect (mergeable mb c) p other
  | bitMasked p _ _ _ _ c, other => mergeableIndirect (mergeable mb c) p other
  | unmasked p c, other => mergeableIndirect (mergeable mb c) p other
  | record p keys cs _, other =>
    match strip p other with
    | some (empty _) | some (union ..) => true
    | some (record _ keys' cs' _) =>
      match keys, keys' with
      | none, none => decide (cs.length = cs'.length) && mergeableAll mb cs (cs'.map some)
      | some ks, some ks' => ks.isPerm ks' && mergeableAll mb cs (ks.map (fieldOf ks' cs'))
      | _, _ => false
    | _ => false
  | union p _ _ _, other => p.agree other.params
/-- The loops over the fields of two records. The code looks the fields of both records up by
key; here the fields of `self` are taken in order, which is the same if its keys are distinct. -/
def mergeableAll (mb : Bool) : List Content → List (Option Content) → Bool
  | [], _ => true
  | c :: cs, some d :: ds => mergeable mb c d && mergeableAll mb cs ds
  | _ :: _, _ => false
end

end Content

/-- src/cpu-kernels/awkward_ListArray_fill.cpp:8-24; the state is `(tostarts, tostops)`. -/
def ListArray_fill (tostarts : List Int) (tostartsoffset : Nat) (tostops : List Int)
    (tostopsoffset : Nat) (fromstarts fromstops : List Int) (length base : Nat) :
    R (List Int × List Int) :=
  forN length (fun i st =>
    rd fromstarts (i : Int) >>= fun start =>
    wr st.1 ((tostartsoffset + i : Nat) : Int) (start + base) >>= fun tostarts =>
    rd fromstops (i : Int) >>= fun stop =>
    wr st.2 ((tostopsoffset + i : Nat) : Int) (stop + base) >>= fun tostops =>
    ok (tostarts, tostops)) (tostarts, tostops)

/-- src/cpu-kernels/awkward_IndexedArray_fill.cpp:8-20. -/
def IndexedArray_fill (toindex : List Int) (toindexoffset : Nat) (fromindex : List Int)
    (length base : Nat) : R (List Int) :=
  forN length (fun i toindex =>
    (rd fromindex (i : Int) >>= fun fromval => ok (if fromval < 0 then -1 else fromval + base))
      >>= fun x => wr toindex ((toindexoffset + i : Nat) : Int) x) toindex

/-- src/cpu-kernels/awkward_IndexedArray_fill_count.cpp:8-18. -/
def IndexedArray_fill_count (toindex : List Int) (toindexoffset length base : Nat) :
    R (List Int) :=
  forN length (fun i toindex =>
    ok ((i : Int) + base) >>= fun x => wr toindex ((toindexoffset + i : Nat) : Int) x) toindex

/-- src/cpu-kernels/awkward_UnionArray_filltags.cpp:8-19. The narrowing to int8 is left out: the
callers reject more than 127 contents. -/
def UnionArray_filltags (totags : List Int) (totagsoffset : Nat) (fromtags : List Int)
    (length base : Nat) : R (List Int) :=
  forN length (fun i totags =>
    (rd fromtags (i : Int) >>= fun t => ok (t + base))
      >>= fun x => wr totags ((totagsoffset + i : Nat) : Int) x) totags

/-- src/cpu-kernels/awkward_UnionArray_filltags_const.cpp:8-18. -/
def UnionArray_filltags_const (totags : List Int) (totagsoffset length base : Nat) :
    R (List Int) :=
  forN length (fun i totags =>
    ok (base : Int) >>= fun x => wr totags ((totagsoffset + i : Nat) : Int) x) totags

/-- src/cpu-kernels/awkward_UnionArray_fillindex.cpp:8-18. -/
def UnionArray_fillindex (toindex : List Int) (toindexoffset : Nat) (fromindex : List Int)
    (length : Nat) : R (List Int) :=
  forN length (fun i toindex =>
    rd fromindex (i : Int) >>= fun x => wr toindex ((toindexoffset + i : Nat) : Int) x) toindex

/-- src/cpu-kernels/awkward_UnionArray_fillindex_count.cpp:8-17. -/
def UnionArray_fillindex_count (toindex : List Int) (toindexoffset length : Nat) :
    R (List Int) :=
  forN length (fun i toindex =>
    ok (i : Int) >>= fun x => wr toindex ((toindexoffset + i : Nat) : Int) x) toindex

/-- src/cpu-kernels/awkward_NumpyArray_fill.cpp:8-18 and its variants for booleans. -/
def NumpyArray_fill (to : DType) (toptr : List Atom) (tooffset : Nat) (fromptr : List Atom)
    (length : Nat) : R (List Atom) :=
  forN length (fun i toptr =>
    (rd fromptr (i : Int) >>= fun a => ok (a.convert to))
      >>= fun x => wr toptr ((tooffset + i : Nat) : Int) x) toptr

/-- The real and the imaginary part of a number. -/
def Atom.parts : Atom → Rat × Rat
  | .bool b => (if b then 1 else 0, 0)
  | .int i | .datetime i | .timedelta i => (i, 0)
  | .real q => (q, 0)
  | .complex re im => (re, im)

/-- Sets the `k`-th floating point number of a buffer of complex numbers: the real part of the item
`k / 2` if `k` is even, its imaginary part if `k` is odd. -/
def wrPart (buf : List Atom) (k : Nat) (x : Rat) : R (List Atom) :=
  rd buf ((k / 2 : Nat) : Int) >>= fun a =>
  wr buf ((k / 2 : Nat) : Int)
    (if k % 2 = 0 then .complex x a.parts.2 else .complex a.parts.1 x)

/-- src/cpu-kernels/awkward_NumpyArray_fill_tocomplex.cpp:8-19: `tooffset` counts floating point
numbers, `length` items. -/
def NumpyArray_fill_tocomplex (toptr : List Atom) (tooffset : Nat) (fromptr : List Atom)
    (length : Nat) : R (List Atom) :=
  forN length (fun i toptr =>
    rd fromptr (i : Int) >>= fun a =>
    wrPart toptr (tooffset + 2 * i) a.parts.1 >>= fun toptr =>
    wrPart toptr (tooffset + 2 * i + 1) 0) toptr

/-- src/libawkward/kernel-dispatch.cpp:11117-11128: complex items are copied as `length * 2`
floating point numbers (simplified: at an even offset, as `length` items). -/
def NumpyArray_fill_complex (to : DType) (toptr : List Atom) (tooffset : Nat) (fromptr : List Atom)
    (length : Nat) : R (List Atom) :=
  if tooffset % 2 = 0 then NumpyArray_fill to toptr (tooffset / 2) fromptr length
  else
    forN length (fun i toptr =>
      rd fromptr (i : Int) >>= fun a =>
      wrPart toptr (tooffset + 2 * i) a.parts.1 >>= fun toptr =>
      wrPart toptr (tooffset + 2 * i + 1) a.parts.2) toptr

/-- NumpyArray.cpp:2675-2911: one step of the loop of `mergemany` that fills a buffer of complex
numbers; the state has the buffer and `flatlength_so_far`. Complex items double `flatlength`, other
items are filled with `flatlength >> 1` items only. -/
def fillComplex (to : DType) (st : List Atom × Nat) (d : DType) (data : List Atom) :
    R (List Atom × Nat) :=
  if d.isComplex then
    NumpyArray_fill_complex to st.1 st.2 data data.length >>= fun out =>
    ok (out, st.2 + data.length * 2)
  else
    NumpyArray_fill_tocomplex st.1 st.2 data (data.length / 2) >>= fun out =>
    ok (out, st.2 + data.length)

/-- src/cpu-kernels/awkward_UnionArray_simplify.cpp:8-37; the state is `(totags, toindex)`. -/
def UnionArray_simplify (totags toindex outertags outerindex innertags innerindex : List Int)
    (towhich innerwhich outerwhich length base : Nat) : R (List Int × List Int) :=
  forN length (fun i st =>
    rd outertags (i : Int) >>= fun t =>
    if t = outerwhich then
      rd outerindex (i : Int) >>= fun j =>
      rd innertags j >>= fun u =>
      if u = innerwhich then
        wr st.1 (i : Int) towhich >>= fun totags =>
        rd innerindex j >>= fun k =>
        wr st.2 (i : Int) (k + base) >>= fun toindex => ok (totags, toindex)
      else ok st
    else ok st) (totags, toindex)

/-- src/cpu-kernels/awkward_UnionArray_simplify_one.cpp:8-28; the state is `(totags, toindex)`. -/
def UnionArray_simplify_one (totags toindex fromtags fromindex : List Int)
    (towhich fromwhich length base : Nat) : R (List Int × List Int) :=
  forN length (fun i st =>
    rd fromtags (i : Int) >>= fun t =>
    if t = fromwhich then
      wr st.1 (i : Int) towhich >>= fun totags =>
      rd fromindex (i : Int) >>= fun k =>
      wr st.2 (i : Int) (k + base) >>= fun toindex => ok (totags, toindex)
    else ok st) (totags, toindex)

/-- src/cpu-kernels/awkward_UnionArray_fillna.cpp:8-18. -/
def UnionArray_fillna (toindex fromindex : List Int) (length : Nat) : R (List Int) :=
  forN length (fun i toindex =>
    (rd fromindex (i : Int) >>= fun x => ok (if x ≥ 0 then x else 0))
      >>= fun x => wr toindex (i : Int) x) toindex

/-- The items of a new buffer of atoms, before they are written. -/
def allocAtoms (n : Nat) : List Atom := List.replicate n (.int 0)

namespace Content

/-- The kinds of arrays that end the `head` in Content.cpp:928-968 `merging_strategy`. -/
def endsHead (c : Content) : Bool := c.isIndirect || c.isUnion

/-- The total length of some arrays. -/
def totalLen (cs : List Content) : Nat := (cs.map len).sum

/-- NumpyArray.cpp:1837-1856: the NumpyArrays among the arrays to merge. -/
def numpyParts : List Content → R (List (Params × DType × List Atom))
  | [] => ok []
  | numpy p d data :: cs => numpyParts cs >>= fun ps => ok ((p, d, data) :: ps)
  | empty _ :: cs => numpyParts cs
  | _ :: _ => err "cannot merge NumpyArray"

/-- NumpyArray.cpp:1823-2982 `mergemany`, up to the handling of `tail`: characters and bytes
(1858-1911; simplified: items that are not uint8 are rejected, where the code reinterprets the
memory) and numbers (1913-2976). -/
def mergeNumpy (p : Params) (d : DType) (head : List Content) : R Content :=
  numpyParts head >>= fun parts =>
  let params := parts.foldl (fun q part => q.merge part.1) p
  let total := (parts.map (fun part => part.2.2.length)).sum
  if p.arr = .byte ∨ p.arr = .char then
    foldR (fun st part =>
      if part.2.1 ≠ .uint8 then err "not modelled: characters that are not uint8"
      else
        NumpyArray_fill .uint8 st.1 st.2 part.2.2 part.2.2.length >>= fun out =>
        ok (out, st.2 + part.2.2.length)) (allocAtoms total, 0) parts
      >>= fun st => ok (numpy params .uint8 st.1)
  else
    let next := parts.foldl (fun e part => e.promote part.2.1) d
    foldR (fun st part =>
      if part.2.1 ∉ next.fillsFrom then err "dtype not in {…}"
      else if next.isComplex then fillComplex next st part.2.1 part.2.2
      else
        NumpyArray_fill next st.1 st.2 part.2.2 part.2.2.length >>= fun out =>
        ok (out, st.2 + part.2.2.length)) (allocAtoms total, 0) parts
      >>= fun st => ok (numpy params next st.1)

/-- ListArray.cpp:1102-1139: the contents of the list arrays to merge. -/
def listContents : List Content → R (List Content)
  | [] => ok []
  | listArray _ _ _ c :: cs => listContents cs >>= fun ds => ok (c :: ds)
  | listOffset _ _ c :: cs => listContents cs >>= fun ds => ok (c :: ds)
  | regular _ c _ _ :: cs => listContents cs >>= fun ds => ok (c :: ds)
  | empty _ :: cs => listContents cs
  | _ :: _ => err "cannot merge ListArray"

/-- The state of the loop in ListArray.cpp:1148-1276: `nextstarts`, `nextstops`,
`contentlength_so_far`, `length_so_far`. -/
abbrev ListState := List Int × List Int × Nat × Nat

/-- One call of the kernel in ListArray.cpp:1148-1276. -/
def fillList (st : ListState) (starts stops : List Int) (length lencontent : Nat) : R ListState :=
  ListArray_fill st.1 st.2.2.2 st.2.1 st.2.2.2 starts stops length st.2.2.1 >>= fun b =>
  ok (b.1, b.2, st.2.2.1 + lencontent, st.2.2.2 + length)

/-- ListArray.cpp:1150-1276: one array of the loop. -/
def fillListOf (st : ListState) : Content → R ListState
  | listArray _ starts stops c => fillList st starts stops starts.length c.len
  | listOffset _ offsets c =>
    fillList st (makeStarts offsets) (makeStops offsets) (offsets.length - 1) c.len
  | regular p c size zeros =>
    (regular p c size zeros).listParts >>= fun oc =>
    fillList st (makeStarts oc.1) (makeStops oc.1) (oc.1.length - 1) oc.2.len
  | _ => ok st

/-- ListArray.cpp:1085-1282 `mergemany`, up to the handling of `tail`; `rec` is `mergemany` of the
contents. -/
def mergeLists (rec : Content → List Content → R Content) (p : Params) (head : List Content) :
    R Content :=
  let params := head.foldl (fun q c => q.merge c.params) p
  listContents head >>= fun
    | [] => ub
    | c :: cs =>
      rec c cs >>= fun nextcontent =>
      foldR fillListOf (alloc (totalLen head), alloc (totalLen head), 0, 0) head >>= fun st =>
      ok (listArray params st.1 st.2.1 nextcontent)

/-- The state of the loop in IndexedArray.cpp:1841-1950: `nextindex`, `contents`, `is_option`,
`contentlength_so_far`, `length_so_far`. -/
structure IndexState where
  index : List Int
  contents : List Content
  isOption : Bool
  lencontent : Nat
  length : Nat

/-- IndexedArray.cpp:1860-1934, one class. -/
def fillIndex (st : IndexState) (isoption : Bool) (index : List Int) (c : Content) :
    R IndexState :=
  IndexedArray_fill st.index st.length index index.length st.lencontent >>= fun out =>
  ok { index := out, contents := st.contents ++ [c], isOption := isoption,
       lencontent := st.lencontent + c.len, length := st.length + index.length }

/-- IndexedArray.cpp:1847-1950: one array of the loop. -/
def fillIndexOf (st : IndexState) : Content → R IndexState
  | indexed _ index c => fillIndex st false index c
  | indexedOption _ index c => fillIndex st true index c
  | byteMasked _ mask vw c => byteMaskedIndex mask vw >>= fun index => fillIndex st true index c
  | bitMasked _ mask vw length lsb c =>
    bitMaskedIndex mask vw length lsb >>= fun index => fillIndex st true index c
  | unmasked _ c => unmaskedIndex c.len >>= fun index => fillIndex st true index c
  | empty _ => ok st
  | c =>
    IndexedArray_fill_count st.index st.length c.len st.lencontent >>= fun out =>
    ok { index := out, contents := st.contents ++ [c], isOption := st.isOption,
         lencontent := st.lencontent + c.len, length := st.length + c.len }

/-- IndexedArray.cpp:1823-1967 `mergemany`, up to the handling of `tail`. -/
def mergeIndexed (rec : Content → List Content → R Content) (p : Params) (head : List Content) :
    R Content :=
  let params := head.foldl (fun q c => q.merge c.params) p
  foldR fillIndexOf { index := alloc (totalLen head), contents := [], isOption := false,
                      lencontent := 0, length := 0 } head >>= fun st =>
  match st.contents with
  | [] => ub
  | c :: cs =>
    rec c cs >>= fun nextcontent =>
    ok (if st.isOption then indexedOption params st.index nextcontent
        else indexed params st.index nextcontent)

/-- RecordArray.cpp:1279-1353: what one array of `headless` adds to every field; `none` for an
EmptyArray, which adds nothing. The keys of a tuple are "0", "1", …. -/
def recordParts (keys : Option (List String)) (numfields : Nat) : Content → R (Option (List Content))
  | record _ keys' cs' length =>
    match keys with
    | none =>
      if cs'.length ≠ numfields then err "cannot merge tuples with different numbers of fields"
      else rangeFields cs' 0 length >>= fun ds => ok (some ds)
    | some ks =>
      let ks' := keys'.getD ((List.range cs'.length).map toString)
      if ¬ ks.isPerm ks' then err "cannot merge records with different sets of field names"
      else
        mapR (fun k => match fieldOf ks' cs' k with
          | some c => c.range 0 length
          | none => err "key does not exist") ks >>= fun ds => ok (some ds)
  | empty _ => ok none
  | _ => err "cannot merge RecordArray"

/-- RecordArray.cpp:1362-1372: merge the fields one by one; `rows` are the parts of the other
arrays. -/
def mergeFields (rec : Content → List Content → R Content) :
    List Content → List (List Content) → R (List Content)
  | [], _ => ok []
  | c :: cs, rows =>
    rec c (rows.filterMap List.head?) >>= fun m =>
    mergeFields rec cs (rows.map List.tail) >>= fun ms => ok (m :: ms)

/-- RecordArray.cpp:1363-1371: the shortest length. -/
def minLen : List Content → Option Nat
  | [] => none
  | c :: cs => match minLen cs with
    | none => some c.len
    | some n => some (min c.len n)

/-- RecordArray.cpp:1261-1378 `mergemany`, up to the handling of `tail`. A record without fields
gets the length -1 (1363, 1378), which is not an array; it is an error here. The parameters of the
other arrays matter only for tuples (1282). -/
def mergeRecords (rec : Content → List Content → R Content) (p : Params)
    (keys : Option (List String)) (cs : List Content) (headless : List Content) : R Content :=
  let params := if keys.isNone then headless.foldl (fun q c => q.merge c.params) p else p
  mapR (recordParts keys cs.length) headless >>= fun rows =>
  mergeFields rec cs (rows.filterMap id) >>= fun ms =>
  match minLen ms with
  | none => err "RecordArray of length -1"
  | some n => ok (record params keys ms n)

/-- The state of the loop in UnionArray.cpp:1781-1882: `nexttags`, `nextindex`, `nextcontents`,
`length_so_far`. -/
abbrev UnionState := List Int × List Int × List Content × Nat

/-- UnionArray.cpp:1789-1882: one array of the loop. -/
def fillUnionOf (st : UnionState) : Content → R UnionState
  | union _ tags index cs =>
    UnionArray_filltags st.1 st.2.2.2 tags tags.length st.2.2.1.length >>= fun nexttags =>
    UnionArray_fillindex st.2.1 st.2.2.2 index tags.length >>= fun nextindex =>
    ok (nexttags, nextindex, st.2.2.1 ++ cs, st.2.2.2 + tags.length)
  | empty _ => ok st
  | c =>
    UnionArray_filltags_const st.1 st.2.2.2 c.len st.2.2.1.length >>= fun nexttags =>
    UnionArray_fillindex_count st.2.1 st.2.2.2 c.len >>= fun nextindex =>
    ok (nexttags, nextindex, st.2.2.1 ++ [c], st.2.2.2 + c.len)

/-- `kMaxInt8`, include/awkward/common.h. -/
def kMaxInt8 : Nat := 127

/-- UnionArray.cpp:1765-1894 `mergemany`; its `merging_strategy` (1738-1763) puts every array in
`head`. -/
def mergeUnions (p : Params) (head : List Content) : R Content :=
  let params := head.foldl (fun q c => q.merge c.params) p
  foldR fillUnionOf (alloc (totalLen head), alloc (totalLen head), [], 0) head >>= fun st =>
  if st.2.2.1.length > kMaxInt8 then err "UnionArray with more than 127 contents"
  else ok (union params st.1 st.2.1 st.2.2.1)

/-- IndexedArray.cpp:1720-1783 `reverse_merge`. The 32-bit classes always raise at 1770-1773,
because an `else` is missing before 1760; the model has no index widths and follows the 64-bit
class. -/
def reverseMergeIndexed (rec : Content → List Content → R Content) (isoption : Bool) (p : Params)
    (index : List Int) (c other : Content) : R Content :=
  rec other [c] >>= fun content =>
  IndexedArray_fill_count (alloc ((other.len + index.length : Nat) : Int)) 0 other.len 0
    >>= fun out =>
  IndexedArray_fill out other.len index index.length other.len >>= fun out =>
  let params := p.merge other.params
  ok (if isoption then indexedOption params out content else indexed params out content)

/-- `reverse_merge` of each class: IndexedArray.cpp:1720-1783, ByteMaskedArray.cpp:1006-1009,
BitMaskedArray.cpp and UnmaskedArray.cpp:840-843, UnionArray.cpp:1644-1736; the other classes
raise (Content.cpp:970-975). -/
def reverseMerge (rec : Content → List Content → R Content) : Content → Content → R Content
  | indexed p index c, other => reverseMergeIndexed rec false p index c other
  | indexedOption p index c, other => reverseMergeIndexed rec true p index c other
  | byteMasked p mask vw c, other =>
    byteMaskedIndex mask vw >>= fun index => reverseMergeIndexed rec true p index c other
  | bitMasked p mask vw length lsb c, other =>
    bitMaskedIndex mask vw length lsb >>= fun index => reverseMergeIndexed rec true p index c other
  | unmasked p c, other =>
    unmaskedIndex c.len >>= fun index => reverseMergeIndexed rec true p index c other
  | union p tags index cs, other =>
    let total : Nat := other.len + tags.length
    UnionArray_filltags_const (alloc total) 0 other.len 0 >>= fun nexttags =>
    UnionArray_fillindex_count (alloc total) 0 other.len >>= fun nextindex =>
    UnionArray_filltags nexttags other.len tags tags.length 1 >>= fun nexttags =>
    UnionArray_fillindex nextindex other.len index tags.length >>= fun nextindex =>
    if cs.length + 1 > kMaxInt8 then err "UnionArray with more than 127 contents"
    else ok (union (p.merge other.params) nexttags nextindex (other :: cs))
  | _, _ => err "undefined operation: reverse_merge"

/-- The last lines of the `mergemany` methods: merge `next` with the arrays in `tail`. -/
def mergeTail (rec : Content → List Content → R Content) (next : Content) :
    List Content → R Content
  | [] => ok next
  | t :: ts => reverseMerge rec t next >>= fun reversed => rec reversed ts

/-- `mergemany` of each class, with `rec` for the recursive calls: EmptyArray.cpp:502-516,
NumpyArray.cpp:1822-2982, RegularArray.cpp:960-966, ListArray.cpp:1085-1295,
ListOffsetArray.cpp:1144-1156, IndexedArray.cpp:1823-1983, ByteMaskedArray.cpp:1011-1017,
BitMaskedArray.cpp and UnmaskedArray.cpp:845-851, RecordArray.cpp:1261-1391,
UnionArray.cpp:1765-1909; with `merging_strategy` (Content.cpp:928-968 and
IndexedArray.cpp:1785-1821). -/
def mergeStep (rec : Content → List Content → R Content) (self : Content) (others : List Content) :
    R Content :=
  if others.isEmpty then ok self
  else
    let headless := others.takeWhile (fun c => !c.endsHead)
    let tail := others.dropWhile (fun c => !c.endsHead)
    let headlessI := others.takeWhile (fun c => !c.isUnion)
    let tailI := others.dropWhile (fun c => !c.isUnion)
    match self with
    | empty _ => match others with
      | [] => ok self
      | x :: xs => rec x xs
    | numpy p d data => mergeNumpy p d (numpy p d data :: headless) >>= fun next => mergeTail rec next tail
    | regular p c size zeros =>
      (regular p c size zeros).listParts >>= fun oc =>
      mergeLists rec p (listArray p (makeStarts oc.1) (makeStops oc.1) oc.2 :: headless)
        >>= fun next => mergeTail rec next tail
    | listOffset p offsets c =>
      mergeLists rec p (listArray p (makeStarts offsets) (makeStops offsets) c :: headless)
        >>= fun next => mergeTail rec next tail
    | listArray p starts stops c =>
      mergeLists rec p (listArray p starts stops c :: headless)
        >>= fun next => mergeTail rec next tail
    | record p keys cs _ => mergeRecords rec p keys cs headless >>= fun next => mergeTail rec next tail
    | union p tags index cs => mergeUnions p (union p tags index cs :: others)
    | indirect =>
      mergeIndexed rec indirect.params (indirect :: headlessI) >>= fun next =>
      mergeTail rec next tailI

/-- `mergemany` with fuel. -/
def mergemanyF : Nat → Content → List Content → R Content
  | 0 => fun _ _ => ub
  | n + 1 => mergeStep (mergemanyF n)

mutual
/-- The number of nodes. It is the fuel of the top-level calls and models nothing in the code. -/
def size : Content → Nat
  | empty _ => 1
  | numpy _ _ _ => 1
  | regular _ c _ _ => c.size + 1
  | listArray _ _ _ c => c.size + 1
  | listOffset _ _ c => c.size + 1
  | indexed _ _ c => c.size + 1
  | indexedOption _ _ c => c.size + 1
  | byteMasked _ _ _ c => c.size + 1
  | bitMasked _ _ _ _ _ c => c.size + 1
  | unmasked _ c => c.size + 1
  | record _ _ cs _ => sizeAll cs + 1
  | union _ _ _ cs => sizeAll cs + 1
/-- The number of nodes of some arrays. -/
def sizeAll : List Content → Nat
  | [] => 0
  | c :: cs => c.size + sizeAll cs
end

/-- A number of calls that is enough for `mergemany`. -/
def mergeFuel (cs : List Content) : Nat := sizeAll cs * (sizeAll cs + 1) + cs.length + 1

/-- `mergemany`. -/
def mergemany (self : Content) (others : List Content) : R Content :=
  mergemanyF (mergeFuel (self :: others)) self others

/-- Content.cpp:977-981 `merge`. -/
def merge (self other : Content) : R Content := mergemany self [other]

/-- Content.cpp:1229-1272 `merge_as_union`. -/
def mergeAsUnion (self other : Content) : R Content :=
  let total : Nat := self.len + other.len
  UnionArray_filltags_const (alloc total) 0 self.len 0 >>= fun tags =>
  UnionArray_fillindex_count (alloc total) 0 self.len >>= fun index =>
  UnionArray_filltags_const tags self.len other.len 1 >>= fun tags =>
  UnionArray_fillindex_count index self.len other.len >>= fun index =>
  ok (union {} tags index [self, other])

/-- The state of the loop in UnionArray.cpp:533-733: `tags`, `index`, `contents`. -/
abbrev SimplifyState := List Int × List Int × List Content

/-- The first content that the new one goes to (UnionArray.cpp:546-567 and 680-713): its position,
whether it is the same array, and the content. -/
def findSlot (same : Content → Content → Bool) (domerge mb checkSame : Bool) (c : Content) :
    List Content → Nat → Option (Nat × Bool × Content)
  | [], _ => none
  | d :: ds, k =>
    if checkSame && same d c then some (k, true, d)
    else if domerge && mergeable mb d c then some (k, false, d)
    else findSlot same domerge mb checkSame c ds (k + 1)

/-- One alternative of the union, `c`, goes into `contents` (UnionArray.cpp:543-583 and 678-731).
`fill towhich base` is the call of the kernel. -/
def placeContent (same : Content → Content → Bool) (domerge mb checkSame : Bool)
    (fill : Nat → Nat → List Int → List Int → R (List Int × List Int)) (c : Content)
    (st : SimplifyState) : R SimplifyState :=
  match findSlot same domerge mb checkSame c st.2.2 0 with
  | some (k, true, _) => fill k 0 st.1 st.2.1 >>= fun b => ok (b.1, b.2, st.2.2)
  | some (k, false, d) =>
    fill k d.len st.1 st.2.1 >>= fun b =>
    merge d c >>= fun m => ok (b.1, b.2, st.2.2.set k m)
  | none => fill st.2.2.length 0 st.1 st.2.1 >>= fun b => ok (b.1, b.2, st.2.2 ++ [c])

/-- UnionArray.cpp:541-584: the alternatives of a nested union, from the `j`-th on. -/
def simplifyInner (same : Content → Content → Bool) (domerge mb : Bool)
    (tags index innertags innerindex : List Int) (i : Nat) :
    List Content → Nat → SimplifyState → R SimplifyState
  | [], _, st => ok st
  | d :: ds, j, st =>
    placeContent same domerge mb false
      (fun towhich base totags toindex =>
        UnionArray_simplify totags toindex tags index innertags innerindex towhich j i tags.length
          base) d st
    >>= fun st => simplifyInner same domerge mb tags index innertags innerindex i ds (j + 1) st

/-- UnionArray.cpp:535-733: the loop over the alternatives, from the `i`-th on. -/
def simplifyOuter (same : Content → Content → Bool) (domerge mb : Bool) (tags index : List Int) :
    List Content → Nat → SimplifyState → R SimplifyState
  | [], _, st => ok st
  | c :: cs, i, st =>
    (match c with
    | union _ innertags innerindex ds =>
      simplifyInner same domerge mb tags index innertags innerindex i ds 0 st
    | c =>
      placeContent same domerge mb true
        (fun towhich base totags toindex =>
          UnionArray_simplify_one totags toindex tags index towhich i tags.length base) c st)
    >>= fun st => simplifyOuter same domerge mb tags index cs (i + 1) st

/-- UnionArray.cpp:521-750 `simplify_uniontype(merge, mergebool)`. -/
def simplifyUnion (same : Content → Content → Bool) (domerge mb : Bool) (p : Params)
    (tags index : List Int) (cs : List Content) : R Content :=
  if index.length < tags.length then err "len(index) < len(tags)"
  else
    simplifyOuter same domerge mb tags index cs 0 (alloc tags.length, alloc tags.length, [])
      >>= fun st =>
    if st.2.2.length > kMaxInt8 then err "UnionArray with more than 127 contents"
    else match st.2.2 with
      | [c] => c.carry true st.2.1
      | contents => ok (union p st.1 st.2.1 contents)

/-- IndexedArray.cpp:2048-2081 `fillna` of an IndexedOptionArray. -/
def indexedFillna (same : Content → Content → Bool) (p : Params) (index : List Int)
    (c value : Content) : R Content :=
  if value.len ≠ 1 then err "fillna value length is not equal to 1"
  else
    IndexedArray_mask (alloc index.length) index index.length >>= fun tags =>
    UnionArray_fillna (alloc index.length) index index.length >>= fun index' =>
    simplifyUnion same true true p tags index' [c, value]

mutual
/-- `fillna` of each class: EmptyArray.cpp, NumpyArray.cpp, RegularArray.cpp, ListArray.cpp,
ListOffsetArray.cpp, IndexedArray.cpp:2046-2086, ByteMaskedArray.cpp, BitMaskedArray.cpp,
UnmaskedArray.cpp, RecordArray.cpp `fillna`, UnionArray.cpp:1953-1962. -/
def fillna (same : Content → Content → Bool) (value : Content) : Content → R Content
  | empty _ => ok (empty {})
  | numpy p d data => ok (numpy p d data)
  | regular p c size zeros => fillna same value c >>= fun c' => ok (regular p c' size zeros)
  | listArray p starts stops c => fillna same value c >>= fun c' => ok (listArray p starts stops c')
  | listOffset p offsets c => fillna same value c >>= fun c' => ok (listOffset p offsets c')
  | indexed p index c =>
    if value.len ≠ 1 then err "fillna value length is not equal to 1"
    else fillna same value c >>= fun c' => ok (indexed p index c')
  | indexedOption p index c => indexedFillna same p index c value
  | byteMasked p mask vw c =>
    byteMaskedIndex mask vw >>= fun index => indexedFillna same p index c value
  | bitMasked p mask vw length lsb c =>
    bitMaskedIndex mask vw length lsb >>= fun index => indexedFillna same p index c value
  | unmasked _ c => fillna same value c
  | record p keys cs length => fillnaAll same value cs >>= fun cs' => ok (record p keys cs' length)
  | union p tags index cs =>
    fillnaAll same value cs >>= fun cs' => simplifyUnion same true false p tags index cs'
/-- The loop over the contents. -/
def fillnaAll (same : Content → Content → Bool) (value : Content) :
    List Content → R (List Content)
  | [] => ok []
  | c :: cs =>
    fillna same value c >>= fun c' => fillnaAll same value cs >>= fun cs' => ok (c' :: cs')
end

/-- src/awkward/operations/structure.py:1566-1573: the batches of `ak.concatenate` at axis 0;
`batch` holds the arrays collected so far, the last one first. -/
def concatBatches (mb : Bool) : List Content → List Content → R (List Content)
  | batch, [] => ok batch
  | batch, x :: xs =>
    match batch with
    | [] => ub
    | last :: _ =>
      if mergeable mb last x then concatBatches mb (x :: batch) xs
      else
        (match batch.reverse with
        | [] => ub
        | b :: bs => mergemany b bs) >>= fun collapsed =>
        mergeAsUnion collapsed x >>= fun u => concatBatches mb [u] xs

/-- src/awkward/operations/structure.py:1559-1577: `ak.concatenate(arrays, axis=0)` of layouts. -/
def concatenate0 (same : Content → Content → Bool) (domerge mb : Bool) : List Content → R Content
  | [] => err "need at least one array to concatenate"
  | c :: cs =>
    concatBatches mb [c] cs >>= fun batch =>
    (match batch.reverse with
    | [] => ub
    | b :: bs => mergemany b bs) >>= fun out =>
    match out with
    | union p tags index ds => simplifyUnion same domerge mb p tags index ds
    | out => ok out

end Content

end Awk
