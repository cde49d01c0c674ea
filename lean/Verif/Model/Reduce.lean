import Verif.Model.List
/-
Model of the reducers (`sum`, `prod`, `min`, `argmax`, …): `Content::reduce`, `reduce_next` of
every node class, and their kernels.

Simplifications, common to this file:
* integers are unbounded and reals are rationals, so sums do not overflow and are not rounded;
* complex, datetime and timedelta numbers raise (`awkward_reduce_argmax_complex` is modelled
  separately at the end);
* `min` and `max` carry the identity that is passed to the kernel (the `initial` argument of
  `ak.min`, or by default the largest number of the type, or infinity);
* `keepdims` is false;
* UnionArray raises, because its `reduce_next` begins with `simplify_uniontype`;
* `reduceNext` takes a fuel argument; running out of fuel is `ub`.
-/

namespace Awk
open R

/-- The classes of include/awkward/Reducer.h. -/
inductive Reducer where
  | count | countNonzero | sum | prod | any | all
  | min (identity : Atom) | max (identity : Atom)
  | argmin | argmax
deriving Repr, DecidableEq

namespace Atom

/-- The C++ expression `x != 0`. -/
def nonzero : Atom → Bool
  | bool b => b
  | int i => decide (i ≠ 0)
  | real q => decide (q ≠ 0)
  | complex re im => decide (re ≠ 0 ∨ im ≠ 0)
  | datetime i => decide (i ≠ 0)
  | timedelta i => decide (i ≠ 0)

/-- Conversion of a boolean or an integer to a 64-bit integer. -/
def toInt : Atom → Int
  | bool b => if b then 1 else 0
  | int i => i
  | _ => 0

/-- The number held by a floating-point item. -/
def toReal : Atom → Rat
  | real q => q
  | _ => 0

/-- The C++ expression `x < y` for two items of the same type. -/
def lt : Atom → Atom → Bool
  | bool a, bool b => !a && b
  | int a, int b => decide (a < b)
  | real a, real b => decide (a < b)
  | _, _ => false

end Atom

/-- `float32` or `float64`. -/
def DType.isFloat (dt : DType) : Bool := dt = .float32 || dt = .float64

/-- The dtypes on which the modelled reducers work. -/
def DType.reducible (dt : DType) : Bool :=
  dt = .bool || dt = .int8 || dt = .int16 || dt = .int32 || dt = .int64 ||
  dt = .uint8 || dt = .uint16 || dt = .uint32 || dt = .uint64 || dt.isFloat

namespace Reducer

/-- `preferred_dtype` of each class: Reducer.cpp:29, 190, 455, 826, 1199, 1464, 1743, 2077, 2397,
2667. -/
def preferred : Reducer → DType
  | count | countNonzero | sum | min _ | max _ => .float64
  | prod | argmin | argmax => .int64
  | any | all => .bool

/-- `return_dtype` of each class: Reducer.cpp:12-15, 34, 195, 460-483, 831-854, 1204, 1469, 2402,
2672. -/
def returnDtype (dt : DType) : Reducer → DType
  | count | countNonzero | argmin | argmax => .int64
  | sum | prod =>
    if dt = .bool || dt = .int8 || dt = .int16 || dt = .int32 || dt = .int64 then .int64
    else if dt = .uint8 || dt = .uint16 || dt = .uint32 || dt = .uint64 then .uint64
    else dt
  | any | all => .bool
  | min _ | max _ => dt

/-- `returns_positions`: Reducer.cpp:17-20, 2407-2410, 2677-2680. -/
def returnsPositions : Reducer → Bool
  | argmin | argmax => true
  | _ => false

/-- What the kernel called for items of type `dt` stores first in every slot:
awkward_reduce_count_64.cpp, awkward_reduce_countnonzero.cpp, awkward_reduce_sum.cpp,
awkward_reduce_prod.cpp, awkward_reduce_sum_bool.cpp, awkward_reduce_prod_bool.cpp,
awkward_reduce_min.cpp, awkward_reduce_max.cpp. The minimum and maximum of booleans are
`prod_bool` and `sum_bool` (Reducer.cpp:1748-1764 and 2082-2098). -/
def init (dt : DType) : Reducer → Atom
  | count | countNonzero => .int 0
  | sum => if dt.isFloat then .real 0 else .int 0
  | prod => if dt.isFloat then .real 1 else .int 1
  | any => .bool false
  | all => .bool true
  | min i => if dt = .bool then .bool true else i
  | max i => if dt = .bool then .bool false else i
  | argmin | argmax => .int (-1)

/-- How the same kernels update a slot `acc` with an item `x`. -/
def step (dt : DType) (acc x : Atom) : Reducer → Atom
  | count => .int (acc.toInt + 1)
  | countNonzero => .int (acc.toInt + (Atom.bool x.nonzero).toInt)
  | sum => if dt.isFloat then .real (acc.toReal + x.toReal) else .int (acc.toInt + x.toInt)
  | prod => if dt.isFloat then .real (acc.toReal * x.toReal) else .int (acc.toInt * x.toInt)
  | any => .bool (acc.nonzero || x.nonzero)
  | all => .bool (acc.nonzero && x.nonzero)
  | min _ => if dt = .bool then .bool (acc.nonzero && x.nonzero) else if x.lt acc then x else acc
  | max _ => if dt = .bool then .bool (acc.nonzero || x.nonzero) else if acc.lt x then x else acc
  | argmin | argmax => acc

/-- The comparison `x` better than `y` in awkward_reduce_argmin.cpp:19 and
awkward_reduce_argmax.cpp:19 (and their variants for booleans). -/
def better (x y : Atom) : Reducer → Bool
  | argmin => x.lt y
  | argmax => y.lt x
  | _ => false

end Reducer

/-- The two loops of the kernels awkward_reduce_{count_64,countnonzero,sum,prod,sum_bool,prod_bool,
min,max}.cpp. -/
def reduceKernel (init : Atom) (step : Atom → Atom → Atom) (toptr fromptr : List Atom)
    (parents : List Int) (lenparents outlength : Nat) : R (List Atom) :=
  forN outlength (fun i toptr => wr toptr (i : Int) init) toptr >>= fun toptr =>
  forN lenparents (fun i toptr =>
    rd parents (i : Int) >>= fun parent => rd toptr parent >>= fun acc =>
    rd fromptr (i : Int) >>= fun x => wr toptr parent (step acc x)) toptr

/-- src/cpu-kernels/awkward_reduce_argmin.cpp:8-24, awkward_reduce_argmax.cpp:8-24 and the two
variants for booleans. -/
def reduceArgKernel (better : Atom → Atom → Bool) (toptr : List Int) (fromptr : List Atom)
    (parents : List Int) (lenparents outlength : Nat) : R (List Int) :=
  forN outlength (fun k toptr => wr toptr (k : Int) (-1)) toptr >>= fun toptr =>
  forN lenparents (fun i toptr =>
    rd parents (i : Int) >>= fun parent => rd toptr parent >>= fun best =>
    if best = -1 then wr toptr parent (i : Int)
    else
      rd fromptr (i : Int) >>= fun x => rd fromptr best >>= fun y =>
      if better x y then wr toptr parent (i : Int) else ok toptr) toptr

/-- src/cpu-kernels/awkward_NumpyArray_reduce_adjust_starts_64.cpp:7-21 (`shifts` empty) and
awkward_NumpyArray_reduce_adjust_starts_shifts_64.cpp:7-22. -/
def NumpyArray_reduce_adjust_starts (toptr : List Int) (outlength : Nat)
    (parents starts shifts : List Int) : R (List Int) :=
  forN outlength (fun k toptr =>
    rd toptr (k : Int) >>= fun i =>
    if i ≥ 0 then
      rd parents i >>= fun parent => rd starts parent >>= fun start =>
      (if shifts.length = 0 then ok 0 else rd shifts i) >>= fun shift =>
      wr toptr (k : Int) (i + (shift - start))
    else ok toptr) toptr

/-- src/cpu-kernels/awkward_NumpyArray_reduce_mask_ByteMaskedArray_64.cpp:7-19. -/
def NumpyArray_reduce_mask_ByteMaskedArray (toptr parents : List Int) (lenparents outlength : Nat) :
    R (List Int) :=
  forN outlength (fun i toptr => wr toptr (i : Int) 1) toptr >>= fun toptr =>
  forN lenparents (fun i toptr => rd parents (i : Int) >>= fun parent => wr toptr parent 0) toptr

/-- src/cpu-kernels/awkward_content_reduce_zeroparents_64.cpp:7-14. -/
def content_reduce_zeroparents (toparents : List Int) (length : Nat) : R (List Int) :=
  forN length (fun i toparents => wr toparents (i : Int) 0) toparents

/-- src/cpu-kernels/awkward_ListOffsetArray_reduce_local_nextparents_64.cpp:7-20. -/
def ListOffsetArray_reduce_local_nextparents (nextparents offsets : List Int) (length : Nat) :
    R (List Int) :=
  rd offsets 0 >>= fun initialoffset =>
  forN length (fun i nextparents =>
    rd offsets (i : Int) >>= fun lo => rd offsets ((i + 1 : Nat) : Int) >>= fun hi =>
    forFrom (lo - initialoffset) (hi - initialoffset) (fun j nextparents =>
      wr nextparents j (i : Int)) nextparents) nextparents

/-- src/cpu-kernels/awkward_ListOffsetArray_reduce_local_outoffsets_64.cpp:7-26. The state is
`(outoffsets, k, last)`; a `while` loop makes at most `outlength + 1` steps, or it writes out of
bounds. -/
def ListOffsetArray_reduce_local_outoffsets (outoffsets parents : List Int) (lenparents outlength : Nat) :
    R (List Int) :=
  forN lenparents (fun i (st : List Int × Int × Int) =>
    rd parents (i : Int) >>= fun parent =>
    whileF (outlength + 2) (fun st : List Int × Int × Int => decide (st.2.2 < parent))
      (fun st => wr st.1 st.2.1 (i : Int) >>= fun o => ok (o, st.2.1 + 1, st.2.2 + 1)) st)
    (outoffsets, 0, -1) >>= fun st =>
  whileF (outlength + 2) (fun st : List Int × Int => decide (st.2 ≤ (outlength : Int)))
    (fun st => wr st.1 st.2 (lenparents : Int) >>= fun o => ok (o, st.2 + 1)) (st.1, st.2.1)
    >>= fun st => ok st.1

/-- src/cpu-kernels/awkward_ListOffsetArray_reduce_nonlocal_maxcount_offsetscopy_64.cpp:7-22;
returns `(maxcount, offsetscopy)`. -/
def ListOffsetArray_reduce_nonlocal_maxcount_offsetscopy (offsetscopy offsets : List Int)
    (length : Nat) : R (Int × List Int) :=
  rd offsets 0 >>= fun first => wr offsetscopy 0 first >>= fun offsetscopy =>
  forN length (fun i (st : Int × List Int) =>
    rd offsets ((i + 1 : Nat) : Int) >>= fun hi => rd offsets (i : Int) >>= fun lo =>
    wr st.2 ((i + 1 : Nat) : Int) hi >>= fun offsetscopy =>
    ok (if st.1 < hi - lo then hi - lo else st.1, offsetscopy)) (0, offsetscopy)

/-- The variables of the next kernel. -/
structure PrepState where
  nextcarry : List Int
  nextparents : List Int
  maxnextparents : Int
  distincts : List Int
  offsetscopy : List Int
  k : Int

/-- One pass of the `while` loop in
src/cpu-kernels/awkward_ListOffsetArray_reduce_nonlocal_preparenext_64.cpp:26-47. -/
def preparenextPass (offsets : List Int) (length : Nat) (parents : List Int) (maxcount : Int)
    (st : PrepState) : R PrepState :=
  forN length (fun i (js : Int × PrepState) =>
    rd js.2.offsetscopy (i : Int) >>= fun o => rd offsets ((i + 1 : Nat) : Int) >>= fun hi =>
    if o < hi then
      rd offsets (i : Int) >>= fun lo => rd parents (i : Int) >>= fun parent =>
      let np := parent * maxcount + (o - lo)
      wr js.2.nextcarry js.2.k o >>= fun nextcarry =>
      wr js.2.nextparents js.2.k np >>= fun nextparents =>
      rd js.2.distincts np >>= fun d =>
      (if d = -1 then wr js.2.distincts np js.1 else ok js.2.distincts) >>= fun distincts =>
      wr js.2.offsetscopy (i : Int) (o + 1) >>= fun offsetscopy =>
      ok (if d = -1 then js.1 + 1 else js.1,
        { nextcarry, nextparents,
          maxnextparents := if js.2.maxnextparents < np then np else js.2.maxnextparents,
          distincts, offsetscopy, k := js.2.k + 1 })
    else ok js) (0, st) >>= fun js => ok js.2

/-- src/cpu-kernels/awkward_ListOffsetArray_reduce_nonlocal_preparenext_64.cpp:7-50. Every pass of
the `while` loop has to make progress; otherwise it runs forever, which counts as undefined. -/
def ListOffsetArray_reduce_nonlocal_preparenext (nextcarry nextparents : List Int) (nextlen : Int)
    (distincts : List Int) (distinctslen : Int) (offsetscopy offsets : List Int) (length : Nat)
    (parents : List Int) (maxcount : Int) : R PrepState :=
  forI distinctslen (fun i distincts => wr distincts i (-1)) distincts >>= fun distincts =>
  whileF nextlen.toNat (fun st : PrepState => decide (st.k < nextlen))
    (preparenextPass offsets length parents maxcount)
    { nextcarry, nextparents, maxnextparents := 0, distincts, offsetscopy, k := 0 }

/-- src/cpu-kernels/awkward_ListOffsetArray_reduce_nonlocal_nextstarts_64.cpp:7-19. -/
def ListOffsetArray_reduce_nonlocal_nextstarts (nextstarts nextparents : List Int) (nextlen : Int) :
    R (List Int) :=
  forI nextlen (fun i (st : List Int × Int) =>
    rd nextparents i >>= fun np =>
    (if np ≠ st.2 then wr st.1 np i else ok st.1) >>= fun nextstarts => ok (nextstarts, np))
    (nextstarts, -1) >>= fun st => ok st.1

/-- src/cpu-kernels/awkward_ListOffsetArray_reduce_nonlocal_findgaps_64.cpp:7-22. The state is
`(gaps, k, last)`. -/
def ListOffsetArray_reduce_nonlocal_findgaps (gaps parents : List Int) (lenparents : Nat) :
    R (List Int) :=
  forN lenparents (fun i (st : List Int × Int × Int) =>
    rd parents (i : Int) >>= fun parent =>
    if st.2.2 < parent then
      wr st.1 st.2.1 (parent - st.2.2) >>= fun gaps => ok (gaps, st.2.1 + 1, parent)
    else ok st) (gaps, 0, -1) >>= fun st => ok st.1

/-- The variables of the next kernel. -/
structure OutState where
  outstarts : List Int
  outstops : List Int
  j : Int
  k : Int
  maxdistinct : Int

/-- src/cpu-kernels/awkward_ListOffsetArray_reduce_nonlocal_outstartsstops_64.cpp:7-36; returns
`(outstarts, outstops)`. -/
def ListOffsetArray_reduce_nonlocal_outstartsstops (outstarts outstops distincts : List Int)
    (lendistincts : Int) (gaps : List Int) (outlength : Nat) : R (List Int × List Int) :=
  forI lendistincts (fun i (st : OutState) =>
    rd distincts i >>= fun d =>
    (if st.maxdistinct < d then
      rd gaps st.j >>= fun gap =>
      forI gap (fun _ (st : OutState) =>
        wr st.outstarts st.k i >>= fun outstarts => wr st.outstops st.k i >>= fun outstops =>
        ok { st with outstarts, outstops, k := st.k + 1 }) { st with maxdistinct := d } >>= fun st =>
      ok { st with j := st.j + 1 }
    else ok st) >>= fun st =>
    if d ≠ -1 then
      wr st.outstops (st.k - 1) (i + 1) >>= fun outstops => ok { st with outstops }
    else ok st) { outstarts, outstops, j := 0, k := 0, maxdistinct := -1 } >>= fun st =>
  forFrom st.k (outlength : Int) (fun k (so : List Int × List Int) =>
    wr so.1 k (lendistincts + 1) >>= fun outstarts =>
    wr so.2 k (lendistincts + 1) >>= fun outstops => ok (outstarts, outstops))
    (st.outstarts, st.outstops)

/-- src/cpu-kernels/awkward_ListOffsetArray_reduce_nonlocal_nextshifts_64.cpp:7-42. -/
def ListOffsetArray_reduce_nonlocal_nextshifts (nummissing missing nextshifts offsets : List Int)
    (length : Nat) (starts parents : List Int) (maxcount nextlen : Int) (nextcarry : List Int) :
    R (List Int) :=
  forN length (fun i (st : List Int × List Int) =>
    rd offsets (i : Int) >>= fun start => rd offsets ((i + 1 : Nat) : Int) >>= fun stop =>
    rd parents (i : Int) >>= fun parent => rd starts parent >>= fun s =>
    (if s = (i : Int) then forI maxcount (fun k nummissing => wr nummissing k 0) st.1 else ok st.1)
      >>= fun nummissing =>
    forFrom (stop - start) maxcount (fun k nummissing =>
      rd nummissing k >>= fun n => wr nummissing k (n + 1)) nummissing >>= fun nummissing =>
    forI (stop - start) (fun j missing =>
      rd nummissing j >>= fun n => wr missing (start + j) n) st.2 >>= fun missing =>
    ok (nummissing, missing)) (nummissing, missing) >>= fun st =>
  forI nextlen (fun j nextshifts =>
    rd nextcarry j >>= fun c => rd st.2 c >>= fun m => wr nextshifts j m) nextshifts

/-- src/cpu-kernels/awkward_IndexedArray_reduce_next_64.cpp:8-28 and
awkward_ByteMaskedArray_reduce_next_64.cpp:7-28, where `picked i` is the position in the content
of element `i`, if it is not missing. The state is `(nextcarry, nextparents, outindex, k)`. -/
def reduce_next_kernel (picked : Int → R (Option Int)) (nextcarry nextparents outindex parents : List Int)
    (length : Nat) : R (List Int × List Int × List Int) :=
  forN length (fun i (st : List Int × List Int × List Int × Int) =>
    picked (i : Int) >>= fun x => match x with
    | some x =>
      rd parents (i : Int) >>= fun parent =>
      wr st.1 st.2.2.2 x >>= fun nextcarry =>
      wr st.2.1 st.2.2.2 parent >>= fun nextparents =>
      wr st.2.2.1 (i : Int) st.2.2.2 >>= fun outindex =>
      ok (nextcarry, nextparents, outindex, st.2.2.2 + 1)
    | none =>
      wr st.2.2.1 (i : Int) (-1) >>= fun outindex => ok (st.1, st.2.1, outindex, st.2.2.2))
    (nextcarry, nextparents, outindex, 0) >>= fun st => ok (st.1, st.2.1, st.2.2.1)

/-- src/cpu-kernels/awkward_IndexedArray_reduce_next_nonlocal_nextshifts_64.cpp:8-24,
awkward_ByteMaskedArray_reduce_next_nonlocal_nextshifts_64.cpp:7-24 (`shifts` empty) and their
`fromshifts` variants. The state is `(nextshifts, nullsum, k)`. -/
def reduce_next_nextshifts_kernel (picked : Int → R (Option Int)) (nextshifts shifts : List Int)
    (length : Nat) : R (List Int) :=
  forN length (fun i (st : List Int × Int × Int) =>
    picked (i : Int) >>= fun x => match x with
    | some _ =>
      (if shifts.length = 0 then ok 0 else rd shifts (i : Int)) >>= fun s =>
      wr st.1 st.2.2 (s + st.2.1) >>= fun nextshifts => ok (nextshifts, st.2.1, st.2.2 + 1)
    | none => ok (st.1, st.2.1 + 1, st.2.2)) (nextshifts, 0, 0) >>= fun st => ok st.1

/-- src/cpu-kernels/awkward_IndexedArray_reduce_next_fix_offsets_64.cpp:7-17. -/
def IndexedArray_reduce_next_fix_offsets (outoffsets starts : List Int) (startslength outindexlength : Nat) :
    R (List Int) :=
  forN startslength (fun i outoffsets => rd starts (i : Int) >>= fun s => wr outoffsets (i : Int) s)
    outoffsets >>= fun outoffsets => wr outoffsets (startslength : Int) (outindexlength : Int)

namespace Content

mutual
/-- `branch_depth` of each class: EmptyArray.cpp, NumpyArray.cpp (one dimension),
RegularArray.cpp, ListArray.cpp, ListOffsetArray.cpp:861-869, the option and index classes (their
content's), RecordArray.cpp:987-1008, UnionArray.cpp:1372-1389. -/
def branchDepth : Content → Bool × Nat
  | empty _ => (false, 1)
  | numpy _ _ _ => (false, 1)
  | regular p c _ _ | listArray p _ _ c | listOffset p _ c =>
    if p.arr = .string ∨ p.arr = .bytestring then (false, 1)
    else (c.branchDepth.1, c.branchDepth.2 + 1)
  | indexed _ _ c | indexedOption _ _ c | byteMasked _ _ _ c | bitMasked _ _ _ _ _ c
  | unmasked _ c => c.branchDepth
  | record _ _ cs _ | union _ _ _ cs => (branchDepths cs).getD (false, 1)
/-- The loop of RecordArray.cpp:992-1006: whether the members branch, and the smallest depth. -/
def branchDepths : List Content → Option (Bool × Nat)
  | [] => none
  | c :: cs => match branchDepths cs with
    | none => some c.branchDepth
    | some (b, d) =>
      some (c.branchDepth.1 || b || decide (c.branchDepth.2 ≠ d), Nat.min c.branchDepth.2 d)
end

/-- `dimension_optiontype`. -/
def dimensionOption : Content → Bool
  | indexedOption .. | byteMasked .. | bitMasked .. | unmasked .. => true
  | _ => false

/-- RegularArray in an option node is first converted (IndexedArray.cpp:2229-2233 and others). -/
def regularToOffsets : Content → R Content
  | regular p c size zeros => (regular p c size zeros).toListOffset
  | c => ok c

/-- NumpyArray.cpp:3175-3358 `reduce_next` of a one-dimensional, contiguous array. -/
def reduceLeaf (red : Reducer) (mask : Bool) (starts shifts parents : List Int) (outlength : Nat)
    (dt : DType) (data : List Atom) : R Content :=
  if dt.reducible = false then err "reducers on this dtype are not modelled" else
  (if red.returnsPositions then
    reduceArgKernel (fun x y => red.better x y) (alloc outlength) data parents parents.length
      outlength >>= fun ptr =>
    NumpyArray_reduce_adjust_starts ptr outlength parents starts shifts >>= fun ptr =>
    ok (ptr.map Atom.int)
  else
    reduceKernel (red.init dt) (fun acc x => red.step dt acc x)
      (List.replicate outlength (.int (-559038737))) data parents parents.length outlength) >>= fun ptr =>
  if mask then
    NumpyArray_reduce_mask_ByteMaskedArray (alloc outlength) parents parents.length outlength
      >>= fun outmask =>
    ok (byteMasked {} outmask false (numpy {} (red.returnDtype dt) ptr))
  else ok (numpy {} (red.returnDtype dt) ptr)

/-- The recursive call: `negaxis`, `starts`, `shifts`, `parents`, `outlength`, the content. -/
abbrev ReduceRec := Nat → List Int → List Int → List Int → Nat → Content → R Content

/-- ListOffsetArray.cpp:1361-1465, the branch where this dimension is merged. -/
def reduceNonlocal (rec : ReduceRec) (red : Reducer) (negaxis : Nat) (starts parents : List Int)
    (outlength : Nat) (offsets : List Int) (c : Content) : R Content :=
  if offsets.length - 1 ≠ parents.length then err "offsets_.length() - 1 != parents.length()" else
  let length := offsets.length - 1
  rd offsets 0 >>= fun globalstart => rd offsets (length : Int) >>= fun globalstop =>
  let nextlen := globalstop - globalstart
  ListOffsetArray_reduce_nonlocal_maxcount_offsetscopy (alloc offsets.length) offsets length
    >>= fun mo =>
  let maxcount := mo.1
  ListOffsetArray_reduce_nonlocal_preparenext (alloc nextlen) (alloc nextlen) nextlen
    (alloc (maxcount * outlength)) (maxcount * outlength) mo.2 offsets length parents maxcount
    >>= fun st =>
  ListOffsetArray_reduce_nonlocal_nextstarts (alloc (st.maxnextparents + 1)) st.nextparents nextlen
    >>= fun nextstarts =>
  ListOffsetArray_reduce_nonlocal_findgaps (alloc outlength) parents parents.length >>= fun gaps =>
  ListOffsetArray_reduce_nonlocal_outstartsstops (alloc outlength) (alloc outlength) st.distincts
    (maxcount * outlength) gaps outlength >>= fun ss =>
  (if red.returnsPositions then
    rd offsets (length : Int) >>= fun total =>
    ListOffsetArray_reduce_nonlocal_nextshifts (alloc maxcount) (alloc total) (alloc nextlen) offsets
      length starts parents maxcount nextlen st.nextcarry
  else ok []) >>= fun nextshifts =>
  c.carry false st.nextcarry >>= fun nextcontent =>
  rec (negaxis - 1) nextstarts nextshifts st.nextparents (st.maxnextparents + 1).toNat nextcontent
    >>= fun outcontent => ok (listArray {} ss.1 ss.2 outcontent)

/-- ListOffsetArray.cpp:1467-1530, the branch where this dimension stays. -/
def reduceLocal (rec : ReduceRec) (negaxis : Nat) (shifts parents : List Int)
    (outlength : Nat) (offsets : List Int) (c : Content) : R Content :=
  let length := offsets.length - 1
  rd offsets 0 >>= fun globalstart => rd offsets (length : Int) >>= fun globalstop =>
  ListOffsetArray_reduce_local_nextparents (alloc (globalstop - globalstart)) offsets length
    >>= fun nextparents =>
  c.range globalstart globalstop >>= fun trimmed =>
  rec negaxis (makeStarts offsets) shifts nextparents length trimmed >>= fun outcontent =>
  ListOffsetArray_reduce_local_outoffsets (alloc (outlength + 1)) parents parents.length outlength
    >>= fun outoffsets => ok (listOffset {} outoffsets outcontent)

/-- RegularArray.cpp:1071-1124: the result of a RegularArray becomes regular again. -/
def reduceRegular (negaxis depth : Nat) (contentIsOption : Bool) (out : Content) : R Content :=
  if contentIsOption then ok out
  else if negaxis + 2 = depth then
    match out with
    | listOffset p offsets (listOffset p' o' c') =>
      (listOffset p' o' c').toRegular >>= fun r => ok (listOffset p offsets r)
    | listOffset p offsets (listArray p' s' t' c') =>
      (listArray p' s' t' c').toRegular >>= fun r => ok (listOffset p offsets r)
    | listArray p starts stops (listOffset p' o' c') =>
      (listOffset p' o' c').toRegular >>= fun r => ok (listArray p starts stops r)
    | listArray p starts stops (listArray p' s' t' c') =>
      (listArray p' s' t' c').toRegular >>= fun r => ok (listArray p starts stops r)
    | out => ok out
  else if negaxis = depth then
    match out with
    | listOffset .. | listArray .. => out.toRegular
    | out => ok out
  else ok out

/-- IndexedArray.cpp:2244-2287 and ByteMaskedArray.cpp:1173-1214, after the recursive call. -/
def reduceOptionWrap (merged : Bool) (starts outindex : List Int) (out : Content) : R Content :=
  if merged then ok out
  else regularToOffsets out >>= fun out => match out with
    | listOffset p _ raw =>
      if starts.length > 0 ∧ starts[0]? ≠ some 0 then
        err "reduce_next with unbranching depth > negaxis expects a ListOffsetArray64 whose offsets start at zero"
      else
        IndexedArray_reduce_next_fix_offsets (alloc (starts.length + 1)) starts starts.length
          outindex.length >>= fun outoffsets =>
        ok (listOffset p outoffsets (indexedOption {} outindex raw))
    | _ => err "reduce_next with unbranching depth > negaxis is only expected to return RegularArray or ListOffsetArray64"

/-- The position in the content of an element of an IndexedArray: awkward_IndexedArray_reduce_next_64.cpp:17. -/
def pickedIndex (index : List Int) (i : Int) : R (Option Int) :=
  rd index i >>= fun x => ok (if x ≥ 0 then some x else none)

/-- The same for a ByteMaskedArray: awkward_ByteMaskedArray_reduce_next_64.cpp:17. -/
def pickedMask (mask : List Int) (vw : Bool) (i : Int) : R (Option Int) :=
  rd mask i >>= fun x => ok (if decide (x ≠ 0) = vw then some i else none)

/-- IndexedArray.cpp:2170-2288 and ByteMaskedArray.cpp:1097-1215 `reduce_next`. -/
def reduceOption (rec : ReduceRec) (red : Reducer) (isoption : Bool) (picked : Int → R (Option Int))
    (length numnull negaxis : Nat) (starts shifts parents : List Int) (outlength : Nat)
    (branch : Bool × Nat) (c : Content) : R Content :=
  reduce_next_kernel picked (alloc (length - numnull)) (alloc (length - numnull)) (alloc length)
    parents length >>= fun cpo =>
  let merged := !branch.1 && decide (negaxis = branch.2)
  (if isoption && red.returnsPositions && merged then
    reduce_next_nextshifts_kernel picked (alloc (length - numnull)) shifts length
  else ok []) >>= fun nextshifts =>
  c.carry false cpo.1 >>= fun next =>
  (if isoption then regularToOffsets next else ok next) >>= fun next =>
  rec negaxis starts nextshifts cpo.2.1 outlength next >>= fun out =>
  reduceOptionWrap merged starts cpo.2.2 out

/-- `reduce_next` of each class: EmptyArray.cpp:558-579, NumpyArray.cpp:3175-3358,
RegularArray.cpp:1053-1125, ListArray.cpp:1389-1406, ListOffsetArray.cpp:1346-1531,
IndexedArray.cpp:2170-2288, ByteMaskedArray.cpp:1097-1215, BitMaskedArray.cpp:954-971,
UnmaskedArray.cpp:899-920, RecordArray.cpp:1469-1496, UnionArray.cpp:2010-2036. -/
def reduceNext (red : Reducer) (mask : Bool) : Nat → ReduceRec
  | 0, _, _, _, _, _, _ => ub
  | f + 1, negaxis, starts, shifts, parents, outlength, self => match self with
    | empty _ => reduceLeaf red mask starts shifts parents outlength red.preferred []
    | numpy _ dt data => reduceLeaf red mask starts shifts parents outlength dt data
    | listOffset _ offsets c =>
      if self.branchDepth = (false, negaxis) then
        reduceNonlocal (reduceNext red mask f) red negaxis starts parents outlength offsets c
      else reduceLocal (reduceNext red mask f) negaxis shifts parents outlength offsets c
    | listArray .. =>
      self.toListOffset >>= fun next =>
      reduceNext red mask f negaxis starts shifts parents outlength next
    | regular _ c _ _ =>
      self.toListOffset >>= fun next =>
      reduceNext red mask f negaxis starts shifts parents outlength next >>= fun out =>
      reduceRegular negaxis self.branchDepth.2 c.dimensionOption out
    | indexed _ index c | indexedOption _ index c =>
      IndexedArray_numnull index index.length >>= fun numnull =>
      reduceOption (reduceNext red mask f) red (match self with | indexedOption .. => true | _ => false)
        (pickedIndex index) index.length numnull negaxis starts shifts parents outlength
        self.branchDepth c
    | byteMasked _ m vw c =>
      ByteMaskedArray_numnull m m.length vw >>= fun numnull =>
      reduceOption (reduceNext red mask f) red true (pickedMask m vw) m.length numnull negaxis starts
        shifts parents outlength self.branchDepth c
    | bitMasked .. =>
      self.toByteMasked >>= fun next =>
      reduceNext red mask f negaxis starts shifts parents outlength next
    | unmasked _ c =>
      regularToOffsets c >>= fun next =>
      reduceNext red mask f negaxis starts shifts parents outlength next
    | record _ keys cs length =>
      mapR (fun c => c.range 0 length >>= fun trimmed =>
        reduceNext red mask f negaxis starts shifts parents outlength trimmed) cs >>= fun cs' =>
      ok (record {} keys cs' outlength)
    | union .. => err "union: simplify_uniontype is not modelled here"

/-- Content.cpp:986-1022: the axis counted from the leaves. -/
def negativeAxis (axis : Int) (branch : Bool × Nat) : R Nat :=
  if branch.1 then
    if -axis ≤ 0 then err "cannot use non-negative axis on a nested list structure of variable depth"
    else if -axis > branch.2 then err "cannot use axis on a nested list structure that splits into different depths"
    else ok (-axis).toNat
  else
    let negaxis := if -axis ≤ 0 then -axis + branch.2 else -axis
    if 0 < negaxis ∧ negaxis ≤ branch.2 then ok negaxis.toNat
    else err "axis exceeds the depth of the nested list structure"

/-- Content.cpp:985-1047 `Content::reduce`. -/
def reduce (red : Reducer) (axis : Int) (mask : Bool) (c : Content) : R Item :=
  negativeAxis axis c.branchDepth >>= fun negaxis =>
  content_reduce_zeroparents (alloc c.len) c.len >>= fun parents =>
  reduceNext red mask c.rank negaxis [0] [] parents 1 c >>= fun next => next.getitemAtNowrap 0

end Content

/-- src/cpu-kernels/awkward_reduce_argmax_complex.cpp:8-26. Complex numbers are pairs of consecutive
items of `fromptr`. The best position so far is kept in `toptr[parent]`, but the comparison reads
`fromptr[toptr[parent * 2]]` and `fromptr[toptr[parent * 2 + 1]]`. -/
def reduce_argmax_complex (toptr : List Int) (fromptr : List Rat) (parents : List Int)
    (lenparents outlength : Nat) : R (List Int) :=
  forN outlength (fun k toptr => wr toptr (k : Int) (-1)) toptr >>= fun toptr =>
  forN lenparents (fun i toptr =>
    rd parents (i : Int) >>= fun parent =>
    rd toptr parent >>= fun best =>
    if best = -1 then wr toptr parent (i : Int)
    else
      rd fromptr ((i : Int) * 2) >>= fun x =>
      rd toptr (parent * 2) >>= fun p => rd fromptr p >>= fun y =>
      if x > y then wr toptr parent (i : Int)
      else if x = y then
        rd fromptr ((i : Int) * 2 + 1) >>= fun x' =>
        rd toptr (parent * 2 + 1) >>= fun p' => rd fromptr p' >>= fun y' =>
        if x' > y' then wr toptr parent (i : Int) else ok toptr
      else ok toptr) toptr

end Awk
