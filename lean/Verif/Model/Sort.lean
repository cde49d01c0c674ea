import Verif.Model.Reduce
/-
Model of `sort` and `argsort`: `Content::sort`, `Content::argsort`, `sort_next` and `argsort_next` of
every node class, and their kernels.

Simplifications, common to this file:
* integers are unbounded and reals are rationals: there are no NaNs;
* complex, datetime and timedelta numbers raise;
* all offsets and indexes are 64-bit (the other ListOffsetArrays first become a ListOffsetArray64
  whose offsets begin at zero);
* UnionArray raises, because its `sort_next` begins with `simplify_uniontype`;
* `std::stable_sort` is insertion sort, which gives the only result that the standard allows;
  `std::sort` is a parameter, any function. Both are undefined if the comparison is not a strict weak
  order on different elements of the range;
* `sortNext` takes a fuel argument; running out of fuel is `ub`.

`sort_next` and `argsort_next` are one function with a switch `arg`: their texts are the same, except
where `arg` is used.
-/

namespace Awk
open R

/-! ### The C++ library -/

/-- The comparison is a strict weak order on the different elements of a range. -/
def strictWeak (lt : Int → Int → Bool) (xs : List Int) : Bool :=
  xs.all fun a => xs.all fun b => (a == b || !(lt a b && lt b a)) &&
    xs.all fun c => a == c || lt a b || lt b c || !lt a c

/-- Insert before the first element that is not smaller. -/
def insertBy (lt : Int → Int → Bool) (a : Int) : List Int → List Int
  | [] => [a]
  | b :: l => if lt b a then b :: insertBy lt a l else a :: b :: l

/-- `std::stable_sort`. -/
def stableSort (lt : Int → Int → Bool) (xs : List Int) : R (List Int) :=
  if strictWeak lt xs then ok (xs.foldr (insertBy lt) []) else ub

/-- An implementation of `std::sort`. -/
abbrev StdSort := (Int → Int → Bool) → List Int → List Int

/-- `std::sort`. -/
def unstableSort (std : StdSort) (lt : Int → Int → Bool) (xs : List Int) : R (List Int) :=
  if strictWeak lt xs then ok (std lt xs) else ub

/-- `std::iota` from zero. -/
def iota (n : Nat) : List Int := (List.range n).map (fun (i : Nat) => (i : Int))

/-- Work on the items from `lo` to `hi` of a buffer. -/
def onRange (f : List α → R (List α)) (lo hi : Int) (xs : List α) : R (List α) :=
  if 0 ≤ lo ∧ lo ≤ hi ∧ hi ≤ xs.length then
    f ((xs.drop lo.toNat).take (hi - lo).toNat) >>= fun ys =>
    ok (xs.take lo.toNat ++ ys ++ xs.drop hi.toNat)
  else ub

/-! ### Kernels -/

/-- src/cpu-kernels/awkward_sorting_ranges_length.cpp:7-19. -/
def sorting_ranges_length (parents : List Int) (parentslength : Nat) : R Int :=
  forFrom 1 (parentslength : Int) (fun i length =>
    rd parents (i - 1) >>= fun a => rd parents i >>= fun b =>
    ok (if a ≠ b then length + 1 else length)) 2

/-- src/cpu-kernels/awkward_sorting_ranges.cpp:7-26. The state is `(toindex, j, k)`. -/
def sorting_ranges (toindex : List Int) (tolength : Int) (parents : List Int) (parentslength : Nat) :
    R (List Int) :=
  wr toindex 0 0 >>= fun toindex =>
  forFrom 1 (parentslength : Int) (fun i (st : List Int × Int × Int) =>
    rd parents (i - 1) >>= fun a => rd parents i >>= fun b =>
    (if a ≠ b then wr st.1 st.2.1 st.2.2 >>= fun toindex => ok (toindex, st.2.1 + 1)
      else ok (st.1, st.2.1)) >>= fun tj =>
    ok (tj.1, tj.2, st.2.2 + 1)) (toindex, 1, 1) >>= fun st =>
  wr st.1 (tolength - 1) (parentslength : Int)

/-- The comparisons in awkward_sort.cpp and awkward_argsort.cpp: `fromptr[i1] < fromptr[i2]`, or `>` in
descending order. -/
def itemLt (ascending : Bool) (fromptr : List Atom) (i1 i2 : Int) : Bool :=
  match fromptr[i1.toNat]?, fromptr[i2.toNat]? with
  | some x, some y => if ascending then x.lt y else y.lt x
  | _, _ => false

/-- src/cpu-kernels/awkward_sort.cpp:12-65 with `stable` (it is not called otherwise). -/
def awkward_sort (toptr fromptr : List Atom) (length : Nat) (offsets : List Int) (offsetslength : Int)
    (parentslength : Nat) (ascending : Bool) : R (List Atom) :=
  if fromptr.length < length then ub else
  forI (offsetslength - 1) (fun i index =>
    rd offsets i >>= fun start => rd offsets (i + 1) >>= fun stop =>
    onRange (stableSort (itemLt ascending fromptr)) start stop index) (iota length) >>= fun index =>
  forN parentslength (fun i toptr =>
    rd index (i : Int) >>= fun j => rd fromptr j >>= fun x => wr toptr (i : Int) x) toptr

/-- src/cpu-kernels/awkward_argsort.cpp:12-77 with `stable` (it is not called otherwise). -/
def awkward_argsort (toptr : List Int) (fromptr : List Atom) (length : Nat) (offsets : List Int)
    (offsetslength : Int) (ascending : Bool) : R (List Int) :=
  if fromptr.length < length then ub else
  forI (offsetslength - 1) (fun i result =>
    rd offsets i >>= fun start => rd offsets (i + 1) >>= fun stop =>
    onRange (fun xs => stableSort (itemLt ascending fromptr) xs >>= fun ys =>
      ok (ys.map (fun j => j - start))) start stop result) (iota length) >>= fun result =>
  forN length (fun i toptr => rd result (i : Int) >>= fun j => wr toptr (i : Int) j) toptr

/-- The first inner loop of awkward_quick_sort.cpp:46-48: `while (pivot <= arr[high] && low < high) high--`.
The comparison is `before`. -/
def scanDown (before : α → R Bool) (arr : List α) (low : Int) : Nat → Int → R Int
  | 0, _ => ub
  | f + 1, high =>
    rd arr high >>= fun x => before x >>= fun b =>
    if b && decide (low < high) then scanDown before arr low f (high - 1) else ok high

/-- The second inner loop of awkward_quick_sort.cpp:52-54: `while (arr[low] <= pivot && low < high) low++`. -/
def scanUp (before : α → R Bool) (arr : List α) (high : Int) : Nat → Int → R Int
  | 0, _ => ub
  | f + 1, low =>
    rd arr low >>= fun x => before x >>= fun b =>
    if b && decide (low < high) then scanUp before arr high f (low + 1) else ok low

/-- awkward_quick_sort.cpp:45-58: the partition. Returns `(arr, low)`. -/
def partition (cmp : α → α → R Bool) (pivot : α) : Nat → List α → Int → Int → R (List α × Int)
  | 0, _, _, _ => ub
  | f + 1, arr, low, high =>
    if low < high then
      scanDown (fun x => cmp pivot x) arr low (arr.length + 1) high >>= fun high =>
      (if low < high then
        rd arr high >>= fun x => wr arr low x >>= fun arr => ok (arr, low + 1)
      else ok (arr, low)) >>= fun al =>
      scanUp (fun x => cmp x pivot) al.1 high (arr.length + 1) al.2 >>= fun low =>
      (if low < high then
        rd al.1 low >>= fun x => wr al.1 high x >>= fun arr => ok (arr, high - 1)
      else ok (al.1, high)) >>= fun ah =>
      partition cmp pivot f ah.1 low ah.2
    else ok (arr, low)

/-- awkward_quick_sort.cpp:61-63: `while (low > beg && arr[low - 1] == pivot) low--`. -/
def skipDown [DecidableEq α] (arr : List α) (pivot : α) (beg : Int) : Nat → Int → R Int
  | 0, _ => ub
  | f + 1, low =>
    if low > beg then
      rd arr (low - 1) >>= fun x => if x = pivot then skipDown arr pivot beg f (low - 1) else ok low
    else ok low

/-- awkward_quick_sort.cpp:64-66: `while (mid < end && arr[mid] == pivot) mid++`. -/
def skipUp [DecidableEq α] (arr : List α) (pivot : α) (fin : Int) : Nat → Int → R Int
  | 0, _ => ub
  | f + 1, mid =>
    if mid < fin then
      rd arr mid >>= fun x => if x = pivot then skipUp arr pivot fin f (mid + 1) else ok mid
    else ok mid

/-- The variables of `quick_sort`. -/
structure QuickState (α : Type) where
  arr : List α
  beg : List Int
  fin : List Int
  i : Int

/-- One pass of the outer loop: awkward_quick_sort.cpp:35-79. The comparison `cmp x y` is the
predicate: `x <= y`, or `x >= y` in descending order. -/
def quickStep [DecidableEq α] (cmp : α → α → R Bool) (maxlevels : Nat) (st : QuickState α) :
    R (QuickState α) :=
  rd st.beg st.i >>= fun low => rd st.fin st.i >>= fun high =>
  if high - low > 1 then
    let mid := low + (high - low) / 2
    rd st.arr mid >>= fun pivot => rd st.arr low >>= fun first => wr st.arr mid first >>= fun arr =>
    if st.i = (maxlevels : Int) - 1 then err "failed to sort an array" else
    partition cmp pivot (arr.length + 1) arr low (high - 1) >>= fun al =>
    wr al.1 al.2 pivot >>= fun arr =>
    skipDown arr pivot low (arr.length + 1) al.2 >>= fun lo =>
    skipUp arr pivot high (arr.length + 1) (al.2 + 1) >>= fun hi =>
    if lo - low > high - hi then
      wr st.beg (st.i + 1) hi >>= fun beg => wr st.fin (st.i + 1) high >>= fun fin =>
      wr fin st.i lo >>= fun fin => ok { arr, beg, fin, i := st.i + 1 }
    else
      wr st.beg (st.i + 1) low >>= fun beg => wr st.fin (st.i + 1) lo >>= fun fin =>
      wr beg st.i hi >>= fun beg => ok { arr, beg, fin, i := st.i + 1 }
  else ok { st with i := st.i - 1 }

/-- src/cpu-kernels/awkward_quick_sort.cpp:25-82 `quick_sort` and
src/cpu-kernels/awkward_quick_argsort.cpp:29-88 `quick_argsort`, which has the same text with an
array of positions (`result`) in place of `arr` and compares `arr[result[…]]`; `cmp` stands for either
comparison. `arr` is the range to sort; access outside of it is undefined. The return value -1 is the
exception of awkward_quick_sort.cpp:104. `tmpbeg` and `tmpend` are the buffers. -/
def quick_sort [DecidableEq α] (cmp : α → α → R Bool) (maxlevels : Nat) (tmpbeg tmpend : List Int)
    (arr : List α) : R (List α) :=
  wr tmpbeg 0 0 >>= fun beg => wr tmpend 0 (arr.length : Int) >>= fun fin =>
  whileF (2 * arr.length + 1) (fun st : QuickState α => decide (st.i ≥ 0)) (quickStep cmp maxlevels)
    { arr, beg, fin, i := 0 } >>= fun st => ok st.arr

/-- awkward_quick_sort.cpp:7-17 `order_ascending` and `order_descending`. -/
def Atom.ordered (ascending : Bool) (x y : Atom) : Bool := if ascending then !y.lt x else !x.lt y

/-- include/awkward/common.h:71. -/
def kMaxLevels : Nat := 48

/-- src/cpu-kernels/awkward_quick_sort.cpp:85-124. Each call begins by setting `tmpbeg[0]` and
`tmpend[0]`; the other items of the buffers are not read before they are set. -/
def awkward_quick_sort (tmpptr : List Atom) (fromstarts fromstops : List Int) (ascending : Bool)
    (length maxlevels : Nat) : R (List Atom) :=
  forN length (fun i tmpptr =>
    rd fromstarts (i : Int) >>= fun start => rd fromstops (i : Int) >>= fun stop =>
    onRange (quick_sort (fun x y => ok (x.ordered ascending y)) maxlevels (alloc maxlevels)
      (alloc maxlevels)) start stop tmpptr) tmpptr

/-- src/cpu-kernels/awkward_quick_argsort.cpp:91-138. -/
def awkward_quick_argsort (toptr : List Int) (fromptr : List Atom) (offsets : List Int)
    (offsetslength : Int) (ascending : Bool) (maxlevels : Nat) : R (List Int) :=
  forI (offsetslength - 1) (fun i toptr =>
    rd offsets i >>= fun lo => rd offsets (i + 1) >>= fun hi =>
    forI (hi - lo) (fun j toptr => wr toptr (lo + j) j) toptr) toptr >>= fun toptr =>
  forI (offsetslength - 1) (fun i toptr =>
    rd offsets i >>= fun lo => rd offsets (i + 1) >>= fun hi =>
    onRange (quick_sort (fun x y =>
      rd fromptr (lo + x) >>= fun a => rd fromptr (lo + y) >>= fun b => ok (a.ordered ascending b))
      maxlevels (alloc maxlevels) (alloc maxlevels)) lo hi toptr) toptr

/-- `strncmp(left_str, right_str, n)` with `n` the smaller length: bytes are compared until they
differ or both are zero. -/
def strncmp : List Int → List Int → Ordering
  | a :: as, b :: bs => if a < b then .lt else if b < a then .gt else if a = 0 then .eq else strncmp as bs
  | _, _ => .eq

/-- The bytes of a string. -/
def bytesOf (data : List Atom) (start stop : Int) : List Int :=
  ((data.drop start.toNat).take (stop - start).toNat).map Atom.toInt

/-- src/cpu-kernels/awkward_ListOffsetArray_argsort_strings.cpp:21-42 `sorter`. Its arguments are `int`,
so that positions from 2³¹ are truncated; this is not modelled. -/
def stringSorter (ascending : Bool) (data : List Atom) (starts stops : List Int) (left right : Int) : Bool :=
  let at_ := fun (i : Int) => bytesOf data (starts[i.toNat]?.getD 0) (stops[i.toNat]?.getD 0)
  let out := match strncmp (at_ left) (at_ right) with
    | .eq => decide ((at_ left).length < (at_ right).length)
    | .lt => true
    | .gt => false
  if ascending then out else !out

/-- The variables of the next kernel. -/
structure StringState where
  tocarry : List Int
  firstindex : Int
  lastparent : Int
  index : List Int

/-- src/cpu-kernels/awkward_ListOffsetArray_argsort_strings.cpp:13-77. -/
def ListOffsetArray_argsort_strings (std : StdSort) (tocarry fromparents : List Int) (length : Nat)
    (data : List Atom) (starts stops : List Int) (stable ascending local_ : Bool) : R (List Int) :=
  let lt := stringSorter ascending data starts stops
  forN (length + 1) (fun i (st : StringState) =>
    (if i = length then ok true
      else rd fromparents (i : Int) >>= fun p => ok (decide (p ≠ st.lastparent))) >>= fun flush =>
    (if flush then
      (if stable then stableSort lt st.index else unstableSort std lt st.index) >>= fun index =>
      forN index.length (fun j tocarry =>
        rd index (j : Int) >>= fun x =>
        wr tocarry (st.firstindex + (j : Int)) (if local_ then x - st.firstindex else x)) st.tocarry
        >>= fun tocarry => ok { st with tocarry, index := [] }
    else ok st) >>= fun st =>
    if i ≠ length then
      rd fromparents (i : Int) >>= fun p =>
      ok { st with
        firstindex := if st.index.isEmpty then (i : Int) else st.firstindex,
        index := st.index ++ [(i : Int)], lastparent := p }
    else ok st) { tocarry, firstindex := 0, lastparent := -1, index := [] } >>= fun st =>
  ok st.tocarry

/-- src/cpu-kernels/awkward_IndexedArray_local_preparenext_64.cpp:7-27. The state is `(tocarry, j)`. -/
def IndexedArray_local_preparenext (tocarry starts parents : List Int) (parentslength : Nat)
    (nextparents : List Int) (nextlen : Int) : R (List Int) :=
  forN parentslength (fun i (st : List Int × Int) =>
    rd parents (i : Int) >>= fun parent => rd starts parent >>= fun _ =>
    (if st.2 < nextlen then rd nextparents st.2 >>= fun np => ok (decide (parent = np)) else ok false)
      >>= fun here =>
    if here then wr st.1 (i : Int) st.2 >>= fun tocarry => ok (tocarry, st.2 + 1)
    else wr st.1 (i : Int) (-1) >>= fun tocarry => ok (tocarry, st.2)) (tocarry, 0) >>= fun st => ok st.1

/-- src/cpu-kernels/awkward_ListOffsetArray_local_preparenext_64.cpp:11-26. -/
def ListOffsetArray_local_preparenext (std : StdSort) (tocarry fromindex : List Int) (length : Nat) :
    R (List Int) :=
  unstableSort std (fun i1 i2 =>
    decide ((fromindex[i1.toNat]?.getD 0) < (fromindex[i2.toNat]?.getD 0))) (iota length) >>= fun result =>
  forN length (fun i tocarry => rd result (i : Int) >>= fun x => wr tocarry (i : Int) x) tocarry

/-! ### The node classes -/

/-- What to do: `sort` or `argsort`, the two options, and the library function. -/
structure SortArgs where
  arg : Bool := false
  ascending : Bool := true
  stable : Bool := true
  std : StdSort

namespace Content

/-- NumpyArray.cpp:5398-5545 `index_sort` and `array_sort`. -/
def sortBuffer (a : SortArgs) (parents : List Int) (dt : DType) (data : List Atom) : R (DType × List Atom) :=
  if data.length = 0 then ok (if a.arg then .int64 else dt, []) else
  sorting_ranges_length parents parents.length >>= fun offsets_length =>
  sorting_ranges (alloc offsets_length) offsets_length parents parents.length >>= fun offsets =>
  if a.arg then
    (if a.stable then
      awkward_argsort (alloc data.length) data data.length offsets offsets_length a.ascending
    else awkward_quick_argsort (alloc data.length) data offsets offsets_length a.ascending kMaxLevels)
      >>= fun ptr => ok (.int64, ptr.map Atom.int)
  else
    (if a.stable then
      awkward_sort (List.replicate data.length (.int (-559038737))) data data.length offsets
        offsets_length parents.length a.ascending
    else
      awkward_quick_sort data (makeStarts offsets) (makeStops offsets) a.ascending
        (makeStarts offsets).length kMaxLevels) >>= fun ptr => ok (dt, ptr)

/-- NumpyArray.cpp:3407-3583 `sort_next` and 3585-3765 `argsort_next` of a one-dimensional, contiguous
array. -/
def sortLeaf (a : SortArgs) (starts parents : List Int) (keepdims : Bool) (p : Params) (dt : DType)
    (data : List Atom) : R Content :=
  if data.length = 0 && !a.arg then ok (numpy p dt data) else
  if dt.reducible = false then err "sort on this dtype is not modelled" else
  sortBuffer a parents dt data >>= fun dp =>
  let out := numpy (if a.arg then {} else p) dp.1 dp.2
  ok (if keepdims then regular {} out (parents.length / starts.length) data.length else out)

/-- The recursive call: `negaxis`, `starts`, `parents`, `outlength`, `keepdims`, the content. -/
abbrev SortRec := Nat → List Int → List Int → Nat → Bool → Content → R Content

/-- ListOffsetArray.cpp:1721-1760 and 1924-1962: strings. -/
def sortStrings (a : SortArgs) (negaxis : Nat) (parents : List Int) (keepdims : Bool) (p : Params)
    (offsets : List Int) (c : Content) : R Content :=
  if (listOffset p offsets c).branchDepth ≠ (false, negaxis) then
    err "array with strings can only be sorted with axis=-1"
  else
    (listOffset p offsets c).validity >>= fun _ =>
    match c with
    | numpy _ _ data =>
      ListOffsetArray_argsort_strings a.std (alloc parents.length) parents parents.length data
        (makeStarts offsets) (makeStops offsets) a.stable a.ascending a.arg >>= fun tocarry =>
      (if a.arg then ok (numpy {} .int64 (tocarry.map Atom.int))
        else (listOffset p offsets c).carry false tocarry) >>= fun out =>
      ok (if keepdims then regular {} out out.len 0 else out)
    | _ => err "the content of a string is a NumpyArray"

/-- ListOffsetArray.cpp:1762-1838 and 1964-2045, the branch where this dimension is sorted. -/
def sortNonlocal (rec : SortRec) (a : SortArgs) (negaxis : Nat) (parents : List Int)
    (outlength : Nat) (keepdims : Bool) (p : Params) (offsets : List Int) (c : Content) : R Content :=
  if offsets.length - 1 ≠ parents.length then err "offsets_.length() - 1 != parents.length()" else
  let length := offsets.length - 1
  rd offsets 0 >>= fun globalstart => rd offsets (length : Int) >>= fun globalstop =>
  let nextlen := globalstop - globalstart
  ListOffsetArray_reduce_nonlocal_maxcount_offsetscopy (alloc offsets.length) offsets length
    >>= fun mo =>
  let maxcount := mo.1
  ListOffsetArray_reduce_nonlocal_preparenext (alloc nextlen) (alloc nextlen) nextlen
    (alloc (maxcount * outlength)) (maxcount * outlength) mo.2 offsets length parents maxcount
    >>= fun st =>
  ListOffsetArray_reduce_nonlocal_nextstarts (alloc (st.maxnextparents + 1)) st.nextparents nextlen
    >>= fun nextstarts =>
  c.carry false st.nextcarry >>= fun nextcontent =>
  rec (negaxis - 1) nextstarts st.nextparents
    (if a.arg then (st.maxnextparents + 1).toNat else nextcontent.len) false nextcontent
    >>= fun outcontent =>
  ListOffsetArray_local_preparenext a.std (alloc nextlen) st.nextcarry nextlen.toNat >>= fun outcarry =>
  outcontent.carry false outcarry >>= fun outcontent =>
  let out := listOffset (if a.arg then {} else p) offsets outcontent
  ok (if keepdims then regular {} out out.len length else out)

/-- ListOffsetArray.cpp:1839-1882 and 2046-2090, the branch where this dimension stays. -/
def sortLocal (rec : SortRec) (a : SortArgs) (negaxis : Nat) (keepdims : Bool) (p : Params)
    (offsets : List Int) (c : Content) : R Content :=
  let length := offsets.length - 1
  rd offsets 0 >>= fun globalstart => rd offsets (length : Int) >>= fun globalstop =>
  ListOffsetArray_reduce_local_nextparents (alloc (globalstop - globalstart)) offsets length
    >>= fun nextparents =>
  c.range globalstart globalstop >>= fun trimmed =>
  rec negaxis (makeStarts offsets) nextparents length false trimmed >>= fun outcontent =>
  let out := listOffset (if a.arg then {} else p) offsets outcontent
  ok (if keepdims then regular {} out out.len length else out)

/-- RegularArray.cpp:1294-1306 and 1328-1340: the result of a RegularArray becomes regular again. -/
def sortRegular (out : Content) : R Content := match out with
  | regular p (listOffset p' offsets c) size zeros =>
    (listOffset p' offsets c).toRegular >>= fun r =>
    ok (regular p r size (regular p (listOffset p' offsets c) size zeros).len)
  | out => ok out

/-- IndexedArray.cpp:2395-2493: what `sort_next` and `argsort_next` do with the result for the items
that are not missing. `nextparents` are their parents, `outindex` puts the missing items back. -/
def sortOptionWrap (a : SortArgs) (isoption : Bool) (p : Params) (starts parents nextparents : List Int)
    (next_length : Int) (outindex : List Int) (inject axisHere : Bool) (out : Content) : R Content :=
  IndexedArray_local_preparenext (alloc parents.length) starts parents parents.length nextparents
    next_length >>= fun nextoutindex =>
  let p' := if a.arg then {} else p
  indexedSimplify isoption p' nextoutindex out >>= fun out =>
  if axisHere then ok out
  else
    regularToOffsets (if inject then regular {} out parents.length 0 else out) >>= fun out =>
    match out with
    | listOffset q _ raw =>
      if starts.length > 0 ∧ starts[0]? ≠ some 0 then
        err "sort_next with unbranching depth > negaxis expects a ListOffsetArray64 whose offsets start at zero"
      else
        IndexedArray_reduce_next_fix_offsets (alloc (starts.length + 1)) starts starts.length
          outindex.length >>= fun outoffsets =>
        indexedSimplify isoption p' outindex raw >>= fun x => ok (listOffset q outoffsets x)
    | indexedOption .. => if isoption then ok out else err "unexpected class"
    | indexed .. => if isoption then err "unexpected class" else ok out
    | _ => err "unexpected class"

/-- IndexedArray.cpp:2367-2493 `sort_next` and `argsort_next` (`isoption`: IndexedOptionArray). -/
def sortOption (rec : SortRec) (a : SortArgs) (isoption : Bool) (p : Params) (index : List Int)
    (negaxis : Nat) (starts parents : List Int) (outlength : Nat) (keepdims : Bool)
    (branch : Bool × Nat) (c : Content) : R Content :=
  IndexedArray_numnull index index.length >>= fun numnull =>
  let next_length := (index.length : Int) - numnull
  reduce_next_kernel (pickedIndex index) (alloc next_length) (alloc next_length) (alloc index.length)
    parents index.length >>= fun cpo =>
  c.carry false cpo.1 >>= fun next =>
  let inject := decide (numnull > 0) && !branch.1 && decide (negaxis ≠ branch.2)
  rec negaxis starts cpo.2.1 outlength (keepdims && !inject) next >>= fun out =>
  sortOptionWrap a isoption p starts parents cpo.2.1 next_length cpo.2.2 inject
    (decide (branch = (false, negaxis))) out

/-- `sort_next` and `argsort_next` of each class: EmptyArray.cpp:600-637, NumpyArray.cpp:3407-3765,
RegularArray.cpp:1275-1341, ListArray.cpp:1544-1578, ListOffsetArray.cpp:1706-2090,
IndexedArray.cpp:2240-2500, ByteMaskedArray.cpp:1275-1310, BitMaskedArray.cpp:993-1025,
UnmaskedArray.cpp:965-1031, RecordArray.cpp:1602-1661, UnionArray.cpp:2093-2147. -/
def sortNext (a : SortArgs) : Nat → SortRec
  | 0, _, _, _, _, _, _ => ub
  | f + 1, negaxis, starts, parents, outlength, keepdims, self =>
    let nothing : R Content := ok (if a.arg then numpy {} .int64 [] else self)
    match self with
    | empty _ => sortLeaf a starts parents keepdims {} (if a.arg then .int64 else .float64) []
    | numpy p dt data => sortLeaf a starts parents keepdims p dt data
    | listOffset p offsets c =>
      if self.len = 0 then ok self
      else if p.arr = .string ∨ p.arr = .bytestring then
        sortStrings a negaxis parents keepdims p offsets c
      else if self.branchDepth = (false, negaxis) then
        sortNonlocal (sortNext a f) a negaxis parents outlength keepdims p offsets c
      else sortLocal (sortNext a f) a negaxis keepdims p offsets c
    | listArray .. =>
      self.toListOffset >>= fun next => sortNext a f negaxis starts parents outlength keepdims next
    | regular .. =>
      if self.len = 0 then nothing else
      self.toListOffset >>= fun next =>
      sortNext a f negaxis starts parents outlength keepdims next >>= sortRegular
    | indexed p index c =>
      if index.length = 0 then nothing else
      sortOption (sortNext a f) a false p index negaxis starts parents outlength keepdims
        self.branchDepth c
    | indexedOption p index c =>
      if index.length = 0 then nothing else
      sortOption (sortNext a f) a true p index negaxis starts parents outlength keepdims
        self.branchDepth c
    | byteMasked .. =>
      self.toIndexedOption >>= fun next => sortNext a f negaxis starts parents outlength keepdims next
    | bitMasked .. =>
      self.toByteMasked >>= fun next => sortNext a f negaxis starts parents outlength keepdims next
    | unmasked p c =>
      if self.len = 0 then nothing else
      sortNext a f negaxis starts parents outlength keepdims c >>= fun out => match out with
      | regular q raw size _ =>
        simplifyOption (unmasked p raw) >>= fun x => ok (regular q x size self.len)
      | out => ok out
    | record p keys cs length =>
      if self.len = 0 then nothing else
      mapR (fun c => c.range 0 length >>= fun trimmed =>
        sortNext a f negaxis starts parents outlength keepdims trimmed) cs >>= fun cs' =>
      ok (record (if a.arg then {} else p) keys cs' outlength)
    | union .. => err "union: simplify_uniontype is not modelled here"

/-- `getitem_nothing` of each class: EmptyArray.cpp:306, NumpyArray.cpp:1187, RegularArray.cpp:597,
ListArray.cpp:653, ListOffsetArray.cpp:649, IndexedArray.cpp:1244, ByteMaskedArray.cpp:603,
BitMaskedArray.cpp:625, UnmaskedArray.cpp:502, RecordArray.cpp:774, UnionArray.cpp:1086. -/
def nothingOf (self : Content) : R Content := match self with
  | empty p => ok (empty p)
  | numpy p dt _ => ok (numpy p dt [])
  | regular _ c _ _ | listArray _ _ _ c | listOffset _ _ c | indexed _ _ c | indexedOption _ _ c
  | byteMasked _ _ _ c | bitMasked _ _ _ _ _ c | unmasked _ c => c.range 0 0
  | record .. | union .. => self.range 0 0

/-- Content.cpp:1110-1172 `Content::sort` and 1049-1108 `Content::argsort`. -/
def sortTop (a : SortArgs) (axis : Int) (c : Content) : R Item :=
  negativeAxis axis c.branchDepth >>= fun negaxis =>
  content_reduce_zeroparents (alloc c.len) c.len >>= fun parents =>
  sortNext a (c.rank + 1) negaxis [0] parents 1 true c >>= fun out =>
  if out.len = 0 then out.nothingOf >>= fun x => ok (.array x) else out.getitemAtNowrap 0

/-- `Content::sort`. -/
def sort (std : StdSort) (axis : Int) (ascending stable : Bool) (c : Content) : R Item :=
  sortTop { arg := false, ascending, stable, std } axis c

/-- `Content::argsort`. -/
def argsort (std : StdSort) (axis : Int) (ascending stable : Bool) (c : Content) : R Item :=
  sortTop { arg := true, ascending, stable, std } axis c

end Content
end Awk
