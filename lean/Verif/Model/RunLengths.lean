import Verif.Model.Apply
import Verif.Model.Unflatten
import Verif.Lemmas.ValDec
/-
`ak.run_lengths` (src/awkward/operations/structure.py:265-480).

Simplifications:
* lazy and partitioned arrays are left out;
* a NumpyArray has one dimension; NumPy's `!=` and the comparison of strings
  (src/awkward/behaviors/string.py:122-151) are the inequality of the values; there is no NaN;
* NumPy is not part of the code base: a position that is out of range raises, and a negative one counts
  from the end.
-/

namespace Awk
open R

/-- structure.py:348 `data[1:] != data[:-1]`. -/
def neighbours : List Val → List Bool
  | [] => []
  | [_] => []
  | x :: y :: xs => decide (x ≠ y) :: neighbours (y :: xs)

/-- `diffs[i] = True` of a NumPy array. -/
def npMark (diffs : List Bool) (i : Int) : R (List Bool) :=
  let j := if i < 0 then i + diffs.length else i
  if j < 0 ∨ (diffs.length : Int) ≤ j then err "index out of bounds" else ok (diffs.set j.toNat true)

/-- structure.py:352 `diffs[offsets[1:-1] - 1] = True`. -/
def markBounds (diffs : List Bool) (inner : List Int) : R (List Bool) :=
  foldR (fun diffs o => npMark diffs (o - 1)) diffs inner

/-- structure.py:353 `nonzero(diffs)[0]`; the first argument is the position of the first entry. -/
def nonzeroFrom : Int → List Bool → List Int
  | _, [] => []
  | i, b :: bs => if b then i :: nonzeroFrom (i + 1) bs else nonzeroFrom (i + 1) bs

/-- structure.py:354-357 `full_positions`. -/
def fullPositions (diffs : List Bool) (n : Nat) : List Int :=
  0 :: ((nonzeroFrom 0 diffs).map (· + 1) ++ [(n : Int)])

/-- structure.py:358 `full_positions[1:] - full_positions[:-1]`. -/
def spacings (full : List Int) : List Int := List.zipWith (· - ·) full.tail full

/-- `numpy.searchsorted(xs, v, side="left")`, for integers. -/
def searchLeft (xs : List Int) (v : Int) : Nat := searchRight xs (v - 1)

/-- structure.py:344-363 `lengths_of`; `offsets` is empty in place of `None`. -/
def lengthsOf (data : List Val) (offsets : List Int) : R (List Int × List Int) :=
  if data.length = 0 then ok ([], offsets)
  else
    markBounds (neighbours data) offsets.tail.dropLast >>= fun diffs =>
    let full := fullPositions diffs data.length
    ok (spacings full, offsets.map (fun o => (searchLeft full o : Int)))

namespace Content

mutual
/-- `branch_depth` of each class (EmptyArray.cpp:395-397, NumpyArray.cpp:1507-1509,
RegularArray.cpp:751-759, ListArray.cpp:863-871, ListOffsetArray.cpp:861-869, IndexedArray.cpp:1489-1491,
ByteMaskedArray.cpp:799-801, RecordArray.cpp:987-1008, UnionArray.cpp:1373-1389). -/
def branchLoop : Content → Bool × Int
  | empty _ => (false, 1)
  | numpy _ _ _ => (false, 1)
  | regular p c _ _ =>
    if p.arr = .string ∨ p.arr = .bytestring then (false, 1)
    else (c.branchLoop.1, c.branchLoop.2 + 1)
  | listArray p _ _ c =>
    if p.arr = .string ∨ p.arr = .bytestring then (false, 1)
    else (c.branchLoop.1, c.branchLoop.2 + 1)
  | listOffset p _ c =>
    if p.arr = .string ∨ p.arr = .bytestring then (false, 1)
    else (c.branchLoop.1, c.branchLoop.2 + 1)
  | indexed _ _ c => c.branchLoop
  | indexedOption _ _ c => c.branchLoop
  | byteMasked _ _ _ c => c.branchLoop
  | bitMasked _ _ _ _ _ c => c.branchLoop
  | unmasked _ c => c.branchLoop
  | record _ _ cs _ => if cs.isEmpty then (false, 1) else branchLoops false (-1) cs
  | union _ _ _ cs => branchLoops false (-1) cs
/-- The loops of RecordArray.cpp:994-1006 and UnionArray.cpp:1376-1387, with `anybranch` and
`mindepth`. -/
def branchLoops : Bool → Int → List Content → Bool × Int
  | anybranch, mindepth, [] => (anybranch, mindepth)
  | anybranch, mindepth, c :: cs =>
    let mindepth := if mindepth = -1 then c.branchLoop.2 else mindepth
    branchLoops (anybranch || (c.branchLoop.1 || mindepth != c.branchLoop.2))
      (if mindepth > c.branchLoop.2 then c.branchLoop.2 else mindepth) cs
end

/-- structure.py:367-368, 388-389, 406-407 and 420-421: an IndexedArray is projected. -/
def projectIndexed (c : Content) : R Content :=
  match c with
  | indexed .. => c.project
  | c => ok c

/-- Whether the parameter `__array__` of this node is "string" or "bytestring". -/
def isString (c : Content) : Bool := c.params.arr == .string || c.params.arr == .bytestring

/-- structure.py:377 and 423: a NumpyArray or an EmptyArray. -/
def isFlatNode : Content → Bool
  | numpy .. | empty .. => true
  | _ => false

/-- structure.py:367-385: a layout of depth one. -/
def runsFlat (layout : Content) : R Content :=
  layout.projectIndexed >>= fun layout =>
  if layout.isString || layout.isFlatNode then
    layout.toList >>= fun data => lengthsOf data [] >>= fun r => ok (intArray r.1)
  else err "NotImplementedError: run_lengths"

/-- `content[start : stop]`, which is `getitem_range` (src/python/content.cpp:780-795). Numbers that are
taken for `Slice::none()` are left out. -/
def between (c : Content) (start stop : Int) : R Content :=
  let r := regularize_rangeslice start stop true true true c.len
  c.range r.1 r.2

/-- structure.py:398-414 and 416-437: lists of depth two. -/
def runsLists (layout content : Content) : R Content :=
  layout.listPartsFrom >>= fun oc =>
  npGet oc.1 0 >>= fun first => npGet oc.1 (-1) >>= fun last =>
  oc.2.between first last >>= fun d => d.projectIndexed >>= fun d =>
  if content.isString || d.isFlatNode then
    d.toList >>= fun data =>
    lengthsOf data (oc.1.map (· - first)) >>= fun r =>
    ok (listOffset {} r.2 (intArray r.1))
  else err "NotImplementedError: run_lengths"

/-- structure.py:391-437: only lists are handled. -/
def runsListNode : Content → R Content
  | regular p c size zeros => runsLists (regular p c size zeros) c
  | listArray p starts stops c => runsLists (listArray p starts stops c) c
  | listOffset p offsets c => runsLists (listOffset p offsets c) c
  | _ => err "NotImplementedError: run_lengths"

/-- structure.py:388-437: a layout of depth two. -/
def runsNested (layout : Content) : R Content :=
  layout.projectIndexed >>= fun layout => layout.runsListNode

/-- structure.py:365-440 `getfunction`. -/
def runLengthsGet (_depth : Nat) (_user : Unit) (layout : Content) : R (Content ⊕ Unit) :=
  if layout.branchLoop = (false, 1) then layout.runsFlat >>= fun r => ok (.inl r)
  else if layout.branchLoop = (false, 2) then layout.runsNested >>= fun r => ok (.inl r)
  else ok (.inr ())

/-- structure.py:265-480 `ak.run_lengths`. -/
def runLengths (c : Content) : R Content := apply runLengthsGet 1 () c

end Content
end Awk
