import Verif.Model.Slice
/-
Model of the C++ partitioned arrays (src/libawkward/partition).
A partition is represented by the list of its elements.  Merging two pieces
(mergeable/merge/merge_as_union/simplify) is modelled as list concatenation here;
the merge code itself is modelled in the Content modules.
-/

namespace Awk
open R

/-- `IrregularlyPartitionedArray`: the members `partitions_` and `stops_`. -/
structure PArr (α : Type) where
  parts : List (List α)
  stops : List Int
deriving Repr, DecidableEq

namespace PArr
variable {α : Type}

/-- PartitionedArray.cpp:13-21 and IrregularlyPartitionedArray.cpp:12-21 (constructors). -/
def mk? (parts : List (List α)) (stops : List Int) : R (PArr α) :=
  if parts.isEmpty then err "PartitionedArray must have at least one partition"
  else if parts.length ≠ stops.length then
    err "IrregularlyPartitionedArray stops must have the same length as its partitions"
  else ok ⟨parts, stops⟩

/-- PartitionedArray.cpp:30-33. -/
def numpartitions (p : PArr α) : Int := p.parts.length

/-- IrregularlyPartitionedArray.cpp:153-156: `stops_.back()` (undefined when empty). -/
def length (p : PArr α) : R Int :=
  match p.stops.getLast? with
  | some x => ok x
  | none => ub

/-- IrregularlyPartitionedArray.cpp:52-62, the search loop from partition `i` on, with the
current `start`. -/
def findPartition (at_ : Int) : List Int → Int → Int → Int × Int
  | [], i, _ => (i, 0)
  | stop :: rest, i, start =>
    if at_ < stop then (i, at_ - start) else findPartition at_ rest (i + 1) stop

/-- IrregularlyPartitionedArray.cpp:43-63 `partitionid_index_at`. The loop bound
`numpartitions()` equals `stops_.size()` by the constructor's check. -/
def partitionid_index_at (p : PArr α) (at_ : Int) : Int × Int :=
  if at_ < 0 then (-1, -1) else findPartition at_ p.stops 0 0

/-- PartitionedArray.cpp:104-110 `getitem_at_nowrap`. -/
def getitem_at_nowrap (p : PArr α) (at_ : Int) : R α :=
  let (partitionid, index) := p.partitionid_index_at at_
  rd p.parts partitionid >>= fun part => rd part index

/-- PartitionedArray.cpp:89-102 `getitem_at`. -/
def getitem_at (p : PArr α) (at_ : Int) : R α :=
  p.length >>= fun len =>
  let regular_at := if at_ < 0 then at_ + len else at_
  if ¬ (0 ≤ regular_at ∧ regular_at < len) then err "index out of range"
  else p.getitem_at_nowrap regular_at

/-- The loop variables of `getitem_range_nowrap`. -/
structure St (α : Type) where
  parts : List (List α)
  stops : List Int
  total : Int
  offset : Int

/-- PartitionedArray.cpp:193-197 and 243-247. -/
def St.push (st : St α) (q : List α) : St α :=
  let total := st.total + q.length
  if q.length > 0 then
    { st with total := total, parts := st.parts ++ [q], stops := st.stops ++ [total] }
  else { st with total := total }

/-- PartitionedArray.cpp:147-197, one iteration of the loop for `step > 0`. -/
def posBody (p : PArr α) (first last index_start index_stop step : Int) (partitionid : Int)
    (st : St α) : R (St α) :=
  rd p.parts partitionid >>= fun q =>
  let plen : Int := q.length
  if partitionid = first ∧ partitionid = last then
    (if step = 1 then Awk.getitem_range_nowrap q index_start index_stop
     else getitem_slicerange q index_start index_stop step) >>= fun r => ok (st.push r)
  else if partitionid = first then
    if step = 1 then
      Awk.getitem_range_nowrap q index_start plen >>= fun r => ok (st.push r)
    else
      getitem_slicerange q index_start plen step >>= fun r =>
      ok ({ st with offset := (((index_start - plen).tmod step + step).tmod step) }.push r)
  else if partitionid = last then
    (if step = 1 then Awk.getitem_range_nowrap q 0 index_stop
     else getitem_slicerange q st.offset index_stop step) >>= fun r => ok (st.push r)
  else if step ≠ 1 then
    getitem_slicerange q st.offset plen step >>= fun r =>
    ok ({ st with offset := (((st.offset - plen).tmod step + step).tmod step) }.push r)
  else ok (st.push q)

/-- PartitionedArray.cpp:205-247, one iteration of the loop for `step < 0`. -/
def negBody (p : PArr α) (first last index_start index_stop step : Int) (partitionid : Int)
    (st : St α) : R (St α) :=
  rd p.parts partitionid >>= fun q =>
  let plen : Int := q.length
  let (a, b, offset) :=
    if partitionid = first ∧ partitionid = last then (index_start, index_stop, st.offset)
    else if partitionid = first then
      (index_start, -plen - 1, (((-1 - index_start).tmod (-step) + -step).tmod (-step)))
    else if partitionid = last then (plen - 1 - st.offset, index_stop, st.offset)
    else (plen - 1 - st.offset, -plen - 1,
          (((-1 - (plen - 1 - st.offset)).tmod (-step) + -step).tmod (-step)))
  let a := if a < 0 then -plen - 1 else a
  let b := if b < 0 then -plen - 1 else b
  getitem_slicerange q a b step >>= fun r => ok ({ st with offset := offset }.push r)

/-- PartitionedArray.cpp:256-260: the end of `getitem_range_nowrap`. -/
def finish (st : St α) : R (PArr α) :=
  if st.parts.isEmpty then mk? [[]] [0] else mk? st.parts st.stops

/-- PartitionedArray.cpp:127-261 `getitem_range_nowrap`. The loop
`for (id = first; id < numpartitions && id <= last; id++)` is written with its bound
`min numpartitions (last + 1)`, and the downward loop as a count. -/
def getitem_range_nowrap (p : PArr α) (start stop step : Int) : R (PArr α) :=
  let (first, index_start) := p.partitionid_index_at start
  let (last, index_stop) := p.partitionid_index_at stop
  let st0 : St α := ⟨[], [], 0, 0⟩
  if step > 0 then
    forFrom first (min p.numpartitions (last + 1))
      (posBody p first last index_start index_stop step) st0 >>= finish
  else if step < 0 then
    forI (first - max 0 last + 1)
      (fun i => negBody p first last index_start index_stop step (first - i)) st0 >>= finish
  else err "slice step must not be zero"

/-- PartitionedArray.cpp:112-125 `getitem_range`. -/
def getitem_range (p : PArr α) (start stop step : Int) : R (PArr α) :=
  p.length >>= fun len =>
  let regular_step := if step = kSliceNone then 1 else step
  let (regular_start, regular_stop) :=
    regularize_rangeslice start stop (decide (step > 0)) (start != kSliceNone) (stop != kSliceNone) len
  p.getitem_range_nowrap regular_start regular_stop regular_step

/-- The `while` loop of `repartition`, IrregularlyPartitionedArray.cpp:86-126. State:
`dst` (null at first), `partitionid`, `index`. -/
def fillOne (p : PArr α) (len : Int) :
    Nat → Option (List α) → Int → Int → R (List α × Int × Int)
  | 0, _, _, _ => ub
  | fuel + 1, dst, partitionid, index =>
    if (match dst with | none => true | some d => decide ((d.length : Int) < len)) then
      rd p.parts partitionid >>= fun src =>
      let available := src.length - index
      let desired := match dst with | none => len | some d => len - d.length
      if available ≤ desired then
        Awk.getitem_range_nowrap src index src.length >>= fun piece =>
        fillOne p len fuel (some (match dst with | none => piece | some d => d ++ piece))
          (partitionid + 1) 0
      else
        Awk.getitem_range_nowrap src index (index + desired) >>= fun piece =>
        fillOne p len fuel (some (match dst with | none => piece | some d => d ++ piece))
          partitionid (index + desired)
    else
      match dst with
      | none => ub
      | some d => ok (d, partitionid, index)

/-- IrregularlyPartitionedArray.cpp:81-129, the outer loop over the new stops; `prev` is
`stops[i - 1]` (0 for `i == 0`). -/
def repartitionLoop (p : PArr α) : List Int → Int → Int → Int → R (List (List α))
  | [], _, _, _ => ok []
  | s :: rest, prev, partitionid, index =>
    fillOne p (s - prev) (p.parts.length + 2) none partitionid index >>=
      fun (d, partitionid, index) =>
    repartitionLoop p rest s partitionid index >>= fun ds => ok (d :: ds)

/-- IrregularlyPartitionedArray.cpp:65-132 `repartition`. -/
def repartition (p : PArr α) (stops : List Int) : R (PArr α) :=
  if stops = p.stops then ok p
  else
    match stops.getLast?, p.stops.getLast? with
    | some a, some b =>
      if a ≠ b then err "cannot repartition array"
      else repartitionLoop p stops 0 0 0 >>= fun parts => mk? parts stops
    | _, _ => ub

end PArr
end Awk
