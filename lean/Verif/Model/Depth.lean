import Verif.Model.Content
/-
The depth of arrays, and negative axes.
-/

namespace Awk.Content
open Awk R

mutual
/-- `purelist_depth` of each class (e.g. RegularArray.cpp:730-737, RecordArray.cpp:962-965). -/
def purelistDepth : Content → Int
  | empty _ | numpy .. | record .. => 1
  | regular p c _ _ | listArray p _ _ c | listOffset p _ c =>
    if p.arr = .string ∨ p.arr = .bytestring then 1 else c.purelistDepth + 1
  | indexed _ _ c | indexedOption _ _ c | byteMasked _ _ _ c | bitMasked _ _ _ _ _ c
  | unmasked _ c => c.purelistDepth
  | union _ _ _ cs => match purelistDepthAll cs with
    | [] => -1
    | d :: ds => if ds.all (· == d) then d else -1
/-- UnionArray.cpp:1335-1352: the depths of the contents. -/
def purelistDepthAll : List Content → List Int
  | [] => []
  | c :: cs => c.purelistDepth :: purelistDepthAll cs
end

/-- The depth of a list node: strings count as one value (ListOffsetArray.cpp:839-845 and 849-857,
ListArray.cpp:841-861, RegularArray.cpp:731-748). -/
def listDepth (p : Params) (d : Int) : Int :=
  if p.arr = .string ∨ p.arr = .bytestring then 1 else d + 1

mutual
/-- `minmax_depth()` (EmptyArray.cpp:390-392, NumpyArray.cpp:1501-1504, IndexedArray.cpp:1482-1486,
ByteMaskedArray.cpp:794-796, BitMaskedArray.cpp:758-760, UnmaskedArray.cpp:663-665,
RecordArray.cpp:968-984, UnionArray.cpp:1353-1369, and the lists). -/
def minmaxDepth : Content → Int × Int
  | empty _ => (1, 1)
  | numpy _ _ _ => (1, 1)
  | regular p c _ _ => (listDepth p c.minmaxDepth.1, listDepth p c.minmaxDepth.2)
  | listArray p _ _ c => (listDepth p c.minmaxDepth.1, listDepth p c.minmaxDepth.2)
  | listOffset p _ c => (listDepth p c.minmaxDepth.1, listDepth p c.minmaxDepth.2)
  | indexed _ _ c => c.minmaxDepth
  | indexedOption _ _ c => c.minmaxDepth
  | byteMasked _ _ _ c => c.minmaxDepth
  | bitMasked _ _ _ _ _ c => c.minmaxDepth
  | unmasked _ c => c.minmaxDepth
  | record _ _ cs _ => (minmaxDepthAll cs).getD (0, 0)
  | union _ _ _ cs => (minmaxDepthAll cs).getD (0, 0)
/-- The loops of RecordArray.cpp:972-983 and UnionArray.cpp:1357-1368. The largest depth starts from
zero; no depth is smaller. -/
def minmaxDepthAll : List Content → Option (Int × Int)
  | [] => none
  | c :: cs =>
    match minmaxDepthAll cs with
    | none => some (c.minmaxDepth.1, max c.minmaxDepth.2 0)
    | some (lo, hi) => some (min c.minmaxDepth.1 lo, max c.minmaxDepth.2 hi)
end

/-- Content.cpp:1686-1711 `axis_wrap_if_negative`. -/
def axisWrap (c : Content) (axis : Int) : R Int :=
  if axis ≥ 0 then ok axis
  else if c.minmaxDepth.1 = c.purelistDepth ∧ c.minmaxDepth.2 = c.purelistDepth then
    let posaxis := c.purelistDepth + axis
    if posaxis < 0 then err "axis exceeds the depth of this array" else ok posaxis
  else if c.minmaxDepth.1 + axis = 0 then err "axis exceeds the min depth of this array"
  else ok axis

end Awk.Content
