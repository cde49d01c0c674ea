import Verif.Model.Field
import Verif.Model.Depth
import Verif.Spec.Option
import Verif.Spec.Shape
/-
Broadcasting: `ak.broadcast_arrays` and the recursion of `broadcast_and_apply` that all element-wise
operations go through. Inputs are arrays (a scalar is an array of one item); unions, strings,
virtual arrays and single records are not modelled.
-/

namespace Awk
open R

/-- numpy's `array_equal(starts[1:], stops[:-1])` (_util.py:567). -/
def adjacent (starts stops : List Int) : Bool := starts.drop 1 == stops.take (stops.length - 1)

/-- numpy's `bitwise_or` of two boolean arrays of the same length. -/
def orMask (a b : List Int) : R (List Int) :=
  if a.length ≠ b.length then err "operands could not be broadcast together"
  else ok (List.zipWith (fun x y => if x ≠ 0 ∨ y ≠ 0 then 1 else 0) a b)

/-- _util.py:749-756: the mask of the missing elements of any option-type input. -/
def orMasks : List (List Int) → R (List Int)
  | [] => err "unreachable"
  | m :: ms => foldR orMask m ms

/-- _util.py:759-763 `index[~mask] = arange(…)`, -1 at the other places. -/
def keptIndex (mask : List Int) : List Int :=
  (List.range mask.length).map (fun i =>
    if mask[i]?.getD 0 ≠ 0 then -1 else (((mask.take i).filter (· == 0)).length : Int))

/-- _util.py:765-767 `nextindex = arange(…)`, `nextindex[mask] = -1`. -/
def ownIndex (mask : List Int) : List Int :=
  (List.range mask.length).map (fun (i : Nat) => if mask[i]?.getD 0 ≠ 0 then -1 else (i : Int))

namespace Content

/-- `keys()` of a RecordArray (util.cpp:566-583). -/
def recordKeys (keys : Option (List String)) (n : Nat) : List String :=
  match keys with
  | some ks => ks
  | none => (List.range n).map toString

mutual
/-- `purelist_isregular` of each class (e.g. RegularArray.cpp:105-108, ListArray.cpp:128-131,
RecordArray.cpp:161-164). -/
def purelistIsregular : Content → Bool
  | empty _ | numpy .. | record .. => true
  | regular _ c _ _ => c.purelistIsregular
  | listArray .. | listOffset .. => false
  | indexed _ _ c | indexedOption _ _ c | byteMasked _ _ _ c | bitMasked _ _ _ _ _ c
  | unmasked _ c => c.purelistIsregular
  | union _ _ _ cs => purelistIsregularAll cs
/-- UnionArray.cpp:145-153. -/
def purelistIsregularAll : List Content → Bool
  | [] => true
  | c :: cs => c.purelistIsregular && purelistIsregularAll cs
end

/-- _util.py:611-627: if all inputs are regular (and some are lists), those of less depth get inner
dimensions of size 1. The Python code then starts over, which changes nothing more. -/
def rightBroadcast (cs : List Content) : List Content :=
  if cs.any isListNode then
    let maxdepth := (cs.map purelistDepth).foldl max 0
    if maxdepth > 0 ∧ cs.all purelistIsregular = true then
      cs.map (fun c => Nat.repeat (fun c => regular {} c 1 c.len) (maxdepth - c.purelistDepth).toNat c)
    else cs
  else cs

/-- _util.py:542-592 `all_same_offsets`; `offsets` is what has been found so far. -/
def allSameOffsets : Option (List Int) → List Content → Bool
  | _, [] => true
  | offsets, listOffset _ o _ :: cs => match offsets with
    | none => allSameOffsets (some o) cs
    | some o' => if o' ≠ o then false else allSameOffsets offsets cs
  | offsets, listArray _ starts stops _ :: cs =>
    if adjacent starts stops = false then false
    else match offsets with
      | none => allSameOffsets
          (some (if starts.length = 0 then [0] else starts ++ [stops[stops.length - 1]?.getD 0])) cs
      | some o =>
        if o.take (o.length - 1) ≠ starts ∨
            (stops.length ≠ 0 ∧ o[o.length - 1]? ≠ stops[stops.length - 1]?) then false
        else allSameOffsets offsets cs
  | offsets, regular _ c size _ :: cs =>
    let mine : List Int := if size = 0 then []
      else (List.range ((c.len + size - 1) / size)).map (fun i => ((i * size : Nat) : Int))
    match offsets with
    | none => allSameOffsets (some mine) cs
    | some o => if o ≠ mine then false else allSameOffsets offsets cs
  | _, _ :: _ => false

/-- ListArray or ListOffsetArray. -/
def isJagged : Content → Bool
  | listArray .. | listOffset .. => true
  | _ => false

/-- `compact_offsets64(true)` of the jagged classes. -/
def compactOffsets : Content → R (List Int)
  | listArray _ starts stops _ => listArrayCompact starts stops
  | listOffset _ offsets _ => listOffsetCompact offsets
  | _ => err "unreachable"

/-- `broadcast_tooffsets64(offsets).content`, _util.py:863-877; what is not a list is first wrapped
in lists of one item. -/
def toOffsets (offsets : List Int) : Content → R Content
  | listArray _ starts stops c => listBroadcast offsets starts stops starts.length c
  | listOffset _ o c => listBroadcast offsets (makeStarts o) (makeStops o) (o.length - 1) c
  | regular p c size zeros => regularBroadcast offsets (regular p c size zeros).len size c
  | c => regularBroadcast offsets c.len 1 c

/-- _util.py:803-822: the content of a RegularArray, each item `maxsize` times if its size is 1. -/
def bcastRegular (maxsize : Nat) : Content → R Content
  | regular p c size zeros =>
    let length := (regular p c size zeros).len
    if maxsize > 1 ∧ size = 1 then
      getitemRange c 0 ((length * size : Nat) : Int) >>= fun c' =>
      (indexed {} (((List.range length).map (fun (i : Nat) => List.replicate maxsize (i : Int))).flatten) c').project
    else if size = maxsize then getitemRange c 0 ((length * size : Nat) : Int)
    else err "cannot broadcast RegularArray"
  | c => ok c

/-- The size of a RegularArray. -/
def regularSize : Content → Nat
  | regular _ _ size _ => size
  | _ => 0

/-- _util.py:890-919: the content up to the last offset. -/
def sameNext : Content → R Content
  | listOffset _ o c => rd o ((o.length - 1 : Nat) : Int) >>= fun lencontent => getitemRange c 0 lencontent
  | listArray _ starts stops c =>
    if starts.length = 0 ∨ stops.length = 0 then getitemRange c 0 0
    else getitemRange c 0 (stops.foldl max (stops.headD 0))
  | c => ok c

/-- _util.py:923-953: the lists of the output, from the last ListOffsetArray or else the last
ListArray. -/
def sameLists (cs : List Content) (out : Content) : R Content :=
  match (cs.reverse.find? (fun c => match c with | listOffset .. => true | _ => false)) with
  | some (listOffset _ o _) => ok (listOffset {} o out)
  | _ => match (cs.reverse.find? (fun c => match c with | listArray .. => true | _ => false)) with
    | some (listArray _ starts stops _) => ok (listArray {} starts stops out)
    | _ => err "unexpected offsets"

/-- `set(a) == set(b)`. -/
def sameKeys (a b : List String) : Bool := a.all (· ∈ b) && b.all (· ∈ a)

/-- The field of a record array called `key` (RecordArray.cpp:853-856); anything else as it is. -/
def fieldNext (key : String) : Content → R Content
  | record _ keys cs length => fieldOfKey keys cs key >>= fun c => c.range 0 length
  | c => ok c

/-- The names of the fields of the first record array (_util.py:965-968), or none. -/
def firstKeys (cs : List Content) : Option (List String) :=
  cs.findSome? (fun c => match c with | record _ keys ds _ => some (recordKeys keys ds.length) | _ => none)

/-- A tuple array, or not a record array. -/
def tupleOrOther : Content → Bool
  | record _ (some _) _ _ => false
  | _ => true

/-- _util.py:969-976: the same names as the first. -/
def keysAgree (keys : List String) : Content → Bool
  | record _ ks ds _ => sameKeys keys (recordKeys ks ds.length)
  | _ => true

/-- `[x[i] for x in outcontents]` (_util.py:1006-1010). -/
def outColumn (outs : List (List Content)) (i : Nat) : R (List Content) := mapR (fun x => rd x (i : Int)) outs

/-- _util.py:748-784, the step for option types. -/
def optionStep (next : List Content → R (List Content)) (cs : List Content) : R (List Content) :=
  mapR bytemask (cs.filter isOption) >>= fun masks =>
  orMasks masks >>= fun mask =>
  mapR (fun c => projectMask mask (if c.isOption then c else indexedOption {} (ownIndex mask) c)) cs
    >>= fun cs' => next cs' >>= fun outs =>
  mapR (fun o => simplifyOption (indexedOption {} (keptIndex mask) o)) outs

/-- _util.py:787-832, the step for lists that are all regular. `zeros_length` of the result is the
length of the contents. -/
def regularStep (next : List Content → R (List Content)) (cs : List Content) : R (List Content) :=
  let maxsize := (cs.map regularSize).foldl max 0
  mapR (bcastRegular maxsize) cs >>= fun cs' =>
  next cs' >>= fun outs =>
  ok (outs.map (fun o => regular {} o maxsize ((cs'.map len).foldl max 0)))

/-- _util.py:834-884, the step for lists with different offsets. -/
def jaggedStep (next : List Content → R (List Content)) (cs : List Content) : R (List Content) :=
  match cs.find? isJagged with
  | none => err "unreachable"
  | some first =>
    compactOffsets first >>= fun offsets =>
    mapR (toOffsets offsets) cs >>= fun cs' =>
    next cs' >>= fun outs => ok (outs.map (listOffset {} offsets))

/-- _util.py:886-953, the step for lists with the same offsets. -/
def sameStep (next : List Content → R (List Content)) (cs : List Content) : R (List Content) :=
  mapR sameNext cs >>= fun cs' => next cs' >>= fun outs => mapR (sameLists cs) outs

/-- _util.py:955-1010, the step for records. (Without fields, `range(None)` raises.) -/
def recordStep (next : List Content → R (List Content)) (cs : List Content) : R (List Content) :=
  match firstKeys cs with
  | none => err "unreachable"
  | some keys =>
    if cs.all (keysAgree keys) = false then err "cannot broadcast records because keys don't match"
    else
      mapR (fun key => mapR (fieldNext key) cs >>= next) keys >>= fun outs =>
      match outs with
      | [] => err "'NoneType' object cannot be interpreted as an integer"
      | out :: _ => mapR (fun i => outColumn outs i >>= fun ds =>
          ok (record {} (if cs.all tupleOrOther then none else some keys) ds
            ((cs.find? isRecord).getD (empty {})).len)) (List.range out.length)

/-- A list that is shown as a string. -/
def isStringList (c : Content) : Bool := c.isListNode && (c.params.arr != .none)

/-- _util.py:594-1016 `apply`, with the function of `broadcast_arrays` (structure.py:1406-1410):
when all inputs are NumpyArrays they are the outputs. The fuel bounds the depth of the recursion. -/
def bcastApply : Nat → List Content → R (List Content)
  | 0, _ => err "maximum recursion depth exceeded"
  | f + 1, cs =>
    let cs := rightBroadcast cs
    if cs.any (fun c => c.len != ((cs.map len).headD 0)) then err "cannot broadcast: lengths"
    else if cs.all (fun c => match c with | numpy .. => true | _ => false) then ok cs
    else if cs.any (fun c => match c with | empty _ => true | _ => false) then
      bcastApply f (cs.map (fun c => match c with | empty _ => numpy {} .bool [] | c => c))
    else if cs.any (fun c => match c with | indexed .. => true | _ => false) then
      mapR (fun c => match c with | indexed .. => c.project | c => ok c) cs >>= bcastApply f
    else if cs.any isUnion then err "not modelled: unions"
    else if cs.any isOption then optionStep (bcastApply f) cs
    else if cs.any isListNode then
      if cs.any isStringList then err "not modelled: strings"
      else if cs.all (fun c => !c.isJagged) then regularStep (bcastApply f) cs
      else if allSameOffsets none cs = false then jaggedStep (bcastApply f) cs
      else sameStep (bcastApply f) cs
    else if cs.any isRecord then recordStep (bcastApply f) cs
    else err "cannot broadcast"

/-- _util.py:1094-1105 `broadcast_unpack` of arrays. -/
def bcastUnpack (c : Content) : R Content :=
  match c with
  | regular _ d size _ => if c.len = 0 then d.range 0 0 else d.range 0 (size : Int)
  | _ => err "unreachable"

/-- _util.py:1070-1092 `broadcast_pack` (of arrays), `apply` and `broadcast_unpack`. -/
def broadcastArrays (fuel : Nat) (cs : List Content) : R (List Content) :=
  bcastApply fuel (cs.map (fun c => regular {} c c.len 1)) >>= mapR bcastUnpack

/-- _util.py:749-756: with two option-type inputs or more, the masks of the others are or-ed into
the buffer that `bytemask()` of the first one returned. For a ByteMaskedArray with `valid_when` =
False this is the mask of that input itself (ByteMaskedArray.cpp:331-334), not a copy. The inputs of
one call of `apply` after that. -/
def optionInputsAfter (cs : List Content) : R (List Content) :=
  mapR bytemask (cs.filter isOption) >>= fun masks => orMasks masks >>= fun mask =>
  match cs.findIdx? isOption with
  | none => ok cs
  | some i => match cs[i]? with
    | some (byteMasked p _ false c) => ok (cs.set i (byteMasked p mask false c))
    | _ => ok cs

end Content
end Awk
