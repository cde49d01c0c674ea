import Verif.Model.Broadcast
/-
`broadcast_and_apply` with the function of its caller (_util.py:517-1105), and three callers: `ak.zip`
and `ak.mask` (operations/structure.py), and element-wise functions (_connect/_numpy.py). Inputs are
arrays; unions, virtual arrays, single records and scalars are not modelled.
-/

namespace Awk
open R

/-- The options of `broadcast_and_apply` that its callers here set (_util.py:521-528):
`right_broadcast`, `regular_to_jagged` and `allow_records`. -/
structure BcastArgs where
  right : Bool
  jagged : Bool
  records : Bool

namespace Content

/-- _util.py:604-610 `regular_to_jagged`. -/
def regularToJagged (jagged : Bool) (c : Content) : R Content :=
  match c with
  | regular .. => if jagged then c.toListOffset else ok c
  | c => ok c

/-- `custom_broadcast` (_util.py:176-193) finds a function only for strings and bytestrings
(behaviors/string.py:170-171). -/
def hasCustom (c : Content) : Bool := c.params.arr == .string || c.params.arr == .bytestring

/-- behaviors/string.py:160-167 `_string_broadcast`: every string as often as its list has items. -/
def stringBroadcast (offsets : List Int) (c : Content) : R Content :=
  (indexed {} (((List.range (offsets.length - 1)).map (fun (i : Nat) =>
    List.replicate (offsets[i + 1]?.getD 0 - offsets[i]?.getD 0).toNat (i : Int))).flatten) c).project

/-- _util.py:834-884, the step for lists with different offsets: strings are repeated as a whole,
unless there are no other lists (`secondround`). -/
def jaggedStepStrings (next : List Content → R (List Content)) (cs : List Content) :
    R (List Content) :=
  match cs.find? (fun c => c.isJagged && !c.hasCustom) with
  | none => jaggedStep next cs
  | some first =>
    compactOffsets first >>= fun offsets =>
    mapR (fun c => if c.hasCustom then stringBroadcast offsets c else toOffsets offsets c) cs
      >>= fun cs' => next cs' >>= fun outs => ok (outs.map (listOffset {} offsets))

/-- _util.py:647-1016, the cases of `apply` when the caller's function does not stop. -/
def bcastSwitch (a : BcastArgs) (next : Nat → List Content → R (List Content)) (depth : Nat)
    (cs : List Content) : R (List Content) :=
  if cs.any (fun c => match c with | empty _ => true | _ => false) then
    next depth (cs.map (fun c => match c with | empty _ => numpy {} .bool [] | c => c))
  else if cs.any (fun c => match c with | indexed .. => true | _ => false) then
    mapR (fun c => match c with | indexed .. => c.project | c => ok c) cs >>= next depth
  else if cs.any isUnion then err "not modelled: unions"
  else if cs.any isOption then optionStep (next depth) cs
  else if cs.any isListNode then
    if cs.all (fun c => !c.isJagged) then regularStep (next (depth + 1)) cs
    else if allSameOffsets none cs = false then jaggedStepStrings (next (depth + 1)) cs
    else sameStep (next (depth + 1)) cs
  else if cs.any isRecord then
    if a.records then recordStep (next depth) cs
    else err "cannot broadcast records in this type of operation"
  else err "cannot broadcast"

/-- _util.py:594-1016 `apply`. `get` is the caller's function, which returns the outputs or
nothing. The fuel bounds the depth of the recursion. -/
def bcastWith (a : BcastArgs) (get : Nat → List Content → R (Option (List Content))) :
    Nat → Nat → List Content → R (List Content)
  | 0, _, _ => err "maximum recursion depth exceeded"
  | f + 1, depth, cs =>
    mapR (regularToJagged a.jagged) cs >>= fun cs =>
    let cs := if a.right then rightBroadcast cs else cs
    if cs.any (fun c => c.len != ((cs.map len).headD 0)) then err "cannot broadcast: lengths"
    else get depth cs >>= fun r => match r with
      | some outs => ok outs
      | none => bcastSwitch a (bcastWith a get f) depth cs

/-- _util.py:1094-1105 `broadcast_unpack` of arrays: `x[0]`. -/
def bcastItem (c : Content) : R Item :=
  if c.len = 0 then
    match c with
    | regular _ d _ _ | listOffset _ _ d | listArray _ _ _ d => d.range 0 0 >>= fun d' => ok (.array d')
    | _ => err "getitem_nothing"
  else c.getitemAt 0

/-- _util.py:1063-1092 `broadcast_pack` of arrays, `apply` and `broadcast_unpack`. -/
def bcastAndApply (a : BcastArgs) (get : Nat → List Content → R (Option (List Content)))
    (fuel : Nat) (cs : List Content) : R (List Item) :=
  bcastWith a get fuel 0 (cs.map (fun c => regular {} c c.len 1)) >>= mapR bcastItem

/-- The only output (`assert len(out) == 1`). -/
def onlyOutput : List Item → R Item
  | [x] => ok x
  | _ => err "AssertionError"

/-! ### `ak.zip` and `ak.unzip` -/

mutual
/-- `purelist_parameter("__array__")` of each class (e.g. ListOffsetArray.cpp:107-116,
RecordArray.cpp:156-159). -/
def purelistArr : Content → ArrKind
  | empty p | numpy p _ _ | record p _ _ _ => p.arr
  | regular p c _ _ | listArray p _ _ c | listOffset p _ c | indexed p _ c | indexedOption p _ c
  | byteMasked p _ _ c | bitMasked p _ _ _ _ c | unmasked p c =>
    if p.arr = .none then c.purelistArr else p.arr
  | union p _ _ cs => if p.arr = .none then purelistArrAll cs else p.arr
/-- UnionArray.cpp:125-143. -/
def purelistArrAll : List Content → ArrKind
  | [] => .none
  | c :: cs => if cs.all (fun d => d.params.arr = c.purelistArr) then c.purelistArr else .none
end

/-- structure.py:626-637: depth 1, or "strings". -/
def zipLeaf (c : Content) : Bool :=
  c.purelistDepth == 1 ||
    (c.purelistDepth == 2 && (c.purelistArr == .string || c.purelistArr == .bytestring ||
      c.purelistArr == .categorical))

/-- The length of `RecordArray(contents, keys)` without a given length (RecordArray.cpp:397-412). -/
def minLength : List Content → Nat
  | [] => 0
  | [c] => c.len
  | c :: cs => min c.len (minLength cs)

/-- structure.py:624-643 `getfunction` of `zip`. -/
def zipGet (limit : Option Int) (p : Params) (keys : Option (List String)) (depth : Nat)
    (cs : List Content) : R (Option (List Content)) :=
  if (match limit with
    | some l => decide (l = (depth : Int))
    | none => cs.all zipLeaf) then ok (some [record p keys cs (minLength cs)])
  else ok none

/-- structure.py:483-667 `ak.zip` of arrays; `keys` are given for a dict of arrays. -/
def zipArrays (fuel : Nat) (limit : Option Int) (p : Params) (keys : Option (List String))
    (cs : List Content) : R Item :=
  if (match limit with
    | some l => decide (l ≤ 0)
    | none => false) then err "depth_limit must be None or at least 1"
  else bcastAndApply ⟨false, true, true⟩ (zipGet limit p keys) fuel cs >>= onlyOutput

/-- structure.py:669-690 `ak.unzip` of an array of records or tuples. -/
def unzipRecords : Content → R (List Content)
  | record p keys cs length =>
    if cs.length = 0 then ok [record p keys cs length]
    else mapR (fun key => fieldNext key (record p keys cs length)) (recordKeys keys cs.length)
  | _ => err "not modelled: other arrays"

/-! ### `ak.mask` -/

/-- structure.py:151-167 `getfunction` of `mask`. -/
def maskGet (validWhen : Bool) (_depth : Nat) (cs : List Content) : R (Option (List Content)) :=
  match cs with
  | [c, numpy _ dt data] =>
    if dt ≠ .bool then err "mask must have boolean type"
    else simplifyOption (byteMasked {} (data.map (fun a => if a = .bool true then 1 else 0)) validWhen c)
      >>= fun o => ok (some [o])
  | _ => ok none

/-- structure.py:71-190 `ak.mask`. -/
def maskArray (fuel : Nat) (validWhen : Bool) (c mask : Content) : R Item :=
  bcastAndApply ⟨false, false, true⟩ (maskGet validWhen) fuel [c, mask] >>= onlyOutput

/-! ### Element-wise functions -/

/-- `__record__` or `__array__` is set. -/
def hasBehavior (c : Content) : Bool := c.params.arr != .none || c.params.recName.isSome

/-- _connect/_numpy.py:88-102 `is_fully_regular`, with the sizes and the numbers that
`deregulate` (104-132) finds. -/
def regularShape : Content → Option (List Nat × List Atom)
  | regular p (numpy _ _ data) size _ =>
    if p.arr = .none ∧ p.recName = none then some ([size], data) else none
  | regular p (regular q c s z) size _ =>
    if p.arr = .none ∧ p.recName = none then
      (regularShape (regular q c s z)).map (fun x => (size :: x.1, x.2))
    else none
  | _ => none

/-- _connect/_numpy.py:104-132 `deregulate`: a multidimensional array with its shape. `reshape` raises
if the number of values is not the product of the shape. Other arrays are left as they are. -/
def deregulate (c : Content) : R (Option (List Nat × List Atom)) :=
  match c with
  | numpy _ _ data => ok (some ([data.length], data))
  | c => match regularShape c with
    | none => ok none
    | some (sizes, data) =>
      if (c.len :: sizes).prod = data.length then ok (some (c.len :: sizes, data))
      else err "ValueError: cannot reshape array"

/-- NumPy's broadcasting of one dimension: all the same, except for 1. -/
def bcastDim (sizes : List Nat) : R Nat :=
  match sizes.filter (· != 1) with
  | [] => ok 1
  | s :: rest => if rest.all (· == s) then ok s else err "operands could not be broadcast together"

/-- NumPy's broadcasting of shapes with the same number of dimensions. (Others are not modelled.) -/
def bcastShape : Nat → List (List Nat) → R (List Nat)
  | 0, shapes => if shapes.all (fun s => s.isEmpty) then ok [] else err "not modelled: numbers of dimensions"
  | n + 1, shapes =>
    if shapes.any (fun s => s.isEmpty) then err "not modelled: numbers of dimensions"
    else bcastDim (shapes.map (fun s => s.headD 0)) >>= fun d =>
      bcastShape n (shapes.map List.tail) >>= fun ds => ok (d :: ds)

/-- The values of `f` for all positions of the shape `dims`, in row-major order. An input has the
rest of its shape and its values. -/
def ndApply (f : List Atom → Atom) : List Nat → List (List Nat × List Atom) → List Atom
  | [], xs => [f (xs.map (fun x => x.2.headD (.int 0)))]
  | d :: dims, xs => ((List.range d).map (fun i => ndApply f dims (xs.map (fun x =>
      (x.1.tail, x.2.drop ((if x.1.headD 0 = 1 then 0 else i) * x.1.tail.prod)))))).flatten

/-- `from_numpy` of a multidimensional array of length `d`, as nested fixed-size lists. -/
def fromNd (dt : DType) : Nat → List Nat → List Atom → Content
  | d, s :: sizes, data => regular {} (fromNd dt (d * s) sizes data) s d
  | _, [], data => numpy {} dt data

/-- The values of all arrays, if all are `some`. -/
def allSome {α : Type} : List (Option α) → Option (List α)
  | [] => some []
  | none :: _ => none
  | some x :: xs => (allSome xs).map (x :: ·)

/-- _connect/_numpy.py:134-241 `getfunction` for the element-wise function `f` with results of type
`dt`. Behaviors and datetimes are not modelled. -/
def ufuncGet (f : List Atom → Atom) (dt : DType) (_depth : Nat) (cs : List Content) :
    R (Option (List Content)) :=
  if cs.any hasBehavior then err "not modelled: behaviors"
  else mapR deregulate cs >>= fun nds =>
    match allSome nds with
    | none => ok none
    | some xs => bcastShape (xs.headD ([], [])).1.length (xs.map Prod.fst) >>= fun shape =>
        ok (some [fromNd dt (shape.headD 0) shape.tail (ndApply f shape xs)])

/-- _connect/_numpy.py:32-247 `array_ufunc` for arrays and a function with one result. -/
def elementwise (f : List Atom → Atom) (dt : DType) (fuel : Nat) (cs : List Content) : R Item :=
  bcastAndApply ⟨true, false, false⟩ (ufuncGet f dt) fuel cs >>= onlyOutput

end Content
end Awk
