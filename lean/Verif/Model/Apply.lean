import Verif.Model.Depth
import Verif.Model.Option
import Verif.Model.List
/-
`recursively_apply` (src/awkward/_util.py:1107-1333) and the operations that are made with it:
`ak.is_none` with an axis, `ak.singletons`, `ak.from_regular` and `ak.to_regular`
(src/awkward/operations/structure.py).

Simplifications:
* lazy and partitioned arrays are left out;
* a NumpyArray has one dimension, so `numpy_to_regular` changes nothing.
-/

namespace Awk
open R

/-- _util.py:1131-1135: what `getfunction` returns is called if it is callable, and is the argument
`user` of the rest otherwise. -/
def custom {U : Type} (r : Content ⊕ U) (rest : U → R Content) : R Content :=
  match r with
  | .inl c => ok c
  | .inr user => rest user

namespace Content

mutual
/-- _util.py:1117-1331 `apply`, with `keep_parameters`. -/
def apply {U : Type} (get : Nat → U → Content → R (Content ⊕ U)) : Nat → U → Content → R Content
  | depth, user, empty p =>
    get depth user (empty p) >>= fun r => custom r fun _ => ok (empty p)
  | depth, user, numpy p dt data =>
    get depth user (numpy p dt data) >>= fun r => custom r fun _ => ok (numpy p dt data)
  | depth, user, regular p c size zeros =>
    get depth user (regular p c size zeros) >>= fun r => custom r fun user =>
    apply get (depth + 1) user c >>= fun next =>
    ok (regular p next size (regular p c size zeros).len)
  | depth, user, listArray p starts stops c =>
    get depth user (listArray p starts stops c) >>= fun r => custom r fun user =>
    apply get (depth + 1) user c >>= fun next => ok (listArray p starts stops next)
  | depth, user, listOffset p offsets c =>
    get depth user (listOffset p offsets c) >>= fun r => custom r fun user =>
    apply get (depth + 1) user c >>= fun next => ok (listOffset p offsets next)
  | depth, user, indexed p index c =>
    get depth user (indexed p index c) >>= fun r => custom r fun user =>
    apply get depth user c >>= fun next => ok (indexed p index next)
  | depth, user, indexedOption p index c =>
    get depth user (indexedOption p index c) >>= fun r => custom r fun user =>
    apply get depth user c >>= fun next => ok (indexedOption p index next)
  | depth, user, byteMasked p mask vw c =>
    get depth user (byteMasked p mask vw c) >>= fun r => custom r fun user =>
    apply get depth user c >>= fun next => ok (byteMasked p mask vw next)
  | depth, user, bitMasked p mask vw length lsb c =>
    get depth user (bitMasked p mask vw length lsb c) >>= fun r => custom r fun user =>
    apply get depth user c >>= fun next => ok (bitMasked p mask vw length lsb next)
  | depth, user, unmasked p c =>
    get depth user (unmasked p c) >>= fun r => custom r fun user =>
    apply get depth user c >>= fun next => ok (unmasked p next)
  | depth, user, record p keys cs length =>
    get depth user (record p keys cs length) >>= fun r => custom r fun user =>
    applyAll get depth user cs >>= fun next => ok (record p keys next length)
  | depth, user, union p tags index cs =>
    get depth user (union p tags index cs) >>= fun r => custom r fun user =>
    applyAll get depth user cs >>= fun next => ok (union p tags index next)
/-- The loops of _util.py:1271 and 1288. -/
def applyAll {U : Type} (get : Nat → U → Content → R (Content ⊕ U)) :
    Nat → U → List Content → R (List Content)
  | _, _, [] => ok []
  | depth, user, c :: cs =>
    apply get depth user c >>= fun next =>
    applyAll get depth user cs >>= fun nexts => ok (next :: nexts)
end

/-- A NumpyArray of truth values. -/
def boolArray (data : List Bool) : Content := numpy {} .bool (data.map Atom.bool)

/-- structure.py:2799-2823 `getfunction` of `ak.is_none`. The bytes of the mask are seen as truth
values. -/
def isNoneGet (depth : Nat) (axis : Int) (layout : Content) : R (Content ⊕ Int) :=
  layout.axisWrap axis >>= fun posaxis =>
  if posaxis = (depth : Int) - 1 then
    match layout with
    | indexedOption .. | byteMasked .. | bitMasked .. | unmasked .. =>
      layout.bytemask >>= fun mask => ok (.inl (boolArray (mask.map (fun b => decide (b ≠ 0)))))
    | indexed .. | union .. => ok (.inr posaxis)
    | _ => ok (.inl (boolArray (List.replicate layout.len false)))
  else ok (.inr posaxis)

/-- structure.py:2782-2833 `ak.is_none`. -/
def isNone (c : Content) (axis : Int) : R Content := apply isNoneGet 1 axis c

/-- structure.py:2862-2866: `offsets` before the call of `cumsum`, and after it. The first argument
is the sum so far. -/
def singletonOffsets : Int → List Int → List Int
  | n, [] => [n]
  | n, b :: mask => n :: singletonOffsets (if b ≠ 0 then n else n + 1) mask

/-- structure.py:2858-2871 `getfunction` of `ak.singletons`. -/
def singletonsGet (_depth : Nat) (_user : Unit) (layout : Content) : R (Content ⊕ Unit) :=
  match layout with
  | indexedOption .. | byteMasked .. | bitMasked .. | unmasked .. =>
    layout.bytemask >>= fun mask => layout.project >>= fun d =>
    ok (.inl (listOffset {} (singletonOffsets 0 mask) d))
  | _ => ok (.inr ())

/-- structure.py:2836-2879 `ak.singletons`. -/
def singletons (c : Content) : R Content := apply singletonsGet 1 () c

/-- RegularArray.cpp:346-356, ListArray.cpp:362-367 and ListOffsetArray.cpp:390-402 `toListOffsetArray64`
with `start_at_zero` false: the offsets and the content. -/
def listPartsFrom : Content → R (List Int × Content)
  | listOffset _ offsets c => ok (offsets, c)
  | c => c.listParts

/-- structure.py:788-800 `getfunction` of `ak.from_regular`. -/
def fromRegularGet (depth : Nat) (axis : Int) (layout : Content) : R (Content ⊕ Int) :=
  layout.axisWrap axis >>= fun posaxis =>
  match layout with
  | regular p c size zeros =>
    if posaxis = depth then
      (regular p c size zeros).listParts >>= fun oc => ok (.inl (listOffset p oc.1 oc.2))
    else if posaxis = 0 then err "array has no axis" else ok (.inr posaxis)
  | listArray .. | listOffset .. =>
    if posaxis = depth then ok (.inl layout)
    else if posaxis = 0 then err "array has no axis" else ok (.inr posaxis)
  | _ => if posaxis = 0 then err "array has no axis" else ok (.inr posaxis)

/-- structure.py:760-818 `ak.from_regular`. -/
def fromRegular (c : Content) (axis : Int) : R Content :=
  if axis = 0 then ok c else apply fromRegularGet 1 axis c

/-- structure.py:729-741 `getfunction` of `ak.to_regular`. -/
def toRegularGet (depth : Nat) (axis : Int) (layout : Content) : R (Content ⊕ Int) :=
  layout.axisWrap axis >>= fun posaxis =>
  match layout with
  | regular .. =>
    if posaxis = depth then ok (.inl layout)
    else if posaxis = 0 then err "array has no axis" else ok (.inr posaxis)
  | listArray .. | listOffset .. =>
    if posaxis = depth then layout.toRegular >>= fun r => ok (.inl r)
    else if posaxis = 0 then err "array has no axis" else ok (.inr posaxis)
  | _ => if posaxis = 0 then err "array has no axis" else ok (.inr posaxis)

/-- structure.py:695-757 `ak.to_regular`. -/
def toRegularAxis (c : Content) (axis : Int) : R Content :=
  if axis = 0 then ok c else apply toRegularGet 1 axis c

end Content
end Awk
