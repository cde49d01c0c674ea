import Verif.Model.Types
import Verif.Model.Depth
import Verif.Model.Merge
/-
`ak.packed` (src/awkward/operations/structure.py:2164-2346): the same array without the data that
cannot be reached from it.

Simplifications:
* a NumpyArray has one dimension and no strides, so `contiguous()` does nothing (C55 is about
  strided arrays);
* lazy arrays, partitioned arrays and single records are left out;
* `apply` takes a fuel argument; running out of fuel is `ub`. `Props/Packed.lean` shows that the
  fuel is enough for arrays without unions.
-/

namespace Awk
open R

namespace Content

/-- structure.py:2170-2171 `truncate`: `layout[:n]`, which is `getitem_range` with no start
(src/python/content.cpp:780-795). An array with so many items that `n` is taken for
`Slice::none()` is left out. -/
def truncate (c : Content) (n : Int) : R Content :=
  let r := regularize_rangeslice 0 n true false true c.len
  c.range r.1 r.2

/-- structure.py:2195-2200 `new_index`: -1 where the index is negative, elsewhere 0, 1, 2, …;
`k` is the next of them. -/
def packIndex : Nat → List Int → List Int
  | _, [] => []
  | k, j :: index =>
    if j < 0 then -1 :: packIndex k index else (k : Int) :: packIndex (k + 1) index

/-- structure.py:2253-2259: the new index of a UnionArray; `counts` has the next position of each
alternative. -/
def packUnionIndex : (Int → Nat) → List Int → List Int → List Int
  | counts, t :: tags, _ :: index =>
    (counts t : Int) :: packUnionIndex (fun u => if u = t then counts u + 1 else counts u) tags index
  | _, [], index => index.map (fun _ => 0)
  | _, _, [] => []

/-- src/cpu-kernels/awkward_UnionArray_project.cpp:7-23; the state is `(lenout, tocarry)`. -/
def UnionArray_project (tocarry tags index : List Int) (length : Nat) (which : Int) :
    R (Nat × List Int) :=
  forN length (fun i st =>
    (rd tags (i : Int) >>= fun t =>
      if t = which then rd index (i : Int) >>= fun j => ok (some j) else ok none)
      >>= fun o => pushOpt st o) (0, tocarry)

/-- UnionArray.cpp:486-519 `project(i)`: the items of alternative `i`. -/
def unionProject (tags index : List Int) (cs : List Content) (i : Nat) : R Content :=
  match cs[i]? with
  | none => err "index out of range for number of contents"
  | some c =>
    if index.length < tags.length then err "len(index) < len(tags)"
    else
      UnionArray_project (alloc tags.length) tags index tags.length i >>= fun st =>
      idxRange st.2 0 st.1 >>= fun nextcarry => c.carry false nextcarry

/-- `isinstance(layout, ak._util.optiontypes)` (src/awkward/_util.py:89-95). -/
def isOptiontype : Content → Bool
  | indexedOption .. | byteMasked .. | bitMasked .. | unmasked .. => true
  | _ => false

/-- `isinstance(ak.type(content), ak.types.PrimitiveType)` (structure.py:2306, 2322). -/
def hasPrimitiveType (c : Content) : Bool :=
  match c.type [] with
  | .prim .. => true
  | _ => false

/-- The levels that are still to be packed, one level down. -/
def levelDown (lv : Option Nat) : Option Nat := lv.map (· - 1)

/-- structure.py:2181-2338, the classes in `apply`; `go` is the recursive call. An IndexedOptionArray
has no attributes `mask` and `toIndexedOptionArray64` (src/python/content.cpp:1676-1715). -/
def packNode (same : Content → Content → Bool) (go : Option Nat → Content → R Content)
    (lv : Option Nat) : Content → R Content
  | empty p => ok (empty p)
  | numpy p dt data => ok (numpy p dt data)
  | indexedOption p index c =>
    if c.isOptiontype then (indexedOption p index c).simplifyOption >>= fun d => go lv d
    else
      (indexedOption p index c).project >>= fun d => go lv d >>= fun e =>
      ok (indexedOption {} (packIndex 0 index) e)
  | indexed p index c => (indexed p index c).project >>= fun d => go lv d
  | listArray p starts stops c => (listArray p starts stops c).toListOffset >>= fun d => go lv d
  | listOffset p offsets c =>
    (listOffset p offsets c).listParts >>= fun oc =>
    rd oc.1 ((oc.1.length - 1 : Nat) : Int) >>= fun new_length =>
    oc.2.truncate new_length >>= fun d => go (levelDown lv) d >>= fun e => ok (listOffset p oc.1 e)
  | unmasked _ c => go lv c >>= fun e => ok (unmasked {} e)
  | union p tags index cs =>
    simplifyUnion same true false p tags index cs >>= fun
      | union p tags index cs =>
        mapR (fun i => unionProject tags index cs i >>= fun d => go lv d)
          (List.range cs.length) >>= fun es =>
        ok (union p tags (packUnionIndex (fun _ => 0) tags index) es)
      | d => go lv d
  | record p keys cs length =>
    mapR (fun c => c.truncate length >>= fun d => go lv d) cs >>= fun es =>
    ok (record p keys es length)
  | regular p c size zeros =>
    if (regular p c size zeros).len = 0 then ok (regular p c size zeros)
    else if size = 0 then err "integer division or modulo by zero"
    else
      (if c.len % size ≠ 0 then c.truncate ((c.len / size * size : Nat) : Int) else ok c) >>= fun d =>
      go (levelDown lv) d >>= fun e => ok (regular {} e size 0)
  | bitMasked p mask vw length lsb c =>
    (bitMasked p mask vw length lsb c).simplifyOption >>= fun
      | bitMasked p mask vw length lsb c =>
        if c.hasPrimitiveType = false then
          (bitMasked p mask vw length lsb c).toIndexedOption >>= fun d => go lv d
        else
          c.truncate length >>= fun d => go lv d >>= fun e =>
          ok (bitMasked p mask vw length lsb e)
      | _ => err "'IndexedOptionArray64' object has no attribute"
  | byteMasked p mask vw c =>
    (byteMasked p mask vw c).simplifyOption >>= fun
      | byteMasked p mask vw c =>
        if c.hasPrimitiveType = false then
          (byteMasked p mask vw c).toIndexedOption >>= fun d => go lv d
        else
          c.truncate mask.length >>= fun d => go lv d >>= fun e =>
          ok (byteMasked p mask vw e)
      | _ => err "'IndexedOptionArray64' object has no attribute"

/-- structure.py:2173-2338 `apply`. `lv` is the number of levels to be packed, `posaxis - depth + 2`,
and `none` if `posaxis` is None; at `some 0`, `posaxis < depth - 1` (lines 2174-2179). A `posaxis` that
`axis_wrap_if_negative` has made positive stays as it is further down, and one that is negative
stops the packing at once: see `packedAxis`. -/
def packF (same : Content → Content → Bool) : Nat → Option Nat → Content → R Content
  | 0, _, _ => ub
  | f + 1, lv, c => if lv = some 0 then ok c else packNode same (packF same f) lv c

/-- structure.py:2340 and 2349-2423 `packed`. -/
def packed (same : Content → Content → Bool) (c : Content) : R Content :=
  packF same (2 * c.rank + 2) none c

/-- structure.py:2164-2346 `_packed` with an axis. -/
def packedAxis (same : Content → Content → Bool) (axis : Int) (c : Content) : R Content :=
  c.axisWrap axis >>= fun posaxis =>
  packF same (2 * c.rank + 2) (some (posaxis + 1).toNat) c

end Content

end Awk
