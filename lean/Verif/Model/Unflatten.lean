import Verif.Model.Packed
/-
`ak.unflatten` (src/awkward/operations/structure.py:1955-2160) with `axis >= 0`.

Simplifications:
* lazy and partitioned arrays are left out;
* NumPy is not part of the code base: `searchsorted` is its binary search, and an index of an array
  that is out of range raises;
* integers have no largest value.
-/

namespace Awk
open R

/-- The loop of `numpy.searchsorted` with `side="right"`; the fuel is the length of the array. -/
def searchRightGo (xs : List Int) (v : Int) : Nat → Nat → Nat → Nat
  | 0, lo, _ => lo
  | f + 1, lo, hi =>
    if lo < hi then
      let mid := lo + (hi - lo) / 2
      if v < xs[mid]?.getD 0 then searchRightGo xs v f lo mid else searchRightGo xs v f (mid + 1) hi
    else lo

/-- `numpy.searchsorted(xs, v, side="right")`. -/
def searchRight (xs : List Int) (v : Int) : Nat := searchRightGo xs v xs.length 0 xs.length

/-- `xs[i]` of a NumPy array: negative positions count from the end. -/
def npGet (xs : List Int) (i : Int) : R Int :=
  match xs[(if i < 0 then i + xs.length else i).toNat]? with
  | some x => if i + xs.length < 0 then err "index out of bounds" else ok x
  | none => err "index out of bounds"

/-- The argument `counts`: an integer or an array of integers, of which some may be missing. -/
inductive Counts where
  | size (n : Int)
  | each (counts : List (Option Int))

/-- structure.py:2043-2045: `cumsum` after a zero, with missing counts as zero (line 2030). -/
def cumsum : Int → List (Option Int) → List Int
  | a, [] => [a]
  | a, x :: xs => a :: cumsum (a + x.getD 0) xs

/-- structure.py:2019-2045: the offsets that are still to be used; an integer has none. -/
def Counts.offsets : Counts → List Int
  | .size _ => [0]
  | .each counts => cumsum 0 counts

namespace Content

/-- structure.py:2047-2079 `doit`: the array with one more level, the offsets of the new lists, and
the offsets that are left over. -/
def imposeCounts (cnt : Counts) (layout : Content) (offs : List Int) :
    R (Content × List Int × List Int) :=
  match cnt with
  | .size n =>
    if n < 0 ∨ n > layout.len then err "too large counts for array or negative counts"
    else
      let out := regular {} layout n.toNat 0
      out.listParts >>= fun oc => ok (out, oc.1, offs)
  | .each counts =>
    let position : Int := (searchRight offs layout.len : Int) - 1
    npGet offs position >>= fun x =>
    if position ≥ offs.length ∨ x ≠ layout.len then err "structure imposed by 'counts' does not fit"
    else
      let offsets := offs.take (position + 1).toNat
      let out := listOffset {} offsets layout
      let rest := (offs.drop position.toNat).map (· - (layout.len : Int))
      if counts.any (fun x => x.isNone) then
        if out.len < counts.length then err "content must not be shorter than its mask"
        else
          ok (byteMasked {} (counts.map (fun x => if x.isNone then 1 else 0)) false out, offsets, rest)
      else ok (out, offsets, rest)

/-- structure.py:2094-2118: a list node whose lists are divided. The parameters of the node are not
kept. -/
def divideLists (cnt : Counts) (layout : Content) (offs : List Int) : R (Content × List Int) :=
  layout.listParts >>= fun oc =>
  rd oc.1 ((oc.1.length - 1 : Nat) : Int) >>= fun n =>
  oc.2.truncate n >>= fun d =>
  imposeCounts cnt d offs >>= fun r =>
  let positions : List Int := oc.1.map (fun o => (searchRight r.2.1 o : Int) - 1)
  mapR (npGet r.2.1) positions >>= fun found =>
  if found = oc.1 then ok (listOffset {} positions r.1, r.2.2)
  else err "structure imposed by 'counts' does not fit"

mutual
/-- structure.py:2090-2121 `getfunction` in `recursively_apply` (src/awkward/_util.py:1107-1333). The
first argument is `posaxis - depth + 1`, so it is 1 at the lists that are to be divided and 0 below
them, where the nodes are rebuilt as they are. The last argument is `current_offsets`, which the
calls share. -/
def unflattenF (cnt : Counts) : Nat → Content → List Int → R (Content × List Int)
  | 0, c, offs => ok (c, offs)
  | _ + 1, empty p, offs => ok (empty p, offs)
  | _ + 1, numpy p dt data, offs => ok (numpy p dt data, offs)
  | k + 1, regular p c size zeros, offs =>
    if k = 0 then divideLists cnt (regular p c size zeros) offs
    else unflattenF cnt k c offs >>= fun r =>
      ok (regular p r.1 size (regular p c size zeros).len, r.2)
  | k + 1, listArray p starts stops c, offs =>
    if k = 0 then divideLists cnt (listArray p starts stops c) offs
    else unflattenF cnt k c offs >>= fun r => ok (listArray p starts stops r.1, r.2)
  | k + 1, listOffset p offsets c, offs =>
    if k = 0 then divideLists cnt (listOffset p offsets c) offs
    else unflattenF cnt k c offs >>= fun r => ok (listOffset p offsets r.1, r.2)
  | k + 1, indexed p index c, offs =>
    unflattenF cnt (k + 1) c offs >>= fun r => ok (indexed p index r.1, r.2)
  | k + 1, indexedOption p index c, offs =>
    unflattenF cnt (k + 1) c offs >>= fun r => ok (indexedOption p index r.1, r.2)
  | k + 1, byteMasked p mask vw c, offs =>
    unflattenF cnt (k + 1) c offs >>= fun r => ok (byteMasked p mask vw r.1, r.2)
  | k + 1, bitMasked p mask vw length lsb c, offs =>
    unflattenF cnt (k + 1) c offs >>= fun r => ok (bitMasked p mask vw length lsb r.1, r.2)
  | k + 1, unmasked p c, offs => unflattenF cnt (k + 1) c offs >>= fun r => ok (unmasked p r.1, r.2)
  | k + 1, record p keys cs length, offs =>
    unflattenAll cnt (k + 1) cs offs >>= fun r => ok (record p keys r.1 length, r.2)
  | k + 1, union p tags index cs, offs =>
    unflattenAll cnt (k + 1) cs offs >>= fun r => ok (union p tags index r.1, r.2)
/-- `unflattenF` of the members, one after the other. -/
def unflattenAll (cnt : Counts) : Nat → List Content → List Int → R (List Content × List Int)
  | _, [], offs => ok ([], offs)
  | k, c :: cs, offs =>
    unflattenF cnt k c offs >>= fun r => unflattenAll cnt k cs r.2 >>= fun rs =>
    ok (r.1 :: rs.1, rs.2)
end

/-- structure.py:1955-2160 `unflatten`. The array is packed above the axis first (line 2017), with
`axis - 1`, which is negative if `axis` is zero. -/
def unflatten (same : Content → Content → Bool) (cnt : Counts) (axis : Nat) (c : Content) :
    R Content :=
  c.packedAxis same ((axis : Int) - 1) >>= fun layout =>
  (if axis = 0 then imposeCounts cnt layout cnt.offsets >>= fun r => ok (r.1, r.2.2)
    else unflattenF cnt axis layout cnt.offsets) >>= fun r =>
  if r.2 = [0] then ok r.1 else err "structure imposed by 'counts' does not fit"

end Content
end Awk
