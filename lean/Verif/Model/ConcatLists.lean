import Verif.Model.BcastWith
import Verif.Model.Merge
import Verif.Model.List
import Verif.Model.Astype
/-
`ak.concatenate` with an axis of at least 1 (operations/structure.py:1428-1673) of arrays that are not
partitioned.
-/

namespace Awk
open R

/-- awkward_UnionArray_nestedfill_tags_index.cpp:8-27. Simplified: the tags and the index, which are written at
the same places, are one buffer of pairs; `none` is what has not been written. -/
def UnionArray_nestedfill_tags_index (totagsindex : List (Option (Int × Int))) (tmpstarts : List Int)
    (tag : Int) (fromcounts : List Int) (length : Nat) : R (List (Option (Int × Int)) × List Int) :=
  forN length (fun i st =>
    rd st.2.1 (i : Int) >>= fun start => rd fromcounts (i : Int) >>= fun count =>
    forFrom start (start + count) (fun j s =>
      wr s.1 j (some (tag, s.2)) >>= fun buf => ok (buf, s.2 + 1)) (st.1, st.2.2) >>= fun s =>
    wr st.2.1 (i : Int) (start + count) >>= fun tmpstarts => ok (s.1, tmpstarts, s.2))
    (totagsindex, tmpstarts, (0 : Int)) >>= fun st => ok (st.1, st.2.1)

/-- What is read from a buffer must have been written. -/
def written {α : Type} : Option α → R α
  | some x => ok x
  | none => ub

/-- UnionArray.cpp:404-427 `nested_tags_index` with 8-bit tags: the pairs of tags and indexes. The bound
of the loop, `(T)counts.size()`, has 8 bits. -/
def nestedTagsIndex (offsets : List Int) (counts : List (List Int)) : R (List (Int × Int)) :=
  rd offsets ((offsets.length - 1 : Nat) : Int) >>= fun contentlen =>
  forI (wrapInt true 8 (counts.length : Int)) (fun tag st =>
    rd counts tag >>= fun c =>
    UnionArray_nestedfill_tags_index st.1 st.2 tag c (offsets.length - 1))
    (List.replicate contentlen.toNat none, offsets) >>= fun st =>
  mapR written st.1

/-- `o[1:] - o[:-1]` (structure.py:1618). -/
def diffs (offsets : List Int) : List Int := List.zipWith (fun a b => b - a) offsets offsets.tail

/-- `nplike.add(counts, c, out=counts)` (structure.py:1619). -/
def addCounts (counts c : List Int) : R (List Int) :=
  if counts.length = c.length then ok (List.zipWith (· + ·) counts c)
  else err "operands could not be broadcast together"

/-- structure.py:1623-1625: zero and the cumulative sums. -/
def sumsFrom : Int → List Int → List Int
  | a, [] => [a]
  | a, x :: xs => a :: sumsFrom (a + x) xs

namespace Content

/-- structure.py:1611-1639: the lists of all inputs, row by row. `same` is as in `simplifyUnion`. -/
def concatLists (same : Content → Content → Bool) (domerge mb : Bool) (cs : List Content) : R Content :=
  mapR (fun c => flattenF c.rank c) cs >>= fun ocs =>
  foldR addCounts (List.replicate ((cs.map len).headD 0) 0) (ocs.map (fun oc => diffs oc.1)) >>= fun counts =>
  nestedTagsIndex (sumsFrom 0 counts) (ocs.map (fun oc => diffs oc.1)) >>= fun ti =>
  simplifyUnion same domerge mb {} (ti.map Prod.fst) (ti.map Prod.snd) (ocs.map Prod.snd) >>= fun inner =>
  ok (listOffset {} (sumsFrom 0 counts) inner)

/-- structure.py:1583-1588: missing lists become empty (`fill_none(x, [])`, structure.py:2755-2757). -/
def fillEmpty (same : Content → Content → Bool) (c : Content) : R Content :=
  match c with
  | indexedOption _ _ d | byteMasked _ _ _ d | bitMasked _ _ _ _ _ d | unmasked _ d =>
    if d.isListNode then fillna same (listOffset {} [0, 0] (empty {})) c else ok c
  | c => ok c

/-- structure.py:1577-1653 `getfunction` of `concatenate`, for inputs that are arrays. -/
def concatGet (same : Content → Content → Bool) (domerge mb : Bool) (posaxis : Int) (depth : Nat)
    (cs : List Content) : R (Option (List Content)) :=
  (if (depth : Int) = posaxis ∧ cs.any isOption = true then mapR (fillEmpty same) cs else ok cs) >>= fun inputs =>
  if (depth : Int) = posaxis ∧ inputs.all isListNode = true then
    concatLists same domerge mb inputs >>= fun out => ok (some [out])
  else if inputs.any (fun c => decide (c.minmaxDepth = (1, 1))) then
    err "at least one array is not deep enough to concatenate"
  else ok none

/-- The first output. -/
def firstOutput : List Item → R Item
  | x :: _ => ok x
  | [] => err "IndexError"

/-- structure.py:1428-1673 `ak.concatenate` of arrays. -/
def concatenate (same : Content → Content → Bool) (domerge mb : Bool) (fuel : Nat) (axis : Int)
    (cs : List Content) : R Item :=
  match cs with
  | [] => err "need at least one array to concatenate"
  | first :: _ =>
    first.axisWrap axis >>= fun posaxis =>
    if ¬ (0 ≤ posaxis ∧ posaxis < (cs.map (fun c => c.minmaxDepth.2)).foldl max 0) then
      err "axis is beyond the depth of this array"
    else mapR (fun c => axisWrap c axis) cs >>= fun axes =>
      if axes.any (fun a => decide (a ≠ posaxis)) then err "arrays do not have the same depth for negative axis"
      else if posaxis = 0 then concatenate0 same domerge mb cs >>= fun c => ok (.array c)
      else bcastAndApply ⟨false, false, true⟩ (concatGet same domerge mb posaxis) fuel cs >>= firstOutput

end Content
end Awk
