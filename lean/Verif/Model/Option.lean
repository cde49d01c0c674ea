import Verif.Model.Content
/-
Model of the option-type and indexed nodes: conversions between encodings, byte masks,
projection onto the non-missing elements, and `simplify_optiontype`.
-/

namespace Awk
open R

/-- src/cpu-kernels/awkward_carry_arange.cpp:7-15. -/
def carry_arange (toptr : List Int) (length : Nat) : R (List Int) :=
  forN length (fun i toptr => (ok (i : Int)) >>= fun x => wr toptr (i : Int) x) toptr

/-- src/cpu-kernels/awkward_zero_mask.cpp:7-15 and awkward_one_mask.cpp:7-15 with the constant
they store. -/
def const_mask (value : Int) (tomask : List Int) (length : Nat) : R (List Int) :=
  forN length (fun i tomask => (ok value) >>= fun x => wr tomask (i : Int) x) tomask

/-- src/cpu-kernels/awkward_ByteMaskedArray_toIndexedOptionArray.cpp:7-17. -/
def ByteMaskedArray_toIndexedOptionArray (toindex mask : List Int) (length : Nat)
    (validwhen : Bool) : R (List Int) :=
  forN length (fun i toindex =>
    (rd mask (i : Int) >>= fun m => ok (if decide (m ≠ 0) = validwhen then (i : Int) else -1))
      >>= fun x => wr toindex (i : Int) x) toindex

/-- src/cpu-kernels/awkward_BitMaskedArray_to_IndexedOptionArray.cpp:15-70 and 73-130: the
eight writes for one byte, shifted by one after each of them. -/
def BitMaskedArray_to_IndexedOptionArray_byte (validwhen lsb : Bool) (i : Nat) :
    Nat → List Int × Nat → R (List Int × Nat) := fun b st =>
  let bit := if lsb then decide (st.2 &&& 1 ≠ 0) else decide (st.2 &&& 128 ≠ 0)
  wr st.1 ((i * 8 + b : Nat) : Int) (if bit = validwhen then ((i * 8 + b : Nat) : Int) else -1)
    >>= fun out => ok (out, if lsb then st.2 >>> 1 else (st.2 <<< 1) % 256)

/-- src/cpu-kernels/awkward_BitMaskedArray_to_IndexedOptionArray.cpp:7-134. -/
def BitMaskedArray_to_IndexedOptionArray (toindex : List Int) (frombitmask : List Nat)
    (bitmasklength : Nat) (validwhen lsb : Bool) : R (List Int) :=
  forN bitmasklength (fun i out =>
    rd frombitmask (i : Int) >>= fun byte =>
    forN 8 (BitMaskedArray_to_IndexedOptionArray_byte validwhen lsb i) (out, byte) >>= fun st =>
    ok st.1) toindex

/-- src/cpu-kernels/awkward_IndexedArray_simplify.cpp:7-27. -/
def IndexedArray_simplify (toindex outerindex : List Int) (outerlength : Nat)
    (innerindex : List Int) (innerlength : Nat) : R (List Int) :=
  forN outerlength (fun i toindex =>
    (rd outerindex (i : Int) >>= fun j =>
      if j < 0 then ok (-1)
      else if j ≥ innerlength then err "index out of range"
      else rd innerindex j) >>= fun x => wr toindex (i : Int) x) toindex

/-- src/cpu-kernels/awkward_IndexedArray_mask.cpp:7-16. -/
def IndexedArray_mask (tomask fromindex : List Int) (length : Nat) : R (List Int) :=
  forN length (fun i tomask =>
    (rd fromindex (i : Int) >>= fun j => ok (if j < 0 then 1 else 0)) >>= fun x =>
    wr tomask (i : Int) x) tomask

/-- src/cpu-kernels/awkward_ByteMaskedArray_mask.cpp:7-17. -/
def ByteMaskedArray_mask (tomask frommask : List Int) (length : Nat) (validwhen : Bool) :
    R (List Int) :=
  forN length (fun i tomask =>
    (rd frommask (i : Int) >>= fun m => ok (if decide (m ≠ 0) ≠ validwhen then 1 else 0))
      >>= fun x => wr tomask (i : Int) x) tomask

/-- src/cpu-kernels/awkward_ByteMaskedArray_overlay_mask.cpp:7-20. -/
def ByteMaskedArray_overlay_mask (tomask theirmask mymask : List Int) (length : Nat)
    (validwhen : Bool) : R (List Int) :=
  forN length (fun i tomask =>
    (rd theirmask (i : Int) >>= fun t => rd mymask (i : Int) >>= fun m =>
      ok (if decide (t ≠ 0) || decide (decide (m ≠ 0) ≠ validwhen) then 1 else 0)) >>= fun x =>
    wr tomask (i : Int) x) tomask

/-- src/cpu-kernels/awkward_IndexedArray_overlay_mask.cpp:7-18. -/
def IndexedArray_overlay_mask (toindex mask fromindex : List Int) (length : Nat) :
    R (List Int) :=
  forN length (fun i toindex =>
    (rd mask (i : Int) >>= fun m => rd fromindex (i : Int) >>= fun j =>
      ok (if m ≠ 0 then -1 else j)) >>= fun x => wr toindex (i : Int) x) toindex

/-- src/cpu-kernels/awkward_IndexedArray_numnull.cpp:7-19. -/
def IndexedArray_numnull (fromindex : List Int) (lenindex : Nat) : R Nat :=
  forN lenindex (fun i numnull =>
    rd fromindex (i : Int) >>= fun j => ok (if j < 0 then numnull + 1 else numnull)) 0

/-- src/cpu-kernels/awkward_ByteMaskedArray_numnull.cpp:7-19. -/
def ByteMaskedArray_numnull (mask : List Int) (length : Nat) (validwhen : Bool) : R Nat :=
  forN length (fun i numnull =>
    rd mask (i : Int) >>= fun m =>
    ok (if decide (m ≠ 0) ≠ validwhen then numnull + 1 else numnull)) 0

/-- The output cursor shared by the compacting kernels: `if (some x) { out[k] = x; k++; }`. -/
def pushOpt (st : Nat × List α) : Option α → R (Nat × List α)
  | none => ok st
  | some x => wr st.2 (st.1 : Int) x >>= fun out => ok (st.1 + 1, out)

/-- src/cpu-kernels/awkward_IndexedArray_flatten_nextcarry.cpp:7-27; the state is
`(k, tocarry)`. -/
def IndexedArray_flatten_nextcarry (tocarry fromindex : List Int) (lenindex lencontent : Nat) :
    R (List Int) :=
  forN lenindex (fun i st =>
    (rd fromindex (i : Int) >>= fun j =>
      if j ≥ lencontent then err "index out of range"
      else ok (if j ≥ 0 then some j else none)) >>= fun o => pushOpt st o) (0, tocarry)
    >>= fun st => ok st.2

/-- src/cpu-kernels/awkward_IndexedArray_getitem_nextcarry.cpp:7-26; the state is
`(k, tocarry)`. -/
def IndexedArray_getitem_nextcarry (tocarry fromindex : List Int) (lenindex lencontent : Nat) :
    R (List Int) :=
  forN lenindex (fun i st =>
    (rd fromindex (i : Int) >>= fun j =>
      if j < 0 ∨ j ≥ lencontent then err "index out of range" else ok (some j))
      >>= fun o => pushOpt st o) (0, tocarry)
    >>= fun st => ok st.2

/-- src/cpu-kernels/awkward_ByteMaskedArray_getitem_nextcarry.cpp:7-22; the state is
`(k, tocarry)`. -/
def ByteMaskedArray_getitem_nextcarry (tocarry mask : List Int) (length : Nat)
    (validwhen : Bool) : R (List Int) :=
  forN length (fun i st =>
    (rd mask (i : Int) >>= fun m =>
      ok (if decide (m ≠ 0) = validwhen then some (i : Int) else none))
      >>= fun o => pushOpt st o) (0, tocarry)
    >>= fun st => ok st.2

namespace Content

/-- ByteMaskedArray.cpp:369-385 `toIndexedOptionArray64`: the index. -/
def byteMaskedIndex (mask : List Int) (validWhen : Bool) : R (List Int) :=
  ByteMaskedArray_toIndexedOptionArray (alloc mask.length) mask mask.length validWhen

/-- BitMaskedArray.cpp:383-399 `toIndexedOptionArray64`: the index. -/
def bitMaskedIndex (mask : List Nat) (validWhen : Bool) (length : Nat) (lsb : Bool) :
    R (List Int) :=
  BitMaskedArray_to_IndexedOptionArray (alloc (mask.length * 8)) mask mask.length validWhen lsb
    >>= fun index => idxRange index 0 length

/-- UnmaskedArray.cpp:285-297 `toIndexedOptionArray64`: the index. -/
def unmaskedIndex (length : Nat) : R (List Int) := carry_arange (alloc length) length

/-- `toIndexedOptionArray64` of the option classes (ByteMaskedArray.cpp:369,
BitMaskedArray.cpp:383, UnmaskedArray.cpp:285). An IndexedOptionArray is already one; other
classes have no such method. -/
def toIndexedOption : Content → R Content
  | byteMasked p mask vw c => byteMaskedIndex mask vw >>= fun index => ok (indexedOption p index c)
  | bitMasked p mask vw length lsb c =>
    bitMaskedIndex mask vw length lsb >>= fun index => ok (indexedOption p index c)
  | unmasked p c => unmaskedIndex c.len >>= fun index => ok (indexedOption p index c)
  | indexedOption p index c => ok (indexedOption p index c)
  | _ => err "no toIndexedOptionArray64"

/-- `toByteMaskedArray` (BitMaskedArray.cpp:364-381, UnmaskedArray.cpp:269-283). -/
def toByteMasked : Content → R Content
  | bitMasked p mask vw length lsb c =>
    bitMaskedByteMask mask length lsb >>= fun bytemask => ok (byteMasked p bytemask vw c)
  | unmasked p c =>
    const_mask 1 (alloc c.len) c.len >>= fun bytemask => ok (byteMasked p bytemask true c)
  | byteMasked p mask vw c => ok (byteMasked p mask vw c)
  | _ => err "no toByteMaskedArray"

/-- `bytemask` (IndexedArray.cpp:629-652, ByteMaskedArray.cpp:331-347,
BitMaskedArray.cpp:330-342, UnmaskedArray.cpp:241-250): nonzero marks a missing element. -/
def bytemask : Content → R (List Int)
  | indexed _ index _ => const_mask 0 (alloc index.length) index.length
  | indexedOption _ index _ => IndexedArray_mask (alloc index.length) index index.length
  | byteMasked _ mask vw _ =>
    if vw = false then ok mask
    else ByteMaskedArray_mask (alloc mask.length) mask mask.length vw
  | bitMasked _ mask vw length lsb _ =>
    BitMaskedArray_to_ByteMaskedArray (alloc (mask.length * 8)) mask mask.length vw lsb
      >>= fun bytemask => idxRange bytemask 0 length
  | unmasked _ c => const_mask 0 (alloc c.len) c.len
  | _ => err "no bytemask"

/-- IndexedArray.cpp:568-592, the option case of `project`. -/
def indexedOptionProject (index : List Int) (c : Content) : R Content :=
  IndexedArray_numnull index index.length >>= fun numnull =>
  IndexedArray_flatten_nextcarry (alloc (index.length - numnull)) index index.length c.len
    >>= fun nextcarry => c.carry false nextcarry

/-- ByteMaskedArray.cpp:283-304 `project`. -/
def byteMaskedProject (mask : List Int) (vw : Bool) (c : Content) : R Content :=
  ByteMaskedArray_numnull mask mask.length vw >>= fun numnull =>
  ByteMaskedArray_getitem_nextcarry (alloc (mask.length - numnull)) mask mask.length vw
    >>= fun nextcarry => c.carry false nextcarry

/-- `project()` (IndexedArray.cpp:568-604, ByteMaskedArray.cpp:283-304,
BitMaskedArray.cpp:320-323, UnmaskedArray.cpp:227-230). -/
def project : Content → R Content
  | indexed _ index c =>
    IndexedArray_getitem_nextcarry (alloc index.length) index index.length c.len
      >>= fun nextcarry => c.carry false nextcarry
  | indexedOption _ index c => indexedOptionProject index c
  | byteMasked _ mask vw c => byteMaskedProject mask vw c
  | bitMasked _ mask vw length lsb c =>
    bitMaskedByteMask mask length lsb >>= fun bytemask => byteMaskedProject bytemask vw c
  | unmasked _ c => ok c
  | _ => err "no project"

/-- `project(mask)` (IndexedArray.cpp:606-627, ByteMaskedArray.cpp:306-329,
BitMaskedArray.cpp:325-328, UnmaskedArray.cpp:232-239): drop the elements marked by `mask` as
well. -/
def projectMask (theirmask : List Int) : Content → R Content
  | indexed _ index c =>
    if index.length ≠ theirmask.length then err "mask length" else
    IndexedArray_overlay_mask (alloc index.length) theirmask index index.length
      >>= fun nextindex => indexedOptionProject nextindex c
  | indexedOption _ index c =>
    if index.length ≠ theirmask.length then err "mask length" else
    IndexedArray_overlay_mask (alloc index.length) theirmask index index.length
      >>= fun nextindex => indexedOptionProject nextindex c
  | byteMasked _ mask vw c =>
    if mask.length ≠ theirmask.length then err "mask length" else
    ByteMaskedArray_overlay_mask (alloc mask.length) theirmask mask mask.length vw
      >>= fun nextmask => byteMaskedProject nextmask false c
  | bitMasked _ mask vw length lsb c =>
    bitMaskedByteMask mask length lsb >>= fun bytemask =>
    if bytemask.length ≠ theirmask.length then err "mask length" else
    ByteMaskedArray_overlay_mask (alloc bytemask.length) theirmask bytemask bytemask.length vw
      >>= fun nextmask => byteMaskedProject nextmask false c
  | unmasked _ c =>
    if c.len < theirmask.length then err "content must not be shorter than its mask"
    else byteMaskedProject theirmask false c
  | _ => err "no project"

/-- IndexedArray.cpp:655-948: the index and the content of the inner node that
`simplify_optiontype` composes with, and whether it can be missing; `none` when the content is
not an option-type or indexed node. -/
def innerIndex : Content → R (Option (Bool × List Int × Content))
  | indexed _ index c => ok (some (false, index, c))
  | indexedOption _ index c => ok (some (true, index, c))
  | byteMasked _ mask vw c => byteMaskedIndex mask vw >>= fun index => ok (some (true, index, c))
  | bitMasked _ mask vw length lsb c =>
    bitMaskedIndex mask vw length lsb >>= fun index => ok (some (true, index, c))
  | unmasked _ c => unmaskedIndex c.len >>= fun index => ok (some (true, index, c))
  | _ => ok none

/-- IndexedArray.cpp:655-948 `simplify_optiontype`. -/
def indexedSimplify (isoption : Bool) (p : Params) (index : List Int) (c : Content) : R Content :=
  c.innerIndex >>= fun
    | none => ok (if isoption then indexedOption p index c else indexed p index c)
    | some (inneropt, inner, c') =>
      IndexedArray_simplify (alloc index.length) index index.length inner inner.length
        >>= fun result =>
      ok (if isoption || inneropt then indexedOption p result c' else indexed p result c')

/-- `simplify_optiontype` of each class (IndexedArray.cpp:655-948, ByteMaskedArray.cpp:349-366,
BitMaskedArray.cpp:344-361, UnmaskedArray.cpp:252-266). The other classes return themselves when
`simplify()` is called from Python (src/python/content.cpp exposes the method on these classes
only). -/
def simplifyOption : Content → R Content
  | indexed p index c => indexedSimplify false p index c
  | indexedOption p index c => indexedSimplify true p index c
  | byteMasked p mask vw c =>
    if c.isOptionOrIndexed then
      byteMaskedIndex mask vw >>= fun index => indexedSimplify true p index c
    else ok (byteMasked p mask vw c)
  | bitMasked p mask vw length lsb c =>
    if c.isOptionOrIndexed then
      bitMaskedIndex mask vw length lsb >>= fun index => indexedSimplify true p index c
    else ok (bitMasked p mask vw length lsb c)
  | unmasked p c => if c.isOptionOrIndexed then ok c else ok (unmasked p c)
  | c => ok c

end Content
end Awk
