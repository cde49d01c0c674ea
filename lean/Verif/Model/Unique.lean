import Verif.Model.Sort
import Verif.Model.Merge
/-
`is_unique`.

Simplifications, beyond those of `Model/Sort.lean`: buffers have no offset, except in
`indexedIsUnique`; ListOffsetArrays have 64-bit offsets. `is_unique` and `is_subrange_equal` are one
function, with or without the ranges; `isUniqueNext` takes a fuel argument, and running out of fuel
is `ub`.
-/

namespace Awk
open R

/-- src/cpu-kernels/awkward_unique.cpp:7-22. The state is `(toptr, j)`; the result is `(toptr, tolength)`. -/
def awkward_unique (toptr : List Atom) (length : Nat) : R (List Atom × Int) :=
  forFrom 1 length (fun i (st : List Atom × Int) =>
    rd st.1 st.2 >>= fun x => rd st.1 i >>= fun y =>
    if x ≠ y then wr st.1 (st.2 + 1) y >>= fun t => ok (t, st.2 + 1) else ok st) (toptr, 0)
    >>= fun st => ok (st.1, st.2 + 1)

/-- src/cpu-kernels/awkward_NumpyArray_subrange_equal.cpp:7-36. The state is `differ`. -/
def NumpyArray_subrange_equal (tmpptr : List Atom) (fromstarts fromstops : List Int) (length : Nat) :
    R Bool :=
  forFrom 0 ((length : Int) - 1) (fun i differ =>
    rd fromstops i >>= fun stop => rd fromstarts i >>= fun start =>
    let leftlen := stop - start
    forFrom (i + 1) ((length : Int) - 1) (fun ii differ =>
      rd fromstops ii >>= fun stop' => rd fromstarts ii >>= fun start' =>
      if leftlen = stop' - start' then
        forFrom 0 leftlen (fun j differ =>
          if differ then ok true else
          rd tmpptr (start + j) >>= fun x => rd tmpptr (start' + j) >>= fun y =>
          ok (decide (x ≠ y))) false
      else ok differ) differ) true >>= fun differ => ok (!differ)

/-- The words of src/cpu-kernels/awkward_NumpyArray_sort_asstrings_uint8.cpp:26-35. The counter of the
bytes is a `uint8_t`. -/
def stringWords (fromptr : List Atom) (offsets : List Int) (offsetslength : Nat) : R (List (List Int)) :=
  forFrom 0 ((offsetslength : Int) - 1) (fun k words =>
    rd offsets k >>= fun start => rd offsets (k + 1) >>= fun stop =>
    forFrom 0 (stop - start) (fun j word =>
      rd fromptr ((start + j) % 256) >>= fun c => ok (word ++ [c.toInt])) [] >>= fun word =>
    ok (words ++ [word])) []

/-- `std::less<std::string>`: the bytes are compared as unsigned numbers. -/
def wordLess : List Int → List Int → Bool
  | _, [] => false
  | [], _ :: _ => true
  | a :: as, b :: bs => if a < b then true else if b < a then false else wordLess as bs

/-- Insert before the first word that is not smaller. -/
def insertWord (w : List Int) : List (List Int) → List (List Int)
  | [] => [w]
  | v :: vs => if wordLess v w then v :: insertWord w vs else w :: v :: vs

/-- src/cpu-kernels/awkward_NumpyArray_sort_asstrings_uint8.cpp:14-71, with `ascending` and `stable`, as
it is called. `std::stable_sort` is insertion sort. -/
def NumpyArray_sort_asstrings (toptr : List Atom) (fromptr : List Atom) (offsets : List Int)
    (offsetslength : Nat) (outoffsets : List Int) : R (List Atom × List Int) :=
  stringWords fromptr offsets offsetslength >>= fun words =>
  let words := words.foldr insertWord []
  forN words.flatten.length (fun k toptr =>
    rd words.flatten (k : Int) >>= fun c => wr toptr (k : Int) (Atom.int c)) toptr >>= fun toptr =>
  wr outoffsets 0 0 >>= fun outoffsets =>
  forN words.length (fun o outoffsets =>
    rd words (o : Int) >>= fun r => rd outoffsets (o : Int) >>= fun x =>
    wr outoffsets ((o : Int) + 1) (x + (r.length : Int))) outoffsets >>= fun outoffsets =>
  ok (toptr, outoffsets)

/-- The variables of the next kernel. -/
structure UniqueState where
  toptr : List Atom
  slen : Int
  index : Int
  counter : Int
  start : Int

/-- src/cpu-kernels/awkward_NumpyArray_unique_strings_uint8.cpp:7-46. The result is `tolength`. -/
def NumpyArray_unique_strings (toptr : List Atom) (offsets : List Int) (offsetslength : Nat) : R Int :=
  forFrom 0 ((offsetslength : Int) - 1) (fun i (st : UniqueState) =>
    rd offsets (i + 1) >>= fun stop => rd offsets i >>= fun begin =>
    (if stop - begin ≠ st.slen then ok true
    else forFrom 0 (stop - begin) (fun k differ =>
      rd st.toptr (st.start + k) >>= fun x => rd st.toptr (begin + k) >>= fun y =>
      ok (differ || decide (x ≠ y))) false) >>= fun differ =>
    (if differ then
      forFrom begin stop (fun j (st : UniqueState) =>
        rd st.toptr j >>= fun x => wr st.toptr st.index x >>= fun toptr =>
        ok { st with toptr, index := st.index + 1, start := begin }) st >>= fun st =>
      ok { st with counter := st.counter + 1 }
    else ok st) >>= fun st => ok { st with slen := stop - begin })
    { toptr, slen := 0, index := 0, counter := 0, start := 0 } >>= fun st =>
  ok (st.counter + 1)

/-- src/cpu-kernels/awkward_IndexedArray_ranges_next_64.cpp:7-30. The state is `(tostarts, tostops, k)`. -/
def IndexedArray_ranges_next (index fromstarts fromstops : List Int) (length : Nat)
    (tostarts tostops : List Int) : R (List Int × List Int × Int) :=
  forN length (fun i (st : List Int × List Int × Int) =>
    rd fromstops (i : Int) >>= fun stop => rd fromstarts (i : Int) >>= fun start =>
    wr st.1 (i : Int) st.2.2 >>= fun tostarts =>
    forFrom 0 (stop - start) (fun j k =>
      rd index (start + j) >>= fun x => ok (if ¬ x < 0 then k + 1 else k)) st.2.2 >>= fun k =>
    wr st.2.1 (i : Int) k >>= fun tostops => ok (tostarts, tostops, k)) (tostarts, tostops, 0)

/-- src/cpu-kernels/awkward_IndexedArray_ranges_carry_next_64.cpp:7-26. The state is `(tocarry, k)`. -/
def IndexedArray_ranges_carry_next (index fromstarts fromstops : List Int) (length : Nat)
    (tocarry : List Int) : R (List Int) :=
  forN length (fun i (st : List Int × Int) =>
    rd fromstops (i : Int) >>= fun stop => rd fromstarts (i : Int) >>= fun start =>
    forFrom 0 (stop - start) (fun j (st : List Int × Int) =>
      rd index (start + j) >>= fun x =>
      if ¬ x < 0 then wr st.1 st.2 x >>= fun t => ok (t, st.2 + 1) else ok st) st) (tocarry, 0)
    >>= fun st => ok st.1

namespace Content

/-- NumpyArray.cpp:5545-5597 `array_unique`: the number of different items. It sorts with
`stable=true`, so no implementation of `std::sort` is used. -/
def arrayUnique (dt : DType) (data : List Atom) : R Int :=
  if data.length = 0 then ok 0 else
  content_reduce_zeroparents (alloc data.length) data.length >>= fun parents =>
  sortBuffer { arg := false, ascending := true, stable := true, std := fun _ xs => xs } parents dt data
    >>= fun dp => awkward_unique dp.2 data.length >>= fun r => ok r.2

/-- NumpyArray.cpp:3767-3802 `as_unique_strings` and 5599-5633 `string_unique`: the length of the
result. -/
def asUniqueStrings (dt : DType) (data : List Atom) (offsets : List Int) : R Int :=
  if dt ≠ .uint8 then err "cannot sort NumpyArray as strings" else
  (if data.length = 0 then ok (offsets.length : Int) else
    NumpyArray_sort_asstrings (List.replicate data.length (.int (-559038737))) data offsets
      offsets.length (alloc offsets.length) >>= fun to =>
    NumpyArray_unique_strings to.1 to.2 offsets.length) >>= fun offsets_length =>
  ok (offsets_length - 1)

/-- NumpyArray.cpp:5240-5396 `is_subrange_equal` and `subranges_equal`. -/
def subrangesEqual (dt : DType) (data : List Atom) (starts stops : List Int) : R Bool :=
  if starts.length ≠ stops.length then err "NumpyArray starts length must be equal to stops length"
  else if dt.reducible = false then err "is_subrange_equal on this dtype is not modelled" else
  awkward_quick_sort data starts stops true starts.length kMaxLevels >>= fun ptr =>
  NumpyArray_subrange_equal ptr starts stops starts.length >>= fun is_equal => ok (!is_equal)

/-- The recursive call: `is_unique`, or `is_subrange_equal` with its ranges. -/
abbrev UniqueRec := Option (List Int × List Int) → Content → R Bool

/-- IndexedArray.cpp:2870-2911 `is_subrange_equal`. -/
def indexedSubranges (rec : UniqueRec) (index starts stops : List Int) (c : Content) : R Bool :=
  if starts.length ≠ stops.length then err "starts length must be equal to stops length" else
  IndexedArray_ranges_next index starts stops starts.length (alloc starts.length) (alloc stops.length)
    >>= fun st =>
  IndexedArray_ranges_carry_next index starts stops starts.length (alloc st.2.2) >>= fun nextcarry =>
  c.carry false nextcarry >>= fun next =>
  if st.1.length > 1 then rec (some (st.1, st.2.1)) next else rec none next

/-- IndexedArray.cpp:2852-2860 `is_unique`. `offset` is the offset of the index buffer, which is not
zero after a slice; `index` is the part of the buffer from there. -/
def indexedIsUnique (rec : UniqueRec) (offset : Nat) (index : List Int) (c : Content) : R Bool :=
  indexedSubranges rec index [(offset : Int)] [(index.length : Int)] c

/-- `is_unique` and `is_subrange_equal` of each class: EmptyArray.cpp:796-809, NumpyArray.cpp:5220-5232
and 5288-5396, RegularArray.cpp:1673-1686, ListArray.cpp:2087-2103, ListOffsetArray.cpp:2404-2432,
IndexedArray.cpp:2852-2911, ByteMaskedArray.cpp:1494-1513, BitMaskedArray.cpp:1142-1155,
UnmaskedArray.cpp:1163-1180, RecordArray.cpp:1883-1924, UnionArray.cpp:2317-2340. -/
def isUniqueNext : Nat → UniqueRec
  | 0, _, _ => ub
  | f + 1, none, self => match self with
    | empty _ => ok true
    | numpy _ dt data =>
      if dt.reducible = false then err "unique on this dtype is not modelled" else
      arrayUnique dt data >>= fun outlength => ok (decide (outlength = (data.length : Int)))
    | listOffset p offsets c =>
      let lists := isUniqueNext f (some (makeStarts offsets, makeStops offsets)) c
      if p.arr = .string ∨ p.arr = .bytestring then match c with
        | numpy _ dt data => asUniqueStrings dt data offsets >>= fun outlength =>
          ok (decide (outlength = (self.len : Int)))
        | _ => lists
      else lists
    | listArray .. | regular .. => self.toListOffset >>= fun next => isUniqueNext f none next
    | indexed _ index c | indexedOption _ index c => indexedIsUnique (isUniqueNext f) 0 index c
    | record _ _ cs _ =>
      -- the state is `non_unique_count`; -1 after `return true`
      if cs.isEmpty then ok true else
      foldR (fun (count : Int) c =>
        if count = -1 then ok count else
        isUniqueNext f none c >>= fun u =>
        ok (if !u then count + 1 else if count = 0 then -1 else count)) 0 cs >>= fun count =>
      if count ≤ 1 then ok true
      else err "RecordArray with more than one non-unique content is not implemented yet"
    | _ => err "is_unique is not implemented"
  | f + 1, some (starts, stops), self => match self with
    | empty _ => ok false
    | numpy _ dt data => subrangesEqual dt data starts stops
    | listOffset _ _ c => isUniqueNext f (some (starts, stops)) c
    | listArray .. | regular .. =>
      self.toListOffset >>= fun next => isUniqueNext f (some (starts, stops)) next
    | indexed _ index c | indexedOption _ index c =>
      indexedSubranges (isUniqueNext f) index starts stops c
    | _ => err "is_subrange_equal is not implemented"

/-- `Content::is_unique`. -/
def isUnique (c : Content) : R Bool := isUniqueNext (c.rank + 1) none c

end Content

/-- src/awkward/partition.py:647-648 `PartitionedArray.is_unique`. -/
def partitionedIsUnique (partitions : List Content) : R Bool :=
  mapR Content.isUnique partitions >>= fun us => ok (us.all id)

end Awk
