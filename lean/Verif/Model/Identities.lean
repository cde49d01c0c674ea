import Verif.Model.Content
/-
Row identities: `Content::setidentities` gives every node of an array a table with one row for each
of its items. A row holds the position in the outermost array, then the position in each list on the
way down. The names of the record fields on the way are kept beside the table, in `fieldloc`.

Simplifications: identities are 32 or 64 bits wide in the C++, and are widened (`to64`) before they
could overflow; here they are integers. The reference number (`Identities::newref`) is left out. The
C++ stores the table in each node, in place; here `setidentities` returns the tables as a tree with
the shape of the array.
-/

namespace Awk
open R

/-- include/awkward/Identities.h `IdentitiesOf<T>`: the table is stored row after row in `data`
(with `offset_ = 0`). -/
structure Ids where
  width : Nat
  length : Nat
  fieldloc : List (Nat × String)
  data : List Int
deriving DecidableEq

/-- The identities of a node and of its contents. -/
inductive IdTree
  | node (ids : Option Ids) (contents : List IdTree)

/-! ### Kernels -/

/-- src/cpu-kernels/awkward_new_Identities.cpp:8-15. -/
def new_Identities (toptr : List Int) (length : Nat) : R (List Int) :=
  forN length (fun i t => wr t i (i : Int)) toptr

/-- src/cpu-kernels/awkward_Identities_extend.cpp:8-21. -/
def Identities_extend (toptr fromptr : List Int) (fromlength tolength : Nat) : R (List Int) :=
  forN fromlength (fun i t => rd fromptr i >>= fun x => wr t i x) toptr >>= fun toptr =>
  forFrom fromlength tolength (fun i t => wr t i (-1)) toptr

/-- The innermost loop of the kernels below: `toptr[to + k] = fromptr[from_ + k]` for `k < width`. -/
def copyRow (toptr fromptr : List Int) (to_ from_ : Int) (width : Nat) : R (List Int) :=
  forN width (fun k t => rd fromptr (from_ + k) >>= fun x => wr t (to_ + k) x) toptr

/-- The body of the loop over `j` of the list kernels: row `j` becomes row `i` and the position. -/
def nestRow (toptr fromptr : List Int) (i j : Int) (width : Nat) (position : Int) : R (List Int) :=
  copyRow toptr fromptr (j * (width + 1)) (i * width) width >>= fun toptr =>
  wr toptr (j * (width + 1) + width) position

/-- src/cpu-kernels/awkward_Identities_from_RegularArray.cpp:8-30. -/
def Identities_from_RegularArray (toptr fromptr : List Int) (size tolength fromlength fromwidth : Nat) :
    R (List Int) :=
  forN fromlength (fun i t => forN size (fun j t =>
    nestRow t fromptr i (i * size + j) fromwidth j) t) toptr >>= fun toptr =>
  forFrom ((fromlength + 1) * size * (fromwidth + 1)) (tolength * (fromwidth + 1))
    (fun k t => wr t k (-1)) toptr

/-- src/cpu-kernels/awkward_Identities_from_ListOffsetArray.cpp:8-40. -/
def Identities_from_ListOffsetArray (toptr fromptr fromoffsets : List Int)
    (tolength fromlength fromwidth : Nat) : R (List Int) :=
  rd fromoffsets 0 >>= fun globalstart => rd fromoffsets fromlength >>= fun globalstop =>
  forFrom 0 (globalstart * (fromwidth + 1)) (fun k t => wr t k (-1)) toptr >>= fun toptr =>
  forFrom (globalstop * (fromwidth + 1)) (tolength * (fromwidth + 1))
    (fun k t => wr t k (-1)) toptr >>= fun toptr =>
  forN fromlength (fun i t =>
    rd fromoffsets i >>= fun start => rd fromoffsets ((i : Int) + 1) >>= fun stop =>
    if start ≠ stop ∧ stop > tolength then err "max(stop) > len(content)" else
    forFrom start stop (fun j t => nestRow t fromptr i j fromwidth (j - start)) t) toptr

/-- src/cpu-kernels/awkward_Identities_from_ListArray.cpp:8-40. The state is `toptr` and the flag
`uniquecontents`; once it is false the kernel has returned, so the remaining steps do nothing. -/
def Identities_from_ListArray (toptr fromptr fromstarts fromstops : List Int)
    (tolength fromlength fromwidth : Nat) : R (List Int × Bool) :=
  forN (tolength * (fromwidth + 1)) (fun k t => wr t k (-1)) toptr >>= fun toptr =>
  forN fromlength (fun i (st : List Int × Bool) =>
    if st.2 = false then ok st else
    rd fromstarts i >>= fun start => rd fromstops i >>= fun stop =>
    if start ≠ stop ∧ stop > tolength then err "max(stop) > len(content)" else
    forFrom start stop (fun j (st : List Int × Bool) =>
      if st.2 = false then ok st else
      rd st.1 (j * (fromwidth + 1) + fromwidth) >>= fun x =>
      if x ≠ -1 then ok (st.1, false) else
      nestRow st.1 fromptr i j fromwidth (j - start) >>= fun t => ok (t, true)) st) (toptr, true)

/-- src/cpu-kernels/awkward_Identities_from_IndexedArray.cpp:8-36. -/
def Identities_from_IndexedArray (toptr fromptr fromindex : List Int)
    (tolength fromlength fromwidth : Nat) : R (List Int × Bool) :=
  forN (tolength * fromwidth) (fun k t => wr t k (-1)) toptr >>= fun toptr =>
  forN fromlength (fun i (st : List Int × Bool) =>
    if st.2 = false then ok st else
    rd fromindex i >>= fun j =>
    if j ≥ tolength then err "max(index) > len(content)" else
    if j ≥ 0 then
      rd st.1 (j * fromwidth) >>= fun x =>
      if x ≠ -1 then ok (st.1, false) else
      copyRow st.1 fromptr (j * fromwidth) (i * fromwidth) fromwidth >>= fun t => ok (t, true)
    else ok st) (toptr, true)

/-- src/cpu-kernels/awkward_Identities_from_UnionArray.cpp:8-43. -/
def Identities_from_UnionArray (toptr fromptr fromtags fromindex : List Int)
    (tolength fromlength fromwidth which : Nat) : R (List Int × Bool) :=
  forN (tolength * fromwidth) (fun k t => wr t k (-1)) toptr >>= fun toptr =>
  forN fromlength (fun i (st : List Int × Bool) =>
    if st.2 = false then ok st else
    rd fromtags i >>= fun tag =>
    if tag = which then
      rd fromindex i >>= fun j =>
      if j ≥ tolength then err "max(index) > len(content)" else
      if j < 0 then err "min(index) < 0" else
      rd st.1 (j * fromwidth) >>= fun x =>
      if x ≠ -1 then ok (st.1, false) else
      copyRow st.1 fromptr (j * fromwidth) (i * fromwidth) fromwidth >>= fun t => ok (t, true)
    else ok st) (toptr, true)

/-! ### setidentities -/

/-- The test at the beginning of every `setidentities`. -/
def checkIds (length : Nat) (ids : Ids) : R Unit :=
  if length ≠ ids.length then err "content and its identities must have the same length" else ok ()

/-- The identities of a content whose rows are `width` wide. -/
def Ids.below (ids : Ids) (width length : Nat) (data : List Int) : Ids :=
  { width, length, fieldloc := ids.fieldloc, data }

/-- The identities that a node with identities hands to its only content
(`RegularArray::setidentities` src/libawkward/array/RegularArray.cpp:363-429, `ListArrayOf` ListArray.cpp:386-469,
`ListOffsetArrayOf` ListOffsetArray.cpp:421-488, `IndexedArrayOf` IndexedArray.cpp:989-1070,
`ByteMaskedArray` ByteMaskedArray.cpp:390-448, `BitMaskedArray` BitMaskedArray.cpp:406-464,
`UnmaskedArray` UnmaskedArray.cpp:304-361). `none` where `uniquecontents` is false. -/
def contentIds (ids : Ids) : Content → R (Option Ids)
  | .regular _ c size zeros =>
    Identities_from_RegularArray (alloc (((ids.width + 1) * c.len : Nat) : Int)) ids.data size c.len
      (Content.regular {} c size zeros).len ids.width >>= fun data =>
    ok (some (ids.below (ids.width + 1) c.len data))
  | .listArray _ starts stops c =>
    Identities_from_ListArray (alloc (((ids.width + 1) * c.len : Nat) : Int)) ids.data starts stops c.len
      starts.length ids.width >>= fun du =>
    ok (if du.2 then some (ids.below (ids.width + 1) c.len du.1) else none)
  | .listOffset _ offsets c =>
    Identities_from_ListOffsetArray (alloc (((ids.width + 1) * c.len : Nat) : Int)) ids.data offsets
      c.len (offsets.length - 1) ids.width >>= fun data =>
    ok (some (ids.below (ids.width + 1) c.len data))
  | .indexed _ index c | .indexedOption _ index c =>
    Identities_from_IndexedArray (alloc ((ids.width * c.len : Nat) : Int)) ids.data index c.len
      index.length ids.width >>= fun du =>
    ok (if du.2 then some (ids.below ids.width c.len du.1) else none)
  | .byteMasked _ _ _ c | .bitMasked _ _ _ _ _ c | .unmasked _ c =>
    Identities_extend (alloc ((ids.width * c.len : Nat) : Int)) ids.data ids.length c.len >>= fun data =>
    ok (some (ids.below ids.width c.len data))
  | _ => ok none

/-- The name of field `j` (`recordlookup_.get()->at(j)` or `std::to_string(j)`). -/
def fieldName (keys : Option (List String)) (j : Nat) : String :=
  match keys with
  | none => toString j
  | some ks => ks.getD j (toString j)

/-- The identities of field `j` of a record array (RecordArray.cpp:573-593). -/
def fieldIds (ids : Ids) (keys : Option (List String)) (j : Nat) : Ids :=
  { ids with fieldloc := ids.fieldloc ++ [(ids.width - 1, fieldName keys j)] }

/-- The identities of content `which` of a union array (UnionArray.cpp:829-863). -/
def unionIds (ids : Ids) (tags index : List Int) (which length : Nat) : R (Option Ids) :=
  Identities_from_UnionArray (alloc ((ids.width * length : Nat) : Int)) ids.data tags index length
    tags.length ids.width which >>= fun du =>
  ok (if du.2 then some (ids.below ids.width length du.1) else none)

mutual
/-- `setidentities(identities)` (the line numbers are at `contentIds`; RecordArray.cpp:556-596,
UnionArray.cpp:802-902, NumpyArray.cpp:516-529, EmptyArray.cpp:203-216). `none` is
`Identities::none()`, which is handed to the contents as it is. -/
def setidentities : Content → Option Ids → R IdTree
  | .empty _, ids =>
    (match ids with | none => ok () | some d => checkIds 0 d) >>= fun _ => ok (.node ids [])
  | .numpy _ _ data, ids =>
    (match ids with | none => ok () | some d => checkIds data.length d) >>= fun _ => ok (.node ids [])
  | .regular p c size zeros, ids => through (.regular p c size zeros) ids >>= fun sub =>
    setidentities c sub >>= fun t => ok (.node ids [t])
  | .listArray p starts stops c, ids => through (.listArray p starts stops c) ids >>= fun sub =>
    setidentities c sub >>= fun t => ok (.node ids [t])
  | .listOffset p offsets c, ids => through (.listOffset p offsets c) ids >>= fun sub =>
    setidentities c sub >>= fun t => ok (.node ids [t])
  | .indexed p index c, ids => through (.indexed p index c) ids >>= fun sub =>
    setidentities c sub >>= fun t => ok (.node ids [t])
  | .indexedOption p index c, ids => through (.indexedOption p index c) ids >>= fun sub =>
    setidentities c sub >>= fun t => ok (.node ids [t])
  | .byteMasked p mask vw c, ids => through (.byteMasked p mask vw c) ids >>= fun sub =>
    setidentities c sub >>= fun t => ok (.node ids [t])
  | .bitMasked p mask vw length lsb c, ids => through (.bitMasked p mask vw length lsb c) ids >>= fun sub =>
    setidentities c sub >>= fun t => ok (.node ids [t])
  | .unmasked p c, ids => through (.unmasked p c) ids >>= fun sub =>
    setidentities c sub >>= fun t => ok (.node ids [t])
  | .record _ keys cs length, ids =>
    (match ids with | none => ok () | some d => checkIds length d) >>= fun _ =>
    setidentitiesFields cs ids keys 0 >>= fun ts => ok (.node ids ts)
  | .union _ tags index cs, ids =>
    (match ids with
      | none => ok ()
      | some d =>
        if index.length < tags.length then err "len(index) < len(tags)" else checkIds tags.length d) >>= fun _ =>
    setidentitiesUnion cs ids tags index 0 >>= fun ts => ok (.node ids ts)
where
  /-- The test of the length and `contentIds`. -/
  through (c : Content) : Option Ids → R (Option Ids)
    | none => ok none
    | some d => checkIds c.len d >>= fun _ => contentIds d c
/-- The loop over the fields (RecordArray.cpp:559-561 and 573-593), from field `j`. -/
def setidentitiesFields : List Content → Option Ids → Option (List String) → Nat → R (List IdTree)
  | [], _, _, _ => ok []
  | c :: cs, ids, keys, j =>
    setidentities c (ids.map (fun d => fieldIds d keys j)) >>= fun t =>
    setidentitiesFields cs ids keys (j + 1) >>= fun ts => ok (t :: ts)
/-- The loop over the contents of a union (UnionArray.cpp:806-808 and 829-899), from `which`. -/
def setidentitiesUnion : List Content → Option Ids → List Int → List Int → Nat → R (List IdTree)
  | [], _, _, _, _ => ok []
  | c :: cs, ids, tags, index, which =>
    (match ids with | none => ok none | some d => unionIds d tags index which c.len) >>= fun sub =>
    setidentities c sub >>= fun t =>
    setidentitiesUnion cs ids tags index (which + 1) >>= fun ts => ok (t :: ts)
end

/-- `setidentities()` without arguments, in every class but EmptyArray (for example
ListOffsetArray.cpp:490-523): new identities, the positions of the rows, for the whole array.
`EmptyArray::setidentities()` (EmptyArray.cpp:218-219) does nothing. -/
def setidentitiesNew : Content → R IdTree
  | .empty _ => ok (.node none [])
  | c => new_Identities (alloc (c.len : Int)) c.len >>= fun data =>
    setidentities c (some { width := 1, length := c.len, fieldloc := [], data })

/-! ### Identities -/

/-- One component of an identity, as `identity_at` prints it. -/
inductive IdPart
  | row (i : Int)
  | field (name : String)
deriving DecidableEq

/-- src/libawkward/Identities.cpp:123-139 `identity_at`, as a list instead of a string. -/
def Ids.identityAt (ids : Ids) (at_ : Nat) : R (List IdPart) :=
  forN ids.width (fun i out =>
    rd ids.data ((at_ : Int) * ids.width + i) >>= fun x =>
    ok (out ++ IdPart.row x :: ((ids.fieldloc.filter (fun p => p.1 == i)).map (fun p => .field p.2)))) []

/-- src/libawkward/Identities.cpp:326-341 `getitem_at_nowrap`. -/
def Ids.getitemAtNowrap (ids : Ids) (at_ : Nat) : R (List Int) :=
  if ¬ at_ < ids.length then err "Identities::getitem_at_nowrap with illegal index for this length" else
  forFrom at_ ((at_ : Int) + ids.width) (fun i out => rd ids.data i >>= fun x => ok (out ++ [x])) []

/-- src/libawkward/Identities.cpp:231-248 `deep_copy`. -/
def Ids.deepCopy (ids : Ids) : R Ids :=
  forN ids.length (fun i t => rd ids.data i >>= fun x => wr t i x) (alloc (ids.length : Int)) >>= fun data =>
  ok { ids with data }

/-- src/cpu-kernels/awkward_Identities_getitem_carry.cpp and Identities.cpp:250-287 `getitem_carry_64`. -/
def Ids.getitemCarry (ids : Ids) (carry : List Int) : R Ids :=
  forN carry.length (fun i t =>
    rd carry i >>= fun j =>
    if j ≥ ids.length then err "index out of range" else
    forN ids.width (fun k t => rd ids.data ((ids.width : Int) * j + k) >>= fun x =>
      wr t ((ids.width : Int) * i + k) x) t)
    (alloc ((ids.width * carry.length : Nat) : Int)) >>= fun data =>
  ok { ids with length := carry.length, data }

end Awk
