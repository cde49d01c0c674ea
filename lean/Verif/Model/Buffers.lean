import Verif.Model.Field
/-
Taking an array apart into named buffers and putting it together again: `ak.to_buffers` and
`ak.from_buffers` (src/awkward/operations/convert.py).

Simplifications:
* a buffer is the list of its bytes (`_asbuf` drops the dtype and the shape of what `to_buffers`
  stored); the bytes of integers, booleans and dates are modelled, those of floating point numbers
  are parameters (`Floats`);
* the width of each index (`IndexedArray32`, `IndexedArray64`, …) is not part of a `Content`, so it
  is a parameter: a function of the number that `to_buffers` gives to the node;
* a callable `form_key` may also look at the layout; here it sees the number only;
* `length=None` cannot reach `_form_to_layout` (`from_buffers` refuses it and every recursive call
  passes a number), so lengths are integers;
* identities and virtual arrays are not part of a node; `lazy=True` is not modelled.
-/

namespace Awk
open R

/-- The `index_form`s of convert.py:4125-4141. -/
inductive IndexKind where
  | i8 | u8 | i32 | u32 | i64
deriving Repr, DecidableEq

/-- convert.py:4445-4451 `_index_form_to_dtype`: signedness and number of bytes. -/
def IndexKind.layout : IndexKind → Bool × Nat
  | .i8 => (true, 1)
  | .u8 => (false, 1)
  | .i32 => (true, 4)
  | .u32 => (false, 4)
  | .i64 => (true, 8)

/-- The forms of src/libawkward (include/awkward/array/*.h `…Form`), without `has_identities`. -/
inductive Form where
  | empty (p : Params) (key : String)
  | numpy (p : Params) (dt : DType) (key : String)
  | regular (p : Params) (content : Form) (size : Nat) (key : String)
  | listArray (p : Params) (starts stops : IndexKind) (content : Form) (key : String)
  | listOffset (p : Params) (offsets : IndexKind) (content : Form) (key : String)
  | indexed (p : Params) (index : IndexKind) (content : Form) (key : String)
  | indexedOption (p : Params) (index : IndexKind) (content : Form) (key : String)
  | byteMasked (p : Params) (mask : IndexKind) (validWhen : Bool) (content : Form) (key : String)
  | bitMasked (p : Params) (mask : IndexKind) (validWhen lsb : Bool) (content : Form) (key : String)
  | unmasked (p : Params) (content : Form) (key : String)
  | record (p : Params) (keys : Option (List String)) (contents : List Form) (key : String)
  | union (p : Params) (tags index : IndexKind) (contents : List Form) (key : String)
deriving Repr

/-! ### Bytes -/

/-- convert.py:4168-4169 `little_endian`: the bytes of an integer of `n` bytes, least significant
first, in two's complement. -/
def leBytes : Nat → Int → List Nat
  | 0, _ => []
  | n + 1, x => (x % 256).toNat :: leBytes n (x / 256)

/-- The unsigned integer with these bytes. -/
def unsignedOf : List Nat → Int
  | [] => 0
  | b :: bs => b + 256 * unsignedOf bs

/-- `numpy` reading an integer of the given signedness. -/
def intOf (signed : Bool) (bs : List Nat) : Int :=
  let u := unsignedOf bs
  if signed ∧ u ≥ 2 ^ (8 * bs.length - 1) then u - 2 ^ (8 * bs.length) else u

/-- The machine representation of floating point numbers, by number of bytes. -/
structure Floats where
  enc : Nat → Rat → List Nat
  dec : Nat → List Nat → Rat

/-- `dtype.itemsize`. -/
def DType.itemsize : DType → Nat
  | .bool => 1
  | .int8 => 1
  | .int16 => 2
  | .int32 => 4
  | .int64 => 8
  | .uint8 => 1
  | .uint16 => 2
  | .uint32 => 4
  | .uint64 => 8
  | .float32 => 4
  | .float64 => 8
  | .complex64 => 8
  | .complex128 => 16
  | .datetime64 => 8
  | .timedelta64 => 8

/-- The bytes of an item of a NumPy array. -/
def atomBytes (fl : Floats) (dt : DType) : Atom → List Nat
  | .bool b => [if b then 1 else 0]
  | .int i => leBytes dt.itemsize i
  | .real q => fl.enc dt.itemsize q
  | .complex re im => fl.enc (dt.itemsize / 2) re ++ fl.enc (dt.itemsize / 2) im
  | .datetime i => leBytes 8 i
  | .timedelta i => leBytes 8 i

/-- The item of a NumPy array with these bytes. -/
def atomOf (fl : Floats) (dt : DType) (bs : List Nat) : Atom :=
  match dt with
  | .bool => .bool (decide (unsignedOf bs ≠ 0))
  | .float32 => .real (fl.dec 4 bs)
  | .float64 => .real (fl.dec 8 bs)
  | .complex64 => .complex (fl.dec 4 (bs.take 4)) (fl.dec 4 (bs.drop 4))
  | .complex128 => .complex (fl.dec 8 (bs.take 8)) (fl.dec 8 (bs.drop 8))
  | .datetime64 => .datetime (intOf true bs)
  | .timedelta64 => .timedelta (intOf true bs)
  | .int8 => .int (intOf true bs)
  | .int16 => .int (intOf true bs)
  | .int32 => .int (intOf true bs)
  | .int64 => .int (intOf true bs)
  | .uint8 => .int (intOf false bs)
  | .uint16 => .int (intOf false bs)
  | .uint32 => .int (intOf false bs)
  | .uint64 => .int (intOf false bs)

/-- `raw.view(dtype)` of an array of bytes: items of `size` bytes. -/
def viewAs (size : Nat) (item : List Nat → α) (raw : List Nat) : R (List α) :=
  if raw.length % size ≠ 0 then
    err "When changing to a larger dtype, its size must be a divisor of the total size in bytes"
  else ok ((List.range (raw.length / size)).map (fun i => item ((raw.drop (i * size)).take size)))

/-! ### The container -/

/-- A `dict` with buffers: the latest entry counts. -/
abbrev Container := List (String × List Nat)

/-- `container[key] = buffer`. -/
def Container.set (c : Container) (key : String) (buffer : List Nat) : Container :=
  (key, buffer) :: c

/-- `container[key]`. -/
def Container.get (c : Container) (key : String) : R (List Nat) :=
  match c.lookup key with
  | some b => ok b
  | none => err "KeyError"

/-- The arguments `form_key` (as a function of `id`) and `key_format` (as a function of `form_key`,
`attribute` and `partition`) of `to_buffers`. -/
structure Naming where
  form_key : Nat → String
  key_format : String → String → String → String

/-- convert.py:3975-3982: the default names, `"node{id}"` and
`"part{partition}-{form_key}-{attribute}"`. -/
def defaultNaming : Naming where
  form_key id := "node" ++ toString id
  key_format form_key attr partition :=
    "part" ++ partition ++ "-" ++ form_key ++ "-" ++ attr

/-- The name of a buffer in the container. -/
def Naming.key (nm : Naming) (id : Nat) (attr : String) (part : Nat) : String :=
  nm.key_format (nm.form_key id) attr (toString part)

/-! ### `to_buffers` -/

/-- What a walk of `fill` needs besides the layout. -/
structure Walk where
  fl : Floats
  nm : Naming
  kind : Nat → IndexKind
  part : Nat

/-- `container[key] = little_endian(numpy.asarray(index))`. -/
def Walk.putIndex (w : Walk) (c : Container) (id : Nat) (attr : String) (kind : IndexKind)
    (index : List Int) : Container :=
  c.set (w.nm.key id attr w.part) (index.flatMap (leBytes kind.layout.2))

/-- Several calls of `fill`, one after the other. -/
def fillEach {α : Type} (fill : α → Nat × Container → R (Form × Nat × Container)) :
    List α → Nat × Container → R (List Form × Nat × Container)
  | [], st => ok ([], st)
  | x :: xs, st => fill x st >>= fun (form, st) => fillEach fill xs st >>= fun (forms, st) =>
    ok (form :: forms, st)

/-- convert.py:4171-4375 `fill`. The state is `num_form_keys[0]` and the container. The first
argument bounds the number of nested calls and models nothing in the code. -/
def fill (w : Walk) : Nat → Content → Nat × Container → R (Form × Nat × Container)
  | 0, _, _ => ub
  | f + 1, layout, (num, container) =>
    let id := num
    let num := num + 1
    let fk := w.nm.form_key id
    match layout with
    | .empty p => ok (.empty p fk, num, container.set (w.nm.key id "data" w.part) [])
    | .indexed p index c =>
      fill w f c (num, w.putIndex container id "index" (w.kind id) index) >>= fun (form, st) =>
      ok (.indexed p (w.kind id) form fk, st)
    | .indexedOption p index c =>
      fill w f c (num, w.putIndex container id "index" (w.kind id) index) >>= fun (form, st) =>
      ok (.indexedOption p (w.kind id) form fk, st)
    | .byteMasked p mask vw c =>
      fill w f c (num, w.putIndex container id "mask" .i8 mask) >>= fun (form, st) =>
      ok (.byteMasked p .i8 vw form fk, st)
    | .bitMasked p mask vw _ lsb c =>
      fill w f c (num, w.putIndex container id "mask" .u8 (mask.map Int.ofNat))
        >>= fun (form, st) => ok (.bitMasked p .u8 vw lsb form fk, st)
    | .unmasked p c => fill w f c (num, container) >>= fun (form, st) => ok (.unmasked p form fk, st)
    | .listArray p starts stops c =>
      let container := w.putIndex container id "starts" (w.kind id) starts
      let container := w.putIndex container id "stops" (w.kind id) stops
      fill w f c (num, container) >>= fun (form, st) =>
      ok (.listArray p (w.kind id) (w.kind id) form fk, st)
    | .listOffset p offsets c =>
      fill w f c (num, w.putIndex container id "offsets" (w.kind id) offsets) >>= fun (form, st) =>
      ok (.listOffset p (w.kind id) form fk, st)
    | .numpy p dt data =>
      ok (.numpy p dt fk, num,
        container.set (w.nm.key id "data" w.part) (data.flatMap (atomBytes w.fl dt)))
    | .record p none cs _ => fillEach (fill w f) cs (num, container) >>= fun (forms, st) =>
      ok (.record p none forms fk, st)
    | .record p (some ks) cs length =>
      fillEach (fun k st => Content.fieldOfKey (some ks) cs k >>= fun c =>
        c.range 0 length >>= fun c => fill w f c st) ks (num, container) >>= fun (forms, st) =>
      ok (.record p (some ks) forms fk, st)
    | .regular p c size _ => fill w f c (num, container) >>= fun (form, st) =>
      ok (.regular p form size fk, st)
    | .union p tags index cs =>
      fillEach (fill w f) cs (num, container) >>= fun (forms, (num, container)) =>
      let container := w.putIndex container id "tags" .i8 tags
      let container := w.putIndex container id "index" (w.kind id) index
      ok (.union p .i8 (w.kind id) forms fk, num, container)

mutual
/-- `Form::equal` of each class, called from `Form.__ne__` (src/python/forms.cpp:20-23) with
`check_identities`, `check_parameters` and `check_form_key`, and without `compatibility_check`:
RecordArray.cpp:245-329, and EmptyArray.cpp, NumpyArray.cpp, … likewise. -/
def Form.equal : Form → Form → Bool
  | .empty p k, .empty p' k' => p = p' && k = k'
  | .numpy p dt k, .numpy p' dt' k' => p = p' && k = k' && dt = dt'
  | .regular p c s k, .regular p' c' s' k' => p = p' && k = k' && s = s' && c.equal c'
  | .listArray p a b c k, .listArray p' a' b' c' k' =>
    p = p' && k = k' && a = a' && b = b' && c.equal c'
  | .listOffset p a c k, .listOffset p' a' c' k' => p = p' && k = k' && a = a' && c.equal c'
  | .indexed p a c k, .indexed p' a' c' k' => p = p' && k = k' && a = a' && c.equal c'
  | .indexedOption p a c k, .indexedOption p' a' c' k' => p = p' && k = k' && a = a' && c.equal c'
  | .byteMasked p a v c k, .byteMasked p' a' v' c' k' =>
    p = p' && k = k' && a = a' && v = v' && c.equal c'
  | .bitMasked p a v l c k, .bitMasked p' a' v' l' c' k' =>
    p = p' && k = k' && a = a' && v = v' && l = l' && c.equal c'
  | .unmasked p c k, .unmasked p' c' k' => p = p' && k = k' && c.equal c'
  | .record p none cs k, .record p' none cs' k' =>
    p = p' && k = k' && cs.length = cs'.length && Form.equalAll cs cs'
  | .record p (some ks) cs k, .record p' (some ks') cs' k' =>
    p = p' && k = k' && ks.length = ks'.length && Form.equalNamed ks cs ks' cs'
  | .union p a b cs k, .union p' a' b' cs' k' =>
    p = p' && k = k' && a = a' && b = b' && cs.length = cs'.length && Form.equalAll cs cs'
  | _, _ => false
/-- The loops over the contents of a tuple or a union. -/
def Form.equalAll : List Form → List Form → Bool
  | c :: cs, c' :: cs' => c.equal c' && Form.equalAll cs cs'
  | _, _ => true
/-- RecordArray.cpp:290-307: the loop over the fields of a record, which looks for the name of each
field in the other record. -/
def Form.equalNamed : List String → List Form → List String → List Form → Bool
  | k :: ks, c :: cs, ks', cs' =>
    (match ks'.findIdx? (fun k' => k == k') with
      | none => false
      | some j => match cs'[j]? with
        | none => false
        | some c' => c.equal c') && Form.equalNamed ks cs ks' cs'
  | _, _, _, _ => true
end

/-- convert.py:4377-4418, for an array that is not partitioned. -/
def toBuffers (w : Walk) (layout : Content) (container : Container) :
    R (Form × Nat × Container) :=
  fill w layout.rank layout (0, container) >>= fun (form, _, container) =>
  ok (form, layout.len, container)

/-- convert.py:4383-4411: the loop over the partitions after the first, whose form is `form`;
`w.part` is the number of the partition. -/
def toBuffersNext (w : Walk) (form : Form) : List Content → Container → R (List Nat × Container)
  | [], container => ok ([], container)
  | c :: cs, container =>
    fill w c.rank c (0, container) >>= fun (f, _, container) =>
    if form.equal f = false then err "the Form of a partition differs from the first Form"
    else toBuffersNext { w with part := w.part + 1 } form cs container
      >>= fun (lengths, container) => ok (c.len :: lengths, container)

/-- convert.py:4379-4411, for a partitioned array. -/
def toBuffersParts (w : Walk) (parts : List Content) (container : Container) :
    R (Form × List Nat × Container) :=
  match parts with
  | [] => err "PartitionedArray must have at least one partition"
  | c :: cs =>
    fill w c.rank c (0, container) >>= fun (form, _, container) =>
    toBuffersNext { w with part := w.part + 1 } form cs container >>= fun (lengths, container) =>
    ok (form, c.len :: lengths, container)

/-! ### `from_buffers` -/

/-- What `_form_to_layout` needs besides the form and the length. -/
structure Source where
  fl : Floats
  key_format : String → String → String → String
  container : Container
  partnum : String

/-- convert.py:4490-4495 and alike: the buffer with this attribute, as an index. -/
def Source.index (s : Source) (fk attr : String) (kind : IndexKind) : R (List Int) :=
  s.container.get (s.key_format fk attr s.partnum) >>= fun raw =>
  viewAs kind.layout.2 (intOf kind.layout.1) raw

/-- `std::map<std::string, T>::operator[]` and an assignment; the map is the list of its items in
the order of an iterator. -/
def mapAssign (k : String) (v : α) : List (String × α) → List (String × α)
  | [] => [(k, v)]
  | (k', v') :: rest =>
    if k < k' then (k, v) :: (k', v') :: rest
    else if k = k' then (k, v) :: rest
    else (k', v') :: mapAssign k v rest

/-- src/python/forms.cpp:601-608: `RecordForm.contents`. -/
def stdMap (items : List (String × α)) : List (String × α) :=
  items.foldl (fun m kv => mapAssign kv.1 kv.2 m) []

/-- convert.py:4735-4737: the items of `form.contents`, sorted by `int(key)` for a tuple. -/
def recordItems (keys : Option (List String)) (contents : List α) : List (String × α) :=
  match keys with
  | some ks => stdMap (ks.zip contents)
  | none =>
    (stdMap (((List.range contents.length).map (fun i => toString i)).zip contents)).mergeSort
      (fun a b => decide (a.1.toNat?.getD 0 ≤ b.1.toNat?.getD 0))

/-- `numpy.max`. -/
def npMax : List Int → R Int
  | [] => err "zero-size array to reduction operation maximum which has no identity"
  | x :: xs => ok (xs.foldl max x)

/-- convert.py:4459-4474 `_form_to_layout_class`: the keys `"i32"`, `"u32"` and `"i64"`. -/
def wideIndex (kind : IndexKind) : R Unit :=
  if kind = .i32 ∨ kind = .u32 ∨ kind = .i64 then ok () else err "KeyError"

/-- ByteMaskedArray.cpp:252-266 (constructor). -/
def newByteMasked (p : Params) (mask : List Int) (vw : Bool) (c : Content) : R Content :=
  if c.len < mask.length then err "ByteMaskedArray content must not be shorter than its mask"
  else ok (.byteMasked p mask vw c)

/-- BitMaskedArray.cpp:274-298 (constructor). Negative lengths do not occur. -/
def newBitMasked (p : Params) (mask : List Int) (vw : Bool) (length : Int) (lsb : Bool)
    (c : Content) : R Content :=
  if (mask.length : Int) < length / 8 + (if length % 8 ≠ 0 then 1 else 0) then
    err "BitMaskedArray mask must not be shorter than its ceil(length / 8.0)"
  else if (c.len : Int) < length then
    err "BitMaskedArray content must not be shorter than its length"
  else ok (.bitMasked p (mask.map Int.toNat) vw length.toNat lsb c)

/-- RegularArray.cpp:236-258 (constructor). -/
def newRegular (p : Params) (c : Content) (size : Nat) (length : Int) : R Content :=
  if size = 0 ∧ length < 0 then err "RegularArray zeros_length must be non-negative"
  else ok (.regular p c size length.toNat)

/-- UnionArray.cpp:430-447 (constructor). -/
def newUnion (p : Params) (tags index : List Int) (cs : List Content) : R Content :=
  if cs.isEmpty then err "UnionArray must have at least one content"
  else if index.length < tags.length then
    err "UnionArray index must not be shorter than its tags"
  else ok (.union p tags index cs)

/-- ListArray.cpp:263-277 (constructor). -/
def newListArray (p : Params) (starts stops : List Int) (c : Content) : R Content :=
  if stops.length < starts.length then err "ListArray stops must not be shorter than its starts"
  else ok (.listArray p starts stops c)

/-- ListOffsetArray.cpp:250-264 (constructor). -/
def newListOffset (p : Params) (offsets : List Int) (c : Content) : R Content :=
  if offsets.length = 0 then err "ListOffsetArray offsets length must be at least 1"
  else ok (.listOffset p offsets c)

/-- convert.py:4738-4761: the fields of a record and the check of their lengths. A negative length
is not representable here and reported as an error. -/
def newRecord (p : Params) (keys : Option (List String)) (contents : List Content) (length : Int) :
    R Content :=
  if contents.any (fun c => decide (length > (c.len : Int))) then err "RecordArray length mismatch"
  else if length < 0 then err "negative length"
  else ok (.record p keys contents length.toNat)

mutual
/-- convert.py:4433-4911 `_form_to_layout`. The contents of records and unions are closures that
wait for their length, because the loop over the items of a record is in the order of
`recordItems`. -/
def formToLayout (s : Source) : Form → Int → R Content
  | .bitMasked p kind vw lsb c fk, length =>
    s.index fk "mask" kind >>= fun mask =>
    formToLayout s c length >>= fun content =>
    if length > (mask.length : Int) * 8 then err "mask is too short for BitMaskedArray"
    else newBitMasked p mask vw length lsb content
  | .byteMasked p kind vw c fk, length =>
    s.index fk "mask" kind >>= fun mask =>
    if length > mask.length then err "mask is too short for ByteMaskedArray"
    else formToLayout s c length >>= fun content => newByteMasked p mask vw content
  | .empty p _, length =>
    if length ≠ 0 then err "EmptyArray found in node with non-zero expected length"
    else ok (.empty p)
  | .indexed p kind c fk, length =>
    s.index fk "index" kind >>= fun index =>
    if length > index.length then err "index too short for IndexedArray"
    else
      (if index.length = 0 then ok 0 else npMax index >>= fun m => ok (m + 1)) >>= fun n =>
      formToLayout s c n >>= fun content =>
      wideIndex kind >>= fun _ => ok (.indexed p index content)
  | .indexedOption p kind c fk, length =>
    s.index fk "index" kind >>= fun index =>
    if length > index.length then err "index too short for IndexedOptionArray"
    else
      (if index.length = 0 then ok 0 else npMax index >>= fun m => ok (max 0 (m + 1))) >>= fun n =>
      formToLayout s c n >>= fun content =>
      if kind = .i32 ∨ kind = .i64 then ok (.indexedOption p index content) else err "KeyError"
  | .listArray p kstarts kstops c fk, length =>
    s.index fk "starts" kstarts >>= fun starts =>
    s.index fk "stops" kstops >>= fun stops =>
    if length > starts.length then err "starts too short for ListArray"
    else if length > stops.length then err "stops too short for ListArray"
    else
      let stops' := (((starts.take length.toNat).zip (stops.take length.toNat)).filter
        (fun ab => decide (ab.1 ≠ ab.2))).map (fun ab => ab.2)
      (if stops'.length = 0 then ok 0 else npMax stops') >>= fun n =>
      formToLayout s c n >>= fun content =>
      wideIndex kstarts >>= fun _ => newListArray p starts stops content
  | .listOffset p kind c fk, length =>
    s.index fk "offsets" kind >>= fun offsets =>
    if length > (offsets.length : Int) - 1 then err "offsets too short for ListOffsetArray"
    else
      (match offsets.getLast? with | some n => ok n | none => err "IndexError") >>= fun n =>
      formToLayout s c n >>= fun content =>
      wideIndex kind >>= fun _ => newListOffset p offsets content
  | .numpy p dt fk, length =>
    s.container.get (s.key_format fk "data" s.partnum) >>= fun raw =>
    if length > (raw.length / dt.itemsize : Nat) then err "buffer is too short for NumpyArray"
    else viewAs dt.itemsize (atomOf s.fl dt) raw >>= fun data => ok (.numpy p dt data)
  | .record p keys cs _, length =>
    let items := recordItems keys (formsToLayouts s cs)
    mapR (fun item => item.2 length) items >>= fun contents =>
    newRecord p (keys.map (fun _ => items.map (fun item => item.1))) contents length
  | .regular p c size _, length =>
    formToLayout s c (length * size) >>= fun content => newRegular p content size length
  | .union p ktags kindex cs fk, length =>
    s.index fk "tags" ktags >>= fun tags =>
    s.index fk "index" kindex >>= fun index =>
    if length > tags.length then err "tags too short for UnionArray"
    else if length > index.length then err "index too short for UnionArray"
    else
      mapR (fun (fi : (Int → R Content) × Nat) =>
        let mine := (((tags.take length.toNat).zip (index.take length.toNat)).filter
          (fun ti => decide (ti.1 = (fi.2 : Int)))).map (fun ti => ti.2)
        (if mine.length = 0 then ok 0 else npMax mine >>= fun m => ok (m + 1)) >>= fun n =>
        fi.1 n) (formsToLayouts s cs).zipIdx >>= fun contents =>
      wideIndex kindex >>= fun _ => newUnion p tags index contents
  | .unmasked p c _, length => formToLayout s c length >>= fun content => ok (.unmasked p content)
/-- `_form_to_layout` of every member, waiting for the length. -/
def formsToLayouts (s : Source) : List Form → List (Int → R Content)
  | [] => []
  | c :: cs => (fun length => formToLayout s c length) :: formsToLayouts s cs
end

/-- convert.py:5047-5067 with `lazy=False`: `from_buffers` with one length. -/
def fromBuffers (fl : Floats) (key_format : String → String → String → String) (form : Form)
    (length : Nat) (container : Container) (partition_start : Nat) : R Content :=
  formToLayout { fl, key_format, container, partnum := toString partition_start } form length

/-- convert.py:5073-5096 with `lazy=False`: the loop over the lengths; the result is the partitions
and `offsets[1:]`. -/
def fromBuffersNext (fl : Floats) (key_format : String → String → String → String) (form : Form)
    (container : Container) : List Nat → (part : Nat) → (offset : Nat) →
      R (List Content × List Nat)
  | [], _, _ => ok ([], [])
  | partlen :: rest, part, offset =>
    formToLayout { fl, key_format, container, partnum := toString part } form partlen >>= fun c =>
    fromBuffersNext fl key_format form container rest (part + 1) (offset + c.len)
      >>= fun (cs, stops) => ok (c :: cs, (offset + c.len) :: stops)

/-- convert.py:5069-5098 with `lazy=False`: `from_buffers` with several lengths. -/
def fromBuffersParts (fl : Floats) (key_format : String → String → String → String) (form : Form)
    (lengths : List Nat) (container : Container) (partition_start : Nat) :
    R (List Content × List Nat) :=
  fromBuffersNext fl key_format form container lengths partition_start 0
    >>= fun (cs, stops) =>
  if cs.isEmpty then err "PartitionedArray must have at least one partition" else ok (cs, stops)

end Awk
