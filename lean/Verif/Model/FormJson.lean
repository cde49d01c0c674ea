import Verif.Model.Types
import Verif.Model.TypeText
import Verif.Model.Json
/-
The JSON of a form: `Form::tojson` and `Form::fromjson` (src/libawkward/Content.cpp:236-720, and `tojson_part` of the
forms). Between the two is the JSON as a value; its text is not modelled (see C57).

Simplifications:
* the parameters are one value (Content.cpp:770-780 writes a member for each, 263-277 reads them);
* `has_identities` is always false, and a form without a key has the empty key;
* NumpyForms have no `inner_shape`, and VirtualForms are left out, as in `Form`;
* the machine formats of the dtypes (util.cpp:129-283) are arguments: `fmt` writes, `unfmt` reads.
-/

namespace Awk
open R

/-- JSON values. -/
inductive FJson where
  | null
  | bool (b : Bool)
  | int (i : Int)
  | str (s : String)
  | params (p : Params)
  | arr (js : List FJson)
  | obj (members : List (String × FJson))

namespace IndexKind

/-- Index.cpp:42-60 `form2str`. -/
def text : IndexKind → String
  | .i8 => "i8"
  | .u8 => "u8"
  | .i32 => "i32"
  | .u32 => "u32"
  | .i64 => "i64"

/-- `strncmp(str, name, str.length()) == 0`. -/
def startOf (s name : String) : Bool := s.toList.isPrefixOf name.toList

/-- Index.cpp:19-40 `str2form`. -/
def ofText (s : String) : R IndexKind :=
  if startOf s "i8" then ok .i8
  else if startOf s "u8" then ok .u8
  else if startOf s "i32" then ok .i32
  else if startOf s "u32" then ok .u32
  else if startOf s "i64" then ok .i64
  else err "unrecognized Index::Form"

end IndexKind

/-- util.cpp:23-82 `name_to_dtype`, for the dtypes of the model. -/
def dtypeOfName (s : String) : Option DType :=
  match s with
  | "bool" => some .bool
  | "int8" => some .int8
  | "int16" => some .int16
  | "int32" => some .int32
  | "int64" => some .int64
  | "uint8" => some .uint8
  | "uint16" => some .uint16
  | "uint32" => some .uint32
  | "uint64" => some .uint64
  | "float32" => some .float32
  | "float64" => some .float64
  | "complex64" => some .complex64
  | "complex128" => some .complex128
  | s =>
    if "datetime64".toList.isPrefixOf s.toList then some .datetime64
    else if "timedelta64".toList.isPrefixOf s.toList then some .timedelta64
    else none

namespace Form

/-- What all forms write last: Content.cpp:761-792 `identities_tojson`, `parameters_tojson` and `form_key_tojson`. -/
def lastMembers (verbose : Bool) (p : Params) (key : String) : List (String × FJson) :=
  (if verbose then [("has_identities", FJson.bool false)] else []) ++
  ((if verbose || !p.isEmpty then [("parameters", FJson.params p)] else []) ++
  (if key ≠ "" then [("form_key", FJson.str key)] else if verbose then [("form_key", FJson.null)] else []))

/-- The names of the classes by the width of an index: ListArray.cpp:73-84, ListOffsetArray.cpp:67-78,
IndexedArray.cpp:81-92 and 330-338 (`u32 = false`), UnionArray.cpp:77-88. -/
def className (base : String) (u32 : Bool) : IndexKind → String
  | .i32 => base ++ "32"
  | .u32 => if u32 then base ++ "U32" else "Unrecognized" ++ base
  | .i64 => base ++ "64"
  | _ => "Unrecognized" ++ base

/-- NumpyArray.cpp:136-162: the members of a NumpyForm. -/
def numpyMembers (verbose : Bool) (p : Params) (dt : DType) (format : String) (key : String) : List (String × FJson) :=
  ("class", FJson.str "NumpyArray") ::
  ((if verbose then [("inner_shape", FJson.arr [])] else []) ++
  ([("itemsize", FJson.int dt.itemsize), ("format", .str format), ("primitive", .str dt.name)] ++
  lastMembers verbose p key))

mutual
/-- `tojson_part` of each form: EmptyArray.cpp:36-45, NumpyArray.cpp:126-167, RegularArray.cpp:61-74,
ListArray.cpp:69-95, ListOffsetArray.cpp:63-87, IndexedArray.cpp:77-101 and 326-347, ByteMaskedArray.cpp:67-82,
BitMaskedArray.cpp:71-88, UnmaskedArray.cpp:50-61, RecordArray.cpp:111-136, UnionArray.cpp:73-103. Keys are written as
`const char*` (io/json.cpp:33-35), see `cString`. -/
def toJson (fmt : DType → String) (verbose : Bool) : Form → FJson
  | .empty p key => .obj (("class", .str "EmptyArray") :: lastMembers verbose p key)
  | .numpy p dt key =>
    if verbose || !p.isEmpty || key ≠ "" then .obj (numpyMembers verbose p dt (fmt dt) key) else .str dt.name
  | .regular p c size key =>
    .obj ([("class", .str "RegularArray"), ("content", c.toJson fmt verbose), ("size", .int size)] ++
      lastMembers verbose p key)
  | .listArray p starts stops c key =>
    .obj ([("class", .str (className "ListArray" true starts)), ("starts", .str starts.text), ("stops", .str stops.text),
      ("content", c.toJson fmt verbose)] ++ lastMembers verbose p key)
  | .listOffset p offsets c key =>
    .obj ([("class", .str (className "ListOffsetArray" true offsets)), ("offsets", .str offsets.text),
      ("content", c.toJson fmt verbose)] ++ lastMembers verbose p key)
  | .indexed p index c key =>
    .obj ([("class", .str (className "IndexedArray" true index)), ("index", .str index.text),
      ("content", c.toJson fmt verbose)] ++ lastMembers verbose p key)
  | .indexedOption p index c key =>
    .obj ([("class", .str (className "IndexedOptionArray" false index)), ("index", .str index.text),
      ("content", c.toJson fmt verbose)] ++ lastMembers verbose p key)
  | .byteMasked p mask vw c key =>
    .obj ([("class", .str "ByteMaskedArray"), ("mask", .str mask.text), ("content", c.toJson fmt verbose),
      ("valid_when", .bool vw)] ++ lastMembers verbose p key)
  | .bitMasked p mask vw lsb c key =>
    .obj ([("class", .str "BitMaskedArray"), ("mask", .str mask.text), ("content", c.toJson fmt verbose),
      ("valid_when", .bool vw), ("lsb_order", .bool lsb)] ++ lastMembers verbose p key)
  | .unmasked p c key =>
    .obj ([("class", .str "UnmaskedArray"), ("content", c.toJson fmt verbose)] ++ lastMembers verbose p key)
  | .record p none cs key =>
    .obj ([("class", .str "RecordArray"), ("contents", .arr (toJsonAll fmt verbose cs))] ++ lastMembers verbose p key)
  | .record p (some ks) cs key =>
    .obj ([("class", .str "RecordArray"), ("contents", .obj ((ks.map cString).zip (toJsonAll fmt verbose cs)))] ++
      lastMembers verbose p key)
  | .union p tags index cs key =>
    .obj ([("class", .str (className "UnionArray8_" true index)), ("tags", .str tags.text), ("index", .str index.text),
      ("contents", .arr (toJsonAll fmt verbose cs))] ++ lastMembers verbose p key)
/-- The loops of RecordArray.cpp:119-130 and UnionArray.cpp:95-97. -/
def toJsonAll (fmt : DType → String) (verbose : Bool) : List Form → List FJson
  | [] => []
  | c :: cs => c.toJson fmt verbose :: toJsonAll fmt verbose cs
end

/-- The classes that Content.cpp:301-672 knows. -/
inductive Class where
  | numpy | record | listOffset (k : Option IndexKind) | list (k : Option IndexKind) | regular
  | indexedOption (k : Option IndexKind) | indexed (k : Option IndexKind) | byteMasked | bitMasked | unmasked
  | union (k : Option IndexKind) | empty
deriving Repr, DecidableEq

/-- The comparisons with `cls` in Content.cpp:301-672. -/
def classOf (s : String) : Option Class :=
  match s with
  | "NumpyArray" => some .numpy
  | "RecordArray" => some .record
  | "ListOffsetArray" => some (.listOffset none)
  | "ListOffsetArray64" => some (.listOffset (some .i64))
  | "ListOffsetArrayU32" => some (.listOffset (some .u32))
  | "ListOffsetArray32" => some (.listOffset (some .i32))
  | "ListArray" => some (.list none)
  | "ListArray64" => some (.list (some .i64))
  | "ListArrayU32" => some (.list (some .u32))
  | "ListArray32" => some (.list (some .i32))
  | "RegularArray" => some .regular
  | "IndexedOptionArray" => some (.indexedOption none)
  | "IndexedOptionArray64" => some (.indexedOption (some .i64))
  | "IndexedOptionArray32" => some (.indexedOption (some .i32))
  | "IndexedArray" => some (.indexed none)
  | "IndexedArray64" => some (.indexed (some .i64))
  | "IndexedArrayU32" => some (.indexed (some .u32))
  | "IndexedArray32" => some (.indexed (some .i32))
  | "ByteMaskedArray" => some .byteMasked
  | "BitMaskedArray" => some .bitMasked
  | "UnmaskedArray" => some .unmasked
  | "UnionArray" => some (.union none)
  | "UnionArray8_64" => some (.union (some .i64))
  | "UnionArray8_U32" => some (.union (some .u32))
  | "UnionArray8_32" => some (.union (some .i32))
  | "EmptyArray" => some .empty
  | _ => none

/-- E.g. Content.cpp:368-385: the width of an index, which the name of the class or a member says. -/
def readKind (ms : List (String × FJson)) (name : String) (own : Option IndexKind) : R IndexKind :=
  match ms.lookup name with
  | some (.str s) => IndexKind.ofText s >>= fun tmp =>
    if own.isSome ∧ own ≠ some tmp then err "conflicting type" else ok tmp
  | _ => match own with
    | some k => ok k
    | none => err "missing specification"

/-- Content.cpp:254-294: identities, parameters and key. -/
def readMeta (ms : List (String × FJson)) : R (Params × String) :=
  (match ms.lookup "has_identities" with
    | none | some (.bool _) => ok ()
    | _ => err "'has_identities' must be boolean") >>= fun _ =>
  (match ms.lookup "parameters" with
    | none => ok {}
    | some (.params p) => ok p
    | _ => err "'parameters' must be a JSON object") >>= fun p =>
  (match ms.lookup "form_key" with
    | none | some .null => ok ""
    | some (.str s) => ok (cString s)
    | _ => err "'form_key' must be null or a string") >>= fun f => ok (p, f)

/-- Content.cpp:302-324: the dtype and the format of a NumpyForm. With `primitive`, both are those of the name:
util.cpp:275-279 gives dates without units. -/
def readNumpy (fmt : DType → String) (unfmt : String → Int → R DType) (ms : List (String × FJson)) : R (DType × String) :=
  match ms.lookup "primitive" with
  | some (.str s) => match dtypeOfName s with
    | some dt => ok (dt, fmt dt)
    | none => err "JSON cannot be recognized as a Form"
  | _ => match ms.lookup "format", ms.lookup "itemsize" with
    | some (.str s), some (.int i) => unfmt s i >>= fun dt => ok (dt, s)
    | _, _ => err "NumpyForm must have a 'primitive' field or 'format' and 'itemsize'"

/-- A member that must be a boolean, e.g. Content.cpp:539-543. -/
def readBool (ms : List (String × FJson)) (name : String) : R Bool :=
  match ms.lookup name with
  | some (.bool b) => ok b
  | _ => err "is missing"

/-- Content.cpp:449-453: `IsInt` is true of integers of 32 bits. -/
def readSize (ms : List (String × FJson)) : R Nat :=
  match ms.lookup "size" with
  | some (.int i) => if -2 ^ 31 ≤ i ∧ i < 2 ^ 31 then ok i.toNat else err "is missing its 'size'"
  | _ => err "is missing its 'size'"

/-- A member that must be there, e.g. Content.cpp:386-389. -/
def readMember (ms : List (String × FJson)) (name : String) : R FJson :=
  match ms.lookup name with
  | some j => ok j
  | none => err "is missing"

/-- Content.cpp:236-681 `fromjson_part`, with a bound on the depth of the recursion (`ub` beyond it). The class
"ListOffsetArray" reads `is64`, which nothing has set (lines 296-299 and 364-371): `isgen` is true, so that the other
comparisons are skipped. For the other classes of that kind, failed comparisons have set it. A negative size is not
rejected; here it is 0. -/
def fromJson (fmt : DType → String) (unfmt : String → Int → R DType) : Nat → FJson → R Form
  | 0, _ => ub
  | _ + 1, .str s => match dtypeOfName s with
    | some dt => ok (.numpy {} dt "")
    | none => err "JSON cannot be recognized as a Form"
  | n + 1, .obj ms => match ms.lookup "class" with
    | some (.str s) => readMeta ms >>= fun pk => match classOf s with
      | some .numpy => readNumpy fmt unfmt ms >>= fun d => ok (.numpy pk.1 d.1 pk.2)
      | some .record => match ms.lookup "contents" with
        | some (.arr js) => mapR (fromJson fmt unfmt n) js >>= fun cs => ok (.record pk.1 none cs pk.2)
        | some (.obj kjs) => mapR (fun kj => fromJson fmt unfmt n kj.2) kjs >>= fun cs =>
          ok (.record pk.1 (some (kjs.map (fun kj => cString kj.1))) cs pk.2)
        | _ => err "RecordArray 'contents' must be a JSON list or a JSON object"
      | some (.listOffset none) => ub
      | some (.listOffset (some k)) => readKind ms "offsets" (some k) >>= fun offsets =>
        readMember ms "content" >>= fun j => fromJson fmt unfmt n j >>= fun c => ok (.listOffset pk.1 offsets c pk.2)
      | some (.list k) => readKind ms "starts" k >>= fun starts => readKind ms "stops" k >>= fun stops =>
        readMember ms "content" >>= fun j => fromJson fmt unfmt n j >>= fun c => ok (.listArray pk.1 starts stops c pk.2)
      | some .regular => readMember ms "content" >>= fun j => fromJson fmt unfmt n j >>= fun c =>
        readSize ms >>= fun size => ok (.regular pk.1 c size pk.2)
      | some (.indexedOption k) => readKind ms "index" k >>= fun index =>
        readMember ms "content" >>= fun j => fromJson fmt unfmt n j >>= fun c => ok (.indexedOption pk.1 index c pk.2)
      | some (.indexed k) => readKind ms "index" k >>= fun index =>
        readMember ms "content" >>= fun j => fromJson fmt unfmt n j >>= fun c => ok (.indexed pk.1 index c pk.2)
      | some .byteMasked => readKind ms "mask" none >>= fun mask =>
        readMember ms "content" >>= fun j => fromJson fmt unfmt n j >>= fun c =>
        readBool ms "valid_when" >>= fun vw => ok (.byteMasked pk.1 mask vw c pk.2)
      | some .bitMasked => readKind ms "mask" none >>= fun mask =>
        readMember ms "content" >>= fun j => fromJson fmt unfmt n j >>= fun c =>
        readBool ms "valid_when" >>= fun vw => readBool ms "lsb_order" >>= fun lsb =>
        ok (.bitMasked pk.1 mask vw lsb c pk.2)
      | some .unmasked => readMember ms "content" >>= fun j => fromJson fmt unfmt n j >>= fun c =>
        ok (.unmasked pk.1 c pk.2)
      | some (.union k) => readKind ms "tags" (k.map (fun _ => IndexKind.i8)) >>= fun tags =>
        readKind ms "index" k >>= fun index => (match ms.lookup "contents" with
        | some (.arr js) => mapR (fromJson fmt unfmt n) js >>= fun cs => ok (.union pk.1 tags index cs pk.2)
        | _ => err "'contents' must be a JSON list")
      | some .empty => ok (.empty pk.1 pk.2)
      | none => err "JSON cannot be recognized as a Form"
    | _ => err "JSON cannot be recognized as a Form"
  | _ + 1, _ => err "JSON cannot be recognized as a Form"

end Form
end Awk
