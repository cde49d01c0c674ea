import Verif.Model.Types
/-
`ak.with_parameter` (src/awkward/operations/structure.py:1002-1038) and `ak.parameters`
(src/awkward/operations/describe.py:216-249).
-/

namespace Awk
open R

/-- A value of a parameter in Python: `None`, a string, or anything else by the text of `json.dumps`. -/
inductive ParamValue where
  | null
  | str (s : String)
  | json (text : String)
deriving Repr, DecidableEq

namespace ParamValue

/-- `json.dumps` (src/python/content.cpp:1275). Simplified: strings are not escaped. -/
def dumps : ParamValue → String
  | null => "null"
  | str s => "\"" ++ s ++ "\""
  | json text => text

end ParamValue

namespace Params

/-- Content.cpp:1185-1192 `parameter`: the text of the value, or `null`. -/
def parameter (p : Params) (key : String) : String :=
  if key = "__array__" then ((p.arr.name).map (fun s => (ParamValue.str s).dumps)).getD "null"
  else if key = "__record__" then (p.recName.map (fun s => (ParamValue.str s).dumps)).getD "null"
  else (p.other.lookup key).getD "null"

/-- The values of `__array__` that the model has. -/
def arrKindOf : String → Option ArrKind
  | "string" => some .string
  | "bytestring" => some .bytestring
  | "char" => some .char
  | "byte" => some .byte
  | "categorical" => some .categorical
  | _ => none

/-- Content.cpp:1194-1202 `setparameter`: `null` erases, other values are inserted or replaced. `none` if the
parameters of the model cannot hold the value: unknown values of `__array__`, and values of `__record__` that are not
strings. -/
def setParameter (p : Params) (key : String) (value : ParamValue) : Option Params :=
  if key = "__array__" then
    match value with
    | .str s => (arrKindOf s).map (fun a => { p with arr := a })
    | v => if v.dumps = "null" then some { p with arr := .none } else none
  else if key = "__record__" then
    match value with
    | .str s => some { p with recName := some s }
    | v => if v.dumps = "null" then some { p with recName := none } else none
  else if value.dumps = "null" then some { p with other := p.other.filter (fun kv => kv.1 ≠ key) }
  else some (p.setOther key value.dumps)

end Params

namespace Content

/-- `shallow_copy` of each class (e.g. ListOffsetArray.cpp `shallow_copy`) with other parameters. -/
def setParameters (q : Params) : Content → Content
  | empty _ => empty q
  | numpy _ dt data => numpy q dt data
  | regular _ c size zeros => regular q c size zeros
  | listArray _ starts stops c => listArray q starts stops c
  | listOffset _ offsets c => listOffset q offsets c
  | indexed _ index c => indexed q index c
  | indexedOption _ index c => indexedOption q index c
  | byteMasked _ mask vw c => byteMasked q mask vw c
  | bitMasked _ mask vw length lsb c => bitMasked q mask vw length lsb c
  | unmasked _ c => unmasked q c
  | record _ keys cs length => record q keys cs length
  | union _ tags index cs => union q tags index cs

/-- src/python/content.cpp:1273-1279 `withparameter`. `none` as in `Params.setParameter`. -/
def withParameter (key : String) (value : ParamValue) (c : Content) : Option Content :=
  (c.params.setParameter key value).map (fun q => c.setParameters q)

end Content

/-- What `to_layout(array, allow_record=True, allow_other=False)` gives, without partitions: an array, or the record at
a position of a RecordArray. -/
inductive Layout where
  | array (c : Content)
  | record (c : Content) (at' : Nat)

namespace Layout

/-- describe.py:216-249 `parameters`, one key; Record.cpp:16-19: a record has those of its RecordArray. -/
def parameter (key : String) : Layout → String
  | array c => c.params.parameter key
  | record c _ => c.params.parameter key

/-- structure.py:1023-1031 `with_parameter`. The class of single records (src/python/content.cpp:2465-2560) has no method
`withparameter`. `ok none` as in `Params.setParameter`. -/
def withParameter (key : String) (value : ParamValue) : Layout → R (Option Layout)
  | array c => ok ((c.withParameter key value).map Layout.array)
  | record _ _ => err "AttributeError: 'Record' object has no attribute 'withparameter'"

end Layout
end Awk
