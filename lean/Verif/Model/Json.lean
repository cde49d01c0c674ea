import Verif.Model.Builder
import Verif.Model.List
/-
Model of `ak.to_json` (`Content::tojson`, `tojson_part` of every class) and `ak.from_json`
(`FromJsonString`, `FromJsonFile`), src/libawkward/io/json.cpp.

Simplifications:
* The text of JSON is written and read by RapidJSON (`rj::Writer`, `rj::Reader`), which is not part of
  the code modelled here. An `Event` is one call of a method of the writer, or one call of a method of
  the reader's handler; the text stands for the sequence of events.
* Reals are rationals, so `nan_string`, `infinity_string`, `minus_infinity_string` and `maxdecimals`
  are not modelled.
* The type of an integer token in `Handler` (`Int`, `Uint`, `Int64`, `Uint64`) follows from its value;
  tokens outside of the range of `int64_t` and `uint64_t` are `Double` events.
* `complex_record_fields` of `from_json`, which is done in Python after reading, is not modelled.
-/

namespace Awk
open R

/-- The methods of `rj::Writer` that `ToJsonString::Impl` calls (json.cpp:74-107), and of `Handler`
(json.cpp:641-760). -/
inductive Event where
  | null
  | bool (x : Bool)
  | int (x : Int)
  | real (x : Rat)
  | str (codes : List Nat)
  | startArray
  | endArray
  | startObject
  | key (k : String)
  | endObject
deriving Repr, DecidableEq

/-- The conversion to `int64_t` of an integer. -/
def toInt64 (x : Int) : Int := x.bmod (2 ^ 64)

/-- A C++ string that is given to a function as `const char*` (`c_str()`): it ends before the first
character NUL. -/
def cString (s : String) : String := String.ofList (s.toList.takeWhile (fun c => c ≠ '\x00'))

/-- NumpyArray.cpp:4865-4992 `tojson_boolean`, `tojson_integer`, `tojson_real` and `tojson_complex` for
one item, with json.cpp:80-98 and 161-173. `names` is `complex_record_fields`. -/
def atomEvents (names : Option (String × String)) : Atom → R (List Event)
  | .bool b => ok [.bool b]
  | .int i => ok [.int (toInt64 i)]
  | .real x => ok [.real x]
  | .complex re im => match names with
    | some (k, l) => ok [.startObject, .key (cString k), .real re, .key (cString l), .real im, .endObject]
    | none => err "Complex numbers can't be converted to JSON without setting 'complex_record_fields'"
  | .datetime _ | .timedelta _ => err "cannot convert Numpy format into JSON"

/-- NumpyArray.cpp:4994-5025 `tojson_string`: one `char` of the string. The code reads the memory of the
array as bytes, whatever its dtype is; for dtypes other than one-byte integers this is not modelled. -/
def charCode : Atom → R Nat
  | .int i => ok (i % 256).toNat
  | _ => ub

namespace Content

/-- NumpyArray.cpp:1020-1088 `tojson_part`. -/
def numpyEvents (names : Option (String × String)) (p : Params) (dt : DType) (data : List Atom) :
    R (List Event) :=
  if p.arr = .byte ∨ p.arr = .char then mapR charCode data >>= fun codes => ok [.str codes]
  else if dt = .datetime64 ∨ dt = .timedelta64 then err "cannot convert Numpy format into JSON"
  else mapR (atomEvents names) data >>= fun es => ok ([.startArray] ++ es.flatten ++ [.endArray])

/-- RecordArray.cpp:688-694, Record.cpp:129-135: the keys of the JSON object. -/
def jsonKeys (keys : Option (List String)) (cols : Nat) : List String :=
  match keys with
  | some ks => ks
  | none => (List.range cols).map (fun j => toString j)

/-- RecordArray.cpp:701-705, Record.cpp:138-142: the loop over the fields. `f` writes an item of one of
them. -/
def fieldEvents (f : Content → R (List Event)) : List String → List Content → R (List Event)
  | _, [] => ok []
  | [], _ :: _ => err "vector::at"
  | k :: ks, c :: cs =>
    f c >>= fun es => fieldEvents f ks cs >>= fun rest => ok ([.key (cString k)] ++ es ++ rest)

/-- `tojson_part` of what `getitem_at_nowrap` returns: None.cpp:80-84, Record.cpp:126-144,
EmptyArray.cpp:265-273, RegularArray.cpp:528-541, ListArray.cpp:564-579, ListOffsetArray.cpp:576-591,
IndexedArray.cpp:1167-1182, ByteMaskedArray.cpp:531-545, BitMaskedArray.cpp:549-563,
UnmaskedArray.cpp:453-457, RecordArray.cpp:684-711, UnionArray.cpp:994-1009. A RecordArray writes its
elements without making `Record` objects, with the same code. The first argument bounds the
depth of the recursion. A scalar of an array with `__array__` = "char" or "byte" is written as a
string of length 1; such an array outside of a list is not valid, and is not modelled. -/
def itemEvents (names : Option (String × String)) : Nat → Item → R (List Event)
  | 0, _ => ub
  | _ + 1, .none => ok [.null]
  | _ + 1, .scalar a => atomEvents names a
  | f + 1, .record (.record _ keys cs _) i =>
    fieldEvents (fun c => c.getitemAtNowrap i >>= itemEvents names f) (jsonKeys keys cs.length) cs
      >>= fun es => ok ([.startObject] ++ es ++ [.endObject])
  | _ + 1, .record _ _ => ub
  | _ + 1, .array (.numpy p dt data) => numpyEvents names p dt data
  | f + 1, .array c =>
    mapN c.len (fun i => c.getitemAtNowrap i >>= itemEvents names f) >>= fun es =>
    ok ([.startArray] ++ es.flatten ++ [.endArray])

/-- Content.cpp:821-849 `Content::tojson`, `ak.to_json(array)` (convert.py:1117-1235). -/
def tojson (names : Option (String × String)) (c : Content) : R (List Event) :=
  itemEvents names (c.rank + 1) (.array c)

end Content

/-- json.cpp:641-760 `Handler`: the command for the ArrayBuilder. -/
def handler : Event → Op
  | .null => .null
  | .bool x => .bool x
  | .int x => .int (toInt64 x)
  | .real x => .real x
  | .str codes => .str true codes
  | .startArray => .beginList
  | .endArray => .endList
  | .startObject => .beginRecord none
  | .key k => .field (cString k)
  | .endObject => .endRecord

/-- json.cpp:763-805 `do_parse`, with json.cpp:807-842: the text is a sequence of documents. If
there is one, the result is its value, and otherwise the array of all. -/
def fromjson (same : Content → Content → Bool) (cap : Nat → Nat) (documents : List (List Event)) :
    R Item :=
  Builder.run cap (.unknown 0) (documents.flatten.map handler) >>= fun b =>
  b.snapshot same >>= fun obj =>
  if documents.length = 1 then obj.getitemAtNowrap 0 else ok (.array obj)

end Awk
