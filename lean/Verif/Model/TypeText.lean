import Verif.Model.Types
/-
Types as text: `tostring_part` of each type (src/libawkward/type/*.cpp) and `ak.types.from_datashape`
(src/awkward/_typeparser/parser.py with the grammar src/awkward/_typeparser/type-grammar.lark).

Simplifications:
* text is a sequence of tokens: symbols, words (letters, digits and underscores), text in quotes and
  numbers. The white space between them is left out (`%ignore WS`);
* a JSON value in the parameters is one token. What Python makes of it (`json` and `dict2parameters`)
  is an argument of the reader;
* the LALR parser that Lark generated from the grammar is replaced by one that looks at the next
  token; the values that `toast` makes of the parse tree are computed at once;
* the word `parameters` cannot begin a name anywhere, not only in a union.
-/

namespace Awk
open R

/-- The tokens of the text. -/
inductive Tok where
  | sym (c : Char)
  | word (s : String)
  | quoted (s : List Char)
  | num (n : Nat)
  | value (text : String)
deriving Repr, DecidableEq

/-- One hexadecimal digit of the RapidJSON writer. -/
def hexDigit (n : Nat) : Char := ("0123456789ABCDEF".toList[n]?).getD '0'

/-- `rapidjson::Writer::WriteString`: the characters that are written for one character. -/
def escapeChar (c : Char) : List Char :=
  if c = '"' then ['\\', '"']
  else if c = '\\' then ['\\', '\\']
  else if c.toNat ≥ 32 then [c]
  else if c.toNat = 8 then ['\\', 'b']
  else if c.toNat = 9 then ['\\', 't']
  else if c.toNat = 10 then ['\\', 'n']
  else if c.toNat = 12 then ['\\', 'f']
  else if c.toNat = 13 then ['\\', 'r']
  else ['\\', 'u', '0', '0', hexDigit (c.toNat / 16), hexDigit (c.toNat % 16)]

/-- src/libawkward/util.cpp:488-494 `quote`, what is between the quotes. -/
def escape (s : String) : List Char := s.toList.flatMap escapeChar

/-- A hexadecimal digit in the regular expression of type-grammar.lark:75. -/
def isHex (c : Char) : Bool :=
  ('0' ≤ c && c ≤ '9') || ('a' ≤ c && c ≤ 'f') || ('A' ≤ c && c ≤ 'F')

/-- type-grammar.lark:75, the regular expression for text in double quotes, without the quotes. -/
def stringOk : List Char → Bool
  | [] => true
  | '\\' :: 'u' :: a :: b :: c :: d :: cs =>
    isHex a && isHex b && isHex c && isHex d && stringOk cs
  | '\\' :: c :: cs => ['"', 'b', 'f', 'n', 'r', 't'].contains c && stringOk cs
  | ['\\'] => false
  | c :: cs => c != '"' && c != '\n' && c != '\r' && stringOk cs

namespace Params

/-- `parameters_.size()`. -/
def size (p : Params) : Nat :=
  (if p.arr = .none then 0 else 1) + (if p.recName.isNone then 0 else 1) + p.other.length

/-- `parameter_equals("__categorical__", "true")`. -/
def isCategorical (p : Params) : Bool := p.other.lookup "__categorical__" == some "true"

/-- Type.cpp:103-114 `parameters_empty`. -/
def looksEmpty (p : Params) : Bool :=
  p.isEmpty || (decide (p.size = 1) && p.isCategorical)

/-- Type.cpp:126-141 `string_parameters`: the entries, which the `std::map` has in another order. -/
def entries (p : Params) : List (String × Tok) :=
  (p.arr.name.map (fun n => ("__array__", Tok.quoted (escape n)))).toList ++
  (p.recName.map (fun n => ("__record__", Tok.quoted (escape n)))).toList ++
  (p.other.filter (fun kv => kv.1 ≠ "__categorical__")).map (fun kv => (kv.1, .value kv.2))

end Params

/-- `out << ", "` between items. -/
def commas : List (List Tok) → List Tok
  | [] => []
  | [x] => x
  | x :: y :: xs => x ++ .sym ',' :: commas (y :: xs)

/-- Type.cpp:126-141 `string_parameters`. -/
def Params.text (p : Params) : List Tok :=
  [.word "parameters", .sym '=', .sym '{'] ++
  commas (p.entries.map (fun kv => [.quoted (escape kv.1), .sym ':', kv.2])) ++ [.sym '}']

/-- Type.cpp:116-124 `wrap_categorical`. -/
def Params.wrap (p : Params) (text : List Tok) : List Tok :=
  if p.isCategorical then
    [.word "categorical", .sym '[', .word "type", .sym '='] ++ text ++ [.sym ']']
  else text

/-- util::dtype_to_name (src/libawkward/util.cpp:84-126). -/
def DType.name : DType → String
  | .bool => "bool"
  | .int8 => "int8"
  | .int16 => "int16"
  | .int32 => "int32"
  | .int64 => "int64"
  | .uint8 => "uint8"
  | .uint16 => "uint16"
  | .uint32 => "uint32"
  | .uint64 => "uint64"
  | .float32 => "float32"
  | .float64 => "float64"
  | .complex64 => "complex64"
  | .complex128 => "complex128"
  | .datetime64 => "datetime64"
  | .timedelta64 => "timedelta64"

/-- RecordType.cpp:55-63 `datashape_keywords`. -/
def datashapeKeywords : List String :=
  ["var", "option", "bool", "int8", "int16", "int32", "int64", "int128", "uint8", "uint16",
    "uint32", "uint64", "uint128", "float16", "float32", "float64", "float128", "decimal32",
    "decimal64", "decimal128", "bignum", "int", "real", "complex", "intptr", "uintptr", "string",
    "char", "bytes", "date", "json", "void", "datetime", "categorical", "pointer"]

/-- The letters `a`-`z` and `A`-`Z`. -/
def isLetter (c : Char) : Bool := ('a' ≤ c && c ≤ 'z') || ('A' ≤ c && c ≤ 'Z')

/-- src/libawkward/util.cpp:688-717 `parameter_isname`, on the string. -/
def isName (s : String) : Bool :=
  match s.toList with
  | [] => false
  | c :: cs =>
    (isLetter c || c == '_') && cs.all (fun c => isLetter c || ('0' ≤ c && c ≤ '9') || c == '_')

/-- RecordType.cpp:75-80: the name that is printed in front of the fields. -/
def Params.shownName (p : Params) : Option String :=
  match p.recName with
  | none => none
  | some n => if p.size = 1 ∧ isName n = true ∧ n ∉ datashapeKeywords then some n else none

/-- A key and the text of its type. -/
def keyed (keys : Option (List String)) (texts : List (List Tok)) : List (List Tok) :=
  match keys with
  | none => texts
  | some ks => ks.zipWith (fun k t => .quoted (escape k) :: .sym ':' :: t) texts

namespace AkType

/-- The `dynamic_cast`s of OptionType.cpp:32-33. -/
def isListType : AkType → Bool
  | list .. | regular .. => true
  | _ => false

/-- RecordType.cpp:74-147, without `wrap_categorical`. -/
def recordText (p : Params) (keys : Option (List String)) (texts : List (List Tok)) : List Tok :=
  match p.shownName with
  | some n => [.word n, .sym '['] ++ commas (keyed keys texts) ++ [.sym ']']
  | none =>
    if p.looksEmpty then
      match keys with
      | some _ => [.sym '{'] ++ commas (keyed keys texts) ++ [.sym '}']
      | none => [.sym '('] ++ commas texts ++ [.sym ')']
    else
      (match keys with
        | some ks => [.word "struct", .sym '[', .sym '['] ++
            commas (ks.map (fun k => [.quoted (escape k)])) ++ [.sym ']', .sym ',', .sym '[']
        | none => [.word "tuple", .sym '[', .sym '[']) ++
      commas texts ++ [.sym ']', .sym ','] ++ p.text ++ [.sym ']']

mutual
/-- `tostring_part` of each type: UnknownType.cpp:16-33, PrimitiveType.cpp:20-38, ListType.cpp:19-39,
RegularType.cpp:21-41, OptionType.cpp:21-48, RecordType.cpp:65-148, UnionType.cpp:21-43,
ArrayType.cpp:18-28. -/
def text : AkType → List Tok
  | unknown m =>
    m.params.wrap (if m.typestr ≠ "" then [.word m.typestr]
      else if m.params.looksEmpty then [.word "unknown"]
      else [.word "unknown", .sym '['] ++ m.params.text ++ [.sym ']'])
  | prim m dt =>
    m.params.wrap (if m.typestr ≠ "" then [.word m.typestr]
      else if m.params.looksEmpty then [.word dt.name]
      else [.word dt.name, .sym '['] ++ m.params.text ++ [.sym ']'])
  | list m t =>
    m.params.wrap (if m.typestr ≠ "" then [.word m.typestr]
      else if m.params.looksEmpty then [.word "var", .sym '*'] ++ t.text
      else [.sym '[', .word "var", .sym '*'] ++ t.text ++ [.sym ','] ++ m.params.text ++ [.sym ']'])
  | regular m t n =>
    m.params.wrap (if m.typestr ≠ "" then [.word m.typestr]
      else if m.params.looksEmpty then [.num n, .sym '*'] ++ t.text
      else [.sym '[', .num n, .sym '*'] ++ t.text ++ [.sym ','] ++ m.params.text ++ [.sym ']'])
  | option m t =>
    m.params.wrap (if m.typestr ≠ "" then [.word m.typestr]
      else if m.params.looksEmpty then
        if t.isListType then [.word "option", .sym '['] ++ t.text ++ [.sym ']']
        else [.sym '?'] ++ t.text
      else [.word "option", .sym '['] ++ t.text ++ [.sym ','] ++ m.params.text ++ [.sym ']'])
  | record m keys ts =>
    m.params.wrap (if m.typestr ≠ "" then [.word m.typestr]
      else recordText m.params keys (texts ts))
  | union m ts =>
    m.params.wrap (if m.typestr ≠ "" then [.word m.typestr]
      else [.word "union", .sym '['] ++ commas (texts ts) ++
        (if m.params.looksEmpty then [] else [.sym ','] ++ m.params.text) ++ [.sym ']'])
  | array m t n =>
    if m.typestr ≠ "" then [.word m.typestr] else [.num n, .sym '*'] ++ t.text
/-- The texts of the members. -/
def texts : List AkType → List (List Tok)
  | [] => []
  | t :: ts => t.text :: texts ts
end

end AkType

/-! ### Reading -/

/-- The terminals of the grammar that are words. -/
inductive Term where
  | type (dt : DType)
  | hardcoded (s : String)
  | keyword (s : String)
  | name (s : String)
deriving Repr, DecidableEq

/-- The words of the grammar that can stand where a type is expected, and `parameters`:
type-grammar.lark:18-64. -/
def typeWords : List (String × Term) :=
  [("int8", .type .int8), ("int16", .type .int16), ("int32", .type .int32),
    ("int64", .type .int64), ("uint8", .type .uint8), ("uint16", .type .uint16),
    ("uint32", .type .uint32), ("uint64", .type .uint64), ("float32", .type .float32),
    ("float64", .type .float64), ("bool", .type .bool), ("string", .hardcoded "string"),
    ("char", .hardcoded "char"), ("bytes", .hardcoded "bytes"), ("byte", .hardcoded "byte"),
    ("unknown", .keyword "unknown"), ("option", .keyword "option"), ("union", .keyword "union"),
    ("var", .keyword "var"), ("tuple", .keyword "tuple"), ("struct", .keyword "struct"),
    ("categorical", .keyword "categorical"), ("int128", .keyword "int128"),
    ("uint128", .keyword "uint128"), ("parameters", .keyword "parameters")]

/-- The contextual lexer of Lark where a type is expected: the words of the grammar are tried before
the names (type-grammar.lark:76, priority -1), also when only the beginning of the word matches, and
what remains is then refused by the parser. A name has only letters. -/
def lexWord (w : String) : R Term :=
  match typeWords.lookup w with
  | some t => ok t
  | none =>
    if typeWords.any (fun kw => kw.1.toList.isPrefixOf w.toList) then err "unexpected characters"
    else if w ≠ "" ∧ w.toList.all isLetter = true then ok (.name w)
    else err "unexpected characters"

/-- The next token. -/
def expect (t : Tok) : List Tok → R (List Tok)
  | [] => err "unexpected end of the text"
  | x :: xs => if x = t then ok xs else err "unexpected token"

/-- parser.py:13-17 `TreeToJson.string`: the text between the quotes as it is. -/
def readString : List Tok → R (String × List Tok)
  | .quoted cs :: rest => if stringOk cs then ok (String.ofList cs, rest) else err "unexpected characters"
  | _ => err "unexpected token"

/-- The values of `__array__`. -/
def arrKindOf : String → R ArrKind
  | "string" => ok .string
  | "bytestring" => ok .bytestring
  | "char" => ok .char
  | "byte" => ok .byte
  | "categorical" => ok .categorical
  | _ => err "other values of __array__ are not modelled"

/-- One entry of the dict of parameters. -/
def setEntry (json : String → R String) (p : Params) (key : String) (v : Tok) : R Params :=
  match v with
  | .quoted cs =>
    if ¬ stringOk cs = true then err "unexpected characters"
    else if key = "__array__" then arrKindOf (String.ofList cs) >>= fun k => ok { p with arr := k }
    else if key = "__record__" then ok { p with recName := some (String.ofList cs) }
    else json (String.ofList ('"' :: cs ++ ['"'])) >>= fun s => ok (p.setOther key s)
  | .value text =>
    if key = "__array__" ∨ key = "__record__" then err "not text: not modelled"
    else json text >>= fun s => ok (p.setOther key s)
  | _ => err "unexpected token"

/-- type-grammar.lark:73-74 `dict_obj` and `pair`, after the brace. -/
def readEntries (json : String → R String) : List Tok → Params → R (Params × List Tok)
  | k :: .sym ':' :: v :: .sym '}' :: rest, p =>
    readString [k] >>= fun ks => setEntry json p ks.1 v >>= fun q => ok (q, rest)
  | k :: .sym ':' :: v :: .sym ',' :: rest, p =>
    readString [k] >>= fun ks => setEntry json p ks.1 v >>= fun q => readEntries json rest q
  | _, _ => err "unexpected token"

/-- type-grammar.lark:51 `def_option`. -/
def readParams (json : String → R String) (ts : List Tok) : R (Params × List Tok) :=
  expect (.word "parameters") ts >>= fun ts => expect (.sym '=') ts >>= fun ts =>
  expect (.sym '{') ts >>= fun ts =>
  match ts with
  | .sym '}' :: rest => ok ({}, rest)
  | ts => readEntries json ts {}

/-- type-grammar.lark:50 `options`, in brackets when they are optional. -/
def readOptions (json : String → R String) (ts : List Tok) : R (Params × List Tok) :=
  match ts with
  | .sym '[' :: rest =>
    readParams json rest >>= fun pr => expect (.sym ']') pr.2 >>= fun ts => ok (pr.1, ts)
  | ts => ok ({}, ts)

/-- parser.py, `parms.update({"__categorical__": True})` in each case. -/
def catParams (cat : Bool) (p : Params) : TyMeta :=
  { params := if cat then p.setCategorical else p }

/-- type-grammar.lark:46 `record_struct`: the keys, after the first bracket. -/
def readKeys : List Tok → R (List String × List Tok)
  | k :: .sym ',' :: rest =>
    readString [k] >>= fun ks => readKeys rest >>= fun r => ok (ks.1 :: r.1, r.2)
  | k :: .sym ']' :: rest => readString [k] >>= fun ks => ok ([ks.1], rest)
  | _ => err "unexpected token"

/-- parser.py:48-86, the predefined types. -/
def hardcodedType (cat : Bool) : String → R AkType
  | "string" => ok (.list { params := (catParams cat { arr := .string }).params, typestr := "string" }
      (.prim { params := { arr := .char }, typestr := "char" } .uint8))
  | "char" => ok (.prim { params := (catParams cat { arr := .char }).params, typestr := "char" } .uint8)
  | "byte" => ok (.prim { params := (catParams cat { arr := .byte }).params, typestr := "byte" } .uint8)
  | "bytes" => ok (.list
      { params := (catParams cat { arr := .bytestring }).params, typestr := "bytes" }
      (.prim { params := { arr := .byte }, typestr := "byte" } .uint8))
  | _ => err "Unhandled typestring"

mutual
/-- `input` of the grammar (type-grammar.lark:3-51) with `toast` (parser.py:40-287). `cat` is the
argument `categorical`. -/
def readType (json : String → R String) (high : Bool) : Nat → Bool → List Tok →
    R (AkType × List Tok)
  | 0, _, _ => err "not enough steps"
  | f + 1, cat, ts => match ts with
    | .word w :: rest => lexWord w >>= fun
      | .type dt => readOptions json rest >>= fun pr => ok (.prim (catParams cat pr.1) dt, pr.2)
      | .hardcoded s => hardcodedType cat s >>= fun t => ok (t, rest)
      | .name n =>
        expect (.sym '[') rest >>= fun rest => readFields json high f rest >>= fun r =>
        expect (.sym ']') r.2.2 >>= fun rest =>
        if high then ok (.record (catParams cat { recName := some n }) (some r.1) r.2.1, rest)
        else err "assert high_level"
      | .keyword k =>
        if k = "unknown" then
          readOptions json rest >>= fun pr => ok (.unknown (catParams cat pr.1), pr.2)
        else if k = "var" then
          expect (.sym '*') rest >>= fun rest => readType json high f false rest >>= fun r =>
          ok (.list (catParams cat {}) r.1, r.2)
        else if k = "option" then
          expect (.sym '[') rest >>= fun rest => readType json high f false rest >>= fun r =>
          match r.2 with
          | .sym ',' :: rest =>
            readParams json rest >>= fun pr => expect (.sym ']') pr.2 >>= fun rest =>
            ok (.option (catParams cat pr.1) r.1, rest)
          | rest =>
            expect (.sym ']') rest >>= fun rest =>
            if high then ok (.option (catParams cat {}) r.1, rest) else err "assert high_level"
        else if k = "union" then
          expect (.sym '[') rest >>= fun rest => readTypes json high f rest >>= fun r =>
          match r.2 with
          | .sym ',' :: rest =>
            readParams json rest >>= fun pr => expect (.sym ']') pr.2 >>= fun rest =>
            ok (.union (catParams cat pr.1) r.1, rest)
          | rest => expect (.sym ']') rest >>= fun rest => ok (.union (catParams cat {}) r.1, rest)
        else if k = "tuple" then
          expect (.sym '[') rest >>= fun rest => expect (.sym '[') rest >>= fun rest =>
          readTypes json high f rest >>= fun r => expect (.sym ']') r.2 >>= fun rest =>
          expect (.sym ',') rest >>= fun rest => readParams json rest >>= fun pr =>
          expect (.sym ']') pr.2 >>= fun rest => ok (.record (catParams cat pr.1) none r.1, rest)
        else if k = "struct" then
          expect (.sym '[') rest >>= fun rest => expect (.sym '[') rest >>= fun rest =>
          readKeys rest >>= fun ks => expect (.sym ',') ks.2 >>= fun rest =>
          expect (.sym '[') rest >>= fun rest =>
          readTypes json high f rest >>= fun r => expect (.sym ']') r.2 >>= fun rest =>
          expect (.sym ',') rest >>= fun rest => readParams json rest >>= fun pr =>
          expect (.sym ']') pr.2 >>= fun rest =>
          if ks.1.length = r.1.length then ok (.record (catParams cat pr.1) (some ks.1) r.1, rest)
          else err "recordlookup and types must have the same length"
        else if k = "categorical" then
          expect (.sym '[') rest >>= fun rest => expect (.word "type") rest >>= fun rest =>
          expect (.sym '=') rest >>= fun rest => readType json high f true rest >>= fun r =>
          expect (.sym ']') r.2 >>= fun rest =>
          if high then ok (r.1, rest) else err "assert high_level is True"
        else err "unexpected token"
    | .num n :: rest =>
      expect (.sym '*') rest >>= fun rest => readType json high f cat rest >>= fun r =>
      ok (if high then .array {} r.1 n else .regular {} r.1 n, r.2)
    | .sym '?' :: rest =>
      readType json high f false rest >>= fun r => readOptions json r.2 >>= fun pr =>
      ok (.option (catParams cat {}) r.1, pr.2)
    | .sym '(' :: rest =>
      readTypes json high f rest >>= fun r => expect (.sym ')') r.2 >>= fun rest =>
      ok (.record (catParams cat {}) none r.1, rest)
    | .sym '{' :: rest =>
      readFields json high f rest >>= fun r => expect (.sym '}') r.2.2 >>= fun rest =>
      ok (.record (catParams cat {}) (some r.1) r.2.1, rest)
    | .sym '[' :: .word "var" :: rest =>
      expect (.sym '*') rest >>= fun rest => readType json high f false rest >>= fun r =>
      expect (.sym ',') r.2 >>= fun rest => readParams json rest >>= fun pr =>
      expect (.sym ']') pr.2 >>= fun rest => ok (.list (catParams cat pr.1) r.1, rest)
    | .sym '[' :: .num n :: rest =>
      expect (.sym '*') rest >>= fun rest => readType json high f false rest >>= fun r =>
      expect (.sym ',') r.2 >>= fun rest => readParams json rest >>= fun pr =>
      expect (.sym ']') pr.2 >>= fun rest => ok (.regular (catParams cat pr.1) r.1 n, rest)
    | _ => err "unexpected token"
/-- `input ["," input]*`; a comma before `parameters` does not belong to it. -/
def readTypes (json : String → R String) (high : Bool) : Nat → List Tok → R (List AkType × List Tok)
  | 0, _ => err "not enough steps"
  | f + 1, ts =>
    readType json high f false ts >>= fun r => match r.2 with
    | .sym ',' :: .word "parameters" :: rest => ok ([r.1], .sym ',' :: .word "parameters" :: rest)
    | .sym ',' :: rest => readTypes json high f rest >>= fun q => ok (r.1 :: q.1, q.2)
    | rest => ok ([r.1], rest)
/-- `string ":" input ["," string ":" input]*`. -/
def readFields (json : String → R String) (high : Bool) : Nat → List Tok →
    R (List String × List AkType × List Tok)
  | 0, _ => err "not enough steps"
  | f + 1, ts =>
    readString ts >>= fun ks => expect (.sym ':') ks.2 >>= fun ts =>
    readType json high f false ts >>= fun r => match r.2 with
    | .sym ',' :: rest => readFields json high f rest >>= fun q => ok (ks.1 :: q.1, r.1 :: q.2.1, q.2.2)
    | rest => ok ([ks.1], [r.1], rest)
end

/-- parser.py:290-292 `from_datashape`. -/
def fromDatashape (json : String → R String) (high : Bool) (ts : List Tok) : R AkType :=
  readType json high (2 * ts.length + 1) false ts >>= fun r =>
  if r.2 = [] then ok r.1 else err "unexpected token"

end Awk
