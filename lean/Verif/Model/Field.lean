import Verif.Model.Merge
import Verif.Spec.Field
/-
Selecting fields of records by name.
-/

namespace Awk
open R

/-- The characters that `isspace` accepts. -/
def isSpace (c : Char) : Bool := c = ' ' || (9 ≤ c.toNat && c.toNat ≤ 13)

/-- `std::stoi`: white space, an optional sign and decimal digits; anything may follow. -/
def stoi (s : List Char) : R Int :=
  let s := s.dropWhile isSpace
  let neg := s.head? = some '-'
  let s := if s.head? = some '-' ∨ s.head? = some '+' then s.tail else s
  let digits := s.takeWhile Char.isDigit
  let n : Int := digits.foldl (fun n c => 10 * n + (c.toNat - '0'.toNat)) 0
  let n := if neg then -n else n
  if digits = [] then err "stoi"
  else if -(2 ^ 31) ≤ n ∧ n < 2 ^ 31 then ok n else err "stoi: out of range"

/-- util.cpp:505-535 `fieldindex`. -/
def fieldIndex (keys : Option (List String)) (key : String) (numfields : Nat) : R Int :=
  match keys.bind (fun ks => ks.findIdx? (fun k => k == key)) with
  | some i => ok i
  | none => stoi key.toList >>= fun out =>
    if ¬ (0 ≤ out ∧ out < numfields) then err "key interpreted as fieldindex" else ok out

namespace Content

/-- RecordArray.cpp:1561-1564 `field(key)`. -/
def fieldOfKey (keys : Option (List String)) (cs : List Content) (key : String) : R Content :=
  fieldIndex keys key cs.length >>= fun i => rd cs i

mutual
/-- `getitem_field(key, only_fields)` and `getitem_fields(keys, only_fields)` of each class, where
`k` applies the items of `only_fields` (none for `getitem_field(key)`): EmptyArray.cpp:342-370,
NumpyArray.cpp:1286-1314, RegularArray.cpp:656-696, ListArray.cpp:752-796,
ListOffsetArray.cpp:739-781, IndexedArray.cpp:1330-1372, ByteMaskedArray.cpp:664-704,
BitMaskedArray.cpp:682-730, UnmaskedArray.cpp:558-590, RecordArray.cpp:853-925,
UnionArray.cpp:1168-1226. `same` is as in `simplifyUnion`. -/
def getitemFields (same : Content → Content → Bool) (s : FieldSel) (k : Content → R Content) :
    Content → R Content
  | empty _ => err "cannot slice EmptyArray by field name"
  | numpy .. => err "cannot slice NumpyArray by field name"
  | regular p c size zeros => getitemFields same s k c >>= fun c' =>
    ok (regular {} c' size (regular p c size zeros).len)
  | listArray _ starts stops c => getitemFields same s k c >>= fun c' =>
    ok (listArray {} starts stops c')
  | listOffset _ offsets c => getitemFields same s k c >>= fun c' => ok (listOffset {} offsets c')
  | indexed _ index c => getitemFields same s k c >>= fun c' =>
    simplifyOption (indexed {} index c')
  | indexedOption _ index c => getitemFields same s k c >>= fun c' =>
    simplifyOption (indexedOption {} index c')
  | byteMasked _ mask vw c => getitemFields same s k c >>= fun c' =>
    simplifyOption (byteMasked {} mask vw c')
  | bitMasked _ mask vw length lsb c => getitemFields same s k c >>= fun c' =>
    simplifyOption (bitMasked {} mask vw length lsb c')
  | unmasked _ c => getitemFields same s k c >>= fun c' => simplifyOption (unmasked {} c')
  | record _ keys cs length => match s with
    | .one key => fieldOfKey keys cs key >>= fun c => c.range 0 length >>= k
    | .many names => mapR (fun key => fieldOfKey keys cs key >>= k) names >>= fun cs' =>
      ok (record {} (keys.map (fun _ => names)) cs' length)
  | union _ tags index cs => getitemFieldsAll same s k cs >>= fun cs' =>
    simplifyUnion same true false {} tags index cs'
/-- UnionArray.cpp:1172-1174: the loop over the contents. -/
def getitemFieldsAll (same : Content → Content → Bool) (s : FieldSel) (k : Content → R Content) :
    List Content → R (List Content)
  | [] => ok []
  | c :: cs => getitemFields same s k c >>= fun c' => getitemFieldsAll same s k cs >>= fun cs' =>
    ok (c' :: cs')
end

/-- `array[s₁, s₂, …]` with names and lists of names only. -/
def projectFields (same : Content → Content → Bool) : List FieldSel → Content → R Content
  | [] => fun c => ok c
  | s :: ss => getitemFields same s (projectFields same ss)

end Content

/-- Selecting fields of one element: Record.cpp:223-246 for a record (`field(key)` is not cut to
the length of the record array), the methods above for an array. None and numbers raise
(None.cpp:149-177; a number is not an array). -/
def Item.getitemFields (same : Content → Content → Bool) (s : FieldSel) (it : Item) : R Item :=
  match it with
  | .none => err "None"
  | .scalar _ => err "number"
  | .array c => c.getitemFields same s ok >>= fun c' => ok (.array c')
  | .record (.record p keys cs length) i => match s with
    | .one key => Content.fieldOfKey keys cs key >>= fun c => c.getitemAtNowrap i
    | .many names => (Content.record p keys cs length).getitemFields same (.many names) ok
        >>= fun c => c.getitemAtNowrap i
  | .record .. => err "unreachable"

end Awk
