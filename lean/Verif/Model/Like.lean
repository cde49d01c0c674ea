import Verif.Model.Apply
import Verif.Model.Astype
import Verif.Model.Categorical
/-
`ak.full_like`, `ak.zeros_like` and `ak.ones_like` without the argument `dtype`, and
`ak.without_parameters` (src/awkward/operations/structure.py:1040-1285).
-/

namespace Awk
open R

/-- The argument `fill_value` of structure.py:1111: `_ZEROS`, or a number with the bytes of
`str(fill_value)`. Strings and dates as `fill_value` are not modelled. -/
inductive FillValue where
  | zeros
  | value (a : Atom) (text : List Atom)

/-- The bytes that replace a string (structure.py:1191, 1203-1209, 1221, 1231-1232). -/
def FillValue.bytes : FillValue → List Atom
  | .zeros => []
  | .value _ text => text

/-- `numpy.zeros_like` (`n = 0`) and `numpy.ones_like` (`n = 1`): one item. -/
def npConst (n : Nat) : DType → Atom
  | .bool => .bool (n ≠ 0)
  | .float32 | .float64 => .real n
  | .complex64 | .complex128 => .complex n 0
  | .datetime64 => .datetime n
  | .timedelta64 => .timedelta n
  | _ => .int n

/-- `numpy.full_like`: NumPy's conversion of the number, one item. Simplified: no rounding; a number that
is an integer can be converted to dates. -/
def npFull (a : Atom) (dt : DType) : R Atom :=
  match dt with
  | .bool => ok (.bool (a.asNumber ≠ some (0, 0)))
  | .float32 | .float64 => match a.asNumber with
    | some (re, _) => ok (.real re)
    | none => err "not modelled: dates"
  | .complex64 | .complex128 => match a.asNumber with
    | some (re, im) => ok (.complex re im)
    | none => err "not modelled: dates"
  | .datetime64 => match a with
    | .int i => ok (.datetime (wrapInt true 64 i))
    | _ => err "could not convert object to NumPy datetime"
  | .timedelta64 => match a with
    | .int i => ok (.timedelta (wrapInt true 64 i))
    | _ => err "could not convert object to NumPy timedelta"
  | dt => match dt.signedBits with
    | some (signed, bits) => castInt signed bits a >>= fun i => ok (.int i)
    | none => ub

/-- structure.py:1242-1262: the item that all items of a NumpyArray become. -/
def fillItem (f : FillValue) (dt : DType) : R Atom :=
  match f with
  | .zeros => ok (npConst 0 dt)
  | .value a _ =>
    if a.asNumber = some (0, 0) then ok (npConst 0 dt)
    else if a.asNumber = some (1, 0) then ok (npConst 1 dt)
    else npFull a dt

namespace Content

/-- structure.py:1188-1239: an array of equal strings, `ListArray64`. -/
def sameStrings (list item : ArrKind) (length : Nat) (bytes : List Atom) : Content :=
  listArray { arr := list } (List.replicate length 0) (List.replicate length (bytes.length : Int))
    (numpy { arr := item } .uint8 bytes)

/-- structure.py:1186-1264 `getfunction` of `full_like`. -/
def fullLikeGet (f : FillValue) (_depth : Nat) (_user : Unit) (layout : Content) : R (Content ⊕ Unit) :=
  if layout.params.arr = .bytestring then
    ok (.inl (sameStrings .bytestring .byte layout.len f.bytes))
  else if layout.params.arr = .string then
    ok (.inl (sameStrings .string .char layout.len f.bytes))
  else match layout with
    | numpy p dt data =>
      fillItem f dt >>= fun x => ok (.inl (numpy p dt (List.replicate data.length x)))
    | _ => ok (.inr ())

/-- structure.py:1119-1277 `ak.full_like`. -/
def fullLike (f : FillValue) (c : Content) : R Content := apply (fullLikeGet f) 1 () c

/-- structure.py:1077-1095 `ak.zeros_like`. -/
def zerosLike (c : Content) : R Content := fullLike .zeros c

/-- structure.py:1098-1116 `ak.ones_like`; the text of `1`. -/
def onesLike (c : Content) : R Content := fullLike (.value (.int 1) [.int 49]) c

mutual
/-- _util.py:1137-1331 `apply` with `keep_parameters=False` and a function that never stops, which is
structure.py:1041-1072 `ak.without_parameters`. -/
def withoutParameters : Content → Content
  | empty _ => empty {}
  | numpy _ dt data => numpy {} dt data
  | regular p c size zeros => regular {} c.withoutParameters size (regular p c size zeros).len
  | listArray _ starts stops c => listArray {} starts stops c.withoutParameters
  | listOffset _ offsets c => listOffset {} offsets c.withoutParameters
  | indexed _ index c => indexed {} index c.withoutParameters
  | indexedOption _ index c => indexedOption {} index c.withoutParameters
  | byteMasked _ mask vw c => byteMasked {} mask vw c.withoutParameters
  | bitMasked _ mask vw length lsb c => bitMasked {} mask vw length lsb c.withoutParameters
  | unmasked _ c => unmasked {} c.withoutParameters
  | record _ keys cs length => record {} keys (withoutParametersAll cs) length
  | union _ tags index cs => union {} tags index (withoutParametersAll cs)
/-- The loops of _util.py:1271 and 1288. -/
def withoutParametersAll : List Content → List Content
  | [] => []
  | c :: cs => c.withoutParameters :: withoutParametersAll cs
end

end Content
end Awk
