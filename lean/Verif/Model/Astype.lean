import Verif.Model.Merge
/-
Converting the numbers of an array: `ak.values_astype`.
-/

namespace Awk
open R

/-- Signedness and number of bits of the integer types. -/
def DType.signedBits : DType → Option (Bool × Nat)
  | .int8 => some (true, 8)
  | .int16 => some (true, 16)
  | .int32 => some (true, 32)
  | .int64 => some (true, 64)
  | .uint8 => some (false, 8)
  | .uint16 => some (false, 16)
  | .uint32 => some (false, 32)
  | .uint64 => some (false, 64)
  | _ => none

/-- A C++ conversion between integer types. -/
def wrapInt (signed : Bool) (bits : Nat) (i : Int) : Int :=
  let m := i % 2 ^ bits
  if signed ∧ m ≥ 2 ^ (bits - 1) then m - 2 ^ bits else m

/-- A C++ conversion of a floating point number to an integer type: undefined if the type does not
have the truncated value. -/
def truncInt (signed : Bool) (bits : Nat) (q : Rat) : R Int :=
  let k := q.num.tdiv q.den
  let lo : Int := if signed then -2 ^ (bits - 1) else 0
  if lo ≤ k ∧ k < lo + 2 ^ bits then ok k else ub

/-- `(TO)x` for an integer type: awkward_NumpyArray_fill.cpp:8-18,
awkward_NumpyArray_fill_frombool.cpp:8-18, awkward_NumpyArray_fill_fromcomplex.cpp:8-17. -/
def castInt (signed : Bool) (bits : Nat) : Atom → R Int
  | .bool b => ok (if b then 1 else 0)
  | .int i => ok (wrapInt signed bits i)
  | .real q => truncInt signed bits q
  | .complex re _ => truncInt signed bits re
  | .datetime _ | .timedelta _ => err "cannot recast NumpyArray"

/-- One item of `kernel::NumpyArray_fill<FROM, TO>`: awkward_NumpyArray_fill.cpp:8-18 and the
variants fill_frombool:8-18, fill_tobool:8-17 (`x > 0`), fill_fromcomplex:8-17 (`(TO)re`) and
fill_tocomplex:8-19. Simplified: floating point numbers are not rounded. -/
def castAtom (ty : DType) (a : Atom) : R Atom :=
  match ty with
  | .bool => match a with
    | .bool b => ok (.bool b)
    | .int i => ok (.bool (i > 0))
    | .real q => ok (.bool (q > 0))
    | .complex re _ => ok (.bool (re ≠ 0))
    | _ => err "cannot recast NumpyArray"
  | .float32 | .float64 => ok (.real a.parts.1)
  | .complex64 | .complex128 => ok (.complex a.parts.1 a.parts.2)
  | .datetime64 => castInt true 64 a >>= fun i => ok (.datetime i)
  | .timedelta64 => err "cannot recast NumpyArray"
  | .int8 => castInt true 8 a >>= fun i => ok (.int i)
  | .int16 => castInt true 16 a >>= fun i => ok (.int i)
  | .int32 => castInt true 32 a >>= fun i => ok (.int i)
  | .int64 => castInt true 64 a >>= fun i => ok (.int i)
  | .uint8 => castInt false 8 a >>= fun i => ok (.int i)
  | .uint16 => castInt false 16 a >>= fun i => ok (.int i)
  | .uint32 => castInt false 32 a >>= fun i => ok (.int i)
  | .uint64 => castInt false 64 a >>= fun i => ok (.int i)

/-- NumpyArray.cpp:5637-5723 `as_type` and `cast_to_type`: the fill kernel at offset 0 of a new
buffer. Simplified: complex items are written as a whole. -/
def castToType (ty : DType) (data : List Atom) (length : Nat) : R (List Atom) :=
  if ty = .timedelta64 then err "cannot recast NumpyArray"
  else
    forN length (fun i toptr =>
      (rd data (i : Int) >>= fun a => castAtom ty a) >>= fun x => wr toptr (i : Int) x)
      (allocAtoms length)

namespace Content

/-- NumpyArray.cpp:5090-5218 `numbers_to_type`, for one dimension. -/
def numpyToType (ty : DType) (p : Params) (d : DType) (data : List Atom) : R Content :=
  if p.arr = .byte ∨ p.arr = .char then ok (numpy p d data)
  else if d = .datetime64 ∨ d = .timedelta64 then err "cannot recast NumpyArray"
  else castToType ty data data.length >>= fun out => ok (numpy p ty out)

mutual
/-- `numbers_to_type` of each class: EmptyArray.cpp:790-794, NumpyArray.cpp:5090-5218,
RegularArray.cpp:1659-1671, ListArray.cpp:2070-2085, ListOffsetArray.cpp:2389-2402,
IndexedArray.cpp:2753-2766, ByteMaskedArray.cpp:1417-1430, BitMaskedArray.cpp:1137-1140,
UnmaskedArray.cpp:1138-1146, RecordArray.cpp:1841-1856, UnionArray.cpp:2275-2293.
`ak.values_astype` (src/awkward/operations/structure.py:4478-4540) calls it with the name of the
type. Simplified: a BitMaskedArray is converted after its content, not before. -/
def numbersToType (ty : DType) : Content → R Content
  | empty p => ok (empty p)
  | numpy p d data => numpyToType ty p d data
  | regular p c size zeros => numbersToType ty c >>= fun c' =>
    ok (regular p c' size (regular p c size zeros).len)
  | listArray p starts stops c => numbersToType ty c >>= fun c' =>
    ok (listArray p starts stops c')
  | listOffset p offsets c => numbersToType ty c >>= fun c' => ok (listOffset p offsets c')
  | indexed p index c => numbersToType ty c >>= fun c' => ok (indexed p index c')
  | indexedOption p index c => numbersToType ty c >>= fun c' => ok (indexedOption p index c')
  | byteMasked p mask vw c => numbersToType ty c >>= fun c' => ok (byteMasked p mask vw c')
  | bitMasked p mask vw length lsb c => numbersToType ty c >>= fun c' =>
    toByteMasked (bitMasked p mask vw length lsb c')
  | unmasked p c => numbersToType ty c >>= fun c' => ok (unmasked p c')
  | record p keys cs length => numbersToTypeAll ty cs >>= fun cs' =>
    ok (record p keys cs' length)
  | union p tags index cs => numbersToTypeAll ty cs >>= fun cs' => ok (union p tags index cs')
/-- `numbers_to_type` of every content. -/
def numbersToTypeAll (ty : DType) : List Content → R (List Content)
  | [] => ok []
  | c :: cs => numbersToType ty c >>= fun c' => numbersToTypeAll ty cs >>= fun cs' => ok (c' :: cs')
end

end Content
end Awk
