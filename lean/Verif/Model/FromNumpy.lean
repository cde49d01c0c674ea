import Verif.Model.ToNumpy
/-
`ak.from_numpy` (src/awkward/operations/convert.py:47-168).

Not modelled: structured arrays; an array of numbers with several dimensions that is kept as one NumpyArray
(see `Model/Strided.lean`).
-/

namespace Awk
open R

/-- `array.dtype.kind`: numbers, bytestrings ("S") or strings ("U"). -/
inductive NpKind where
  | number (dt : DType)
  | bytes
  | text
deriving Repr, DecidableEq

/-- A `MaskedArray` without a mask array (`numpy.ma.getmask(array) is False`), or with one, or not a
`MaskedArray`. -/
inductive NpMask where
  | absent
  | nomask
  | array (mask : List Bool)
deriving Repr, DecidableEq

/-- The items of an array of numbers. -/
def npNumbers : List Val → R (List Atom)
  | [] => ok []
  | .atom x :: vs => npNumbers vs >>= fun xs => ok (x :: xs)
  | _ :: _ => err "not a number"

/-- The bytes of the items (a string is encoded as UTF-8: convert.py:110). -/
def npCodes : Val → R (List Atom)
  | .str codes => npNumbers codes
  | .bytes codes => npNumbers codes
  | _ => err "not a string"

/-- `asbytes.view("u1")` (convert.py:103, 118): items of fixed width, filled up with zeros. -/
def npBuffer (width : Nat) (items : List (List Atom)) : List Atom :=
  (items.map (fun x => x ++ List.replicate (width - x.length) (.int 0))).flatten

namespace Content

/-- convert.py:94-123: strings and bytestrings are lists of bytes in a buffer of items with the same width.
(`numpy.char.str_len` does not count zeros at the end; items do not have them.) -/
def fromNpText (arr item : ArrKind) (width : Nat) (items : List Val) : R Content :=
  mapR npCodes items >>= fun codes =>
  let starts := (List.range codes.length).map (fun (i : Nat) => ((i : Int) * (width : Int)))
  ok (listArray { arr := arr } starts
    (List.zipWith (fun s (x : List Atom) => s + (x.length : Int)) starts codes)
    (numpy { arr := item } .uint8 (npBuffer width codes)))

/-- The one-dimensional array of all items (convert.py:94-125). -/
def fromNpFlat (kind : NpKind) (width : Nat) (items : List Val) : R Content :=
  match kind with
  | .number dt => npNumbers items >>= fun xs => ok (numpy {} dt xs)
  | .bytes => fromNpText .bytestring .byte width items
  | .text => fromNpText .string .char width items

/-- convert.py:107-108, 122-123: `for i in range(len(array.shape) - 1, 0, -1): data = RegularArray(data,
array.shape[i], array.shape[i - 1])`. -/
def fromNpLoop : Nat → List Nat → Content → Content
  | _, [], data => data
  | before, s :: dims, data => regular {} (fromNpLoop s dims data) s before

/-- convert.py:135-141 `attach`, for arrays of numbers: the leaf becomes an UnmaskedArray. -/
def npAttach : Content → R Content
  | numpy p dt data => ok (unmasked {} (numpy p dt data))
  | regular p c size zeros => npAttach c >>= fun c' => ok (regular {} c' size (regular p c size zeros).len)
  | _ => err "no attribute 'size'"

/-- `data.toRegularArray()` of a contiguous NumpyArray with the shape `n :: dims` (NumpyArray.cpp:
`toRegularArray`; see C54). -/
def npRegular : Nat → List Nat → Content → Content
  | _, [], data => data
  | n, s :: dims, data => regular {} (npRegular (n * s) dims data) s n

/-- convert.py:127-147: the mask is attached. -/
def fromNpMask (kind : NpKind) (n : Nat) (dims : List Nat) (mask : NpMask) (data : Content) : R Content :=
  match mask with
  | .absent =>
    match kind, dims with
    | .number _, _ :: _ => err "not modelled"
    | _, _ => ok (fromNpLoop n dims data)
  | .nomask =>
    if dims = [] then ok (unmasked {} data)
    else
      match kind with
      | .number _ => npAttach (npRegular n dims data)
      | _ => npAttach (fromNpLoop n dims data)
  | .array m => ok (byteMasked {} (m.map (fun b => if b then 1 else 0)) false (fromNpLoop n dims data))

/-- convert.py:83-147 `recurse`. If a dimension in `array.shape[2:]` is 0, then NumPy cannot find the length
for `reshape((-1,) + array.shape[2:])` and raises. -/
def fromNpRecurse (regulararray : Bool) (kind : NpKind) (mask : NpMask) (data : Content) :
    Nat → List Nat → R Content
  | n, [] => fromNpMask kind n [] mask data
  | n, s :: dims =>
    if regulararray then
      if dims.prod = 0 then err "cannot reshape array of size 0" else
      fromNpRecurse regulararray kind mask data (n * s) dims >>= fun c => ok (regular {} c s n)
    else fromNpMask kind n (s :: dims) mask data

/-- `ak.from_numpy(array, regulararray)` (convert.py:47-168) of an array with the given shape, items (in
row-major order) and mask. -/
def fromNumpy (regulararray : Bool) (kind : NpKind) (width : Nat) (shape : List Nat) (items : List Val)
    (mask : NpMask) : R Content :=
  fromNpFlat kind width items >>= fun data =>
  match shape with
  | [] => fromNpMask kind 1 [] mask data
  | n :: dims =>
    match mask, dims with
    | .array _, _ :: _ => fromNpRecurse true kind mask data n dims
    | _, _ => fromNpRecurse regulararray kind mask data n dims

end Content
end Awk
