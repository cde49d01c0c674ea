import Verif.Model.Option
import Verif.Model.List
import Verif.Model.Broadcast
/-
`ak.to_numpy` (src/awkward/operations/convert.py:171-378).

Not modelled: UnionArrays (NumPy finds a common dtype for the alternatives), PartitionedArrays,
VirtualArrays and NumpyArrays of several dimensions.
-/

namespace Awk
open R

/-- A NumPy array: an `ndarray`, or a `MaskedArray` if there is a `mask`, where `true` marks a missing item.
The items are in row-major order; `none` is an item that `numpy.empty` has not initialised. Dtypes are left
out. -/
structure NpArray where
  shape : List Nat
  data : List (Option Val)
  mask : Option (List Bool)
deriving Repr

namespace NpArray

/-- `numpy.ma.getmaskarray(array)`. -/
def maskArray (a : NpArray) : List Bool := a.mask.getD (List.replicate a.data.length false)

/-- `numpy.ma.MaskedArray(array)`, which keeps the mask that the array has already. -/
def masked (a : NpArray) : NpArray := { a with mask := some a.maskArray }

/-- What `tolist()` shows for one item. (In a masked array of tuples, NumPy shows a tuple of `None`.) -/
def cell : Option Val × Bool → R Val
  | (_, true) => ok .null
  | (some v, false) => ok v
  | (none, false) => ub

/-- The nested lists of an array of `n` rows, each with the shape `dims`. -/
def rows : List Nat → List Val → Nat → List Val
  | [], xs, _ => xs
  | s :: ds, xs, n => (List.range n).map (fun i =>
    .list (rows ds ((xs.drop (i * (s * ds.prod))).take (s * ds.prod)) s))

/-- `array.tolist()`. -/
def toList (a : NpArray) : R (List Val) :=
  match a.shape with
  | [] => err "the array has no dimensions"
  | n :: dims => mapR cell (a.data.zip a.maskArray) >>= fun xs => ok (rows dims xs n)

end NpArray

/-- NumPy's strings and bytestrings of fixed width do not have zeros at the end. -/
def npStrip (codes : List Val) : List Val :=
  (codes.reverse.dropWhile (fun v => match v with | .atom (.int 0) => true | _ => false)).reverse

/-- One item of `numpy.array([...])` of strings or bytestrings. -/
def npText : Val → Val
  | .str codes => .str (npStrip codes)
  | .bytes codes => .bytes (npStrip codes)
  | v => v

/-- `out[: shape[0] * array.size].reshape(shape)` (convert.py:325-332). -/
def npReshape (size : Nat) (a : NpArray) : R NpArray :=
  match a.shape with
  | [] => err "the array has no dimensions"
  | head :: tail =>
    let n := if size = 0 then 0 else head / size
    ok { shape := n :: size :: tail
         data := a.data.take (n * size * tail.prod)
         mask := a.mask.map (fun m => m.take (n * size * tail.prod)) }

/-- `data[~mask0] = content` (convert.py:310), where an item of `data` has `width` cells: rows that are not
missing get the rows of `content` in order, others are left as they are. -/
def npScatter {α : Type} (width : Nat) (x0 : α) : List Bool → List α → List α
  | [], _ => []
  | true :: mask, xs => List.replicate width x0 ++ npScatter width x0 mask xs
  | false :: mask, xs => xs.take width ++ npScatter width x0 mask (xs.drop width)

/-- convert.py:293-323, option-type arrays. The assignment in line 310 raises unless there are as many rows in
`content` as rows that are not missing (a single row would be repeated; this does not happen because `content`
has been projected). -/
def npOption (allowMissing : Bool) (bytemask : List Int) (content : NpArray) : R NpArray :=
  match content.shape with
  | [] => err "the array has no dimensions"
  | head :: tail =>
    let mask0 := bytemask.map (fun b => decide (b ≠ 0))
    if mask0.any id then
      if allowMissing then
        if (mask0.filter (fun b => !b)).length ≠ head then err "could not broadcast" else
        ok { shape := bytemask.length :: tail
             data := npScatter tail.prod none mask0 content.data
             mask := some (npScatter tail.prod true mask0 content.maskArray) }
      else err "ak.to_numpy cannot convert 'None' values"
    else if allowMissing then ok content.masked else ok content

/-- `out[n] = x` (convert.py:353-354): one column of `n` items; a single item is repeated. Only the data of a
masked array are taken. -/
def npColumn (n : Nat) (x : NpArray) : R (List (Option Val)) :=
  if x.data.length = n then ok x.data
  else if x.data.length = 1 then ok (List.replicate n (x.data[0]?.getD none))
  else err "could not broadcast input array"

/-- A row of columns: initialised if all of its items are. -/
def npRow (columns : List (List (Option Val))) (i : Nat) : Option Val :=
  (columns.mapM (fun col => (col[i]?).getD none)).map Val.tuple

/-- convert.py:337-355, records: a structured array, whose items are tuples. -/
def npStruct (contents : List NpArray) : R NpArray :=
  if contents.any (fun x => decide (x.shape.length ≠ 1)) then err "cannot convert into np.ndarray" else
  match contents with
  | [] => err "no fields"
  | first :: _ =>
    let n := first.data.length
    mapR (npColumn n) contents >>= fun columns =>
    ok { shape := [n], data := (List.range n).map (npRow columns), mask := none }

namespace Content

/-- `to_numpy` (convert.py:171-378). A record array with two fields of the same name raises in line 351
because NumPy does not allow them in a dtype. -/
def toNumpyF : Nat → Bool → Content → R NpArray
  | 0, _, _ => err "fuel"
  | fuel + 1, am, c =>
    if c.params.arr = .bytestring ∨ c.params.arr = .string then
      if c.isListNode then
        c.toList >>= fun vs => ok { shape := [vs.length], data := vs.map (fun v => some (npText v)), mask := none }
      else err "not a string"
    else
      match c with
      | empty _ => ok { shape := [0], data := [], mask := none }
      | numpy _ _ data =>
        ok { shape := [data.length], data := data.map (fun x => some (.atom x)), mask := none }
      | indexed p index d => (indexed p index d).project >>= fun e => toNumpyF fuel am e
      | union .. => err "not modelled"
      | unmasked _ d => toNumpyF fuel am d >>= fun a => ok (if am then a.masked else a)
      | regular _ d size _ => toNumpyF fuel am d >>= fun a => npReshape size a
      | listArray .. | listOffset .. =>
        c.toRegular >>= fun r =>
        match r with
        | regular _ d size _ => toNumpyF fuel am d >>= fun a => npReshape size a
        | _ => err "not a RegularArray"
      | record _ keys cs length =>
        if cs = [] then
          ok { shape := [length], data := List.replicate length (some (.tuple [])), mask := none }
        else
          mapR (fun d => toNumpyF fuel am d) cs >>= fun contents =>
          if (keys.getD []).Nodup then npStruct contents else err "two fields have the same name"
      | indexedOption .. | byteMasked .. | bitMasked .. =>
        c.project >>= fun d => toNumpyF fuel am d >>= fun content =>
        c.bytemask >>= fun bytemask => npOption am bytemask content

/-- `ak.to_numpy(array, allow_missing)`. -/
def toNumpy (allowMissing : Bool) (c : Content) : R NpArray := toNumpyF c.rank allowMissing c

end Content
end Awk
