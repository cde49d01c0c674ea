import Verif.Model.Packed
import Verif.Model.Buffers
/-
Pickling an array (src/awkward/highlevel.py:1457-1481) and a record (2050-2075). Not modelled: behaviors, partitioned arrays,
states of older versions, and the bytes that `pickle` makes of the state; the form is pickled as it is
(src/python/forms.cpp, `py::pickle` of each form).
-/

namespace Awk
open R

namespace Content

/-- highlevel.py:1457-1464 `__getstate__`. -/
def getstate (same : Content → Content → Bool) (w : Walk) (c : Content) : R (Form × Nat × Container) :=
  c.packed same >>= fun layout => toBuffers w layout []

/-- highlevel.py:1466-1481 `__setstate__`. -/
def setstate (w : Walk) (state : Form × Nat × Container) : R Content :=
  fromBuffers w.fl w.nm.key_format state.1 state.2.1 state.2.2 w.part

/-- src/libawkward/array/Record.cpp:16-26 and src/python/content.cpp:2468-2471: the constructor of `ak.layout.Record`, for
which the array must be a RecordArray. -/
def newRecordItem (c : Content) (at_ : Nat) : R Item :=
  match c with
  | record p keys cs length =>
    if at_ < length then ok (.record (record p keys cs length) at_) else err "at is out of range for recordarray"
  | _ => err "incompatible constructor arguments"

/-- highlevel.py:2050-2057 `__getstate__` of the record number `at_` of an array; structure.py:2340-2344 for `packed`. -/
def getstateRecord (same : Content → Content → Bool) (w : Walk) (c : Content) (at_ : Nat) :
    R ((Form × Nat × Container) × Nat) :=
  (c.packed same >>= fun d => newRecordItem d at_) >>= fun
  | .record d i => toBuffers w d [] >>= fun state => ok (state, i)
  | _ => err "packed"

/-- highlevel.py:2059-2075 `__setstate__` of a record. -/
def setstateRecord (w : Walk) (state : (Form × Nat × Container) × Nat) : R Item :=
  setstate w state.1 >>= fun layout => newRecordItem layout state.2

end Content
end Awk
