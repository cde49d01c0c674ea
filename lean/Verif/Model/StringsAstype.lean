import Verif.Model.Like
import Verif.Model.List
import Verif.Model.ToNumpy
/-
`ak.strings_astype` (src/awkward/operations/structure.py:4541-4612).
-/

namespace Awk
open R

/-- `ak.max(num(layout))` (structure.py:4583), the greatest number of bytes; `None` if there are no strings.
Simplified: the lengths are taken from the lists. -/
def maxLength : List Val → Option Nat
  | [] => none
  | v :: vs => some (max v.items.length ((maxLength vs).getD 0))

/-- `0` for an item that is shown as `None`. -/
def npZero : Val → Val
  | .null => .atom (.int 0)
  | v => v

/-- `npstrings = maskedarray.data; npstrings[maskedarray.mask] = 0` (structure.py:4588-4590). The items that are
masked are those that are shown as `None`. -/
def npZeroed (a : NpArray) : R (List Val) :=
  mapR NpArray.cell (a.data.zip a.maskArray) >>= fun xs =>
  ok (xs.map npZero)

/-- `npstrings.reshape(-1).view("<S" + str(max_length))` (structure.py:4592): NumPy does not see the zeros at the
end of an item. NumPy does not have a view with items of no bytes. -/
def npView (m : Nat) (bytes : List Val) : R (List (List Val)) :=
  if m = 0 then err "cannot view the array with items of size 0"
  else ok ((List.range (bytes.length / m)).map (fun i => npStrip ((bytes.drop (i * m)).take m)))

namespace Content

/-- structure.py:4577-4596 `getfunction`. NumPy's conversion of one bytestring to a number of the type `dt`
(`astype`) is a parameter; it raises for strings that are not numbers. -/
def stringsAstypeGet (parse : List Val → R Atom) (dt : DType) (_depth : Nat) (_user : Unit) (layout : Content) :
    R (Content ⊕ Unit) :=
  if layout.isListNode = true ∧ (layout.params.arr = .string ∨ layout.params.arr = .bytestring) then
    layout.withoutParameters.toList >>= fun vs =>
    match maxLength vs with
    | none => err "incompatible function arguments: rpad_and_clip(None, 1)"
    | some m =>
      layout.withoutParameters.padNone m 1 true >>= fun regulararray =>
      regulararray.toNumpy true >>= fun maskedarray =>
      npZeroed maskedarray >>= fun npstrings =>
      npView m npstrings >>= fun strings =>
      mapR parse strings >>= fun npnumbers => ok (.inl (numpy {} dt npnumbers))
  else ok (.inr ())

/-- structure.py:4541-4612 `ak.strings_astype`. -/
def stringsAstype (parse : List Val → R Atom) (dt : DType) (c : Content) : R Content :=
  apply (stringsAstypeGet parse dt) 1 () c

end Content
end Awk
