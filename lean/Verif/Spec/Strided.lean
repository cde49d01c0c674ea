import Verif.Spec.Getitem
import Verif.Model.Strided
/-
Specification of slicing a NumPy array, written from the NumPy documentation of basic and advanced
indexing: `...` stands for as many full ranges as there are dimensions left, then items are applied
dimension by dimension (`select` in Spec/Getitem.lean, on nested lists). In NumPy an index out of
range or an item too many is an error even where an array has no elements, so what is refused is
decided by the shape. One difference from NumPy is kept: when index arrays are separated by other
items, NumPy moves the dimensions of the index arrays to the front, and here they are at the place
of the first index array (as in the documentation of Awkward Array's slices).
-/

namespace Awk
namespace Spec

/-- The number of dimensions that the items use up. -/
def usedDims : List NdItem → Nat
  | [] => 0
  | .ellipsis :: rest => usedDims rest
  | .item .newaxis :: rest => usedDims rest
  | .item _ :: rest => usedDims rest + 1

/-- The slice with `k` full ranges in the place of `...` (of the first one, if there are more). -/
def expandWith (k : Nat) : List NdItem → List SliceItem
  | [] => []
  | .item it :: rest => it :: expandWith k rest
  | .ellipsis :: rest => List.replicate k (.range none none 1) ++ expandWith 0 rest

/-- The slice of an array with `ndim` dimensions with `...` written out. -/
def expandEllipsis (ndim : Nat) (items : List NdItem) : List SliceItem :=
  expandWith (ndim - usedDims items) items

/-- The slice can be applied to an array of that shape: there is a dimension for every item, and
integers are in range. -/
def fitsShape : List Nat → List SliceItem → Bool
  | _, [] => true
  | ns, .newaxis :: rest => fitsShape ns rest
  | n :: ns, .at i :: rest => (regAt i n).isSome && fitsShape ns rest
  | _ :: ns, .range _ _ _ :: rest => fitsShape ns rest
  | n :: ns, .array _ flat :: rest => flat.all (fun i => (regAt i n).isSome) && fitsShape ns rest
  | [], _ :: _ => false

/-- The shape of the result; `first` when no index array was met yet. -/
def slicedShape : List Nat → Bool → List SliceItem → List Nat
  | ns, _, [] => ns
  | ns, first, .newaxis :: rest => 1 :: slicedShape ns first rest
  | _ :: ns, first, .at _ :: rest => slicedShape ns first rest
  | n :: ns, first, .range start stop step :: rest =>
    (pySlicePositions n start stop step).length :: slicedShape ns first rest
  | _ :: ns, first, .array shape _ :: rest => (if first then shape else []) ++ slicedShape ns false rest
  | [], _, _ :: _ => []

/-- The item is well formed: bounds and steps are representable, the step is not zero, and index
arrays have the shape `shape`. -/
def NdItemOk (shape : List Nat) : NdItem → Prop
  | .item (.range start stop step) => GoodArg start ∧ GoodArg stop ∧ step ≠ 0 ∧ step ≠ kSliceNone
  | .item (.array shape' flat) => shape' = shape ∧ flat.length = shape.prod
  | _ => True

end Spec
end Awk
