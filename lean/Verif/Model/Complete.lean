import Verif.Model.Packed
import Verif.Model.Reduce
/-
Operations on all numbers of an array: `axis=None` of `ak.flatten` and of the reducers, and `x in array`.

NumPy's own functions of one-dimensional arrays (`sum`, `min`, `argmin`, ...) are parameters or are written
out here for lists.
-/

namespace Awk
open R
namespace Content

/-- _util.py:466-514 `completely_flatten`. Not modelled: partitioned and virtual arrays, arrays of numbers in
several dimensions, and the types of the parts (EmptyArray gives an array of booleans). The fuel bounds the
depth of the recursion. -/
def allParts : Nat → Content → R (List (List Atom))
  | 0, _ => ub
  | f + 1, c => match c with
    | empty _ => ok [[]]
    | numpy _ _ data => ok [data]
    | indexed .. | indexedOption .. | byteMasked .. | bitMasked .. | unmasked .. =>
      c.project >>= fun d => allParts f d
    | regular .. | listArray .. | listOffset .. => c.flatten >>= fun d => allParts f d
    | union _ tags index cs =>
      mapR (fun i => unionProject tags index cs i >>= fun d => allParts f d) (List.range cs.length)
        >>= fun parts => ok parts.flatten
    | record _ _ cs _ => mapR (fun d => allParts f d) cs >>= fun parts => ok parts.flatten

/-- structure.py:1877-1884 `ak.flatten` with `axis=None`: NumPy refuses to concatenate no arrays.
Simplification: NumPy converts the numbers to a common type, here they stay as they are. -/
def flattenAll (c : Content) : R (List Atom) :=
  allParts c.rank c >>= fun parts => if parts.isEmpty then err "need at least one array to concatenate"
    else ok parts.flatten

/-- highlevel.py:1480-1502 `Array.__contains__`: NumPy compares numbers by `eq`. -/
def containsAll (eq : Atom → Atom → Bool) (x : Atom) (c : Content) : R Bool :=
  allParts c.rank c >>= fun parts => ok (parts.any (fun part => part.any (fun y => eq x y)))

/-- reducers.py:84-88 (and the same in the other reducers) `reduce`. -/
def reduceParts {β : Type} (op : β → β → β) : List β → R β
  | [] => err "IndexError"
  | [x] => ok x
  | x :: y :: xs => reduceParts op (y :: xs) >>= fun r => ok (op x r)

/-- reducers.py:81-92, 133-149, 331-343, 380-392, 431-443, 482-494 `count`, `count_nonzero`, `sum`, `prod`,
`any` and `all` with `axis=None`; `f` is NumPy's function and `op` the operator in `reduce`. -/
def reduceAll {β : Type} (f : List Atom → β) (op : β → β → β) (c : Content) : R β :=
  allParts c.rank c >>= fun parts => reduceParts op (parts.map f)

/-- `numpy.min` of an array that is not empty. -/
def npMin (lt : Atom → Atom → Bool) : Atom → List Atom → Atom
  | m, [] => m
  | m, x :: xs => npMin lt (if lt x m then x else m) xs

/-- reducers.py:540-547 `reduce` of `min`. -/
def reduceMin (lt : Atom → Atom → Bool) : List Atom → Option Atom
  | [] => none
  | x :: xs => match reduceMin lt xs with
    | none => some x
    | some y => some (if lt x y then x else y)

/-- reducers.py:536-550 `min` with `axis=None` and `max` with the opposite order. The argument
`initial` is not used. -/
def minAll (lt : Atom → Atom → Bool) (_initial : Option Atom) (c : Content) : R (Option Atom) :=
  allParts c.rank c >>= fun parts =>
    ok (reduceMin lt (parts.filterMap (fun part => match part with
      | [] => none
      | x :: xs => some (npMin lt x xs))))

/-- `numpy.argmin` of an array that is not empty: `m` is the best value and `at_` its position, `i` is the
position of the next element. -/
def npArgmin (lt : Atom → Atom → Bool) : Atom → Nat → Nat → List Atom → Nat × Atom
  | m, at_, _, [] => (at_, m)
  | m, at_, i, x :: xs => if lt x m then npArgmin lt x i (i + 1) xs else npArgmin lt m at_ (i + 1) xs

/-- reducers.py:717-722, 730-734: the loop of `argmin` over the parts. -/
def argminParts (lt : Atom → Atom → Bool) (start : Nat) : Option (Nat × Atom) → List (List Atom) →
    R (Option (Nat × Atom))
  | best, [] => ok best
  | best, part :: parts => match part with
    | [] => err "attempt to get argmin of an empty sequence"
    | x :: xs =>
      let out := npArgmin lt x 0 1 xs
      match best with
      | none => argminParts lt start (some (start + out.1, out.2)) parts
      | some b => argminParts lt start (if lt out.2 b.2 then some (start + out.1, out.2) else some b) parts

/-- reducers.py:711-735 `argmin` with `axis=None`, and `argmax` with the opposite order. -/
def argminAll (lt : Atom → Atom → Bool) (c : Content) : R (Option Nat) :=
  allParts c.rank c >>= fun parts => argminParts lt 0 none parts >>= fun b => ok (b.map Prod.fst)

/-- reducers.py:713-725 `argmin` of a partitioned array. -/
def argminPartitions (lt : Atom → Atom → Bool) : Nat → Option (Nat × Atom) → List Content → R (Option Nat)
  | _, best, [] => ok (best.map Prod.fst)
  | start, best, c :: cs => allParts c.rank c >>= fun parts =>
    argminParts lt start best parts >>= fun b => argminPartitions lt (start + c.len) b cs

end Content
end Awk
