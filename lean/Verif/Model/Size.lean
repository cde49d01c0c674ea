import Verif.Model.Content
/-
`ak.size` (src/awkward/operations/structure.py:4215-4324).
-/

namespace Awk
open R

/-- The loops over the contents of records and unions (structure.py:4249-4260 and 4270-4281): all the sizes have to
be equal. Without contents `compare` is `None`, and `sizes.extend(None)` raises. -/
def sizesSame : List (List (Option Nat)) → R (List (Option Nat))
  | [] => err "'NoneType' object is not iterable"
  | s :: ss => if ss.all (fun t => t = s) then ok s else err "ak.size is ambiguous due to different sizes"

namespace Content

mutual
/-- structure.py:4238-4291 `recurse`: the sizes that it appends to `sizes`, with `None` for lists of variable
length. `NumpyArray` has one dimension here, so that `shape[1:]` is empty. VirtualArray is left out. -/
def sizes : Content → Option Nat → R (List (Option Nat))
  | empty _, _ => ok []
  | numpy _ _ _, _ => ok []
  | regular _ c size _, axis =>
    match axis with
    | none => c.sizes none >>= fun ss => ok (some size :: ss)
    | some 0 => ok [some size]
    | some (a + 1) => c.sizes (some a) >>= fun ss => ok (some size :: ss)
  | listArray _ _ _ c, axis =>
    match axis with
    | none => c.sizes none >>= fun ss => ok (none :: ss)
    | some 0 => ok [none]
    | some (a + 1) => c.sizes (some a) >>= fun ss => ok (none :: ss)
  | listOffset _ _ c, axis =>
    match axis with
    | none => c.sizes none >>= fun ss => ok (none :: ss)
    | some 0 => ok [none]
    | some (a + 1) => c.sizes (some a) >>= fun ss => ok (none :: ss)
  | indexed _ _ c, axis => c.sizes axis
  | indexedOption _ _ c, axis => c.sizes axis
  | byteMasked _ _ _ c, axis => c.sizes axis
  | bitMasked _ _ _ _ _ c, axis => c.sizes axis
  | unmasked _ c, axis => c.sizes axis
  | record _ _ cs _, axis => sizesAll cs axis >>= sizesSame
  | union _ _ _ cs, axis => sizesAll cs axis >>= sizesSame
/-- `recurse` for each of the contents. -/
def sizesAll : List Content → Option Nat → R (List (List (Option Nat)))
  | [], _ => ok []
  | c :: cs, axis => c.sizes axis >>= fun s => sizesAll cs axis >>= fun ss => ok (s :: ss)
end

end Content

/-- structure.py:4300-4311: the product of the sizes. -/
def sizesProduct : List (Option Nat) → R Nat
  | [] => ok 1
  | none :: _ => err "ak.size is ambiguous due to variable-length arrays"
  | some n :: ss => sizesProduct ss >>= fun m => ok (n * m)

/-- structure.py:4313-4324: the last of the sizes. -/
def sizesLast (ss : List (Option Nat)) : R Nat :=
  match ss.getLast? with
  | some (some n) => ok n
  | some none => err "ak.size is ambiguous due to variable-length arrays at axis"
  | none => err "list index out of range"

namespace Content

/-- structure.py:4215-4324 `size`, for `axis=None` and for axes that are not negative (structure.py:4233-4236 raises
for the others). -/
def akSize (c : Content) (axis : Option Nat) : R Nat :=
  (regular {} c c.len 1).sizes axis >>= fun ss =>
  match axis with
  | none => sizesProduct ss
  | some _ => sizesLast ss

end Content
end Awk
