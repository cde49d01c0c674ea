import Verif.Model.BcastWith
import Verif.Model.Reduce
/-
More functions of operations/structure.py: `ak.where`, `ak.with_field` and `ak.cartesian` with axis 0.
-/

namespace Awk
open R
namespace Content

/-! ### `ak.where` -/

/-- structure.py:1744-1757 `getfunction` of `where`: tag 0 (the second input) where the condition is not
zero, tag 1 (the third input) where it is. `same` is as in `simplifyUnion`. Simplification: the
condition is the stored elements (structure.py:1749-1750 make it an array of booleans, which only NumPy's
numbers can be). -/
def whereGet (same : Content → Content → Bool) (mb : Bool) (_depth : Nat) (cs : List Content) :
    R (Option (List Content)) :=
  match cs with
  | [numpy _ _ data, left, right] =>
    simplifyUnion same true mb {} (data.map (fun a => if a.nonzero then 0 else 1))
      ((List.range data.length).map (fun (i : Nat) => (i : Int))) [left, right]
      >>= fun o => ok (some [o])
  | _ => ok none

/-- structure.py:1677-1778 `ak.where` with three arguments, which are arrays. -/
def whereArray (same : Content → Content → Bool) (mb : Bool) (fuel : Nat) (cond left right : Content) :
    R Item :=
  bcastAndApply ⟨true, false, true⟩ (whereGet same mb) fuel [cond, left, right] >>= onlyOutput

/-! ### `ak.with_field` -/

/-- `keys()`, or nothing if `numfields` is negative (e.g. ListArray.cpp `numfields`, `keys`;
NumpyArray.cpp; RecordArray.cpp:1535-1559). Unions are not modelled. -/
def fieldKeys : Content → Option (List String)
  | record _ keys cs _ => some (recordKeys keys cs.length)
  | regular _ c _ _ | listArray _ _ _ c | listOffset _ _ c | indexed _ _ c | indexedOption _ _ c
  | byteMasked _ _ _ c | bitMasked _ _ _ _ _ c | unmasked _ c => c.fieldKeys
  | _ => none

/-- structure.py:946-948: the names of the fields of the base that are kept. -/
def withKept (where_ : Option String) (keys : List String) : List String :=
  match where_ with
  | some w => keys.erase w
  | none => keys

/-- structure.py:963-971: the names of the fields of the result; the fields that are kept are `kept`. -/
def withLookup (istuple : Bool) (kept : List String) (where_ : Option String) : Option (List String) :=
  match where_ with
  | none => if istuple then none else some (kept ++ [toString kept.length])
  | some w => some (kept ++ [w])

/-- structure.py:950-982 `getfunction` of `with_field`. -/
def withFieldGet (kept : List String) (where_ : Option String) (_depth : Nat) (cs : List Content) :
    R (Option (List Content)) :=
  match cs with
  | [record p keys ds length, what] =>
    mapR (fun key => fieldNext key (record p keys ds length)) kept >>= fun es =>
    ok (some [record p (withLookup keys.isNone kept where_) (es ++ [what]) (minLength (es ++ [what]))])
  | _ => ok none

/-- structure.py:874-1000 `ak.with_field` of arrays, with one name or none. -/
def withField (fuel : Nat) (base what : Content) (where_ : Option String) : R Item :=
  match base.fieldKeys with
  | none => err "no tuples or records in array; cannot add a new field"
  | some keys =>
    if (withKept where_ keys).length = 0 then match where_ with
      | some w => ok (.array (record base.params (some [w]) [what] what.len))
      | none => err "TypeError"
    else bcastAndApply ⟨false, false, true⟩ (withFieldGet (withKept where_ keys) where_) fuel [base, what] >>= onlyOutput

/-! ### `ak.cartesian` -/

/-- `meshgrid(*[arange(l) for l in lens], indexing="ij")`, each flattened (`reshape(-1)`): the numbers of
the first array change slowest. -/
def meshIndexes : List Nat → List (List Int)
  | [] => []
  | l :: ls => ((List.range l).map (fun (i : Nat) => List.replicate ls.prod (i : Int))).flatten ::
      (meshIndexes ls).map (fun xs => (List.replicate l xs).flatten)

/-- structure.py:3251-3253: the lists for `nested`, from the last array to the first. -/
def nestAll (nested : List Nat) (cs : List Content) : Nat → Content → R Content
  | 0, result => ok result
  | i + 1, result =>
    if i ∈ nested then match cs[i + 1]? with
      | some c => nestAll nested cs i (regular {} result c.len 0)
      | none => err "IndexError"
    else nestAll nested cs i result

/-- structure.py:3192-3253 `ak.cartesian` with axis 0; `keys` are given for a dict of arrays, `nested` has
the numbers of the arrays. -/
def cartesian0 (p : Params) (keys : Option (List String)) (nested : List Nat) (cs : List Content) :
    R Content :=
  let outs := List.zipWith (fun idx c => indexed {} idx c) (meshIndexes (cs.map len)) cs
  nestAll nested cs cs.length (record p keys outs (minLength outs))

/-- structure.py:3206-3207, 3224-3226: the numbers of the arrays for `nested=True`. -/
def nestedTrue (dict : Bool) (n : Nat) : List Nat := if dict then List.range n else List.range (n - 1)

end Content
end Awk
