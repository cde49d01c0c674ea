import Verif.Model.Apply
import Verif.Model.Getitem
import Verif.Lemmas.ValEq
/-
Categorical arrays (src/awkward/behaviors/categorical.py).
-/

namespace Awk
open R

/-- Numbers and booleans as complex numbers: Python compares and hashes them by value. -/
def Atom.asNumber : Atom → Option (Rat × Rat)
  | .bool b => some (if b then 1 else 0, 0)
  | .int i => some (i, 0)
  | .real r => some (r, 0)
  | .complex r i => some (r, i)
  | _ => none

/-- Python's `==` of numbers, booleans, dates and time differences. -/
def Atom.pyEq (a b : Atom) : Bool :=
  match a.asNumber, b.asNumber with
  | some x, some y => decide (x = y)
  | none, none => decide (a = b)
  | _, _ => false

mutual
/-- Python's `==` of what `_hashable` returns (categorical.py:34-52). Records are not compared, see
`Val.hashable`. -/
def Val.pyEq : Val → Val → Bool
  | .null, .null => true
  | .atom a, .atom b => a.pyEq b
  | .str xs, .str ys => Val.sameList xs ys
  | .bytes xs, .bytes ys => Val.sameList xs ys
  | .list xs, .list ys => Val.pyEqList xs ys
  | .tuple xs, .tuple ys => Val.pyEqList xs ys
  | _, _ => false
/-- Lists of values. -/
def Val.pyEqList : List Val → List Val → Bool
  | [], [] => true
  | x :: xs, y :: ys => x.pyEq y && Val.pyEqList xs ys
  | _, _ => false
end

mutual
/-- Whether Python's `hash` accepts an object: not for lists and dicts, even inside of tuples. -/
def Val.pyHashable : Val → Bool
  | .list _ | .record _ => false
  | .tuple vs => Val.pyHashableList vs
  | _ => true
/-- All objects of a tuple. -/
def Val.pyHashableList : List Val → Bool
  | [] => true
  | v :: vs => v.pyHashable && Val.pyHashableList vs
end

mutual
/-- categorical.py:18-52: whether `_hashable(obj)` can be made. `_HashableDict` calls `hash` with two
arguments (line 22), which is a TypeError; `_HashableList` hashes the items as they are (line 38). -/
def Val.hashable : Val → Bool
  | .record _ => false
  | .tuple vs => Val.hashableList vs
  | .list vs => Val.pyHashableList vs
  | _ => true
/-- All items of a tuple. -/
def Val.hashableList : List Val → Bool
  | [] => true
  | v :: vs => v.hashable && Val.hashableList vs
end

/-- categorical.py:229-239: the loop that fills `is_first` and `mapping`; `seen` are the keys of `lookup`
in the order of their numbers. -/
def categorize : List Val → List Val → List (Int × Int)
  | _, [] => []
  | seen, x :: xs =>
    match seen.findIdx? (fun y => y.pyEq x) with
    | some j => (0, (j : Int)) :: categorize seen xs
    | none => (1, (seen.length : Int)) :: categorize (seen ++ [x]) xs

/-- NumPy: `array[index]` for an array of positions, which count from the end if they are negative. -/
def npTake (array : List Int) (index : List Int) : R (List Int) :=
  mapR (fun (i : Int) =>
    if 0 ≤ i ∧ i < array.length then rd array i
    else if i < 0 ∧ -(array.length : Int) ≤ i then rd array (i + array.length)
    else err "IndexError") index

/-- NumPy: `array[mask] = -1`. -/
def npPut (array mask : List Int) : R (List Int) :=
  if array.length ≠ mask.length then err "IndexError"
  else ok (List.zipWith (fun a m => if m ≠ 0 then -1 else a) array mask)

namespace Content

/-- categorical.py:226-228, 262: the part that all kinds of nodes share: the numbers of the categories of the
elements, and `content[is_first]`. -/
def distinct (content : Content) : R (List Int × Content) :=
  content.toList >>= fun vs =>
  if Val.hashableList vs then
    let cs := categorize [] vs
    maskSlice (cs.map Prod.fst) (cs.map Prod.fst).length 1 >>= fun item =>
    getitem [item] content >>= fun it =>
    match it with
    | .array d => ok (cs.map Prod.snd, d)
    | _ => ub
  else err "TypeError: unhashable"

/-- categorical.py:241-262 for a node that has been simplified. -/
def categoricalNode (layout : Content) : R Content :=
  match layout with
  | indexedOption _ index content =>
    distinct content >>= fun md => npTake md.1 index >>= fun index' =>
    ok (indexedOption { arr := .categorical }
      (List.zipWith (fun i j => if i < 0 then -1 else j) index index') md.2)
  | indexed _ index content =>
    distinct content >>= fun md => npTake md.1 index >>= fun index' =>
    ok (indexed { arr := .categorical } index' md.2)
  | byteMasked _ _ _ content | bitMasked _ _ _ _ _ content | unmasked _ content =>
    distinct content >>= fun md => layout.bytemask >>= fun mask => npPut md.1 mask >>= fun index' =>
    ok (indexedOption { arr := .categorical } index' md.2)
  | content =>
    distinct content >>= fun md => ok (indexed { arr := .categorical } md.1 md.2)

/-- categorical.py:208-266 `getfunction` of `to_categorical`. -/
def categoricalGet (_depth : Nat) (_user : Unit) (layout : Content) : R (Content ⊕ Unit) :=
  if layout.purelistDepth = 1 then
    (match layout with
      | indexedOption .. | byteMasked .. | bitMasked .. | unmasked .. => layout.simplifyOption
      | _ => ok layout) >>= fun layout =>
    categoricalNode layout >>= fun out => ok (.inl out)
  else ok (.inr ())

/-- categorical.py:149-275 `to_categorical`. Not modelled: arrays of numbers in several dimensions. -/
def toCategorical (c : Content) : R Content := apply categoricalGet 1 () c

/-- categorical.py:297-306 `getfunction` of `from_categorical`: `with_parameter` removes the label
(structure.py:1002-1038). -/
def fromCategoricalGet (_depth : Nat) (_user : Unit) (layout : Content) : R (Content ⊕ Unit) :=
  match layout with
  | indexed p index c =>
    if p.arr = .categorical then ok (.inl (indexed { p with arr := .none } index c)) else ok (.inr ())
  | indexedOption p index c =>
    if p.arr = .categorical then ok (.inl (indexedOption { p with arr := .none } index c)) else ok (.inr ())
  | _ => ok (.inr ())

/-- categorical.py:278-315 `from_categorical`. Only IndexedArrays and IndexedOptionArrays are labelled. -/
def fromCategorical (c : Content) : R Content := apply fromCategoricalGet 1 () c

mutual
/-- categorical.py:109-146 `categories`: the content of the last labelled node that is found, not looking
below labelled nodes. -/
def categories : Content → Option Content
  | empty _ | numpy .. => Option.none
  | regular _ c _ _ | listArray _ _ _ c | listOffset _ _ c => c.categories
  | byteMasked _ _ _ c | bitMasked _ _ _ _ _ c | unmasked _ c => c.categories
  | indexed p _ c | indexedOption p _ c => if p.arr = .categorical then some c else c.categories
  | record _ _ cs _ | union _ _ _ cs => categoriesAll cs
/-- The contents of a record or union, in order. -/
def categoriesAll : List Content → Option Content
  | [] => Option.none
  | c :: cs => match categoriesAll cs with
    | some d => some d
    | Option.none => c.categories
end

/-- categorical.py:55-88 `_categorical_equal` of two categorical arrays, given their indexes and the lists of
their categories; `same` is the answer of line 69-71. NumPy compares arrays of equal length. -/
def categoricalEqual (same : Bool) (oneIndex twoIndex : List Int) (oneList twoList : List Val) :
    R (List Bool) :=
  (if same then ok oneIndex
    else if Val.hashableList oneList && Val.hashableList twoList then
      npTake (oneList.map (fun x =>
        match twoList.reverse.findIdx? (fun y => y.pyEq x) with
        | some j => ((twoList.length - 1 - j : Nat) : Int)
        | none => (twoList.length : Int)) ++ [-1]) oneIndex
    else err "TypeError: unhashable") >>= fun oneMapped =>
  if oneMapped.length = twoIndex.length then ok (List.zipWith (fun i j => decide (i = j)) oneMapped twoIndex)
  else err "shapes do not match"

end Content
end Awk
