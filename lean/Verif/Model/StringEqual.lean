import Verif.Model.BcastWith
import Verif.Model.Reduce
import Verif.Model.Getitem
/-
`==` between arrays of strings: the function that is registered for strings and bytestrings
(behaviors/string.py:122-157) and how `array_ufunc` finds it.
-/

namespace Awk
open R

/-- The number, if it is one. -/
def Val.number : Val → R Atom
  | .atom a => ok a
  | _ => err "not a flat array"

/-- `nplike.asarray` of a flat array of numbers. -/
def flatNumbers : Item → R (List Atom)
  | .array c => c.toList >>= mapR Val.number
  | _ => err "not a flat array"

/-- NumPy's `out[possible] = reduced`. -/
def assignWhere : List Bool → List Bool → List Bool → R (List Bool)
  | [], [], [] => ok []
  | true :: ps, _ :: out, r :: rs => assignWhere ps out rs >>= fun l => ok (r :: l)
  | false :: ps, o :: out, rs => assignWhere ps out rs >>= fun l => ok (o :: l)
  | _, _, _ => err "NumPy boolean array indexing assignment cannot assign"

/-- `numpy.equal` of two numbers. -/
def eqAtoms : List Atom → Atom
  | [a, b] => .bool (decide (a = b))
  | _ => .bool false

namespace Content

/-- structure.py:1041-1069 `ak.without_parameters` for lists of numbers (_util.py:1143-1212). -/
def stripLists : Content → R Content
  | listOffset _ offsets (numpy _ dt data) => ok (listOffset {} offsets (numpy {} dt data))
  | listArray _ starts stops (numpy _ dt data) => ok (listArray {} starts stops (numpy {} dt data))
  | _ => err "not modelled: other strings"

/-- `c[mask]` with a NumPy array of booleans. -/
def getWhere (mask : List Bool) (c : Content) : R Content :=
  maskSlice (mask.map (fun b => if b then 1 else 0)) mask.length 1 >>= fun item =>
  getitem [item] c >>= fun it => match it with
    | .array c' => ok c'
    | _ => err "unreachable"

/-- behaviors/string.py:139-146: whether the characters of each two strings are the same. -/
def sameCharacters (fuel : Nat) (one two : Content) : R (List Atom) :=
  elementwise eqAtoms .bool fuel [one, two] >>= fun it => match it with
    | .array e => e.reduce .all (-1) false >>= flatNumbers
    | _ => err "unreachable"

/-- behaviors/string.py:122-148 `_string_equal`. -/
def stringEqual (fuel : Nat) (one two : Content) : R (List Bool) :=
  stripLists one >>= fun one => stripLists two >>= fun two =>
  (one.reduce .count (-1) false >>= flatNumbers) >>= fun counts1 =>
  (two.reduce .count (-1) false >>= flatNumbers) >>= fun counts2 =>
  if counts1.length ≠ counts2.length then err "not modelled: different lengths"
  else
    let out := List.zipWith (fun a b => decide (a = b)) counts1 counts2
    let possible := List.zipWith (fun b n => b && decide (n ≠ .int 0)) out counts1
    if possible.any id then
      getWhere possible one >>= fun onepossible =>
      getWhere possible two >>= fun twopossible =>
      sameCharacters fuel onepossible twopossible >>= fun reduced =>
      assignWhere possible out (reduced.map (fun a => decide (a = .bool true)))
    else ok out

/-- Two strings or two bytestrings. -/
def bothStrings : List Content → Option (Content × Content)
  | [a, b] =>
    if (a.params.arr = .string ∧ b.params.arr = .string ∨
      a.params.arr = .bytestring ∧ b.params.arr = .bytestring) ∧ a.params.recName = none ∧
      b.params.recName = none then some (a, b) else none
  | _ => none

/-- _connect/_numpy.py:134-241 `getfunction` of `numpy.equal`: the function for strings
(behaviors/string.py:154-155), or else that of numbers. -/
def equalGet (fuel depth : Nat) (cs : List Content) : R (Option (List Content)) :=
  match bothStrings cs with
  | some (a, b) => stringEqual fuel a b >>= fun out => ok (some [numpy {} .bool (out.map .bool)])
  | none => ufuncGet eqAtoms .bool depth cs

/-- `one == two` for arrays (_connect/_numpy.py:32-247 with `numpy.equal`). -/
def equalArrays (fuel : Nat) (one two : Content) : R Item :=
  bcastAndApply ⟨true, false, false⟩ (equalGet fuel) fuel [one, two] >>= onlyOutput

end Content
end Awk
