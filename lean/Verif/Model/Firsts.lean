import Verif.Model.BcastWith
import Verif.Model.Getitem
import Verif.Model.Depth
/-
`ak.firsts` (operations/structure.py:2882-2942) of an array that is not partitioned.
-/

namespace Awk
open R

/-- `x > 0` for an integer; the zero is a Python number, not an array. -/
def positive : List Atom → Atom
  | [.int n] => .bool (decide (0 < n))
  | _ => .bool false

namespace Content

/-- structure.py:2932-2937: `mask(layout, num(layout, axis) > 0)[:, …, 0]`. -/
def firstsAt (fuel axis : Nat) (c : Content) : R Item :=
  c.num axis >>= fun counts => match counts with
    | .scalar _ => err "unreachable"
    | .array k =>
      elementwise positive .bool fuel [k] >>= fun m => match m with
        | .array m =>
          maskArray fuel true c m >>= fun masked => match masked with
            | .array masked => getitem (List.replicate axis (.range none none 1) ++ [.at 0]) masked
            | _ => err "unreachable"
        | _ => err "unreachable"

/-- structure.py:2882-2942 `ak.firsts`. -/
def firsts (fuel : Nat) (axis : Int) (c : Content) : R Item :=
  c.axisWrap axis >>= fun posaxis =>
  if posaxis = 0 then
    if c.len = 0 then ok .none else c.getitemAt 0
  else if posaxis < 0 then err "ak.firsts with ambiguous negative axis"
  else firstsAt fuel posaxis.toNat c

end Content
end Awk
