import Verif.Spec.Combinations
/-
Specification of `ak.argcombinations`.
-/

namespace Awk.Spec

/-- A pick of positions, shown as a tuple or record of integers. -/
def pickOf (keys : Option (List String)) (t : List Nat) : Val :=
  mkRecord keys (t.map (fun (i : Nat) => .atom (.int i)))

/-- The picks of `n` positions of a list, each shown as a tuple or record of integers. -/
def argCombine (repl : Bool) (n : Nat) (keys : Option (List String)) (v : Val) : Val :=
  .list ((choose repl n (List.range v.items.length)).map (pickOf keys))

end Awk.Spec
