import Verif.Model.Unflatten
/-
What it means to divide the lists of an array into new lists of given lengths.
-/

namespace Awk.Spec
open Awk

/-- `ys` are consecutive parts of `vs`, one after the other up to the end, with the given lengths.
Where the length is missing, so is the list, and nothing is taken from `vs`. -/
inductive Splits : List Val → List Val → List (Option Nat) → Prop
  | nil : Splits [] [] []
  | list {xs vs ys : List Val} {counts : List (Option Nat)} : Splits vs ys counts →
      Splits (xs ++ vs) (.list xs :: ys) (some xs.length :: counts)
  | missing {vs ys : List Val} {counts : List (Option Nat)} : Splits vs ys counts →
      Splits vs (.null :: ys) (none :: counts)

/-- `ys` is `vs` with a new level of lists at the given axis: the items of every list at that depth
are divided into new lists, whose lengths, from the first to the last in the whole array, are
`counts`. Everything else stays as it is. -/
inductive Regroups : Nat → List Val → List Val → List (Option Nat) → Prop
  | here {vs ys : List Val} {counts : List (Option Nat)} : Splits vs ys counts →
      Regroups 0 vs ys counts
  | nil {k : Nat} : Regroups (k + 1) [] [] []
  | missing {k : Nat} {vs ys : List Val} {counts : List (Option Nat)} :
      Regroups (k + 1) vs ys counts → Regroups (k + 1) (.null :: vs) (.null :: ys) counts
  | list {k : Nat} {xs zs vs ys : List Val} {counts counts' : List (Option Nat)} :
      Regroups k xs zs counts → Regroups (k + 1) vs ys counts' →
      Regroups (k + 1) (.list xs :: vs) (.list zs :: ys) (counts ++ counts')

/-- Lists (not strings) down to the given depth, of which some may be missing: the lists that are
divided may have a fixed size, the others have not, and there are no records and no unions around
them. -/
def ListsTo : Nat → AkType → Prop
  | 0, _ => True
  | 1, .regular m _ _ => m.params.arr ≠ .string ∧ m.params.arr ≠ .bytestring
  | k + 1, .list m t =>
    m.params.arr ≠ .string ∧ m.params.arr ≠ .bytestring ∧ ListsTo k t
  | k + 1, .option _ t => ListsTo (k + 1) t
  | _, _ => False

end Awk.Spec
