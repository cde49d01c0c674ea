import Verif.Spec.Merge
import Verif.Spec.Shape
import Verif.Spec.List
/-
Specification of `ak.concatenate` at axis 1.
-/

namespace Awk.Content

/-- What joining lists needs of every node, besides what merging needs (`MergeNode`): where options are
allowed there are no records, because records that are gathered from a list are put under an
IndexedArray. -/
def JoinNode (no : Without) (c : Content) : Prop := MergeNode no c ∧ (no.indexed → c.isRecord = false)

/-- An array of lists that are not strings. -/
def ListArrays (c : Content) : Prop := c.isListNode = true ∧ c.params.arr = .none

end Awk.Content
