import Verif.Model.Partition
/-
Specification vocabulary for partitioned arrays.
-/

namespace Awk.Spec

/-- Running totals of the lengths of `parts`, starting from `start`. -/
def runningTotals (start : Int) : List (List α) → List Int
  | [] => []
  | q :: qs => (start + q.length) :: runningTotals (start + q.length) qs

/-- A well-formed partitioned array: at least one partition, and the recorded stops are the
running totals of the partition lengths. -/
def PartitionsOk (p : PArr α) : Prop := p.parts ≠ [] ∧ p.stops = runningTotals 0 p.parts

/-- The unpartitioned array: all the partitions one after another. -/
def unpartitioned (p : PArr α) : List α := p.parts.flatten

end Awk.Spec
