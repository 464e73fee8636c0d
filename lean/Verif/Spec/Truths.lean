import Verif.Spec.Runs
import Verif.Model.Summary
/-
Truthiness counts of reports of several runs.
-/
namespace Verif

/-- The branches with truthiness counts come first: their ids are those below some number. -/
def FileCoverage.TruthFirst (r : FileCoverage) : Prop := ∃ K, ∀ k, k ∈ IndexMap.keys (r.bT.getD []) ↔ k < K

/-- The truthiness counts of `m` are for the branches for which `r` has them, and given by `n`; these branches have the arm counts given by
`n` too. -/
structure FileCoverage.Retruths (r : FileCoverage) (n : Counter → Nat) (m : FileCoverage) : Prop where
  counts : ∀ id v x, (r.bT.getD []).get id = some v → r.branchMap.get id = some x →
    ∃ id', m.branchMap.get id' = some x ∧ ∀ i, i < x.locations.length →
      m.count (.b id' i) = some (n (.b id i)) ∧ m.count (.bT id' i) = some (n (.bT id i))
  ids : ∀ id' v', (m.bT.getD []).get id' = some v' → ∃ id v x, (r.bT.getD []).get id = some v ∧ r.branchMap.get id = some x ∧
    m.branchMap.get id' = some x

/-- Totals of the operands with truthiness counts, if the counters have the values `n`: how many there are, and how many gave a
truthy value. -/
structure Totals.Truths (t : Totals) (r : FileCoverage) (n : Counter → Nat) : Prop where
  total : t.total = ((r.bT.getD []).map fun e => e.2.length).sum
  covered : t.covered = ((r.bT.getD []).map fun e => (List.range e.2.length).countP fun i => decide (0 < n (.bT e.1 i))).sum

end Verif
