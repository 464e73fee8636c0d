import Verif.Model.FileCoverage
import Verif.Model.Percent
/-
packages/istanbul-oxide/src/coverage.rs and the quotient of `get_branch_coverage_by_line`.
-/
namespace Verif

/-- coverage.rs:1-16 `Coverage`. The `f32` is a rational number, or nothing for NaN. -/
structure Coverage where
  covered : Nat
  total : Nat
  coverage : Option Rat
deriving DecidableEq

/-- file_coverage.rs:244 `covered.len() as f32 / data_array.len() as f32 * 100 as f32`: both lengths
are rounded to `f32`, then the quotient, then the product. `0.0 / 0.0` and NaN times 100 are NaN.
`roundF32` is the rounding of `f32` for numbers below `2^24`. -/
def lineQuotient (covered total : Nat) : Option Rat :=
  if total = 0 then none
  else some (roundF32 (roundF32 (roundF32 covered / roundF32 total) * 100))

/-- file_coverage.rs:242-250: one line of the second loop of `get_branch_coverage_by_line`. -/
def lineEntry (data : List Nat) : Coverage :=
  let covered := FileCoverage.countPos data
  ⟨covered, data.length, lineQuotient covered data.length⟩

/-- file_coverage.rs:219-253 `get_branch_coverage_by_line`, with the quotient. -/
def FileCoverage.branchCoverageByLine (fc : FileCoverage) : Except Panic (IndexMap Nat Coverage) :=
  match branchLineLoop fc.b fc.branchMap [] with
  | .error e => .error e
  | .ok data => .ok (data.map fun e => (e.1, lineEntry e.2))

end Verif
