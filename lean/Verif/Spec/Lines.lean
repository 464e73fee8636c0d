import Verif.Spec.Report
import Batteries.Data.List.Basic
/-
What line and branch summaries should say.
-/
namespace Verif.FileCoverage

/-- The counts of the statements that start on a line. -/
def lineCounts (fc : FileCoverage) (line : Nat) : List Nat :=
  (fc.statementTable.filter fun e => decide (e.1.start.line = line)).map (·.2)

/-- The line a branch is reported on: its `line`, else the first line of its location. -/
def ReportedOn (br : Branch) (line : Nat) : Prop :=
  br.line = some line ∨ (br.line = none ∧ ∃ r, br.loc = some r ∧ r.start.line = line)

/-- Every branch can be placed on a line. -/
def Placed (fc : FileCoverage) : Prop := ∀ e ∈ fc.branchMap, ∃ l, ReportedOn e.2 l

/-- Number of arms of a report that were taken at least once. -/
def coveredArms (fc : FileCoverage) : Nat := ((fc.b.map (·.2)).flatten.countP fun x => decide (0 < x))
/-- Number of arms of a report. -/
def totalArms (fc : FileCoverage) : Nat := (fc.b.map (·.2)).flatten.length

/-- `fc'` is `fc` after further executions: same items and ids, no count decreased. -/
structure FurtherHits (fc fc' : FileCoverage) : Prop where
  statementMap : fc'.statementMap = fc.statementMap
  s : List.Forall₂ (fun e e' => e'.1 = e.1 ∧ e.2 ≤ e'.2) fc.s fc'.s
  f : List.Forall₂ (fun e e' => e'.1 = e.1 ∧ e.2 ≤ e'.2) fc.f fc'.f
  b : List.Forall₂ (fun e e' => e'.1 = e.1 ∧ List.Forall₂ (· ≤ ·) e.2 e'.2) fc.b fc'.b

end Verif.FileCoverage
