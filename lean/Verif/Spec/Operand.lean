import Verif.Spec.Reached
/-
The only effect of what is inside an operand of a logical expression.
-/
namespace Verif

/-- The second report is the first one with arms at these places added to a branch. -/
structure FileCoverage.AddsArms (a : FileCoverage) (k : Nat) (l : List Range) (c : FileCoverage) : Prop where
  statements : c.statementMap = a.statementMap ∧ c.s = a.s
  functions : c.fnMap = a.fnMap ∧ c.f = a.f
  branches : ∀ j, c.branchMap.get j =
    (a.branchMap.get j).map fun b => if j = k then { b with locations := b.locations ++ l } else b
  counts : ∀ j, c.b.get j = (a.b.get j).map fun b => if j = k then b ++ List.replicate l.length 0 else b

end Verif
