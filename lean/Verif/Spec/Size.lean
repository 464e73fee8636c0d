import Verif.Spec.Each
import Verif.Spec.Serde
import Verif.Spec.Duty
import Verif.Model.FileCoverage
/-
How large programs and reports are.
-/
namespace Verif

/-- The number of nodes of a tree. -/
def Node.size (n : Node) : Nat := n.each.length

/-- The number of entries of a report: statements, functions, branches and arms. -/
def FileCoverage.entries (c : FileCoverage) : Nat :=
  c.statementMap.length + c.fnMap.length + c.branchMap.length + (c.branchMap.map fun e => e.2.locations.length).sum

/-- A program of less than a thousand million nodes, without tagged templates as initialisers, whose positions and source map have 32 bit
numbers. -/
structure FitsInSource (cx : Ctx) (sm : Option SourceMap) (p : Node) : Prop where
  plain : p.PlainInits
  size : 4 * p.size < 2 ^ 32
  pos : ∀ x, (cx.pos x).Fits
  version : ∀ m ∈ sm, m.version < 2 ^ 32

end Verif
