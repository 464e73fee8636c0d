import Verif.Model.Ast
import Verif.Model.FileCoverage
/-
What a counter in the program refers to in the coverage data.
-/
namespace Verif

/-- The cell of the coverage data that a counter increments: `s[id]`, `f[id]`, `b[id][arm]`, `bT[id][arm]`.
No cell: the increment fails with a type error (or makes up a new entry). -/
def Counter.cell (r : FileCoverage) : Counter → Option Nat
  | .s id => r.s.get id
  | .f id => r.f.get id
  | .b id arm => (r.b.get id).bind fun counts => counts[arm]?
  | .bT id arm => r.bT.bind fun m => (m.get id).bind fun counts => counts[arm]?

/-- A truthiness counter. -/
def Counter.isTruth : Counter → Bool
  | .bT _ _ => true
  | _ => false

/-- A statement counter. -/
def Counter.isStmt : Counter → Bool
  | .s _ => true
  | _ => false

end Verif
