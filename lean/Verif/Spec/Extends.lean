import Verif.Model.Types
/-
Reports that have everything that is in another report, unchanged.
-/
namespace Verif

/-- A table keeps its entries, and those that are added have ids above all that are there. -/
def TableExtends {V : Type} (m m' : IndexMap Nat V) : Prop :=
  (∀ k v, m.get k = some v → m'.get k = some v) ∧
  ∀ k v, m'.get k = some v → m.get k = some v ∨ ∀ k' v', m.get k' = some v' → k' < k

/-- The second report has all entries of the first, with the same ids, and further entries after them. -/
structure Extends (r r' : FileCoverage) : Prop where
  path : r'.path = r.path
  sourceMap : r'.inputSourceMap = r.inputSourceMap
  statementMap : r.statementMap <+: r'.statementMap
  s : r.s <+: r'.s
  fnMap : r.fnMap <+: r'.fnMap
  f : r.f <+: r'.f
  branchMap : TableExtends r.branchMap r'.branchMap
  b : TableExtends r.b r'.b
  bT : TableExtends (r.bT.getD []) (r'.bT.getD [])
  bTSome : r.bT.isSome = r'.bT.isSome

end Verif
