import Verif.Spec.Outline
/-
Reports that only differ in initialisers with functions or classes but no block in them.
-/
namespace Verif
open Node

/-- The range is that of the initialiser of a variable with functions or classes but no block in it. -/
def Node.UnsureInit (cx : Ctx) (p : Node) (r : Range) : Prop :=
  ∃ sp pat init, mk .varDeclarator sp [pat, init] ∈ p.each ∧ init.any Kind.isHoisting = true ∧ init.any Kind.isBlock = false ∧ r = cx.range init.span

/-- The lists have the same elements in the same order, except for some with this property that are missing in one of them. -/
inductive Nearly (P : α → Prop) : List α → List α → Prop where
  | nil : Nearly P [] []
  | both (a : α) {l l' : List α} : Nearly P l l' → Nearly P (a :: l) (a :: l')
  | left {a : α} {l l' : List α} : P a → Nearly P l l' → Nearly P (a :: l) l'
  | right {a : α} {l l' : List α} : P a → Nearly P l l' → Nearly P l (a :: l')

/-- The statements of the reports are the same in the same order, except for such initialisers. -/
def NearStatements (cx : Ctx) (p : Node) (c c' : FileCoverage) : Prop :=
  ∃ S S', (∀ id, c.statementMap.get id = S[id]?) ∧ (∀ id, c'.statementMap.get id = S'[id]?) ∧ Nearly (p.UnsureInit cx) S S'

end Verif
