import Verif.Spec.Sequence
/-
The regions of a report and how they lie to each other.
-/
namespace Verif

/-- The first range lies in the second one. -/
def Range.Within (a b : Range) : Prop := b.start.NotAfter a.start ∧ a.end.NotAfter b.end

/-- The ranges have no more than an end in common. -/
def Range.Apart (a b : Range) : Prop := a.end.NotAfter b.start ∨ b.end.NotAfter a.start

/-- The range is one of a statement, of a function (its name or its body), of a branch or of an arm of a branch in the report. -/
def FileCoverage.Region (c : FileCoverage) (r : Range) : Prop :=
  (∃ id, c.statementMap.get id = some r) ∨ (∃ id f, c.fnMap.get id = some f ∧ (r = f.decl ∨ r = f.loc)) ∨
    ∃ id b, c.branchMap.get id = some b ∧ (b.loc = some r ∨ r ∈ b.locations)

/-- The span has a position. -/
def Span.Placed (sp : Span) : Prop := sp.lo ≠ 0 ∧ sp.hi ≠ 0

/-- The first span lies in the second one, if both have a position. -/
def Span.In (a b : Span) : Prop := a.Placed → b.Placed → b.lo ≤ a.lo ∧ a.hi ≤ b.hi

namespace Node

/-- The nodes of the tree lie in the span. -/
def Under (sp : Span) (n : Node) : Prop := ∀ x ∈ n.each, x.span.In sp

/-- The parts of every node lie in the node. -/
def Nested (n : Node) : Prop := ∀ x ∈ n.each, x.Under x.span

/-- Of any two nodes one lies in the other or they are apart. -/
def Laminar (n : Node) : Prop := ∀ x ∈ n.each, ∀ y ∈ n.each, x.span.Placed → y.span.Placed →
  x.span.In y.span ∨ y.span.In x.span ∨ x.span.hi ≤ y.span.lo ∨ y.span.hi ≤ x.span.lo

end Node
end Verif
