import Verif.Spec.Each
import Verif.Model.Visitor
/-
Programs of which every branch gets an arm.
-/
namespace Verif
open Node

/-- There is no hint to ignore the construct at the span. -/
def Ctx.quiet (cx : Ctx) (sp : Span) : Prop := cx.hint sp ≠ some .next

/-- There is no such hint in the whole tree. -/
def Ctx.calm (cx : Ctx) (n : Node) : Prop := ∀ x ∈ n.each, cx.quiet x.span

/-- The node is no branch, or gets an arm: a logical expression has two operands, one of which contains nothing ignored, a conditional
expression has an arm that is not ignored, a switch has a case that is not ignored, a default value contains nothing ignored. -/
def Ctx.armed (cx : Ctx) (n : Node) : Prop :=
  match n.kind, n.children with
  | .bin op, cs => op = .and ∨ op = .or ∨ op = .nullish → cs.length = 2 ∧ ∃ e ∈ cs, cx.calm e
  | .cond, cs => ∀ test cons alt, cs = [test, cons, alt] → cx.quiet cons.span ∨ cx.quiet alt.span
  | .assignPat, cs => ∀ left right, cs = [left, right] → cx.calm right
  | .switchStmt, cs => ∃ c ∈ cs, c.kind = .switchCase ∧ c.children ≠ [] ∧ cx.quiet c.span
  | _, _ => True

/-- All branches of the tree get arms. -/
def Ctx.Armed (cx : Ctx) (n : Node) : Prop := ∀ x ∈ n.each, cx.armed x

/-- A node of a program without hints gets arms if it is a branch: a logical expression has two operands, a switch has a case. -/
def Node.hasArms : Node → Bool
  | mk (.bin op) _ cs => !op.isLogical || cs.length == 2
  | mk .switchStmt _ cs => cs.any fun c => decide (c.kind = .switchCase) && !c.children.isEmpty
  | _ => true

end Verif
