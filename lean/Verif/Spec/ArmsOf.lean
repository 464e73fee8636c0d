import Verif.Spec.Reached
import Verif.Spec.Arms
import Verif.Spec.Inside
/-
The branch that belongs to a construct of the source.
-/
namespace Verif
open Node

/-- A case or default of a `switch`. -/
def Node.isCase : Node → Bool
  | mk .switchCase _ (_ :: _) => true
  | _ => false

/-- The ranges of nodes. -/
def Ctx.ranges (cx : Ctx) (ns : List Node) : List Range := ns.map fun n => cx.range n.span

/-- The parts of a construct between which it chooses: the two values of a conditional expression, the cases of a `switch`, the operands of a
default value or of a logical expression. What an ignore-next hint excludes is left out. -/
def Node.choices (cx : Ctx) : Node → List Node
  | mk .cond _ [_, cons, alt] => [cons, alt].filter fun e => !cx.hinted e
  | mk .switchStmt _ cs => cs.filter fun c => c.isCase && !cx.hinted c
  | mk .assignPat _ [_, right] => operands cx [right]
  | mk (.bin op) _ [left, right] => if op.isLogical then operands cx [left, right] else []
  | _ => []

/-- The type of the branch of a construct. -/
def Node.branchKind : Node → Option BranchType
  | mk .ifStmt _ [_, _, _] => some .if
  | mk .cond _ [_, _, _] => some .condExpr
  | mk .switchStmt _ _ => some .switch
  | mk .assignPat _ [_, _] => some .defaultArg
  | mk (.bin op) _ [_, _] => if op.isLogical then some .binaryExpr else none
  | _ => none

/-- The branch of a construct: its type, and the ranges of its arms. For an `if` that is the range of the statement, once for each arm counted. -/
def Node.branch? (cx : Ctx) (n : Node) : Option (BranchType × List Range) := n.branchKind.map fun t =>
  (t, if t = .if then List.replicate (ifArms (cx.hint n.span)) (cx.range n.span) else cx.ranges (n.choices cx))

/-- No initialiser is a tagged template. -/
def Node.NoTaggedInits (p : Node) : Prop := ∀ m ∈ p.each, ∀ init ∈ initOf m, init.kind ≠ .taggedTpl

/-- Cases are in `switch` statements, which the grammar guarantees. -/
def Node.CasesInSwitch (p : Node) : Prop := ∀ m ∈ p.each, m.kind ≠ .switchStmt → ∀ c ∈ m.children, c.isCase = false

/-- The branch is that of the construct. -/
def Branch.Of (cx : Ctx) (n : Node) (br : Branch) : Prop :=
  n.branch? cx = some (br.branchType, br.locations) ∧ br.loc = some (cx.range n.span) ∧ br.line = some (cx.range n.span).start.line

/-- The parts between which a construct chooses have positions and come one after the other. -/
def Node.ChoicesFollow (cx : Ctx) (p : Node) : Prop := ∀ n ∈ p.each, (n.choices cx).Pairwise fun a b => a.span.hi ≤ b.span.lo

end Verif
