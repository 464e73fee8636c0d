import Verif.Spec.Core
import Verif.Spec.Braces
import Verif.Spec.Thin
import Verif.Spec.Unsure
/-
Sequences of changes to a program that make no difference to its report.
-/
namespace Verif
open Node

/-- One change to a program: braces (C75), statements that nothing is counted in are left out (C76), empty `else` and `finally` blocks (C79), other
operators and plain expressions (C80), other words (C81), and other expressions around the same counted constructs (C82). -/
inductive Node.Change1 (cx : Ctx) : Node → Node → Prop where
  | braces {p : Node} (w : Span → Option Span) : cx.Bare w → p.StmtsInBlocks → Change1 cx p (brace w p)
  | thin {p : Node} (q : Span → Bool) : p.ListsInBlocks → Change1 cx p (thin q p)
  | arms {p : Node} (w : Span → Option Span) : p.StmtsInBlocks → Change1 cx p (rewrite (emptyArm w) p)
  | exchange {p : Node} {f : Node → Node} : (∀ n, Exchange n (f n)) → p.StmtsInBlocks → Change1 cx p (rewrite f p)
  | words {p : Node} {f : Node → Node} : (∀ n, Variant n (f n)) → p.SparesExports f → p.StmtsInBlocks → Change1 cx p (rewrite f p)
  | regroup {p : Node} {f : Node → Node} : (∀ n, Regroup cx n (f n)) → p.SparesNames f → p.StmtsInBlocks → Change1 cx p (rewrite f p)

/-- Any number of such changes, made or undone. -/
inductive Node.Rephrased (cx : Ctx) (p : Node) : Node → Prop where
  | same : Rephrased cx p p
  | change {q r : Node} : Rephrased cx p q → Change1 cx q r → Rephrased cx p r
  | undo {q r : Node} : Rephrased cx p q → Change1 cx r q → Rephrased cx p r

end Verif
