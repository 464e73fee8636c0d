import Verif.Spec.Outline
/-
Programs with braces put around bodies of statements.
-/
namespace Verif
namespace Node

/-- The statement in braces, if there are to be some around the statement at this place. A block gets none. -/
def wrap (w : Span → Option Span) (b : Node) : Node :=
  match w b.span with
  | some sp => if b.hintable && b.kind ≠ .block && !isInjectedStmt b then mk .block sp [b] else b
  | none => b

/-- The last of several parts in braces. -/
def wrapLast (w : Span → Option Span) : List Node → List Node
  | [] => []
  | [b] => [wrap w b]
  | c :: cs => c :: wrapLast w cs

/-- The arms of an `if`, the bodies of `with` and of loops, and the statements of blocks and cases in braces. -/
def bodies (w : Span → Option Span) : Kind → List Node → List Node
  | .ifStmt, [test, cons, alt] => [test, wrap w cons, wrap w alt]
  | .withStmt, [obj, body] => [obj, wrap w body]
  | .loop _, cs => wrapLast w cs
  | .block, ss => ss.map (wrap w)
  | .switchCase, test :: ss => test :: ss.map (wrap w)
  | _, cs => cs

mutual
/-- The program with braces around some of the bodies of its statements and of the statements in its blocks: `w` says around which, and where they
are. -/
def brace (w : Span → Option Span) : Node → Node
  | mk k sp cs => mk k sp (bodies w k (braces w cs))

/-- `brace` on lists. -/
def braces (w : Span → Option Span) : List Node → List Node
  | [] => []
  | c :: cs => brace w c :: braces w cs
end

end Node

/-- Constructs with statements in them. -/
def Kind.hasBody : Kind → Bool
  | ifStmt | withStmt | loop _ | block | switchCase => true
  | _ => false

/-- Where an initialiser has statements in it, it has a block in it: they are in a function, which the grammar guarantees. -/
def Node.StmtsInBlocks (p : Node) : Prop := ∀ m ∈ p.each, ∀ init ∈ initOf m, init.any Kind.hasBody = true → init.any Kind.isBlock = true

/-- There is no hint at the braces. -/
def Ctx.Bare (cx : Ctx) (w : Span → Option Span) : Prop := cx.hint Span.dummy ≠ some .next ∧ ∀ sp sp', w sp = some sp' → cx.hint sp' ≠ some .next

end Verif
