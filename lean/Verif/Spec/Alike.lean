import Verif.Spec.Braces
/-
Constructs that can be exchanged for each other without any difference to the report, and rewritings of programs by such exchanges.
-/
namespace Verif
open Node

/-- Expressions of which nothing is counted, and that are neither names nor strings. -/
def Kind.inner : Kind → Bool
  | paren | seq | assign _ | other .expr _ => true
  | bin op => !op.isLogical
  | _ => false

/-- These, and names, patterns, properties and lists. -/
def Kind.loose : Kind → Bool
  | ident _ | list | other .misc _ => true
  | k => k.inner

/-- Kinds that are treated alike: all kinds of loops; `var`, `let` and `const`; functions with and without `async` and the like. -/
def Kind.blur : Kind → Kind
  | loop _ => loop .while
  | varDecl _ => varDecl .var
  | arrow _ => arrow ""
  | function _ => function ""
  | k => k

/-- `const …` -/
def Node.constDecl (n : Node) : Bool := n.kind = .varDecl .const

/-- What is seen of a construct from outside, apart from its kind and place. -/
def Node.traits (n : Node) : Bool × Bool × Bool × Bool × Bool :=
  (n.isCase, n.isNone, isInjectedStmt n, isString n, isConst n)

/-- The places of the parts of a function, and which of them are blocks. -/
def Node.fnParts : Node → List (Bool × Span)
  | mk (.function _) _ cs => cs.map fun c => (decide (c.kind = .block), c.span)
  | _ => []

/-- The constructs look the same from outside, and have the same entries and operands in them. If there are no statements in them, they have the same
expressions and functions in them, and the second has blocks in it if the first has. -/
structure Alike (cx : Ctx) (a b : Node) : Prop where
  kind : b.kind.blur = a.kind.blur ∨ a.kind.loose = true ∧ b.kind.loose = true
  span : b.span = a.span
  traits : b.traits = a.traits
  fnParts : b.fnParts = a.fnParts
  logical : b.any Kind.isLogical = a.any Kind.isLogical
  stmts : b.any Kind.hasBody = a.any Kind.hasBody
  rest : a.any Kind.hasBody = false →
    b.any Kind.isStmt = a.any Kind.isStmt ∧ b.any Kind.isHoisting = a.any Kind.isHoisting ∧ b.any Kind.isExpr = a.any Kind.isExpr
  blocks : a.any Kind.isBlock = true → b.any Kind.isBlock = true
  arms : cx.ranges (leaves cx b) = cx.ranges (leaves cx a)
  entries : ∀ l, outline cx l b = outline cx l a

namespace Node

mutual
/-- Rewrite every construct, the inner ones first. -/
def rewrite (f : Node → Node) : Node → Node
  | mk k sp cs => f (mk k sp (rewrites f cs))

/-- `rewrite` on several constructs. -/
def rewrites (f : Node → Node) : List Node → List Node
  | [] => []
  | c :: cs => rewrite f c :: rewrites f cs
end

/-- What matters of a part to a construct of this kind only: to an export, whether it is `const …`, and to a function its name. -/
def mark (c : Node) : Kind → Bool × Option String
  | .exportDecl => (c.constDecl, none)
  | .fnDecl | .fnExpr => (false, c.identName?)
  | _ => (false, none)

/-- Exported declarations stay `const`, or not `const`, and functions keep their names. -/
def KeepsMarks (g : Node → Node) (p : Node) : Prop := ∀ m ∈ p.each, ∀ c ∈ m.children, (g c).mark m.kind = c.mark m.kind

/-- What stands in the place of something that may be missing: an empty block, or nothing as before. -/
def emptyBlock : Option Span → Span → Node
  | some b, _ => mk .block b []
  | none, s => mk .none s []

/-- An `if` without `else` gets an empty one, and a `try` without `finally` as well, if there is to be one: `w` says where it is. -/
def emptyArm (w : Span → Option Span) : Node → Node
  | mk .ifStmt sp [test, cons, mk .none s []] => mk .ifStmt sp [test, cons, emptyBlock (w sp) s]
  | mk .tryStmt sp [mk .block b ss, handler, mk .none s []] => mk .tryStmt sp [mk .block b ss, handler, emptyBlock (w sp) s]
  | n => n

end Node
end Verif
