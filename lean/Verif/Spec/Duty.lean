import Verif.Spec.Reached
/-
The constructs of a program that may have an entry in the report: for each node the ranges of statements, functions
and branches it stands for.
-/
namespace Verif
namespace Node

/-- The spans for which a node may have a statement entry: that of a statement, of a tagged template, of an initialiser, of an expression
that is the body of an arrow function, of an `export const`. Declarations, blocks and directives have none. -/
def stmtSpans : Node → List Span
  | mk .exprStmt sp [mk (.strLit v) _ _] => if v ∈ ["use strict", "use asm", "use strong"] then [] else [sp]
  | mk .exprStmt _ [mk (.counter (.s _)) _ _] => []
  | mk .exprStmt _ [mk (.counter (.f _)) _ _] => []
  | mk .exprStmt sp [_] => [sp]
  | mk .breakStmt sp _ | mk .continueStmt sp _ | mk .returnStmt sp _ | mk .throwStmt sp _ | mk .tryStmt sp _
  | mk (.loop _) sp _ | mk .switchStmt sp _ | mk .labeled sp _ | mk .taggedTpl sp _ => [sp]
  | mk .ifStmt sp [_, _, _] => [sp]
  | mk .withStmt sp [_, _] => [sp]
  | mk (.arrow _) _ [_, body] => if body.kind = .block then [] else [body.span]
  | mk .exportDecl sp [mk (.varDecl .const) _ _] => [sp]
  | n =>
    match initOf n with
    | some init => if init.isNone then [] else [init.span]
    | none => []

/-- The function a node stands for: the spans of its declaration and of its body. -/
def fnSpans (cx : Ctx) (n : Node) : List (Span × Span) :=
  match fnHead cx n, bodyOf n with
  | some (_, decl), some body => [(decl, body.span)]
  | _, _ => []

/-- The branch a node stands for. -/
def branchSpans : Node → List (BranchType × Span)
  | mk .ifStmt sp [_, _, _] => [(.if, sp)]
  | mk .cond sp [_, _, _] => [(.condExpr, sp)]
  | mk .switchStmt sp _ => [(.switch, sp)]
  | mk .assignPat sp [_, _] => [(.defaultArg, sp)]
  | mk (.bin op) sp [_, _] => if op.isLogical then [(.binaryExpr, sp)] else []
  | _ => []

/-- The span of an operand that is an arm itself, not divided into the operands of logical expressions within it. -/
def operandSpans (e : Node) : List Span := if e.any Kind.isLogical then [] else [e.span]

/-- The arms a node may give to branches other than `if`: the two sides of a conditional expression, a clause of a `switch`, a default
value, the operands of a logical expression. -/
def armSpans : Node → List Span
  | mk .cond _ [_, cons, alt] => [cons.span, alt.span]
  | mk .switchCase sp (_ :: _) => [sp]
  | mk .assignPat _ [_, right] => operandSpans right
  | mk (.bin op) _ [left, right] => if op.isLogical then operandSpans left ++ operandSpans right else []
  | _ => []

/-- The span of an `if`, which is the range of both its arms. -/
def ifSpans (n : Node) : List Span := (n.branchSpans.filter fun x => x.1 = .if).map (·.2)

/-- No initialiser is a tagged template, and in an initialiser statements occur only within blocks (which the grammar guarantees). -/
def PlainInits (n : Node) : Prop :=
  ∀ m ∈ n.each, ∀ init ∈ initOf m,
    init.kind ≠ .taggedTpl ∧ (init.any Kind.isStmt = true → init.any Kind.isBlock = true)

end Node

/-- The ranges of the statements of a program. -/
def stmtRanges (cx : Ctx) (p : Node) : List Range := (p.each.flatMap Node.stmtSpans).map cx.range

/-- The functions of a program: ranges of declaration and body. -/
def fnRanges (cx : Ctx) (p : Node) : List (Range × Range) :=
  (p.each.flatMap (Node.fnSpans cx)).map fun x => (cx.range x.1, cx.range x.2)

/-- The branches of a program: type and range. -/
def branchRanges (cx : Ctx) (p : Node) : List (BranchType × Range) :=
  (p.each.flatMap Node.branchSpans).map fun x => (x.1, cx.range x.2)

/-- The ranges that arms of the branches of a program may have. -/
def armRanges (cx : Ctx) (p : Node) : List Range :=
  (p.each.flatMap fun n => n.ifSpans ++ n.armSpans).map cx.range

/-- The statements, the bodies of functions and the arms of branches of a program are at different places. -/
structure ApartInSource (cx : Ctx) (p : Node) : Prop where
  plain : p.PlainInits
  statements : (stmtRanges cx p).Nodup
  bodies : ((fnRanges cx p).map (·.2)).Nodup
  arms : (armRanges cx p).Nodup

end Verif
