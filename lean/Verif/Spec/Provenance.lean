import Verif.Spec.Registry
import Verif.Spec.Instrumented
import Verif.Model.Visitor
/-
Where the locations of a report come from.
-/
namespace Verif

/-- The type of branch that a node of this kind registers. -/
def Kind.branchType : Kind → Option BranchType
  | .ifStmt => some .if
  | .cond => some .condExpr
  | .switchStmt => some .switch
  | .bin op => if op.isLogical then some .binaryExpr else Option.none
  | .assignPat => some .defaultArg
  | _ => Option.none

/-- The types of branches that a node of this kind adds arms to. -/
def Kind.armOf : Kind → BranchType → Bool
  | .ifStmt, .if => true
  | .cond, .condExpr => true
  | .switchCase, .switch => true
  | .bin op, .binaryExpr => op.isLogical
  | .bin op, .defaultArg => op.isLogical
  | .assignPat, .defaultArg => true
  | _, _ => false

/-- Nodes with an initialiser. -/
def Kind.inits : Kind → Bool
  | .varDeclarator | .classProp | .privateProp => true
  | _ => false

/-- Nodes that are functions: the body is the last child. -/
def Kind.isFn : Kind → Bool
  | .arrow _ | .getterProp | .setterProp => true
  | _ => false

/-- Nodes that have a `function` node as their last child. -/
def Kind.hasFn : Kind → Bool
  | .fnDecl | .fnExpr | .classMethod | .methodProp => true
  | _ => false

/-- Kinds of nodes that instrumentation puts around or below source nodes. -/
def Kind.rewritten : Kind → Bool
  | .block | .returnStmt | .paren | .seq | .assign _ | .module | .script => true
  | _ => false

namespace Node

mutual
/-- The kinds and spans of all nodes of a tree. -/
def tags : Node → List (Kind × Span)
  | mk k sp cs => (k, sp) :: tagsList cs

/-- `tags` of a list of trees. -/
def tagsList : List Node → List (Kind × Span)
  | [] => []
  | c :: cs => tags c ++ tagsList cs
end

mutual
/-- For every parent and child in a tree, the kind of the parent and the span of the child. -/
def edges : Node → List (Kind × Span)
  | mk k _ cs => edgesList k cs

/-- `edges` of the children of a node of kind `k`, including those to the node. -/
def edgesList (k : Kind) : List Node → List (Kind × Span)
  | [] => []
  | c :: cs => (k, c.span) :: (edges c ++ edgesList k cs)
end

end Node

/-- The identifier of a node. -/
def Kind.ident? : Kind → Option String
  | .ident x => some x
  | _ => Option.none

/-- The plain property name of a node. -/
def Kind.prop? : Kind → Option String
  | .propIdent x => some x
  | _ => Option.none

/-- The name of a function: the identifier of a declaration or function expression, the key of a method or
accessor if it is a plain name. Methods and accessors of object literals with other keys are called
"anonymous". -/
def Node.called : Node → Option String
  | .mk .fnDecl _ (c :: _) => c.kind.ident?
  | .mk .fnExpr _ (c :: _) => c.kind.ident?
  | .mk .classMethod _ (c :: _) => c.kind.prop?
  | .mk .methodProp _ (c :: _) => some (c.kind.prop?.getD "anonymous")
  | .mk .getterProp _ (c :: _) => some (c.kind.prop?.getD "anonymous")
  | .mk .setterProp _ (c :: _) => some (c.kind.prop?.getD "anonymous")
  | _ => none

/-- The body of a function-like node. -/
def Node.fnBody? (n : Node) : Option Node :=
  if n.kind.isFn then n.children.getLast?
  else if n.kind.hasFn then n.children.getLast?.bind fun f =>
    match f.kind with
    | .function _ => f.children.getLast?
    | _ => none
  else none

/-- The name and the position of the body of a function-like node. -/
def Node.fn (n : Node) : List (Option String × Span) := (n.fnBody?.map fun b => (n.called, b.span)).toList

mutual
/-- The names and bodies of all functions of a tree. -/
def Node.fns : Node → List (Option String × Span)
  | .mk k sp cs => (Node.mk k sp cs).fn ++ fnsList cs

/-- `fns` of a list of trees. -/
def Node.fnsList : List Node → List (Option String × Span)
  | [] => []
  | c :: cs => c.fns ++ fnsList cs
end

/-- A function of this name and with a body at this range is in the tree. Bodies without position have the zero
range. -/
def FunctionAt (cx : Ctx) (n : Node) (name : Option String) (r : Range) : Prop :=
  ∃ sp, (name, sp) ∈ n.fns ∧ (r = cx.range sp ∨ r = cx.range Span.dummy)

/-- The range of a statement: of a node that is counted as a statement, an initialiser or the body of an arrow
function. Nodes without position have the zero range. -/
def StatementAt (cx : Ctx) (n : Node) (r : Range) : Prop :=
  ∃ sp, r = cx.range sp ∧ (sp = Span.dummy ∨ (∃ k, k.marks = true ∧ (k, sp) ∈ n.tags) ∨
    ∃ k, (k.inits = true ∨ ∃ a, k = .arrow a) ∧ (k, sp) ∈ n.edges)

/-- The range of some node. -/
def NodeAt (cx : Ctx) (n : Node) (r : Range) : Prop :=
  ∃ sp, r = cx.range sp ∧ (sp = Span.dummy ∨ ∃ k, (k, sp) ∈ n.tags)

/-- The range of the body of a function. -/
def BodyAt (cx : Ctx) (n : Node) (r : Range) : Prop :=
  ∃ sp, r = cx.range sp ∧ (sp = Span.dummy ∨
    ∃ k, (k.isFn = true ∨ ∃ a, k = .function a) ∧ (k, sp) ∈ n.edges)

/-- The range of a node that is a branch of the given type. -/
def BranchAt (cx : Ctx) (n : Node) (t : BranchType) (r : Range) : Prop :=
  ∃ sp, r = cx.range sp ∧ (sp = Span.dummy ∨ ∃ k, k.branchType = some t ∧ (k, sp) ∈ n.tags)

/-- The range of an arm of a branch of the given type: a node that adds arms to such branches, or an operand
of one. -/
def ArmAt (cx : Ctx) (n : Node) (t : BranchType) (r : Range) : Prop :=
  ∃ sp, r = cx.range sp ∧ (sp = Span.dummy ∨
    ∃ k, k.armOf t = true ∧ ((k, sp) ∈ n.tags ∨ (k, sp) ∈ n.edges))

/-- The locations of a registration, made within history `h`, are locations of program `n`. -/
def RegOp.From (cx : Ctx) (n : Node) (h : List RegOp) : RegOp → Prop
  | .statement r => StatementAt cx n r
  | .function _ d l => NodeAt cx n d ∧ BodyAt cx n l
  | .branch t l _ => BranchAt cx n t l
  | .path b l => ∃ t r g, (RegOp.branches h)[b]? = some (t, r, g) ∧ ArmAt cx n t l

end Verif
