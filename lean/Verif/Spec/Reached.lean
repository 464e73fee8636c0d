import Verif.Spec.Sem
import Verif.Spec.Hintable
import Verif.Spec.Each
import Verif.Spec.Registry
import Mathlib.Data.List.Forall2
/-
Which parts of a program are looked at by instrumentation, and what it means that the counters of a part are there.

`Reached` leaves out: what a hint excludes, the methods listed in the options, class methods whose key is not an identifier,
parameters of arrow functions, the object of `with`, the pattern of a default value, the parts of an operand that
contains another logical operator, the operands themselves if truthiness is reported, and initialisers that
are tagged templates (they are visited twice).
-/
namespace Verif
open Node

/-- Kinds of nodes that are no expressions: statements and declarations, parts of these, patterns, properties, programs. -/
def Kind.noExpr : Kind → Bool
  | block | exprStmt | varDecl _ | varDeclarator | fnDecl | classDecl | ifStmt | loop _ | labeled | switchStmt | switchCase | tryStmt
  | throwStmt | returnStmt | breakStmt | continueStmt | withStmt | debugger => true
  | function _ | classProp | privateProp | classMethod | methodProp | getterProp | setterProp | propIdent _ => true
  | assignPat | temp true | exportDecl | exportDefault | module | script | none | list | covDecl | covCall => true
  | other c _ => c ≠ .expr
  | _ => false

/-- There is an ignore-next hint at the node. -/
def Ctx.hinted (cx : Ctx) (n : Node) : Bool := cx.hint n.span = some .next

/-- The node is left alone because of a hint. At cases, exports and `debugger` only some visitors look for one. -/
def Ctx.ignores (cx : Ctx) (n : Node) : Bool :=
  (n.hintable || n.kind = .switchCase || n.kind = .exportDecl || n.kind = .exportDefault || n.kind = .debugger) &&
    cx.hinted n

/-- The options exclude functions of this name. -/
def Ctx.excludes (cx : Ctx) (name : Option String) : Bool :=
  match name with
  | some x => cx.ignoreMethods.contains x
  | none => false

namespace Node

/-- The statements of a body. -/
def bodyStmts : Node → List Node
  | mk .block _ ss => ss
  | mk .none _ _ => []
  | s => [s]

/-- The statement lists of a node. The arms of an `if` that a hint excludes are left out. -/
def lists (cx : Ctx) : Node → List (List Node)
  | mk .block _ ss => [ss]
  | mk .switchCase _ (_ :: ss) => [ss]
  | mk (.arrow _) _ [_, body] => [(asArrowBody body).children]
  | mk .ifStmt sp [_, cons, alt] =>
    (if cx.hint sp = some .if then [] else [bodyStmts cons]) ++
      if cx.hint sp = some .else then [] else [bodyStmts alt]
  | mk .withStmt _ [_, body] => [bodyStmts body]
  | _ => []

/-- The own statements of a list that are not excluded by a hint. -/
def ownStmts (cx : Ctx) (ss : List Node) : List Node := ss.filter fun s => !isInjectedItem s && !cx.hinted s

/-- An operand that is visited as an expression of its own. -/
def leaf (cx : Ctx) (e : Node) : Bool := !cx.reportLogic && !cx.hinted e && !e.any Kind.isLogical

/-- The parts of a node that are looked at, apart from statement lists. -/
def heads (cx : Ctx) : Node → List Node
  | mk .block _ _ => []
  | mk .switchCase _ (test :: _) => [test]
  | mk (.arrow _) _ [_, _] => []
  | mk .ifStmt _ [test, _, _] => [test]
  | mk .withStmt _ [_, _] => []
  | mk (.loop k) _ cs => tidyBodies (.loop k) cs
  | mk .exprStmt _ [mk (.strLit _) _ _] => []
  | mk .fnExpr _ [ident, fn] => if cx.excludes ident.identName? then [] else [ident, fn]
  | mk .classMethod _ [key, fn] => if key.propName? = none || cx.excludes key.propName? then [] else [key, fn]
  | mk .methodProp _ [key, fn] => if cx.excludes key.propName? then [] else [key, fn]
  | mk .getterProp _ [key, body] => if cx.excludes key.propName? then [] else [key, body]
  | mk .setterProp _ [key, this, param, body] =>
    if cx.excludes key.propName? then [] else [key, this, param, body]
  | mk (.bin op) _ [left, right] => if op.isLogical then [left, right].filter (leaf cx) else [left, right]
  | mk .assignPat _ [_, right] => [right].filter (leaf cx)
  | mk .varDeclarator _ [name, init] => name :: [init].filter fun e => e.kind ≠ .taggedTpl
  | mk .classProp _ [key, init, decorators] => key :: ([init].filter fun e => e.kind ≠ .taggedTpl) ++ [decorators]
  | mk .privateProp _ [key, init, decorators] => key :: ([init].filter fun e => e.kind ≠ .taggedTpl) ++ [decorators]
  | mk _ _ cs => cs

/-- The parts of a node that are looked at. -/
def opened (cx : Ctx) (n : Node) : List Node :=
  if cx.ignores n then [] else heads cx n ++ (lists cx n).flatMap (ownStmts cx)

/-- The parts of a statement or expression that are looked at, and their parts, and so on. -/
inductive Reached (cx : Ctx) (n : Node) : Node → Prop
  | here : Reached cx n n
  | step {m c : Node} : Reached cx n m → c ∈ opened cx m → Reached cx n c

/-- The parts of a program that are looked at. -/
def InProgram (cx : Ctx) (p n : Node) : Prop := ∃ s ∈ ownStmts cx p.children, Reached cx s n

/-! ### Statements -/

mutual
/-- The ranges that must have a counter before a statement: its own unless it is a directive; for a labelled statement also that of its body;
for variables those of initialisers that contain a block. -/
def dues (cx : Ctx) : Node → List Span
  | mk k sp cs =>
    if cx.hint sp = some .next then [] else
    match k, cs with
    | .exprStmt, [mk (.strLit v) _ _] => if v ∈ ["use strict", "use asm", "use strong"] then [] else [sp]
    | .exprStmt, [mk (.counter _) _ _] => []
    | .exprStmt, [_] => [sp]
    | .breakStmt, _ | .continueStmt, _ | .returnStmt, _ | .throwStmt, _ | .tryStmt, _ | .loop _, _
    | .switchStmt, _ | .ifStmt, [_, _, _] | .withStmt, [_, _] => [sp]
    | .labeled, cs => sp :: duesList cx cs
    | .varDecl _, cs => duesList cx cs
    | .exportDecl, cs => duesList cx cs
    | .varDeclarator, [_, init] =>
      if init.isNone then [] else if init.kind = .taggedTpl || init.any Kind.isBlock then [init.span] else []
    | _, _ => []

/-- `dues` on lists. -/
def duesList (cx : Ctx) : List Node → List Span
  | [] => []
  | c :: cs => dues cx c ++ duesList cx cs
end

end Node

/-- What is known of the entries of the coverage data: the range of a statement; the name, declaration and range of a
function; the type and range of a branch and whether its truthiness is reported; the range of an arm of a branch. -/
structure Tables where
  statement : Nat → Range → Prop
  function : Nat → Option String × Range × Range → Prop
  branch : Nat → BranchType × Range × Bool → Prop
  arm : Nat → Nat → Range → Prop

/-- The entries made by registrations. -/
abbrev Tables.of (h : List RegOp) : Tables where
  statement id l := (RegOp.statements h)[id]? = some l
  function id x := (RegOp.functions h)[id]? = some x
  branch id x := (RegOp.branches h)[id]? = some x
  arm id i l := (RegOp.arms h id)[i]? = some l

/-- The entries of a report. -/
def Tables.report (r : FileCoverage) : Tables where
  statement id l := r.statementMap.get id = some l ∧ r.s.get id = some 0
  function id x := r.fnMap.get id = some ⟨x.1.getD ("(anonymous_" ++ toString id ++ ")"), x.2.1, x.2.2, x.2.2.start.line⟩ ∧
    r.f.get id = some 0
  branch id x := ∀ br, r.branchMap.get id = some br → br = ⟨some x.2.1, x.1, br.locations, some x.2.1.start.line⟩ ∧
    r.b.get id = some (br.locations.map fun _ => 0) ∧
    (x.1 = .binaryExpr → x.2.2 = true → (r.bT.getD []).get id = some (br.locations.map fun _ => 0))
  arm id i l := ∃ br, r.branchMap.get id = some br ∧ br.locations[i]? = some l

/-- What comes before a statement ends with injected statements, among them an increment of `c`. -/
def Before (pre : List Node) (c : Counter) : Prop :=
  ∃ a b, pre = a ++ b ∧ (∀ x ∈ b, isInjectedItem x = true) ∧ counterStmt c ∈ b

/-- Every own statement of `ss` that no hint excludes is in `ss'`, preceded by the counters due. -/
def Leads (cx : Ctx) (T : Tables) (ss ss' : List Node) : Prop :=
  ∀ s ∈ ownStmts cx ss, ∃ pre s' post, ss' = pre ++ s' :: post ∧ strip s' = strip s ∧
    ∀ sp ∈ dues cx s, ∃ id, Before pre (.s id) ∧ T.statement id (cx.range sp)

/-- The same for the items of a module or script. Modules treat every statement that is a string literal as a directive, and
an exported constant is due a counter for the whole item as well. -/
def itemDues (cx : Ctx) (k : Kind) (s : Node) : List Span :=
  match k, s with
  | .module, mk .exprStmt _ [mk (.strLit _) _ _] => []
  | .module, mk .exportDecl sp [mk (.varDecl .const) _ _] => sp :: dues cx s
  | _, s => dues cx s

/-- Every own item of the program `p` that no hint excludes is in `p'`, preceded by the counters due. -/
def ItemsLead (cx : Ctx) (T : Tables) (p p' : Node) : Prop :=
  ∀ s ∈ ownStmts cx p.children, ∃ pre s' post, p'.children = pre ++ s' :: post ∧ strip s' = strip s ∧
    ∀ sp ∈ itemDues cx p.kind s, ∃ id, Before pre (.s id) ∧ T.statement id (cx.range sp)

/-- The statement lists of `m'` are those of `m` with their counters. -/
def ListsCounted (cx : Ctx) (T : Tables) (m m' : Node) : Prop :=
  cx.ignores m = false → List.Forall₂ (Leads cx T) (lists cx m) (lists cx m')

/-- The initialiser of a variable or field. -/
def initOf : Node → Option Node
  | mk .varDeclarator _ [_, init] => some init
  | mk .classProp _ [_, init, _] => some init
  | mk .privateProp _ [_, init, _] => some init
  | _ => none

/-- Initialisers that are wrapped with a counter: those without blocks that are no tagged template, and for
variables contain no function or class. -/
def wrappable (m init : Node) : Bool :=
  !init.isNone && init.kind ≠ .taggedTpl && !init.any Kind.isBlock &&
    !(m.kind = .varDeclarator && init.any Kind.isHoisting) && !init.kind.noExpr

/-- A wrappable initialiser is wrapped with a statement counter for its range. -/
def InitCounted (cx : Ctx) (T : Tables) (m m' : Node) : Prop :=
  cx.ignores m = false → ∀ init, initOf m = some init → wrappable m init = true →
    ∃ id x, initOf m' = some (wrapCounter (.s id) x) ∧ strip x = strip init ∧
      T.statement id (cx.range init.span)

/-! ### Functions -/

/-- The body of a function-like construct. -/
def bodyOf : Node → Option Node
  | mk .fnDecl _ [_, mk (.function _) _ [_, _, body]] => some body
  | mk .fnExpr _ [_, mk (.function _) _ [_, _, body]] => some body
  | mk .classMethod _ [_, mk (.function _) _ [_, _, body]] => some body
  | mk .methodProp _ [_, mk (.function _) _ [_, _, body]] => some body
  | mk (.arrow _) _ [_, body] => some body
  | mk .getterProp _ [_, body] => some body
  | mk .setterProp _ [_, _, _, body] => some body
  | _ => none

/-- The name of a function, and the span of its declaration. A function expression without a name
and an arrow function have none; a method or accessor whose key is no identifier is called "anonymous". -/
def fnHead (cx : Ctx) : Node → Option (Option String × Span)
  | mk .fnDecl _ [ident, mk (.function _) sp _] =>
    some (ident.identName?, if ident.identName?.isSome then ident.span else sp)
  | mk .fnExpr _ [ident, mk (.function _) sp _] =>
    if cx.excludes ident.identName? then none
    else some (ident.identName?, if ident.identName?.isSome then ident.span else sp)
  | mk (.arrow _) sp _ => some (none, sp)
  | mk .classMethod _ (key :: _) =>
    if key.propName? = none || cx.excludes key.propName? then none else some (key.propName?, key.span)
  | mk .methodProp _ (key :: _) =>
    if cx.excludes key.propName? then none
    else if key.propName?.isSome then some (key.propName?, key.span) else some (some "anonymous", Span.dummy)
  | mk .getterProp sp (key :: _) | mk .setterProp sp (key :: _) =>
    if cx.excludes key.propName? then none
    else if key.propName?.isSome then some (key.propName?, key.span) else some (some "anonymous", sp)
  | _ => none

/-- A function-like construct that is not excluded starts with a counter for it. -/
def FnCounted (cx : Ctx) (T : Tables) (m m' : Node) : Prop :=
  cx.ignores m = false → ∀ name decl body, fnHead cx m = some (name, decl) → bodyOf m = some body →
    (body.kind = .block ∨ ∃ a, m.kind = .arrow a) →
    ∃ id sp ss, bodyOf m' = some (mk .block sp (counterStmt (.f id) :: ss)) ∧
      T.function id (name, cx.range decl, cx.range body.span)

/-! ### Branches -/

/-- Branch `b` is of the given type and range. -/
def HasBranch (cx : Ctx) (T : Tables) (b : Nat) (t : BranchType) (sp : Span) : Prop :=
  T.branch b (t, cx.range sp, t == .binaryExpr && cx.reportLogic)

/-- Arm `i` of branch `b` has the given range. -/
def HasArm (cx : Ctx) (T : Tables) (b i : Nat) (sp : Span) : Prop :=
  T.arm b i (cx.range sp)

/-- A block that starts with the counter of an arm. -/
def StartsArm (cx : Ctx) (T : Tables) (b : Nat) (sp : Span) (n : Node) : Prop :=
  ∃ i bsp ss, n = mk .block bsp (counterStmt (.b b i) :: ss) ∧ HasArm cx T b i sp

/-- The expression `e`, wrapped with the counter of an arm for its range. -/
def WrapsArm (cx : Ctx) (T : Tables) (b : Nat) (e n : Node) : Prop :=
  ∃ i x, n = wrapCounter (.b b i) x ∧ strip x = strip e ∧ HasArm cx T b i e.span

/-- The same, with the truthiness counter if truthiness is reported. -/
def OperandArm (cx : Ctx) (T : Tables) (b : Nat) (e n : Node) : Prop :=
  ∃ i x, n = (if cx.reportLogic then wrapTruth b i x else wrapCounter (.b b i) x) ∧ strip x = strip e ∧
    HasArm cx T b i e.span

mutual
/-- The operands of the logical operators of an expression that are no logical expressions themselves. -/
def leaves (cx : Ctx) : Node → List Node
  | mk k sp cs =>
    if !k.noExpr && cx.hint sp = some .next then []
    else match k, cs with
      | .bin op, [left, right] => if op.isLogical then operands cx [left, right] else leavesList cx [left, right]
      | _, cs => leavesList cx cs

/-- `leaves` on lists. -/
def leavesList (cx : Ctx) : List Node → List Node
  | [] => []
  | c :: cs => leaves cx c ++ leavesList cx cs

/-- `leaves` on operands. -/
def operands (cx : Ctx) : List Node → List Node
  | [] => []
  | e :: es =>
    (if cx.hinted e then [] else if e.any Kind.isLogical then leaves cx e else [e]) ++ operands cx es
end

/-- The operand `e`, which became `n`, is itself wrapped, unless a hint excludes it or it has logical expressions of its own. -/
def WrapsOperand (cx : Ctx) (T : Tables) (b : Nat) (e n : Node) : Prop :=
  cx.hinted e = false → e.any Kind.isLogical = false → OperandArm cx T b e n

/-- The operand `e`, which became `n`, is left alone if a hint excludes it, and if it is an anonymous function or class with logical
expressions in it, it is still one. -/
def SparesOperand (cx : Ctx) (e n : Node) : Prop :=
  (cx.hinted e = true → n = e) ∧ (e.any Kind.isLogical = true → Sem.isFnDef e = true → Sem.isFnDef n = true)

/-- The branches of a construct are counted: both arms of an `if` and of a conditional expression, every case of a `switch`,
a default value, the operands of a logical expression. Hints exclude arms. -/
def BranchesCounted (cx : Ctx) (T : Tables) (m m' : Node) : Prop :=
  cx.ignores m = false →
    match m with
    | mk .ifStmt sp [_, _, _] => ∃ b test cons alt, m' = mk .ifStmt sp [test, cons, alt] ∧
        HasBranch cx T b .if sp ∧ (cx.hint sp ≠ some .if → StartsArm cx T b sp cons) ∧
        (cx.hint sp ≠ some .else → StartsArm cx T b sp alt)
    | mk .cond sp [_, cons, alt] => ∃ b test cons' alt', m' = mk .cond sp [test, cons', alt'] ∧
        HasBranch cx T b .condExpr sp ∧ (cx.hinted cons = false → WrapsArm cx T b cons cons') ∧
        (cx.hinted alt = false → WrapsArm cx T b alt alt')
    | mk .switchStmt sp cs => ∃ b, HasBranch cx T b .switch sp ∧
        ∀ csp test ss, mk .switchCase csp (test :: ss) ∈ cs → cx.hint csp ≠ some .next →
          ∃ i test' ss', mk .switchCase csp (test' :: counterStmt (.b b i) :: ss') ∈ m'.children ∧
            strip (mk .switchCase csp (test' :: ss')) = strip (mk .switchCase csp (test :: ss)) ∧ HasArm cx T b i csp
    | mk .assignPat sp [left, right] => ∃ b right', m' = mk .assignPat sp [left, right'] ∧ HasBranch cx T b .defaultArg sp ∧
        WrapsOperand cx T b right right' ∧ SparesOperand cx right right' ∧
        ∀ e ∈ operands cx [right], ∃ n ∈ each right', OperandArm cx T b e n
    | mk (.bin op) sp [left, right] => op = .and ∨ op = .or ∨ op = .nullish →
        ∃ b left' right', m' = mk (.bin op) sp [left', right'] ∧ HasBranch cx T b .binaryExpr sp ∧
          WrapsOperand cx T b left left' ∧ WrapsOperand cx T b right right' ∧
          (∀ e ∈ operands cx [left], ∃ n ∈ each left', OperandArm cx T b e n) ∧
          ∀ e ∈ operands cx [right], ∃ n ∈ each right', OperandArm cx T b e n
    | _ => True

end Verif
