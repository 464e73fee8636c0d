import Verif.Model.Counter
import Verif.Model.SourceCoverage
/-
The four visitors (`CoverageVisitor`, `StmtVisitor`, `SwitchCaseVisitor`, `LogicalExprVisitor`) and the
macros they share: packages/swc-coverage-instrument/src/macros/*.rs, visitors/*.rs.

In the citations, IV = macros/instrumentation_visitor.rs, CH = macros/instrumentation_counter_helper.rs,
SH = macros/instrumentation_stmt_counter_helper.rs, CV = macros/create_instrumentation_visitor.rs.
-/
namespace Verif

/-- utils/node.rs:4-48 `Node`: what is pushed on the visitor's node stack. -/
inductive Tag where
  | program | moduleDecl | stmt | stmts | expr | varDeclarator | exprStmt | arrowExpr | setterProp
  | getterProp | methodProp | binExpr | logicalExpr | condExpr | labeledStmt | fnExpr | fnDecl
  | withStmt | switchCase | switchStmt | loop (k : LoopKind) | ifStmt | varDecl | tryStmt | throwStmt
  | returnStmt | debuggerStmt | continueStmt | breakStmt | privateProp | classProp | classDecl
  | classMethod | exportDecl | exportDefaultDecl | blockStmt | assignPat | taggedTpl
deriving DecidableEq, Repr

/-- What the visitors read: comments, source map, options (CV:16-21). -/
structure Ctx where
  cc : CharClasses
  comments : Comments
  /-- `SourceMapper::lookup_char_pos` -/
  pos : BytePos → Location
  reportLogic : Bool
  ignoreMethods : List String

/-- `hint_comments::should_ignore(&self.comments, Some(span))`. -/
def Ctx.hint (cx : Ctx) (sp : Span) : Option IgnoreScope := Hint.shouldIgnore cx.cc cx.comments sp

/-- utils/lookup_range.rs:7-27 `get_range_from_span`. -/
def Ctx.range (cx : Ctx) (sp : Span) : Range :=
  if sp.hi = 0 ∨ sp.lo = 0 then Range.zero else ⟨cx.pos sp.lo, cx.pos sp.hi⟩

/-- The mutable state of one visitor (CV:13-27) and the shared coverage data. The node stack is kept
top first. -/
structure St where
  before : List Node
  nodes : List Tag
  ignore : Option IgnoreScope
  cov : SourceCoverage
deriving DecidableEq, Repr

/-- Which visitor is running. `logicalInner` is `LogicalExprVisitor` called through
`expr.visit_mut_children_with(visitor)`, which goes to the variant without `visit_mut_expr`. -/
inductive Mode where
  | coverage
  | stmt
  | switchCase (branch : Nat)
  | logical (branch : Nat)
  | logicalInner (branch : Nat)
deriving DecidableEq, Repr

/-- Visitor computations: state and panics. -/
def M (α : Type) := St → Except Panic (α × St)

namespace M

/-- Return a value. -/
protected def pure (a : α) : M α := fun st => .ok (a, st)

/-- Sequence two computations. -/
protected def bind (x : M α) (f : α → M β) : M β := fun st =>
  match x st with
  | .error e => .error e
  | .ok (a, st) => f a st

instance : Monad M where
  pure := M.pure
  bind := M.bind

/-- Abort. -/
def panic (e : Panic) : M α := fun _ => .error e

/-- Apply a computation to every element of a list, in order. -/
def mapList (f : α → M β) : List α → M (List β)
  | [] => pure []
  | a :: as => do
    let b ← f a
    let bs ← mapList f as
    pure (b :: bs)

end M

namespace Visitor
open Node

/-! ### Node stack and hints -/

/-- `self.nodes.push(..)`. -/
def push (t : Tag) : M Unit := fun st => .ok ((), { st with nodes := t :: st.nodes })

/-- `self.nodes.pop()`. -/
def pop : M Unit := fun st => .ok ((), { st with nodes := st.nodes.tail })

/-- CV:69-80 `on_enter_with_span`: the old and the current scope. -/
def enterSpan (cx : Ctx) (sp : Span) : M (Option IgnoreScope × Option IgnoreScope) := fun st =>
  if st.ignore = some .next then .ok ((st.ignore, st.ignore), st)
  else .ok ((st.ignore, cx.hint sp), { st with ignore := cx.hint sp })

/-- CV:98-193 `on_enter`. -/
def enter (cx : Ctx) (t : Tag) (sp : Span) : M (Option IgnoreScope × Option IgnoreScope) := do
  push t
  enterSpan cx sp

/-- CV:82-85 `on_exit`. -/
def exit (old : Option IgnoreScope) : M Unit := do
  (fun st => .ok ((), { st with ignore := old }) : M Unit)
  pop

/-- The frame of nearly every visit function: `on_enter`, body, `on_exit`. -/
def frame (cx : Ctx) (t : Tag) (sp : Span) (body : Option IgnoreScope → M α) : M α := do
  let (old, cur) ← enter cx t sp
  let r ← body cur
  exit old
  pure r

/-- The frequent case: nothing is done under `IgnoreScope::Next`. -/
def guarded (cx : Ctx) (t : Tag) (n : Node) (body : M Node) : M Node :=
  frame cx t n.span fun cur => if cur = some .next then pure n else body

/-- `a` unchanged if `p`, otherwise what `x` makes of it. -/
def keepIf (p : Prop) [Decidable p] (a : α) (x : M α) : M α := if p then pure a else x

/-- A new visitor (CV:30-51) sharing the coverage data, with a copy of the node stack, no pending
statements and the given scope. It is dropped afterwards; its pending statements are returned. -/
def fresh (ignore : Option IgnoreScope) (x : M α) : M (α × List Node) := fun st =>
  match x { st with before := [], ignore := ignore } with
  | .error e => .error e
  | .ok (a, st') => .ok ((a, st'.before), { st with cov := st'.cov })

/-! ### Registration -/

/-- `cov.new_statement(range)`. -/
def newStatement (r : Range) : M Nat := fun st =>
  .ok ((st.cov.newStatement r).2, { st with cov := (st.cov.newStatement r).1 })

/-- `cov.new_function(name, decl, loc)`. -/
def newFunction (name : Option String) (decl loc : Range) : M Nat := fun st =>
  .ok ((st.cov.newFunction name decl loc).2, { st with cov := (st.cov.newFunction name decl loc).1 })

/-- `cov.new_branch(type, range, report_logic)`. -/
def newBranch (t : BranchType) (r : Range) (logic : Bool) : M Nat := fun st =>
  .ok ((st.cov.newBranch t r logic).2, { st with cov := (st.cov.newBranch t r logic).1 })

/-- `cov.add_branch_path(branch, range)`. -/
def addPath (branch : Nat) (r : Range) : M Nat := fun st =>
  match st.cov.addBranchPath branch r with
  | .error e => .error e
  | .ok (cov, idx) => .ok (idx, { st with cov := cov })

/-- `self.before.push(..)`. -/
def pushBefore (n : Node) : M Unit := fun st => .ok ((), { st with before := st.before ++ [n] })

/-- CH:158-164 `mark_prepend_stmt_counter` (with CH:138-151). -/
def mark (cx : Ctx) (sp : Span) : M Unit := do
  let id ← newStatement (cx.range sp)
  pushBefore (counterStmt (.s id))

/-- CH:9-19, 37-60 `replace_expr_with_stmt_counter`. -/
def replaceWithStmtCounter (cx : Ctx) (e : Node) : M Node := do
  let id ← newStatement (cx.range e.span)
  pure (wrapCounter (.s id) e)

/-- CH:22-33, 37-60 `replace_expr_with_branch_counter`. -/
def replaceWithBranchCounter (cx : Ctx) (branch : Nat) (e : Node) : M Node := do
  let idx ← addPath branch (cx.range e.span)
  pure (wrapCounter (.b branch idx) e)

/-! ### Helpers that visit. `go` is the recursive visit of a node by a visitor in a given mode. -/

section
variable (cx : Ctx) (go : Mode → Node → M Node)

/-- SH:11-33: one statement of a list; gives the statements that replace it. -/
def insertStmt (s : Node) : M (List Node) :=
  if isInjectedStmt s then pure [s]
  else
    frame cx .stmt s.span fun cur =>
      if cur = some .next then pure [s]
      else do
        let (s', before) ← fresh cur (go .stmt s)
        pure (before ++ [s'])

/-- SH:7-37 `insert_stmts_counter`. -/
def insertStmts : List Node → M (List Node)
  | [] => pure []
  | s :: ss => do
    let out ← insertStmt cx go s
    let rest ← insertStmts ss
    pure (out ++ rest)

/-- IV:142-148 `visit_mut_stmts`. -/
def visitStmts (ss : List Node) : M (List Node) := do
  push .stmts
  let out ← insertStmts cx go ss
  pop
  pure out

/-- `visit_mut_children_with` for the visitors of the `instrumentation_visitor!` macro: the
statement lists of blocks and switch cases go through `visit_mut_stmts`, all other children are visited
in order. -/
def visitChildren (m : Mode) : Node → M Node
  | mk .block sp cs => do
    let cs ← visitStmts cx go cs
    pure (mk .block sp cs)
  | mk .switchCase sp (test :: cons) => do
    let test ← go m test
    let cons ← visitStmts cx go cons
    pure (mk .switchCase sp (test :: cons))
  | mk k sp cs => do
    let cs ← M.mapList (go m) cs
    pure (mk k sp cs)

/-- CH:65-126 `wrap_bin_expr_with_branch_counter`. -/
def wrapBin (m : Mode) (branch : Nat) (e : Node) : M Node :=
  let ignore := cx.hint e.span
  if ignore = some .next then pure e
  else if e.any Kind.isLogical then do
    let (e, _) ← fresh ignore (go (.logicalInner branch) e)
    pure e
  else if cx.reportLogic then do
    let idx ← addPath branch (cx.range e.span)
    pure (wrapTruth branch idx e)
  else do
    let e ← go m e
    replaceWithBranchCounter cx branch e

/-- CH:189-206: the counter at the start of the body; it is an error if there is none. -/
def prependFn (id : Nat) : Node → M Node
  | mk .block bsp ss => pure (mk .block bsp (counterStmt (.f id) :: ss))
  | _ => M.panic .noFunctionBody

/-- CH:168-208 `create_fn_instrumentation`. -/
def createFn (ident : Option (Span × String)) : Node → M Node
  | mk (.function a) sp [params, decorators, body] => do
    let id ← newFunction (ident.map (·.2)) (cx.range ((ident.map (·.1)).getD sp))
      (cx.range (if body.isNone then sp else body.span))
    let body ← prependFn id body
    pure (mk (.function a) sp [params, decorators, body])
  | n => pure n

/-- `self.nodes.last().unwrap()`. -/
def topNode : M Tag := fun st =>
  match st.nodes with
  | [] => .error .emptyNodeStack
  | t :: _ => .ok (t, st)

/-- `self.nodes`, bottom first. -/
def allNodes : M (List Tag) := fun st => .ok (st.nodes.reverse, st)

/-- CH:275-306: an initialiser that contains a function or class is not wrapped; a counter is put
before the statement if the declaration is at the top of a program or block. -/
def coverHoisted (e : Node) : M Node := do
  let nodes ← allNodes
  let len := nodes.length
  if (nodes[if len ≥ 3 then len - 3 else 0]?).isSome then do
    keepIf (¬ (nodes[if len ≥ 4 then len - 4 else 0]? = some .blockStmt ∨
      nodes[if len ≥ 4 then len - 4 else 0]? = some .program)) () (mark cx e.span)
    pure e
  else replaceWithStmtCounter cx e

/-- CH:238-313 `cover_statement`. -/
def coverStatement (m : Mode) (e : Node) : M Node :=
  if e.kind = .taggedTpl then do
    mark cx e.span
    go m e
  else if e.any Kind.isBlock then do
    mark cx e.span
    pure e
  else do
    keepIf (e.any Kind.isStmt = false) () (mark cx e.span)
    let parent ← topNode
    if e.any Kind.isHoisting ∧ parent = .varDeclarator then coverHoisted cx e
    else if e.any Kind.isExpr then replaceWithStmtCounter cx e
    else pure e

/-- IV:747-796 the closure `wrap_with_counter` of `visit_mut_if_stmt`. -/
def wrapArm (cur : Option IgnoreScope) (branch : Nat) (range : Range) (stmt : Node) : M Node := do
  let idx ← addPath branch range
  match stmt with
  | mk .block sp ss => do
    let ss ← insertStmts cx go ss
    pure (mk .block sp (counterStmt (.b branch idx) :: ss))
  | stmt => do
    let (stmt, before) ← fresh cur (go .stmt stmt)
    pure (mk .block Span.dummy (counterStmt (.b branch idx) :: (before ++ [stmt])))

/-! ### The visit functions of the `instrumentation_visitor!` macro -/

/-- IV:1 `DIRECTIVES`. -/
def directives : List String := ["use strict", "use asm", "use strong"]

/-- IV:185-192: a string literal that is one of the directives. -/
def isDirectiveLit : Node → Bool
  | mk (.strLit v) _ _ => directives.contains v
  | _ => false

/-- IV:39-123 the body of `visit_mut_arrow_expr`. -/
def visitArrow (a : String) (sp : Span) (params body : Node) : M Node := do
  let id ← newFunction none (cx.range sp) (cx.range body.span)
  match body with
  | mk .block bsp ss => do
    let ss ← insertStmts cx go ss
    pure (mk (.arrow a) sp [params, mk .block bsp (counterStmt (.f id) :: ss)])
  | e => do
    let ss ← insertStmts cx go [counterStmt (.f id), mk .returnStmt e.span [e]]
    pure (mk (.arrow a) sp [params, mk .block Span.dummy ss])

/-- visit_mut_for_like.rs:14-27: the body of a loop is made a block. -/
def blockify : Node → Node
  | mk .block sp ss => mk .block sp ss
  | s => mk .block Span.dummy [s]

/-- The last child of a loop is its body. -/
def blockifyLast : List Node → List Node
  | [] => []
  | [body] => [blockify body]
  | c :: cs => c :: blockifyLast cs

/-- IV:456-479, 488-511: a function counter at the start of an accessor body, if there is one. -/
def createAccessor (name : String) (declSpan : Span) : Node → M Node
  | mk .block bsp ss => do
    let id ← newFunction (some name) (cx.range declSpan) (cx.range bsp)
    pure (mk .block bsp (counterStmt (.f id) :: ss))
  | body => pure body

/-- Accessors (IV:436-517, 522-603): `key`, other children, body last. -/
def visitAccessor (m : Mode) (n key body : Node) (rebuild : Node → Node) : M Node :=
  match key.propName? with
  | some name =>
    if cx.ignoreMethods.contains name then pure n
    else do
      let body ← createAccessor cx name key.span body
      visitChildren cx go m (rebuild body)
  | none => do
    let body ← createAccessor cx "anonymous" n.span body
    visitChildren cx go m (rebuild body)

/-- IV:729-828 the body of `visit_mut_if_stmt`. -/
def visitIf (m : Mode) (cur : Option IgnoreScope) (sp : Span) (test cons alt : Node) : M Node := do
  mark cx sp
  let range := cx.range sp
  let branch ← newBranch .if range false
  let cons ← keepIf (cur = some .if) cons (wrapArm cx go cur branch range cons)
  let alt ← keepIf (cur = some .else) alt
    (wrapArm cx go cur branch range (if alt.isNone then mk .block Span.dummy [] else alt))
  let test ← go m test
  pure (mk .ifStmt sp [test, cons, alt])

/-- IV:231-263: the arms of a conditional expression. -/
def wrapCondArms (sp : Span) (cons alt : Node) : M (Node × Node) := do
  let branch ← newBranch .condExpr (cx.range sp) false
  let cons ← keepIf (cx.hint cons.span = some .next) cons (replaceWithBranchCounter cx branch cons)
  let alt ← keepIf (cx.hint alt.span = some .next) alt (replaceWithBranchCounter cx branch alt)
  pure (cons, alt)

/-- IV:225-268 the body of `visit_mut_cond_expr`. -/
def visitCond (m : Mode) (cur : Option IgnoreScope) (sp : Span) (test cons alt : Node) : M Node := do
  let (cons, alt) ← keepIf (cur = some .next) (cons, alt) (wrapCondArms cx sp cons alt)
  visitChildren cx go m (mk .cond sp [test, cons, alt])

/-- IV:858-867: the branch of a logical expression, registered unless there is one already. -/
def logicalBranch (branch? : Option Nat) (sp : Span) : M Nat :=
  match branch? with
  | some b => pure b
  | none => newBranch .binaryExpr (cx.range sp) cx.reportLogic

/-- IV:832-882 `visit_mut_bin_expr`, and visitors/logical_expr_visitor.rs:26-64 where no branch is
registered. `children` is the default visit of the children. On a logical operator `on_exit` is not
called. -/
def visitBin (m : Mode) (branch? : Option Nat) (children : Node → M Node) (op : BinOp) (sp : Span)
    (left right : Node) : M Node := do
  let (old, cur) ← enterSpan cx sp
  if cur = some .next then do
    push .binExpr
    let n ← children (mk (.bin op) sp [left, right])
    exit old
    pure n
  else if op.isLogical then do
    push .logicalExpr
    let branch ← logicalBranch cx branch? sp
    let left ← wrapBin cx go m branch left
    let right ← wrapBin cx go m branch right
    pure (mk (.bin op) sp [left, right])
  else do
    push .binExpr
    let n ← children (mk (.bin op) sp [left, right])
    exit old
    pure n

/-- switch_case_visitor.rs:36-55: an arm is added for the case, its children are visited (which for a
switch case are its test and its statement list), and the counter goes before the statements. -/
def visitCase (branch : Nat) (sp : Span) (test : Node) (cons : List Node) : M Node := do
  let idx ← addPath branch (cx.range sp)
  let test ← go (.switchCase branch) test
  let cons ← visitStmts cx go cons
  pure (mk .switchCase sp (test :: counterStmt (.b branch idx) :: cons))

/-- IV:944-966: the body of a `with` statement is made a block. -/
def visitWithBody (cur : Option IgnoreScope) : Node → M Node
  | mk .block bsp ss => do
    let ss ← insertStmts cx go ss
    pure (mk .block bsp ss)
  | body => do
    let (body, before) ← fresh cur (go .stmt body)
    pure (mk .block Span.dummy (before ++ [body]))

/-- The visit functions of the `instrumentation_visitor!` macro (IV:11-970) together with the
overrides of `CoverageVisitor` (coverage_visitor.rs:222-261) and `SwitchCaseVisitor`
(switch_case_visitor.rs:29-59). -/
def visitNode (m : Mode) (n : Node) : M Node :=
  match n with
  -- IV:11-21
  | mk .block _ _ => guarded cx .blockStmt n (visitChildren cx go m n)
  -- IV:25-35
  | mk .fnDecl sp [ident, fn] => guarded cx .fnDecl n do
      let fn ← createFn cx (ident.identName?.map fun x => (ident.span, x)) fn
      visitChildren cx go m (mk .fnDecl sp [ident, fn])
  -- IV:39-123
  | mk (.arrow a) sp [params, body] => guarded cx .arrowExpr n (visitArrow cx go a sp params body)
  -- IV:152-178
  | mk .fnExpr sp [ident, fn] => guarded cx .fnExpr n <|
      let name := ident.identName?
      if (match name with | some x => cx.ignoreMethods.contains x | none => false) then pure n
      else do
        let fn ← createFn cx (name.map fun x => (ident.span, x)) fn
        visitChildren cx go m (mk .fnExpr sp [ident, fn])
  -- IV:182-205
  | mk .exprStmt sp [e] => frame cx .exprStmt sp fun cur =>
      if isDirectiveLit e then pure n
      else do
        keepIf (cur = some .next ∨ isInjectedExpr e) () (mark cx sp)
        visitChildren cx go m n
  -- IV:209-221
  | mk .breakStmt sp _ => frame cx .breakStmt sp fun cur => do
      keepIf (cur = some .next) () (mark cx sp)
      visitChildren cx go m n
  -- IV:225-268
  | mk .cond sp [test, cons, alt] => frame cx .condExpr sp fun cur =>
      visitCond cx go m cur sp test cons alt
  -- IV:272-293
  | mk .taggedTpl sp _ => guarded cx .taggedTpl n do
      mark cx sp
      visitChildren cx go m n
  -- IV:297-308
  | mk .returnStmt sp _ => frame cx .returnStmt sp fun cur => do
      keepIf (cur = some .next) () (mark cx sp)
      visitChildren cx go m n
  -- IV:312-317
  | mk (.varDecl _) sp _ => frame cx .varDecl sp fun _ => visitChildren cx go m n
  -- IV:321-332
  | mk .classDecl _ _ => guarded cx .classDecl n (visitChildren cx go m n)
  -- IV:336-349
  | mk .classProp sp [key, value, decorators] => guarded cx .classProp n do
      let value ← keepIf value.isNone value (coverStatement cx go m value)
      visitChildren cx go m (mk .classProp sp [key, value, decorators])
  -- IV:353-367
  | mk .privateProp sp [key, value, decorators] => guarded cx .privateProp n do
      let value ← keepIf value.isNone value (coverStatement cx go m value)
      visitChildren cx go m (mk .privateProp sp [key, value, decorators])
  -- IV:371-396
  | mk .classMethod sp [key, fn] => guarded cx .classMethod n <|
      match key.propName? with
      | some name =>
        if cx.ignoreMethods.contains name then pure n
        else do
          let fn ← createFn cx (some (key.span, name)) fn
          visitChildren cx go m (mk .classMethod sp [key, fn])
      | none => pure n
  -- IV:400-432
  | mk .methodProp sp [key, fn] => guarded cx .methodProp n <|
      match key.propName? with
      | some name =>
        if cx.ignoreMethods.contains name then pure n
        else do
          let fn ← createFn cx (some (key.span, name)) fn
          visitChildren cx go m (mk .methodProp sp [key, fn])
      | none => do
        let fn ← createFn cx (some (Span.dummy, "anonymous")) fn
        visitChildren cx go m (mk .methodProp sp [key, fn])
  -- IV:436-517
  | mk .getterProp sp [key, body] => guarded cx .getterProp n <|
      visitAccessor cx go m n key body fun body => mk .getterProp sp [key, body]
  -- IV:522-603
  | mk .setterProp sp [key, thisParam, param, body] => guarded cx .setterProp n <|
      visitAccessor cx go m n key body fun body => mk .setterProp sp [key, thisParam, param, body]
  -- IV:607-623
  | mk .varDeclarator sp [name, init] => guarded cx .varDeclarator n do
      let init ← keepIf init.isNone init (coverStatement cx go m init)
      visitChildren cx go m (mk .varDeclarator sp [name, init])
  -- IV:627-653, visit_mut_for_like.rs:4-36
  | mk (.loop k) sp cs => guarded cx (.loop k) n do
      mark cx sp
      visitChildren cx go m (mk (.loop k) sp (blockifyLast cs))
  -- IV:657-671
  | mk .labeled sp _ => frame cx .labeledStmt sp fun cur => do
      keepIf (cur = some .next) () (mark cx sp)
      visitChildren cx go m n
  -- IV:675-688
  | mk .continueStmt sp _ => frame cx .continueStmt sp fun cur => do
      keepIf (cur = some .next) () (mark cx sp)
      visitChildren cx go m n
  -- IV:692-725
  | mk .switchStmt sp _ => frame cx .switchStmt sp fun cur =>
      if cur = some .next then pure n
      else do
        mark cx sp
        let branch ← newBranch .switch (cx.range sp) false
        let (n, _) ← fresh cur (visitChildren cx go (.switchCase branch) n)
        pure n
  -- IV:729-828
  | mk .ifStmt sp [test, cons, alt] => frame cx .ifStmt sp fun cur =>
      if cur = some .next then pure n else visitIf cx go m cur sp test cons alt
  -- IV:832-882
  | mk (.bin op) sp [left, right] =>
      visitBin cx go m none (visitChildren cx go m) op sp left right
  -- IV:886-905
  | mk .assignPat sp [left, right] => guarded cx .assignPat n do
      let branch ← newBranch .defaultArg (cx.range sp) false
      let right ← wrapBin cx go m branch right
      pure (mk .assignPat sp [left, right])
  -- IV:909-919
  | mk .tryStmt sp _ => guarded cx .tryStmt n do
      mark cx sp
      visitChildren cx go m n
  -- IV:923-933
  | mk .throwStmt sp _ => guarded cx .throwStmt n do
      mark cx sp
      visitChildren cx go m n
  -- IV:937-970
  | mk .withStmt sp [obj, body] => frame cx .withStmt sp fun cur =>
      if cur = some .next then pure n
      else do
        mark cx sp
        let body ← visitWithBody cx go cur body
        pure (mk .withStmt sp [obj, body])
  -- switch_case_visitor.rs:29-59
  | mk .switchCase sp (test :: cons) =>
      match m with
      | .switchCase branch => guarded cx .switchCase n (visitCase cx go branch sp test cons)
      | _ => visitChildren cx go m n
  -- coverage_visitor.rs:238-248
  | mk .exportDecl _ _ =>
      match m with
      | .coverage => guarded cx .exportDecl n (visitChildren cx go m n)
      | _ => visitChildren cx go m n
  -- coverage_visitor.rs:224-234
  | mk .exportDefault _ _ =>
      match m with
      | .coverage => guarded cx .exportDefaultDecl n (visitChildren cx go m n)
      | _ => visitChildren cx go m n
  -- coverage_visitor.rs:252-261
  | mk .debugger _ _ =>
      match m with
      | .coverage => guarded cx .debuggerStmt n (visitChildren cx go m n)
      | _ => visitChildren cx go m n
  | n => visitChildren cx go m n

/-- `visit_mut_children_with` for `LogicalExprVisitor`: it has no `visit_mut_stmts`. -/
def logicalChildren (branch : Nat) : Node → M Node
  | mk k sp cs => do
    let cs ← M.mapList (go (.logical branch)) cs
    pure (mk k sp cs)

/-- visitors/logical_expr_visitor.rs:26-64 and the default visits below the `Expr` wrapper. -/
def visitLogicalInner (branch : Nat) (n : Node) : M Node :=
  match n with
  | mk (.bin op) sp [left, right] =>
    visitBin cx go (.logicalInner branch) (some branch) (logicalChildren go branch) op sp left right
  | n => logicalChildren go branch n

/-- visitors/logical_expr_visitor.rs:18-22 `visit_mut_expr` for expressions, default visit otherwise. -/
def visitLogical (branch : Nat) (n : Node) : M Node :=
  if n.kind.isExpr then
    frame cx .expr n.span fun _ => go (.logicalInner branch) n
  else logicalChildren go branch n

/-- One visit, given the recursive visits. -/
def step (m : Mode) (n : Node) : M Node :=
  match m with
  | .logical b => visitLogical cx go b n
  | .logicalInner b => visitLogicalInner cx go b n
  | m => visitNode cx go m n

end

/-- Visits with a bound on the nesting of recursive visits. -/
def visit (cx : Ctx) : Nat → Mode → Node → M Node
  | 0 => fun _ _ => M.panic .outOfFuel
  | fuel + 1 => step cx (visit cx fuel)

end Visitor
end Verif
