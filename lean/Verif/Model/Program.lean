import Verif.Model.Visitor
/-
Programs: packages/swc-coverage-instrument/src/visitors/coverage_visitor.rs
-/
namespace Verif
namespace Visitor
open Node

/-- `directive_continue` (swc_ecma_utils): an expression statement that is a string literal. -/
def isDirectiveStmt : Node → Bool
  | mk .exprStmt _ [mk (.strLit _) _ _] => true
  | _ => false

/-- coverage_visitor.rs:169-173: `export const ...`. -/
def isExportConst : Node → Bool
  | mk .exportDecl _ [mk (.varDecl .const) _ _] => true
  | _ => false

/-- `self.before.drain(..)`. -/
def drain : M (List Node) := fun st => .ok (st.before, { st with before := [] })

/-- coverage_visitor.rs:175-180, 209-211: what is pending after `x` goes before its result. -/
def withBefore (x : M Node) : M (List Node) := do
  let item ← x
  let before ← drain
  pure (before ++ [item])

/-- coverage_visitor.rs:165-175: one module item that is not a directive. -/
def itemBody (cx : Ctx) (fuel : Nat) (item : Node) : M Node := do
  keepIf (isExportConst item = false) () (mark cx item.span)
  visit cx fuel .coverage item

/-- coverage_visitor.rs:151-181: one module item; gives the items that replace it. -/
def visitItem (cx : Ctx) (fuel : Nat) (item : Node) : M (List Node) :=
  if isDirectiveStmt item then pure [item]
  else frame cx (if item.kind.isModuleDecl then .moduleDecl else .stmt) item.span fun _ =>
    withBefore (itemBody cx fuel item)

/-- coverage_visitor.rs:150-183. -/
def visitItems (cx : Ctx) (fuel : Nat) : List Node → M (List Node)
  | [] => pure []
  | item :: items => do
    let out ← visitItem cx fuel item
    let rest ← visitItems cx fuel items
    pure (out ++ rest)

/-- coverage_visitor.rs:54-107 `get_coverage_templates`: freeze the coverage data; the declaration
of the coverage function and its call. -/
def coverageTemplates : M (Node × Node) := fun st =>
  .ok ((mk .covDecl Span.dummy [], mk .covCall Span.dummy []), { st with cov := st.cov.freeze })

/-- coverage_visitor.rs:134-146: make `Program` the bottom of the node stack. -/
def ensureRoot : M Bool := fun st =>
  if st.nodes.getLast? = some .program then .ok (true, st)
  else .ok (false, { st with nodes := st.nodes ++ [.program] })

/-- coverage_visitor.rs:187-194. -/
def insertModuleTemplates (decl call : Node) : List Node → List Node
  | [] => [decl, call]
  | item :: items => item :: decl :: call :: items

/-- coverage_visitor.rs:129-199 `visit_mut_module_items`. -/
def moduleItems (cx : Ctx) (fuel : Nat) (items : List Node) : M (List Node) := do
  let rootExists ← ensureRoot
  let items ← visitItems cx fuel items
  let (decl, call) ← coverageTemplates
  keepIf rootExists () pop
  pure (insertModuleTemplates decl call items)

/-- coverage_visitor.rs:208-212: one statement of a script. -/
def visitScriptItem (cx : Ctx) (fuel : Nat) (item : Node) : M (List Node) :=
  withBefore (visit cx fuel .coverage item)

/-- coverage_visitor.rs:207-213. -/
def visitScriptItems (cx : Ctx) (fuel : Nat) : List Node → M (List Node)
  | [] => pure []
  | item :: items => do
    let out ← visitScriptItem cx fuel item
    let rest ← visitScriptItems cx fuel items
    pure (out ++ rest)

/-- coverage_visitor.rs:202-220 `visit_mut_script`. -/
def scriptBody (cx : Ctx) (fuel : Nat) (items : List Node) : M (List Node) := do
  let items ← visitScriptItems cx fuel items
  let (decl, call) ← coverageTemplates
  pure (decl :: call :: items)

/-- coverage_visitor.rs:123 `program.visit_mut_children_with(self)`. -/
def programBody (cx : Ctx) (fuel : Nat) : Node → M Node
  | mk .module sp items => do
    let items ← moduleItems cx fuel items
    pure (mk .module sp items)
  | mk .script sp items => do
    let items ← scriptBody cx fuel items
    pure (mk .script sp items)
  | n => pure n

/-- coverage_visitor.rs:114-126 `visit_mut_program`. -/
def visitProgram (cx : Ctx) (fuel : Nat) (program : Node) : M Node := do
  push .program
  if Hint.shouldIgnoreFile cx.cc cx.comments program.span then pure program
  else do
    let program ← programBody cx fuel program
    pop
    pure program

/-- coverage_visitor.rs:20-41 `create_coverage_instrumentation_visitor`: the initial state. -/
def initial (cx : Ctx) (path : String) (sm : Option SourceMap) : St where
  before := []
  nodes := []
  ignore := none
  cov := (SourceCoverage.new path cx.reportLogic).setInputSourceMap sm

/-- Instrumentation of a program: the visitor is created and the program visited. The result is the
program and the coverage data the coverage function is created with. -/
def instrument (cx : Ctx) (fuel : Nat) (path : String) (sm : Option SourceMap) (program : Node) :
    Except Panic (Node × SourceCoverage) :=
  match visitProgram cx fuel program (initial cx path sm) with
  | .error e => .error e
  | .ok (n, st) => .ok (n, st.cov)

end Visitor
end Verif
