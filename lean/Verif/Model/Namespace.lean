import Verif.Model.Program
import Verif.Model.Emit
/-
TypeScript namespaces: packages/swc-coverage-instrument/src/visitors/coverage_visitor.rs once more.

The body of a namespace is a list of module items, so `visit_mut_module_items` of `CoverageVisitor` runs on it as it
does on the items of a module: it puts a coverage function, with the data collected so far, into the namespace.
Programs without namespaces do not get there (`Props/Namespace.lean`), which is why the model in `Model/Visitor.lean`
and `Model/Program.lean` has no case for them.
-/
namespace Verif

/-- `TsModuleBlock`: the items in the braces of a namespace. -/
def nsKind : Kind := .other .misc "TsModuleBlock"

/-- The kind of the bodies of namespaces. -/
def Kind.isNs (k : Kind) : Bool := k = nsKind

namespace Visitor
open Node

section
variable (cx : Ctx) (go : Mode → Node → M Node)

/-- coverage_visitor.rs:151-181: one module item; gives the items that replace it. -/
def nsItem (item : Node) : M (List Node) :=
  if isDirectiveStmt item then pure [item]
  else frame cx (if item.kind.isModuleDecl then .moduleDecl else .stmt) item.span fun _ =>
    withBefore do
      keepIf (isExportConst item = false) () (mark cx item.span)
      go .coverage item

/-- coverage_visitor.rs:150-183. -/
def nsItems : List Node → M (List Node)
  | [] => pure []
  | item :: items => do
    let out ← nsItem cx go item
    let rest ← nsItems items
    pure (out ++ rest)

/-- coverage_visitor.rs:54-107 `get_coverage_templates` for a namespace. The data of the function is kept as the
child of the declaration, as the text that is hashed. -/
def nsTemplates : M (Node × Node) := fun st =>
  .ok ((mk .covDecl Span.dummy [mk (.other .misc (Serde.save st.cov.freeze.inner)) Span.dummy []], mk .covCall Span.dummy []),
    { st with cov := st.cov.freeze })

/-- coverage_visitor.rs:129-199 `visit_mut_module_items` for the body of a namespace. -/
def nsBody (sp : Span) (items : List Node) : M Node := do
  let rootExists ← ensureRoot
  let items ← nsItems cx go items
  let (decl, call) ← nsTemplates
  keepIf rootExists () pop
  pure (mk nsKind sp (insertModuleTemplates decl call items))

/-- One visit. Only `CoverageVisitor` has a `visit_mut_module_items`. -/
def nsStep (m : Mode) (n : Node) : M Node :=
  match m with
  | .coverage => if n.kind = nsKind then nsBody cx go n.span n.children else step cx go m n
  | m => step cx go m n

end

/-- Visits with a bound on the nesting of recursive visits. -/
def nsVisit (cx : Ctx) : Nat → Mode → Node → M Node
  | 0 => fun _ _ => M.panic .outOfFuel
  | fuel + 1 => nsStep cx (nsVisit cx fuel)

/-- coverage_visitor.rs:129-199 `visit_mut_module_items` for a module. -/
def nsModule (cx : Ctx) (fuel : Nat) (items : List Node) : M (List Node) := do
  let rootExists ← ensureRoot
  let items ← nsItems cx (nsVisit cx fuel) items
  let (decl, call) ← coverageTemplates
  keepIf rootExists () pop
  pure (insertModuleTemplates decl call items)

/-- coverage_visitor.rs:207-213. -/
def nsScriptItems (cx : Ctx) (fuel : Nat) : List Node → M (List Node)
  | [] => pure []
  | item :: items => do
    let out ← withBefore (nsVisit cx fuel .coverage item)
    let rest ← nsScriptItems cx fuel items
    pure (out ++ rest)

/-- coverage_visitor.rs:202-220 `visit_mut_script`. -/
def nsScript (cx : Ctx) (fuel : Nat) (items : List Node) : M (List Node) := do
  let items ← nsScriptItems cx fuel items
  let (decl, call) ← coverageTemplates
  pure (decl :: call :: items)

/-- coverage_visitor.rs:123 `program.visit_mut_children_with(self)`. -/
def nsProgramBody (cx : Ctx) (fuel : Nat) : Node → M Node
  | mk .module sp items => do
    let items ← nsModule cx fuel items
    pure (mk .module sp items)
  | mk .script sp items => do
    let items ← nsScript cx fuel items
    pure (mk .script sp items)
  | n => pure n

/-- coverage_visitor.rs:114-126 `visit_mut_program`. -/
def nsProgram (cx : Ctx) (fuel : Nat) (program : Node) : M Node := do
  push .program
  if Hint.shouldIgnoreFile cx.cc cx.comments program.span then pure program
  else do
    let program ← nsProgramBody cx fuel program
    pop
    pure program

/-- Instrumentation of a program that may contain namespaces. -/
def nsInstrument (cx : Ctx) (fuel : Nat) (path : String) (sm : Option SourceMap) (program : Node) :
    Except Panic (Node × SourceCoverage) :=
  match nsProgram cx fuel program (initial cx path sm) with
  | .error e => .error e
  | .ok (n, st) => .ok (n, st.cov)

end Visitor
end Verif
