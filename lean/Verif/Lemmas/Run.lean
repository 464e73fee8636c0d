import Verif.Model.Program
/-
Instrumentation of modules and scripts in terms of the visits of their items.
-/
namespace Verif
namespace Visitor
open Node

/-- The state in which the items of a program are visited. -/
def start (cx : Ctx) (path : String) (sm : Option SourceMap) : St :=
  { initial cx path sm with nodes := [.program] }

/-- The injected items. -/
def declItem : Node := mk .covDecl Span.dummy []
/-- The injected items. -/
def callItem : Node := mk .covCall Span.dummy []

theorem instrument_eq (cx : Ctx) (fuel : Nat) (path : String) (sm : Option SourceMap) (p : Node)
    (hf : Hint.shouldIgnoreFile cx.cc cx.comments p.span = false) :
    instrument cx fuel path sm p = match programBody cx fuel p (start cx path sm) with
      | .error e => .error e
      | .ok (n, st) => .ok (n, st.cov) := by
  simp only [instrument, visitProgram, Bind.bind, M.bind, push, hf, Bool.false_eq_true]
  simp only [if_false]
  rw [M.bind]
  show _ = match programBody cx fuel p { initial cx path sm with nodes := [.program] } with
    | Except.error e => Except.error e
    | Except.ok (n, st) => Except.ok (n, st.cov)
  simp only [initial]
  cases programBody cx fuel p _ <;> rfl

theorem instrument_module (cx : Ctx) (fuel : Nat) (path : String) (sm : Option SourceMap) (sp : Span)
    (items : List Node) (hf : Hint.shouldIgnoreFile cx.cc cx.comments sp = false) :
    instrument cx fuel path sm (mk .module sp items) =
      match visitItems cx fuel items (start cx path sm) with
      | .error e => .error e
      | .ok (out, st) => .ok (mk .module sp (insertModuleTemplates declItem callItem out), st.cov.freeze) := by
  have he : ensureRoot (start cx path sm) = .ok (true, start cx path sm) := rfl
  rw [instrument_eq _ _ _ _ _ hf]
  simp only [programBody, moduleItems, Bind.bind, M.bind, he]
  cases visitItems cx fuel items (start cx path sm) <;> rfl

theorem instrument_script (cx : Ctx) (fuel : Nat) (path : String) (sm : Option SourceMap) (sp : Span)
    (items : List Node) (hf : Hint.shouldIgnoreFile cx.cc cx.comments sp = false) :
    instrument cx fuel path sm (mk .script sp items) =
      match visitScriptItems cx fuel items (start cx path sm) with
      | .error e => .error e
      | .ok (out, st) => .ok (mk .script sp (declItem :: callItem :: out), st.cov.freeze) := by
  rw [instrument_eq _ _ _ _ _ hf]
  simp only [programBody, scriptBody, Bind.bind, M.bind]
  cases visitScriptItems cx fuel items (start cx path sm) <;> rfl

end Visitor
end Verif
