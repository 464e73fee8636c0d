import Verif.Spec.Thin
import Verif.Spec.Stricter
/-
Scripts put into a function that is called at once.
-/
namespace Verif
open Node

/-- The places of the parts of a wrapper: its statement, the call, the parentheses, the function with and without its name, and the body. -/
structure Places where
  stmt : Span
  call : Span
  paren : Span
  fn : Span
  function : Span
  body : Span

/-- `(function (params) { items })(args);` -/
def Node.wrapper (w : Places) (params args items : List Node) : Node :=
  mk .exprStmt w.stmt [mk (.other .expr "Call") w.call [mk .paren w.paren [mk .fnExpr w.fn [mk .none Span.dummy [],
    mk (.function "") w.function [mk .list Span.dummy params, mk .list Span.dummy [], mk .block w.body items]]], mk .list Span.dummy args]]

/-- No hint excludes the wrapper. -/
def Ctx.Spares (cx : Ctx) (w : Places) : Prop := cx.hint w.stmt ≠ some .next ∧ cx.hint w.fn ≠ some .next ∧ cx.hint w.body ≠ some .next

/-- Exports are in modules only, and there is nothing in a `debugger` statement, which the grammar guarantees. -/
def Node.IsScript (p : Node) : Prop :=
  ∀ m ∈ p.each, m.kind ≠ .exportDecl ∧ m.kind ≠ .exportDefault ∧ (m.kind = .debugger → m.children = [])

/-- Hints are only before statements that can be excluded by them, or in which there is nothing to count. -/
def Ctx.HintsApply (cx : Ctx) (items : List Node) : Prop := ∀ s ∈ items, cx.hinted s = true → s.hintable = true ∨ s.traceless = true

/-- The only statements that are strings are directives. -/
def Node.StringsDirect (items : List Node) : Prop :=
  ∀ s ∈ items, isString s = true → ∃ sp sp' v cs, s = mk .exprStmt sp [mk (.strLit v) sp' cs] ∧ v ∈ ["use strict", "use asm", "use strong"]

end Verif
