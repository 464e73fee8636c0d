import Verif.Lemmas.Thin
import Verif.Props.Outline
import Verif.Spec.Build
/-
C76: statements that nothing is counted in, such as imports, types and empty statements, make no difference to what is reported.
-/
namespace Verif
open Visitor Node Build

section
variable {cx : Ctx} {fuel fuel' : Nat} {path path' : String} {sm sm' : Option SourceMap} {q : Span → Bool} {p p1 p2 : Node}
  {cov cov' : SourceCoverage}

/-- C76 for functions: without any of the statements that nothing is counted in a program has the same functions under the same numbers. -/
theorem C76_functions_partial (hp : p.NoTaggedInits) (hc : p.CasesInSwitch) (hb : p.ListsInBlocks)
    (hr : instrument cx fuel path sm p = .ok (p1, cov)) (hr' : instrument cx fuel' path' sm' (thin q p) = .ok (p2, cov')) (id : Nat) :
    cov'.inner.fnMap.get id = cov.inner.fnMap.get id := by
  rw [C72_functions_partial (thin_untagged hp) (thin_casesInSwitch hc) hr', C72_functions_partial hp hc hr, programOutline_thin hb]

/-- C76 for branches: they are the same with the same arms under the same numbers. -/
theorem C76_branches_partial (hp : p.NoTaggedInits) (hc : p.CasesInSwitch) (hb : p.ListsInBlocks)
    (hr : instrument cx fuel path sm p = .ok (p1, cov)) (hr' : instrument cx fuel' path' sm' (thin q p) = .ok (p2, cov')) (id : Nat) :
    cov'.inner.branchMap.get id = cov.inner.branchMap.get id := by
  rw [C72_branches_partial (thin_untagged hp) (thin_casesInSwitch hc) hr', C72_branches_partial hp hc hr, programOutline_thin hb]

/-- C76 for statements, if no initialiser has functions but no block in it. -/
theorem C76_statements_partial (hp : p.NoTaggedInits) (hc : p.CasesInSwitch) (hb : p.ListsInBlocks)
    (hu : ∀ e ∈ Entry.statements (programOutline cx p), e.2 = true)
    (hr : instrument cx fuel path sm p = .ok (p1, cov)) (hr' : instrument cx fuel' path' sm' (thin q p) = .ok (p2, cov')) (id : Nat) :
    cov'.inner.statementMap.get id = cov.inner.statementMap.get id := by
  rw [C72_sure_partial (thin_untagged hp) (thin_casesInSwitch hc) (by rw [programOutline_thin hb]; exact hu) hr',
    C72_sure_partial hp hc hu hr, programOutline_thin hb]

end

/-- `import "x"; if (a) { ; debugger; b || c; } ; function f() { type T; }` -/
private def thickSource : Node := Build.module [mk (.other .decl "import") (at' 1) [mk (.strLit "x") (at' 2) []],
  mk .ifStmt (at' 3) [ident 4 "a", block 5 [mk (.other .stmt "empty") (at' 6) [], mk .debugger (at' 7) [],
    expr 8 (bin 9 .or (ident 10 "b") (ident 11 "c"))], mk .none Span.dummy []], mk (.other .stmt "empty") (at' 12) [],
  fnDecl 13 "f" [] [mk (.other .decl "type") (at' 16) [ident 17 "T"]]]

/-- Leave out everything that there is nothing to count in. -/
private def everywhere (_ : Span) : Bool := true

/-- `if (a) { b || c; } function f() {}` has the two statements, the function and the two branches of the program with the other statements. -/
example : thickSource.NoTaggedInits ∧ thickSource.CasesInSwitch ∧ thickSource.ListsInBlocks ∧
    (∀ e ∈ Entry.statements (programOutline plain thickSource), e.2 = true) ∧
    ((thin everywhere thickSource).each.filter fun n => n.kind = .debugger).length = 0 ∧
    (thin everywhere thickSource).children.length = 2 ∧ thickSource.children.length = 4 ∧
    yields (run plain (thin everywhere thickSource)) (fun _ r => decide (r.statementMap.length = 2) && decide (r.fnMap.length = 1) &&
      decide (r.branchMap.length = 2)) = true :=
  ⟨by unfold NoTaggedInits; decide +kernel, by unfold CasesInSwitch; decide +kernel, by unfold ListsInBlocks; decide +kernel,
    by decide +kernel, by decide +kernel, by decide +kernel, by decide +kernel, by decide +kernel⟩

end Verif
