import Verif.Lemmas.Braces
import Verif.Props.Outline
import Verif.Spec.Build
/-
C75: braces around the body of a statement or a statement of a block make no difference to what is reported.
-/
namespace Verif
open Visitor Node Build

section
variable {cx : Ctx} {fuel fuel' : Nat} {path path' : String} {sm sm' : Option SourceMap} {w : Span → Option Span} {p p1 p2 : Node}
  {cov cov' : SourceCoverage}

/-- C75 for functions: with braces around any of the bodies of its statements and of the statements of its blocks and cases a
program has the same functions under the same numbers. -/
theorem C75_functions_partial (hp : p.NoTaggedInits) (hc : p.CasesInSwitch) (hb : p.StmtsInBlocks) (hw : cx.Bare w)
    (hr : instrument cx fuel path sm p = .ok (p1, cov)) (hr' : instrument cx fuel' path' sm' (brace w p) = .ok (p2, cov')) (id : Nat) :
    cov'.inner.fnMap.get id = cov.inner.fnMap.get id := by
  rw [C72_functions_partial (brace_untagged hp) (brace_casesInSwitch hc) hr', C72_functions_partial hp hc hr, programOutline_brace hw hb]

/-- C75 for branches: they are the same with the same arms under the same numbers. -/
theorem C75_branches_partial (hp : p.NoTaggedInits) (hc : p.CasesInSwitch) (hb : p.StmtsInBlocks) (hw : cx.Bare w)
    (hr : instrument cx fuel path sm p = .ok (p1, cov)) (hr' : instrument cx fuel' path' sm' (brace w p) = .ok (p2, cov')) (id : Nat) :
    cov'.inner.branchMap.get id = cov.inner.branchMap.get id := by
  rw [C72_branches_partial (brace_untagged hp) (brace_casesInSwitch hc) hr', C72_branches_partial hp hc hr, programOutline_brace hw hb]

/-- C75 for statements, if no initialiser has functions but no block in it. -/
theorem C75_statements_partial (hp : p.NoTaggedInits) (hc : p.CasesInSwitch) (hb : p.StmtsInBlocks) (hw : cx.Bare w)
    (hu : ∀ e ∈ Entry.statements (programOutline cx p), e.2 = true)
    (hr : instrument cx fuel path sm p = .ok (p1, cov)) (hr' : instrument cx fuel' path' sm' (brace w p) = .ok (p2, cov')) (id : Nat) :
    cov'.inner.statementMap.get id = cov.inner.statementMap.get id := by
  rw [C72_sure_partial (brace_untagged hp) (brace_casesInSwitch hc) (by rw [programOutline_brace hw hb]; exact hu) hr',
    C72_sure_partial hp hc hu hr, programOutline_brace hw hb]

end

/-- `if (a) b || c; else while (d) with (e) f ? g : h; { i; j }` -/
private def bracedSource : Node := Build.module [mk .ifStmt (at' 1) [ident 2 "a", expr 3 (bin 4 .or (ident 5 "b") (ident 6 "c")),
  mk (.loop .while) (at' 7) [ident 8 "d", mk .withStmt (at' 9) [ident 10 "e", expr 11 (cond 12 (ident 13 "f") (ident 14 "g") (ident 15 "h"))]]],
  block 16 [expr 17 (ident 17 "i"), expr 18 (ident 18 "j")]]

/-- Braces around all bodies, each at the places 20 behind that of the body. -/
private def bracesEverywhere (sp : Span) : Option Span := some ⟨sp.lo + 20, sp.hi + 20⟩

/-- `if (a) { b || c; } else { while (d) { with (e) { f ? g : h } } } { { i; } { j } }` has the seven statements and three branches of
the program without braces. -/
example : bracedSource.NoTaggedInits ∧ bracedSource.CasesInSwitch ∧ bracedSource.StmtsInBlocks ∧ plain.Bare bracesEverywhere ∧
    (∀ e ∈ Entry.statements (programOutline plain bracedSource), e.2 = true) ∧
    ((brace bracesEverywhere bracedSource).each.filter fun n => n.kind = .block).length = 7 ∧
    (bracedSource.each.filter fun n => n.kind = .block).length = 1 ∧
    yields (run plain (brace bracesEverywhere bracedSource)) (fun _ r => decide (r.statementMap.length = 7) && decide (r.branchMap.length = 3)) = true :=
  ⟨by unfold NoTaggedInits; decide +kernel, by unfold CasesInSwitch; decide +kernel, by unfold StmtsInBlocks; decide +kernel,
    ⟨nofun, fun _ _ _ => nofun⟩, by decide +kernel, by decide +kernel, by decide +kernel, by decide +kernel⟩

/-- `if (a) var f = () => 1;` -/
private def bareInit : Node := Build.script [mk .ifStmt (at' 1) [ident 2 "a", decl 3 .var "f" (arrow 4 (num 5 "1")), mk .none Span.dummy []]]

/-- C75 fails for statements: in a script the initialiser of `if (a) var f = () => 1;` is a statement of the report, but not that of
`if (a) { var f = () => 1; }`. -/
theorem C75_initialiser_fails : ∃ (w : Span → Option Span) (p : Node) (r : Range) (p1 p2 : Node) (cov cov' : SourceCoverage), Clean p ∧
    p.NoTaggedInits ∧ p.CasesInSwitch ∧ p.StmtsInBlocks ∧ plain.Bare w ∧ run plain p = .ok (p1, cov) ∧ run plain (brace w p) = .ok (p2, cov') ∧
    r ∈ cov.inner.statementMap.values ∧ r ∉ cov'.inner.statementMap.values := by
  have h1 : yields (run plain bareInit) (fun _ r => decide (plain.range (at' 4) ∈ r.statementMap.values)) = true := by decide +kernel
  have h2 : yields (run plain (brace bracesEverywhere bareInit)) (fun _ r => decide (plain.range (at' 4) ∉ r.statementMap.values)) = true := by
    decide +kernel
  obtain ⟨p1, cov, e1, h1⟩ := of_yields h1
  obtain ⟨p2, cov', e2, h2⟩ := of_yields h2
  exact ⟨bracesEverywhere, bareInit, plain.range (at' 4), p1, p2, cov, cov', by unfold Clean; decide +kernel,
    by unfold NoTaggedInits; decide +kernel, by unfold CasesInSwitch; decide +kernel, by unfold StmtsInBlocks; decide +kernel,
    ⟨nofun, fun _ _ _ => nofun⟩, e1, e2, of_decide_eq_true h1, of_decide_eq_true h2⟩

end Verif
