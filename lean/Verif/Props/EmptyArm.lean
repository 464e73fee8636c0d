import Verif.Lemmas.EmptyArm
import Verif.Props.Outline
import Verif.Spec.Build
/-
C79: an empty `else` or `finally` makes no difference to what is reported.
-/
namespace Verif
open Visitor Node Build

section
variable {cx : Ctx} {fuel fuel' : Nat} {path path' : String} {sm sm' : Option SourceMap} {w : Span → Option Span} {p p1 p2 : Node}
  {cov cov' : SourceCoverage}

/-- C79 for functions: with empty `else` and `finally` blocks a program has the same functions under the same numbers. There may be hints anywhere,
also before the empty blocks. -/
theorem C79_functions_partial (hp : p.NoTaggedInits) (hc : p.CasesInSwitch) (hb : p.StmtsInBlocks)
    (hr : instrument cx fuel path sm p = .ok (p1, cov)) (hr' : instrument cx fuel' path' sm' (rewrite (emptyArm w) p) = .ok (p2, cov')) (id : Nat) :
    cov'.inner.fnMap.get id = cov.inner.fnMap.get id := by
  rw [C72_functions_partial (emptyArm_untagged hp) (emptyArm_casesInSwitch hc) hr', C72_functions_partial hp hc hr, programOutline_emptyArm hb]

/-- C79 for branches: they are the same with the same arms under the same numbers. The missing `else` counts as an arm anyway. -/
theorem C79_branches_partial (hp : p.NoTaggedInits) (hc : p.CasesInSwitch) (hb : p.StmtsInBlocks)
    (hr : instrument cx fuel path sm p = .ok (p1, cov)) (hr' : instrument cx fuel' path' sm' (rewrite (emptyArm w) p) = .ok (p2, cov')) (id : Nat) :
    cov'.inner.branchMap.get id = cov.inner.branchMap.get id := by
  rw [C72_branches_partial (emptyArm_untagged hp) (emptyArm_casesInSwitch hc) hr', C72_branches_partial hp hc hr, programOutline_emptyArm hb]

/-- C79 for statements, if no initialiser has functions but no block in it. -/
theorem C79_statements_partial (hp : p.NoTaggedInits) (hc : p.CasesInSwitch) (hb : p.StmtsInBlocks)
    (hu : ∀ e ∈ Entry.statements (programOutline cx p), e.2 = true)
    (hr : instrument cx fuel path sm p = .ok (p1, cov)) (hr' : instrument cx fuel' path' sm' (rewrite (emptyArm w) p) = .ok (p2, cov')) (id : Nat) :
    cov'.inner.statementMap.get id = cov.inner.statementMap.get id := by
  rw [C72_sure_partial (emptyArm_untagged hp) (emptyArm_casesInSwitch hc) (by rw [programOutline_emptyArm hb]; exact hu) hr',
    C72_sure_partial hp hc hu hr, programOutline_emptyArm hb]

end

/-- `if (a) { if (b) c; } try { d || e; } catch { } function f() {}` -/
private def armlessSource : Node := Build.module [
  mk .ifStmt (at' 1) [ident 2 "a", block 3 [mk .ifStmt (at' 4) [ident 5 "b", expr 6 (ident 7 "c"), mk .none Span.dummy []]],
    mk .none Span.dummy []],
  mk .tryStmt (at' 8) [block 9 [expr 10 (bin 11 .or (ident 12 "d") (ident 13 "e"))],
    mk (.other .misc "catch") (at' 14) [mk .none Span.dummy [], block 15 []], mk .none Span.dummy []],
  fnDecl 16 "f" [] []]

/-- An empty block wherever there can be one. -/
private def armsEverywhere (sp : Span) : Option Span := some ⟨sp.hi, sp.hi⟩

/-- Three blocks are added. The report has the five statements, the function and the three branches of the program without them. -/
example : armlessSource.NoTaggedInits ∧ armlessSource.CasesInSwitch ∧ armlessSource.StmtsInBlocks ∧
    (∀ e ∈ Entry.statements (programOutline plain armlessSource), e.2 = true) ∧
    (armlessSource.each.filter fun n => n.kind = .block).length = 4 ∧
    ((rewrite (emptyArm armsEverywhere) armlessSource).each.filter fun n => n.kind = .block).length = 7 ∧
    yields (run plain (rewrite (emptyArm armsEverywhere) armlessSource)) (fun _ r => decide (r.statementMap.length = 5) &&
      decide (r.fnMap.length = 1) && decide (r.branchMap.length = 3)) = true ∧
    yields (run plain armlessSource) (fun _ r => decide (r.statementMap.length = 5)) = true :=
  ⟨by unfold NoTaggedInits; decide +kernel, by unfold CasesInSwitch; decide +kernel, by unfold StmtsInBlocks; decide +kernel,
    by decide +kernel, by decide +kernel, by decide +kernel, by decide +kernel, by decide +kernel⟩

end Verif
