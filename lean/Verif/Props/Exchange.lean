import Verif.Lemmas.Exchange
import Verif.Props.Outline
import Verif.Spec.Build
/-
C80: what an expression consists of makes no difference to what is reported, if nothing in it is counted.
-/
namespace Verif
open Visitor Node Build

section
variable {cx : Ctx} {fuel fuel' : Nat} {path path' : String} {sm sm' : Option SourceMap} {f : Node → Node} {p p1 p2 : Node}
  {cov cov' : SourceCoverage}

/-- C80 for functions: with other operators, and with other expressions in the places of those that nothing is counted in, a program has the same
functions under the same numbers. -/
theorem C80_functions_partial (hf : ∀ n, Exchange n (f n)) (hp : p.NoTaggedInits) (hc : p.CasesInSwitch) (hb : p.StmtsInBlocks)
    (hr : instrument cx fuel path sm p = .ok (p1, cov)) (hr' : instrument cx fuel' path' sm' (rewrite f p) = .ok (p2, cov')) (id : Nat) :
    cov'.inner.fnMap.get id = cov.inner.fnMap.get id := by
  rw [C72_functions_partial (exchange_untagged hf hp) (exchange_casesInSwitch hf hc) hr', C72_functions_partial hp hc hr,
    programOutline_exchange hf hb]

/-- C80 for branches: they are the same with the same arms under the same numbers. -/
theorem C80_branches_partial (hf : ∀ n, Exchange n (f n)) (hp : p.NoTaggedInits) (hc : p.CasesInSwitch) (hb : p.StmtsInBlocks)
    (hr : instrument cx fuel path sm p = .ok (p1, cov)) (hr' : instrument cx fuel' path' sm' (rewrite f p) = .ok (p2, cov')) (id : Nat) :
    cov'.inner.branchMap.get id = cov.inner.branchMap.get id := by
  rw [C72_branches_partial (exchange_untagged hf hp) (exchange_casesInSwitch hf hc) hr', C72_branches_partial hp hc hr,
    programOutline_exchange hf hb]

/-- C80 for statements, if no initialiser has functions but no block in it. -/
theorem C80_statements_partial (hf : ∀ n, Exchange n (f n)) (hp : p.NoTaggedInits) (hc : p.CasesInSwitch) (hb : p.StmtsInBlocks)
    (hu : ∀ e ∈ Entry.statements (programOutline cx p), e.2 = true)
    (hr : instrument cx fuel path sm p = .ok (p1, cov)) (hr' : instrument cx fuel' path' sm' (rewrite f p) = .ok (p2, cov')) (id : Nat) :
    cov'.inner.statementMap.get id = cov.inner.statementMap.get id := by
  rw [C72_sure_partial (exchange_untagged hf hp) (exchange_casesInSwitch hf hc) (by rw [programOutline_exchange hf hb]; exact hu) hr',
    C72_sure_partial hp hc hu hr, programOutline_exchange hf hb]

end

/-- `f(x)` becomes `(g)` at the same place, and every sum becomes a difference. -/
private def otherwise : Node → Node
  | mk (.other .expr "Call") sp [mk (.ident a) s [], mk (.ident b) s' []] =>
    if a = "f" ∧ b = "x" then mk .paren sp [ident 90 "g"] else mk (.other .expr "Call") sp [mk (.ident a) s [], mk (.ident b) s' []]
  | mk (.bin (.other "+")) sp cs => mk (.bin (.other "-")) sp cs
  | n => n

/-- `(a || f(x)) + (() => b + c); if (f(x)) d;` -/
private def exchangeSource : Node := Build.module [
  expr 1 (bin 2 (.other "+") (bin 3 .or (ident 4 "a") (mk (.other .expr "Call") (at' 5) [ident 6 "f", ident 7 "x"]))
    (Build.arrow 8 (bin 9 (.other "+") (ident 10 "b") (ident 11 "c")))),
  mk .ifStmt (at' 12) [mk (.other .expr "Call") (at' 13) [ident 14 "f", ident 15 "x"], expr 16 (ident 17 "d"), mk .none Span.dummy []]]

private theorem otherwise_exchange (n : Node) : Exchange n (otherwise n) := by
  unfold otherwise
  split
  · split
    · exact .plain ⟨rfl, rfl⟩ ⟨rfl, rfl⟩ rfl
    · exact .same _
  · exact .operator _ _ rfl rfl rfl
  · exact .same _

/-- Both calls and both sums are exchanged. -/
example : (∀ n, Exchange n (otherwise n)) ∧ exchangeSource.NoTaggedInits ∧ exchangeSource.CasesInSwitch ∧ exchangeSource.StmtsInBlocks ∧
    (∀ e ∈ Entry.statements (programOutline plain exchangeSource), e.2 = true) ∧
    ((rewrite otherwise exchangeSource).each.filter fun n => n.kind = .bin (.other "+")).length = 0 ∧
    ((rewrite otherwise exchangeSource).each.filter fun n => n.kind = .paren).length = 2 ∧
    yields (run plain (rewrite otherwise exchangeSource)) (fun _ r => decide (r.statementMap.length = 4) && decide (r.fnMap.length = 1) &&
      decide (r.branchMap.length = 2)) = true :=
  ⟨otherwise_exchange, by unfold NoTaggedInits; decide +kernel, by unfold CasesInSwitch; decide +kernel,
    by unfold StmtsInBlocks; decide +kernel, by decide +kernel, by decide +kernel, by decide +kernel, by decide +kernel⟩

/-! ### Strings -/

/-- `"a";` -/
private def stringSource : Node := Build.module [expr 1 (mk (.strLit "a") (at' 2) [])]

/-- Parentheses in the place of a string. -/
private def noStrings : Node → Node
  | mk (.strLit v) sp [] => mk .paren sp [mk (.strLit v) sp []]
  | n => n

/-- Strings cannot be exchanged for other expressions that nothing is counted in: a string as an item of a module is not counted as a statement,
other expressions are. -/
theorem C80_string_fails : ∃ (f : Node → Node) (p p1 p2 : Node) (cov cov' : SourceCoverage),
    (∀ n, f n = n ∨ n.kind.isExpr = true ∧ n.ordinary = true ∧ (f n).kind.isExpr = true ∧ (f n).ordinary = true ∧ (f n).span = n.span) ∧
    Clean p ∧ p.NoTaggedInits ∧ p.CasesInSwitch ∧ p.StmtsInBlocks ∧ run plain p = .ok (p1, cov) ∧ run plain (rewrite f p) = .ok (p2, cov') ∧
    cov.inner.statementMap.length = 0 ∧ cov'.inner.statementMap.length = 1 := by
  have h1 : yields (run plain stringSource) (fun _ r => decide (r.statementMap.length = 0)) = true := by decide +kernel
  have h2 : yields (run plain (rewrite noStrings stringSource)) (fun _ r => decide (r.statementMap.length = 1)) = true := by decide +kernel
  obtain ⟨p1, cov, e1, h1⟩ := of_yields h1
  obtain ⟨p2, cov', e2, h2⟩ := of_yields h2
  refine ⟨noStrings, stringSource, p1, p2, cov, cov', fun n => ?_, by unfold Clean; decide +kernel,
    by unfold NoTaggedInits; decide +kernel, by unfold CasesInSwitch; decide +kernel, by unfold StmtsInBlocks; decide +kernel,
    e1, e2, of_decide_eq_true h1, of_decide_eq_true h2⟩
  unfold noStrings
  split
  · exact .inr ⟨rfl, rfl, rfl, rfl, rfl⟩
  · exact .inl rfl

end Verif
