import Verif.Lemmas.Variant
import Verif.Props.Outline
import Verif.Spec.Build
/-
C81: `var`, `let` or `const`, the kinds of loops and `async` make no difference to what is reported.
-/
namespace Verif
open Visitor Node Build

section
variable {cx : Ctx} {fuel fuel' : Nat} {path path' : String} {sm sm' : Option SourceMap} {f : Node → Node} {p p1 p2 : Node}
  {cov cov' : SourceCoverage}

/-- C81 for functions: with other words for its loops, declarations and functions a program has the same functions under the same numbers. -/
theorem C81_functions_partial (hf : ∀ n, Variant n (f n)) (hx : p.SparesExports f) (hp : p.NoTaggedInits) (hc : p.CasesInSwitch)
    (hb : p.StmtsInBlocks) (hr : instrument cx fuel path sm p = .ok (p1, cov))
    (hr' : instrument cx fuel' path' sm' (rewrite f p) = .ok (p2, cov')) (id : Nat) : cov'.inner.fnMap.get id = cov.inner.fnMap.get id := by
  rw [C72_functions_partial (variant_untagged hf hp) (variant_casesInSwitch hf hc) hr', C72_functions_partial hp hc hr,
    programOutline_variant hf hb hx]

/-- C81 for branches: they are the same with the same arms under the same numbers. -/
theorem C81_branches_partial (hf : ∀ n, Variant n (f n)) (hx : p.SparesExports f) (hp : p.NoTaggedInits) (hc : p.CasesInSwitch)
    (hb : p.StmtsInBlocks) (hr : instrument cx fuel path sm p = .ok (p1, cov))
    (hr' : instrument cx fuel' path' sm' (rewrite f p) = .ok (p2, cov')) (id : Nat) : cov'.inner.branchMap.get id = cov.inner.branchMap.get id := by
  rw [C72_branches_partial (variant_untagged hf hp) (variant_casesInSwitch hf hc) hr', C72_branches_partial hp hc hr,
    programOutline_variant hf hb hx]

/-- C81 for statements, if no initialiser has functions but no block in it. -/
theorem C81_statements_partial (hf : ∀ n, Variant n (f n)) (hx : p.SparesExports f) (hp : p.NoTaggedInits) (hc : p.CasesInSwitch)
    (hb : p.StmtsInBlocks) (hu : ∀ e ∈ Entry.statements (programOutline cx p), e.2 = true)
    (hr : instrument cx fuel path sm p = .ok (p1, cov)) (hr' : instrument cx fuel' path' sm' (rewrite f p) = .ok (p2, cov')) (id : Nat) :
    cov'.inner.statementMap.get id = cov.inner.statementMap.get id := by
  rw [C72_sure_partial (variant_untagged hf hp) (variant_casesInSwitch hf hc) (by rw [programOutline_variant hf hb hx]; exact hu) hr',
    C72_sure_partial hp hc hu hr, programOutline_variant hf hb hx]

end

/-- Only `let` and `for … of`, and all arrow functions are `async`. -/
private def modern : Node → Node
  | mk (.varDecl .var) sp cs => mk (.varDecl .let) sp cs
  | mk (.varDecl .const) sp cs => mk (.varDecl .let) sp cs
  | mk (.loop .forIn) sp cs => mk (.loop .forOf) sp cs
  | mk (.arrow _) sp cs => mk (.arrow "async") sp cs
  | n => n

private theorem modern_variant (n : Node) : Variant n (modern n) := by
  unfold modern
  split
  · exact .mk _ _ rfl
  · exact .mk _ _ rfl
  · exact .mk _ _ rfl
  · exact .mk _ _ rfl
  · obtain ⟨k, sp, cs⟩ := n
    exact .mk _ _ rfl

/-- `const a = 1; for (b in c) { var d = 2; e(() => f); }` -/
private def oldSource : Node := Build.module [decl 1 .const "a" (num 4 "1"),
  mk (.loop .forIn) (at' 5) [ident 6 "b", ident 7 "c", block 8 [decl 9 .var "d" (num 12 "2"),
    expr 13 (call 14 (ident 15 "e") [Build.arrow 16 (ident 17 "f")])]]]

/-- There are no `var`, `const` and `for … in` left. The report still has the five statements and the function. -/
example : (∀ n, Variant n (modern n)) ∧ oldSource.SparesExports modern ∧ oldSource.NoTaggedInits ∧ oldSource.CasesInSwitch ∧
    oldSource.StmtsInBlocks ∧ (∀ e ∈ Entry.statements (programOutline plain oldSource), e.2 = true) ∧
    ((rewrite modern oldSource).each.filter fun n => n.kind = .varDecl .let).length = 2 ∧
    ((rewrite modern oldSource).each.filter fun n => n.kind = .loop .forOf).length = 1 ∧
    yields (run plain (rewrite modern oldSource)) (fun _ r => decide (r.statementMap.length = 5) && decide (r.fnMap.length = 1)) = true :=
  ⟨modern_variant, fun m hm hk => absurd hk (by revert m; decide +kernel), by unfold NoTaggedInits; decide +kernel,
    by unfold CasesInSwitch; decide +kernel, by unfold StmtsInBlocks; decide +kernel, by decide +kernel, by decide +kernel, by decide +kernel,
    by decide +kernel⟩

/-! ### `export const` -/

/-- `export const a = 1;` -/
private def constExport : Node := Build.module [mk .exportDecl (at' 1) [decl 2 .const "a" (num 5 "1")]]

/-- `export const` is counted as a statement, `export let` is not. -/
theorem C81_export_fails : ∃ (f : Node → Node) (p p1 p2 : Node) (cov cov' : SourceCoverage), (∀ n, Variant n (f n)) ∧ Clean p ∧ p.NoTaggedInits ∧
    p.CasesInSwitch ∧ p.StmtsInBlocks ∧ run plain p = .ok (p1, cov) ∧ run plain (rewrite f p) = .ok (p2, cov') ∧
    cov.inner.statementMap.length = 2 ∧ cov'.inner.statementMap.length = 1 := by
  have h1 : yields (run plain constExport) (fun _ r => decide (r.statementMap.length = 2)) = true := by decide +kernel
  have h2 : yields (run plain (rewrite modern constExport)) (fun _ r => decide (r.statementMap.length = 1)) = true := by decide +kernel
  obtain ⟨p1, cov, e1, h1⟩ := of_yields h1
  obtain ⟨p2, cov', e2, h2⟩ := of_yields h2
  exact ⟨modern, constExport, p1, p2, cov, cov', modern_variant, by unfold Clean; decide +kernel,
    by unfold NoTaggedInits; decide +kernel, by unfold CasesInSwitch; decide +kernel, by unfold StmtsInBlocks; decide +kernel,
    e1, e2, of_decide_eq_true h1, of_decide_eq_true h2⟩

end Verif
