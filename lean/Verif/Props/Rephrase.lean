import Verif.Spec.Rephrase
import Verif.Props.Unsure
/-
C83: a program that is rephrased by any number of harmless changes has the same report.
-/
namespace Verif
open Visitor Node Build

section
variable {cx : Ctx} {fuel fuel' : Nat} {path path' : String} {sm sm' : Option SourceMap} {p p' p1 p2 : Node} {cov cov' : SourceCoverage}

/-- One change leaves the outline as it is. -/
theorem Node.Change1.outline (h : p.Change1 cx p') : programOutline cx p' = programOutline cx p := by
  cases h with
  | braces w hw hb => exact programOutline_brace hw hb
  | thin q hb => exact programOutline_thin hb
  | arms w hb => exact programOutline_emptyArm hb
  | exchange hf hb => exact programOutline_exchange hf hb
  | words hf hx hb => exact programOutline_variant hf hb hx
  | regroup hf hx hb => exact programOutline_regroup hf hb hx

/-- The outline of a program stays the same. -/
theorem Node.Rephrased.outline (h : p.Rephrased cx p') : programOutline cx p' = programOutline cx p := by
  induction h with
  | same => rfl
  | change _ hc ih => exact hc.outline.trans ih
  | undo _ hc ih => exact hc.outline.symm.trans ih

/-- C83 for functions: they are the same under the same numbers. -/
theorem C83_functions_partial (h : p.Rephrased cx p') (hp : p.NoTaggedInits) (hc : p.CasesInSwitch) (hp' : p'.NoTaggedInits) (hc' : p'.CasesInSwitch)
    (hr : instrument cx fuel path sm p = .ok (p1, cov)) (hr' : instrument cx fuel' path' sm' p' = .ok (p2, cov')) (id : Nat) :
    cov'.inner.fnMap.get id = cov.inner.fnMap.get id := by
  rw [C72_functions_partial hp' hc' hr', C72_functions_partial hp hc hr, h.outline]

/-- C83 for branches: they are the same with the same arms under the same numbers. -/
theorem C83_branches_partial (h : p.Rephrased cx p') (hp : p.NoTaggedInits) (hc : p.CasesInSwitch) (hp' : p'.NoTaggedInits) (hc' : p'.CasesInSwitch)
    (hr : instrument cx fuel path sm p = .ok (p1, cov)) (hr' : instrument cx fuel' path' sm' p' = .ok (p2, cov')) (id : Nat) :
    cov'.inner.branchMap.get id = cov.inner.branchMap.get id := by
  rw [C72_branches_partial hp' hc' hr', C72_branches_partial hp hc hr, h.outline]

/-- C83 for statements: they are the same in the same order, except for initialisers with functions but no block in them. -/
theorem C83_nearly_partial (h : p.Rephrased cx p') (hp : p.NoTaggedInits) (hc : p.CasesInSwitch) (hp' : p'.NoTaggedInits) (hc' : p'.CasesInSwitch)
    (hr : instrument cx fuel path sm p = .ok (p1, cov)) (hr' : instrument cx fuel' path' sm' p' = .ok (p2, cov')) :
    NearStatements cx p cov.inner cov'.inner :=
  near_statements hp hc hp' hc' h.outline hr hr'

/-- C83 for statements, if no initialiser has functions but no block in it: they are the same under the same numbers. -/
theorem C83_statements_partial (h : p.Rephrased cx p') (hp : p.NoTaggedInits) (hc : p.CasesInSwitch) (hp' : p'.NoTaggedInits)
    (hc' : p'.CasesInSwitch) (hu : ∀ e ∈ Entry.statements (programOutline cx p), e.2 = true)
    (hr : instrument cx fuel path sm p = .ok (p1, cov)) (hr' : instrument cx fuel' path' sm' p' = .ok (p2, cov')) (id : Nat) :
    cov'.inner.statementMap.get id = cov.inner.statementMap.get id := by
  rw [C72_sure_partial hp' hc' (by rw [h.outline]; exact hu) hr', C72_sure_partial hp hc hu hr, h.outline]

end

/-- `var` becomes `let`. -/
private def reworded : Node → Node
  | mk (.varDecl .var) sp cs => mk (.varDecl .let) sp cs
  | n => n

/-- `var x = 1; if (a) b || c;` -/
private def oldStyle : Node := Build.module [decl 1 .var "x" (num 2 "1"),
  mk .ifStmt (at' 3) [ident 4 "a", expr 5 (bin 6 .or (ident 7 "b") (ident 8 "c")), mk .none Span.dummy []]]

/-- `let x = 1; if (a) { b || c; } else { }` -/
private def newStyle : Node := rewrite (emptyArm fun _ => some (at' 50)) (brace (fun sp => some ⟨sp.lo + 40, sp.hi + 40⟩) (rewrite reworded oldStyle))

/-- A program in another style, by three changes. -/
example : oldStyle.Rephrased plain newStyle ∧ newStyle.NoTaggedInits ∧ newStyle.CasesInSwitch ∧
    (∀ e ∈ Entry.statements (programOutline plain oldStyle), e.2 = true) ∧
    yields (run plain oldStyle) (fun _ r => decide (r.statementMap.length = 3) && decide (r.branchMap.length = 2)) = true ∧
    yields (run plain newStyle) (fun _ r => decide (r.statementMap.length = 3) && decide (r.branchMap.length = 2)) = true := by
  have hf : ∀ n, Variant n (reworded n) := by
    intro n
    unfold reworded
    split
    · exact .mk _ _ rfl
    · obtain ⟨k, sp, cs⟩ := n
      exact .mk _ _ rfl
  refine ⟨?_, by unfold NoTaggedInits; decide +kernel, by unfold CasesInSwitch; decide +kernel, by decide +kernel, by decide +kernel, by decide +kernel⟩
  exact .change (.change (.change .same (.words hf (fun m hm hk => absurd hk (by revert m; decide +kernel)) (by unfold StmtsInBlocks; decide +kernel)))
    (.braces _ ⟨nofun, fun _ _ _ => nofun⟩ (by unfold StmtsInBlocks; decide +kernel))) (.arms _ (by unfold StmtsInBlocks; decide +kernel))

end Verif
