import Verif.Lemmas.Core
import Verif.Props.Outline
import Verif.Spec.Build
/-
C82: of an expression that is not counted itself, only the counted constructs in it make a difference to what is reported.
-/
namespace Verif
open Visitor Node Build

section
variable {cx : Ctx} {fuel fuel' : Nat} {path path' : String} {sm sm' : Option SourceMap} {f : Node → Node} {p p1 p2 : Node}
  {cov cov' : SourceCoverage}

/-- C82 for functions: with other expressions around the same counted constructs, a program has the same functions under the same numbers. -/
theorem C82_functions_partial (hf : ∀ n, Regroup cx n (f n)) (hp : p.NoTaggedInits) (hc : p.CasesInSwitch) (hb : p.StmtsInBlocks) (hx : p.SparesNames f)
    (hr : instrument cx fuel path sm p = .ok (p1, cov)) (hr' : instrument cx fuel' path' sm' (rewrite f p) = .ok (p2, cov')) (id : Nat) :
    cov'.inner.fnMap.get id = cov.inner.fnMap.get id := by
  rw [C72_functions_partial (regroup_untagged hf hp) (regroup_casesInSwitch hf hc) hr', C72_functions_partial hp hc hr,
    programOutline_regroup hf hb hx]

/-- C82 for branches: they are the same with the same arms under the same numbers. -/
theorem C82_branches_partial (hf : ∀ n, Regroup cx n (f n)) (hp : p.NoTaggedInits) (hc : p.CasesInSwitch) (hb : p.StmtsInBlocks) (hx : p.SparesNames f)
    (hr : instrument cx fuel path sm p = .ok (p1, cov)) (hr' : instrument cx fuel' path' sm' (rewrite f p) = .ok (p2, cov')) (id : Nat) :
    cov'.inner.branchMap.get id = cov.inner.branchMap.get id := by
  rw [C72_branches_partial (regroup_untagged hf hp) (regroup_casesInSwitch hf hc) hr', C72_branches_partial hp hc hr,
    programOutline_regroup hf hb hx]

/-- C82 for statements, if no initialiser has functions but no block in it. -/
theorem C82_statements_partial (hf : ∀ n, Regroup cx n (f n)) (hp : p.NoTaggedInits) (hc : p.CasesInSwitch) (hb : p.StmtsInBlocks) (hx : p.SparesNames f)
    (hu : ∀ e ∈ Entry.statements (programOutline cx p), e.2 = true)
    (hr : instrument cx fuel path sm p = .ok (p1, cov)) (hr' : instrument cx fuel' path' sm' (rewrite f p) = .ok (p2, cov')) (id : Nat) :
    cov'.inner.statementMap.get id = cov.inner.statementMap.get id := by
  rw [C72_sure_partial (regroup_untagged hf hp) (regroup_casesInSwitch hf hc) (by rw [programOutline_regroup hf hb hx]; exact hu) hr',
    C72_sure_partial hp hc hu hr, programOutline_regroup hf hb hx]

end

/-- A call `f(x, y)` becomes `(x, [y])` at the same place, the name `d` becomes a call `k(f)`, and the only
parameter `x` becomes `{ x, y }`. -/
private def uncalled : Node → Node
  | mk (.other .expr "Call") sp [mk (.ident a) s [], mk .list t [x, y]] =>
    if a = "f" then mk .paren sp [mk .seq (at' 90) [x, mk (.other .expr "Array") (at' 91) [y]]]
    else mk (.other .expr "Call") sp [mk (.ident a) s [], mk .list t [x, y]]
  | mk (.ident a) sp [] => if a = "d" then mk (.other .expr "Call") sp [ident 92 "k", ident 93 "f"] else mk (.ident a) sp []
  | mk .list sp [mk (.ident a) s []] =>
    if a = "x" then mk .list sp [mk (.other .misc "Object") s [ident 94 "x", ident 95 "y"]] else mk .list sp [mk (.ident a) s []]
  | n => n

/-- `f(a || b, f(() => 1, c)); if (f(d ? e : g, h)) d; function m(x) { return d; }` -/
private def coreSource : Node := Build.module [
  expr 1 (call 2 (ident 3 "f") [bin 4 .or (ident 5 "a") (ident 6 "b"), call 7 (ident 8 "f") [Build.arrow 9 (num 10 "1"), ident 11 "c"]]),
  mk .ifStmt (at' 12) [call 13 (ident 14 "f") [mk .cond (at' 15) [ident 16 "d", ident 17 "e", ident 18 "g"], ident 19 "h"],
    expr 20 (ident 21 "d"), mk .none Span.dummy []],
  fnDecl 22 "m" [ident 25 "x"] [mk .returnStmt (at' 23) [ident 24 "d"]]]

private theorem plain_hint (sp : Span) : plain.hint sp ≠ some .next := by
  have h : plain.hint sp = none := rfl
  rw [h]
  simp

private theorem plain_core {k : Kind} (hk : k.ordinary = true) (sp : Span) (cs : List Node) : core plain (mk k sp cs) = cs.flatMap (core plain) :=
  core_open cs hk (plain_hint sp)

private theorem uncalled_regroup (n : Node) : Regroup plain n (uncalled n) := by
  unfold uncalled
  split
  · split
    · refine .core rfl rfl rfl (plain_hint _) ?_ rfl
      simp [plain_core (k := .paren) rfl, plain_core (k := .seq) rfl, plain_core (k := .other .expr _) rfl, plain_core (k := .ident _) rfl,
        plain_core (k := .list) rfl]
    · exact .same _
  · split
    · refine .core rfl rfl rfl (plain_hint _) ?_ rfl
      simp [ident, plain_core (k := .other .expr _) rfl, plain_core (k := .ident _) rfl]
    · exact .same _
  · split
    · refine .core rfl rfl rfl (plain_hint _) ?_ rfl
      simp [ident, plain_core (k := .list) rfl, plain_core (k := .other .misc _) rfl, plain_core (k := .ident _) rfl]
    · exact .same _
  · exact .same _

/-- All three calls and names and the parameter are exchanged, and the function keeps its name. -/
example : (∀ n, Regroup plain n (uncalled n)) ∧ coreSource.NoTaggedInits ∧ coreSource.CasesInSwitch ∧ coreSource.StmtsInBlocks ∧ coreSource.SparesNames uncalled ∧
    (∀ e ∈ Entry.statements (programOutline plain coreSource), e.2 = true) ∧
    ((rewrite uncalled coreSource).each.filter fun n => n.kind = .seq).length = 3 ∧
    ((rewrite uncalled coreSource).each.filter fun n => n.kind = .ident "k").length = 3 ∧
    ((rewrite uncalled coreSource).each.filter fun n => n.kind = .ident "y").length = 1 ∧
    yields (run plain (rewrite uncalled coreSource)) (fun _ r => decide (r.statementMap.length = 5) && decide (r.fnMap.length = 2) &&
      decide (r.branchMap.length = 3)) = true :=
  ⟨uncalled_regroup, by unfold NoTaggedInits; decide +kernel, by unfold CasesInSwitch; decide +kernel,
    by unfold StmtsInBlocks; decide +kernel, by unfold SparesNames; decide +kernel, by decide +kernel, by decide +kernel, by decide +kernel,
    by decide +kernel, by decide +kernel⟩

/-! ### Hints -/

/-- `f(/* istanbul ignore next */ a + (() => 1))` -/
private def hintedSum : Node := Build.module [expr 1 (call 2 (ident 3 "f") [bin 5 (.other "+") (ident 6 "a") (Build.arrow 7 (num 8 "1"))])]

/-- Sums become pairs in parentheses. -/
private def noSums : Node → Node
  | mk (.bin (.other "+")) sp cs => mk .paren sp [mk .seq (at' 90) cs]
  | n => n

/-- Without the condition on hints it fails: a hint before a sum excludes what is in it, a hint before parentheses does not. -/
theorem C82_hint_fails : ∃ (cx : Ctx) (f : Node → Node) (p p1 p2 : Node) (cov cov' : SourceCoverage),
    (∀ n, f n = n ∨ n.kind.inner = true ∧ (f n).kind.inner = true ∧ (f n).span = n.span ∧ core plain (f n) = core plain n) ∧
    Clean p ∧ p.NoTaggedInits ∧ p.CasesInSwitch ∧ p.StmtsInBlocks ∧ run cx p = .ok (p1, cov) ∧ run cx (rewrite f p) = .ok (p2, cov') ∧
    cov.inner.fnMap.length = 0 ∧ cov'.inner.fnMap.length = 1 := by
  have h1 : yields (run (Build.hinted 5 "istanbul ignore next") hintedSum) (fun _ r => decide (r.fnMap.length = 0)) = true := by decide +kernel
  have h2 : yields (run (Build.hinted 5 "istanbul ignore next") (rewrite noSums hintedSum)) (fun _ r => decide (r.fnMap.length = 1)) = true := by
    decide +kernel
  obtain ⟨p1, cov, e1, h1⟩ := of_yields h1
  obtain ⟨p2, cov', e2, h2⟩ := of_yields h2
  refine ⟨Build.hinted 5 "istanbul ignore next", noSums, hintedSum, p1, p2, cov, cov', fun n => ?_, by unfold Clean; decide +kernel,
    by unfold NoTaggedInits; decide +kernel, by unfold CasesInSwitch; decide +kernel, by unfold StmtsInBlocks; decide +kernel,
    e1, e2, of_decide_eq_true h1, of_decide_eq_true h2⟩
  unfold noSums
  split
  · refine .inr ⟨rfl, rfl, rfl, ?_⟩
    rw [plain_core rfl, plain_core rfl, List.flatMap_singleton, plain_core rfl]
  · exact .inl rfl

end Verif
