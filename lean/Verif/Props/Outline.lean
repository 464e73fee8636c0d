import Verif.Lemmas.OutlineProgram
import Verif.Props.Arms
/-
C72: the statements, functions and branches of the report, with their numbers, are those of the outline of the source.
-/
namespace Verif
open Visitor Node Build

variable {cx : Ctx} {fuel : Nat} {path : String} {sm : Option SourceMap} {p p' : Node} {cov : SourceCoverage}

/-- C72. The function with number `id` is the one at that place of the outline of the source: none is missing, none is added, and each has the name,
the head and the body of its construct. Missing are programs in which an initialiser is a tagged template (`C72_tagged_fails`). -/
theorem C72_functions_partial (hp : p.NoTaggedInits) (hc : p.CasesInSwitch) (hr : instrument cx fuel path sm p = .ok (p', cov)) (id : Nat) :
    cov.inner.fnMap.get id = (Entry.functions 0 (programOutline cx p))[id]? :=
  ((Outline.instrument hr hp hc).1 id).1

/-- C72. The branch with number `id` is the one at that place of the outline of the source; a branch all of whose arms are excluded keeps its number
but is not listed. Missing are programs in which an initialiser is a tagged template (`C72_tagged_fails`). -/
theorem C72_branches_partial (hp : p.NoTaggedInits) (hc : p.CasesInSwitch) (hr : instrument cx fuel path sm p = .ok (p', cov)) (id : Nat) :
    cov.inner.branchMap.get id = (Entry.branches (programOutline cx p))[id]?.filter fun b => !b.locations.isEmpty :=
  ((Outline.instrument hr hp hc).1 id).2

/-- C72. The statements of the report are, in this order, those of the outline of the source. Only an initialiser that is not sure, because there are
functions but no block in it, may be missing. Missing are programs in which an initialiser is a tagged template (`C72_tagged_fails`). -/
theorem C72_statements_partial (hp : p.NoTaggedInits) (hc : p.CasesInSwitch) (hr : instrument cx fuel path sm p = .ok (p', cov)) :
    ∃ S, Picks (Entry.statements (programOutline cx p)) S ∧ ∀ id, cov.inner.statementMap.get id = S[id]? :=
  (Outline.instrument hr hp hc).2

/-- C72. If all statements of the outline are sure, the statement with number `id` is the one at that place of the outline. -/
theorem C72_sure_partial (hp : p.NoTaggedInits) (hc : p.CasesInSwitch) (hu : ∀ e ∈ Entry.statements (programOutline cx p), e.2 = true)
    (hr : instrument cx fuel path sm p = .ok (p', cov)) (id : Nat) :
    cov.inner.statementMap.get id = (Entry.statements (programOutline cx p))[id]?.map Prod.fst := by
  obtain ⟨S, h1, h2⟩ := C72_statements_partial hp hc hr
  have : ∀ {U : List (Range × Bool)} {S : List Range}, Picks U S → (∀ e ∈ U, e.2 = true) → S = U.map Prod.fst := by
    intro U S h
    induction h with
    | nil => exact fun _ => rfl
    | take _ ih => exact fun hu => by rw [ih fun e he => hu e (by simp [he])]; rfl
    | drop _ ih => exact fun hu => by cases hu _ List.mem_cons_self
  rw [h2, this h1 hu, List.getElem?_map]

/-- C72. A program that is instrumented at all has the same functions and branches in its report whatever the path, the source map and the number of
steps. -/
theorem C72_stateless_partial {fuel' : Nat} {path' : String} {sm' : Option SourceMap} {p'' : Node} {cov' : SourceCoverage} (hp : p.NoTaggedInits)
    (hc : p.CasesInSwitch) (hr : instrument cx fuel path sm p = .ok (p', cov)) (hr' : instrument cx fuel' path' sm' p = .ok (p'', cov')) (id : Nat) :
    cov.inner.fnMap.get id = cov'.inner.fnMap.get id ∧ cov.inner.branchMap.get id = cov'.inner.branchMap.get id := by
  rw [C72_functions_partial hp hc hr, C72_functions_partial hp hc hr', C72_branches_partial hp hc hr, C72_branches_partial hp hc hr']
  exact ⟨rfl, rfl⟩

/-- ``const x = f`${a || b}` `` -/
private def taggedOutlineSource : Node :=
  Build.module [decl 2 .const "x" (tagged 3 (ident 3 "f") [bin 4 .or (ident 4 "a") (ident 6 "b")])]

/-- C72 fails in general: the tagged template of ``const x = f`${a || b}` `` is visited twice, and the report has a branch more than the outline. -/
theorem C72_tagged_fails : ∃ p p' cov, Clean p ∧ p.CasesInSwitch ∧ run plain p = .ok (p', cov) ∧
    (Entry.branches (programOutline plain p)).length = 1 ∧ (cov.inner.branchMap.get 1).isSome := by
  have h : yields (run plain taggedOutlineSource) (fun _ r => decide ((Entry.branches (programOutline plain taggedOutlineSource)).length = 1) &&
      (r.branchMap.get 1).isSome) = true := by decide +kernel
  obtain ⟨p', cov, h1, h2⟩ := of_yields h
  rw [Bool.and_eq_true, decide_eq_true_eq] at h2
  exact ⟨taggedOutlineSource, p', cov, by unfold Clean; decide +kernel, by unfold CasesInSwitch; decide +kernel, h1, h2.1, h2.2⟩

/-- `const f = () => 1` -/
private def unsureSource : Node := decl 6 .const "f" (arrow 7 (num 8 "1"))

/-- `a || b` -/
private def beforeSource : Node := expr 2 (bin 2 .or (ident 2 "a") (ident 4 "b"))

/-- What is not sure does depend on what comes before it: the initialiser of `const f = () => 1` is a statement of the report, but not if `a || b`
comes before it. -/
theorem C72_unsure_fails : ∃ (i j : Node) (r : Range), (r, false) ∈ Entry.statements (programOutline plain (Build.module [i])) ∧
    (r, false) ∈ Entry.statements (programOutline plain (Build.module [j, i])) ∧
    (∃ p' cov, run plain (Build.module [i]) = .ok (p', cov) ∧ ∃ id, cov.inner.statementMap.get id = some r) ∧
    ∃ p' cov, run plain (Build.module [j, i]) = .ok (p', cov) ∧ ∀ id, cov.inner.statementMap.get id ≠ some r := by
  have h1 : yields (run plain (Build.module [unsureSource])) (fun _ r => decide (r.statementMap.get 0 = some (plain.range (at' 7)))) = true := by
    decide +kernel
  have h2 : yields (run plain (Build.module [beforeSource, unsureSource])) (fun _ r => decide (∀ e ∈ r.statementMap, e.2 ≠ plain.range (at' 7))) = true := by
    decide +kernel
  obtain ⟨p1, cov1, r1, g1⟩ := of_yields h1
  obtain ⟨p2, cov2, r2, g2⟩ := of_yields h2
  exact ⟨unsureSource, beforeSource, plain.range (at' 7), by decide +kernel, by decide +kernel, ⟨p1, cov1, r1, 0, of_decide_eq_true g1⟩,
    p2, cov2, r2, fun id h => of_decide_eq_true g2 _ (IndexMap.mem_of_get h) rfl⟩

/-- `function f(p = a) { if (b && c || d) return e ? g : h; else (() => i)(); switch (j) { case k: l(); default: m(); } }` -/
private def outlineSource : Node := Build.module [fnDecl 1 "f" [mk .assignPat (at' 2) [ident 2 "p", ident 3 "a"]]
  [mk .ifStmt (at' 4) [bin 5 .or (bin 5 .and (ident 5 "b") (ident 7 "c")) (ident 9 "d"),
      mk .returnStmt (at' 11) [cond 12 (ident 12 "e") (ident 14 "g") (ident 16 "h")], expr 17 (call 17 (arrow 18 (ident 19 "i")) [])],
   mk .switchStmt (at' 20) [ident 21 "j", mk .switchCase (at' 23) [ident 24 "k", expr 25 (ident 25 "l")],
      mk .switchCase (at' 27) [mk .none Span.dummy [], expr 28 (ident 28 "m")]]]]

/-- The conditions hold for it. Its outline has two functions, of which the second has no name, and five branches; the test of the `if` comes after
the two statements it chooses from. The statements are the function's two, the first's two parts, the value of the arrow function and the two of the
cases. -/
example : outlineSource.NoTaggedInits ∧ outlineSource.CasesInSwitch ∧
    (Entry.functions 0 (programOutline plain outlineSource)).map (·.name) = ["f", "(anonymous_1)"] ∧
    (Entry.branches (programOutline plain outlineSource)).map (fun b => (b.branchType, b.locations.length)) =
      [(.defaultArg, 1), (.if, 2), (.condExpr, 2), (.binaryExpr, 3), (.switch, 2)] ∧
    Entry.statements (programOutline plain outlineSource) = [4, 11, 17, 19, 20, 25, 28].map (fun n => (plain.range (at' n), true)) ∧
    yields (run plain outlineSource) (fun _ r => decide (r.statementMap.map Prod.snd = (Entry.statements (programOutline plain outlineSource)).map Prod.fst) &&
      decide (r.branchMap.map Prod.snd = Entry.branches (programOutline plain outlineSource)) &&
      decide (r.fnMap.map Prod.snd = Entry.functions 0 (programOutline plain outlineSource))) = true := by
  refine ⟨by unfold NoTaggedInits; decide +kernel, by unfold CasesInSwitch; decide +kernel, by decide +kernel, by decide +kernel, by decide +kernel,
    by decide +kernel⟩

/-- `/* istanbul ignore if */ if (a) b ? c : d; else e && f` -/
private def ignoredOutlineSource : Node := Build.module [mk .ifStmt (at' 10)
  [ident 11 "a", expr 12 (cond 12 (ident 12 "b") (ident 14 "c") (ident 16 "d")), expr 18 (bin 18 .and (ident 18 "e") (ident 20 "f"))]]

/-- What a hint excludes is not in the outline. -/
example : (Entry.branches (programOutline (hinted 10 "istanbul ignore if") ignoredOutlineSource)).map (·.branchType) = [.if, .binaryExpr] := by
  decide +kernel

end Verif
