import Batteries.Data.List.Perm
import Verif.Lemmas.Meters
import Verif.Spec.Build
import Verif.Spec.Provenance
/-
C34: no construct of the source gets two entries. `stmtRanges`, `fnRanges` and `branchRanges` (Spec/Duty.lean) list the constructs of a
program that may have an entry.
-/
namespace Verif
open Node Visitor Build

section
variable {cx : Ctx} {fuel : Nat} {path : String} {sm : Option SourceMap} {p p' : Node} {cov : SourceCoverage}

/-- C34 for statements: the report has at most as many statement entries with a given range as the program has statements, initialisers
and so on there. Missing are programs in which an initialiser is a tagged template. -/
theorem C34_statements_partial (hp : PlainInits p) (hr : instrument cx fuel path sm p = .ok (p', cov)) (r : Range) :
    (cov.inner.statementMap.map (·.2)).count r ≤ (stmtRanges cx p).count r := by
  have := Costs.instrument (mt := .statements r) hp hr
  rw [Meter.weight_statements] at this
  refine Nat.le_trans (Nat.le_of_eq ?_) this
  simp only [Meter.statements, IndexMap.values, List.count]
  congr 1

/-- C34 for functions: at most as many function entries with given ranges of declaration and body as the program has functions there. -/
theorem C34_functions_partial (hp : PlainInits p) (hr : instrument cx fuel path sm p = .ok (p', cov))
    (x : Range × Range) :
    (cov.inner.fnMap.map fun e => (e.2.decl, e.2.loc)).count x ≤ (fnRanges cx p).count x := by
  have := Costs.instrument (mt := .functions x) hp hr
  rw [Meter.weight_functions] at this
  refine Nat.le_trans (Nat.le_of_eq ?_) this
  simp only [Meter.functions, IndexMap.values, List.count, List.countP_map]
  congr 1
  funext e
  simp only [Function.comp, beq_eq_decide]

/-- C34 for branches: at most as many branch entries of a given type and range as the program has such branches there. -/
theorem C34_branches_partial (hp : PlainInits p) (hr : instrument cx fuel path sm p = .ok (p', cov))
    (t : BranchType) (r : Range) :
    (cov.inner.branchMap.map fun e => (e.2.branchType, e.2.loc)).count (t, some r) ≤ (branchRanges cx p).count (t, r) := by
  have := Costs.instrument (mt := .branches t r) hp hr
  rw [Meter.weight_branches] at this
  refine Nat.le_trans (Nat.le_of_eq ?_) this
  simp only [Meter.branches, IndexMap.values, List.count, List.countP_map]
  congr 1
  funext e
  simp only [Function.comp, beq_eq_decide]

/-- C34 for arms: at most as many branch entries whose first arm has a given range as the program has arms there, where the two arms of an
`if`, which have the range of the `if`, count once. -/
theorem C34_arms_partial (hp : PlainInits p) (hr : instrument cx fuel path sm p = .ok (p', cov)) (r : Range) :
    (cov.inner.branchMap.map fun e => e.2.locations.head?).count (some r) ≤ (armRanges cx p).count r := by
  have := Costs.instrument (mt := .heads r) hp hr
  rw [Meter.weight_heads] at this
  refine Nat.le_trans ?_ this
  simp only [Meter.heads, IndexMap.values, List.count, List.countP_map]
  refine List.countP_mono_left fun e _ he => ?_
  simp only [Function.comp, beq_iff_eq] at he
  simp only [Function.comp, decide_eq_true_eq, Meter.headOf]
  cases hl : e.2.locations with
  | nil => rw [hl] at he; cases he
  | cons l ls => rw [hl] at he; exact he

/-- C34 for bodies: at most as many function entries whose body has a given range as the program has function bodies there. -/
theorem C34_bodies_partial (hp : PlainInits p) (hr : instrument cx fuel path sm p = .ok (p', cov)) (l : Range) :
    (cov.inner.fnMap.map (·.2.loc)).count l ≤ ((fnRanges cx p).map (·.2)).count l := by
  have h : (cov.inner.fnMap.map fun e => (e.2.decl, e.2.loc)).Subperm (fnRanges cx p) :=
    List.subperm_ext_iff.2 fun x _ => C34_functions_partial hp hr x
  obtain ⟨l', h1, h2⟩ := h
  have h3 := (h1.map (·.2)).count_eq l
  rw [List.map_map] at h3
  exact Nat.le_trans (Nat.le_of_eq h3.symm) ((h2.map (·.2)).count_le l)

/-- C34 where ranges tell constructs apart: then no two entries of a kind have the same range. -/
theorem C34_distinct_partial (hp : PlainInits p) (hr : instrument cx fuel path sm p = .ok (p', cov)) :
    ((stmtRanges cx p).Nodup → (cov.inner.statementMap.map (·.2)).Nodup) ∧
    ((fnRanges cx p).Nodup → (cov.inner.fnMap.map fun e => (e.2.decl, e.2.loc)).Nodup) := by
  refine ⟨fun h => List.nodup_iff_count.2 fun r => ?_, fun h => List.nodup_iff_count.2 fun x => ?_⟩
  · exact Nat.le_trans (C34_statements_partial hp hr r) (List.nodup_iff_count.1 h r)
  · exact Nat.le_trans (C34_functions_partial hp hr x) (List.nodup_iff_count.1 h x)

end

/-- `export const f = g ? a : b; if (c && d) h(() => f);` -/
def handful : Node := Build.module
  [mk .exportDecl (at' 1) [decl 2 .const "f" (cond 3 (ident 4 "g") (ident 5 "a") (ident 6 "b"))],
   mk .ifStmt (at' 7) [bin 8 .and (ident 9 "c") (ident 10 "d"),
     expr 11 (call 11 (ident 11 "h") [arrow 12 (ident 13 "f")]), mk .none Span.dummy []]]

/-- The constructs of `handful` that may have entries, and its entries. -/
example : PlainInits handful ∧ stmtRanges plain handful = [at' 1, at' 3, at' 7, at' 11, at' 13].map plain.range ∧
    fnRanges plain handful = [(plain.range (at' 12), plain.range (at' 13))] ∧
    branchRanges plain handful = [(.condExpr, plain.range (at' 3)), (.if, plain.range (at' 7)), (.binaryExpr, plain.range (at' 8))] ∧
    ∃ p' cov, run plain handful = .ok (p', cov) ∧
      cov.inner.statementMap.map (·.2) = [at' 1, at' 3, at' 7, at' 11, at' 13].map plain.range ∧
      cov.inner.fnMap.length = 1 ∧ cov.inner.branchMap.length = 3 := by
  refine ⟨by unfold PlainInits; decide +kernel, by decide +kernel, by decide +kernel, by decide +kernel, ?_⟩
  have h : yields (run plain handful) (fun _ r => decide (
      r.statementMap.map (·.2) = [at' 1, at' 3, at' 7, at' 11, at' 13].map plain.range ∧
      r.fnMap.length = 1 ∧ r.branchMap.length = 3)) = true := by decide +kernel
  obtain ⟨p', cov, h1, h2⟩ := of_yields h
  exact ⟨p', cov, h1, of_decide_eq_true h2⟩

/-! ### Failures -/

/-- C34 fails: for the one declaration ``const x = tag`${() => y}` `` three statement entries with the range of the initialiser are made,
two with that of the body of the function, and two function entries for the one function, of which the second has no range. -/
theorem C34_tagged_initialiser_fails : ∃ p p' cov, Clean p ∧ run plain p = .ok (p', cov) ∧
    p.each.filter (fun n => n.kind = .taggedTpl) = [tagged 2 (ident 3 "tag") [arrow 4 (ident 5 "y")]] ∧
    (cov.inner.statementMap.map (·.2)).count (plain.range (at' 2)) = 3 ∧
    fnRanges plain p = [(plain.range (at' 4), plain.range (at' 5))] ∧
    (cov.inner.statementMap.map (·.2)).count (plain.range (at' 5)) = 2 ∧
    cov.inner.fnMap.map (fun e => (e.2.decl, e.2.loc)) =
      [(plain.range (at' 4), plain.range (at' 5)), (plain.range (at' 4), Range.zero)] := by
  have h : yields (run plain (Build.module [decl 1 .const "x" (tagged 2 (ident 3 "tag") [arrow 4 (ident 5 "y")])]))
      (fun _ r => decide ((r.statementMap.map (·.2)).count (plain.range (at' 2)) = 3 ∧
        (r.statementMap.map (·.2)).count (plain.range (at' 5)) = 2 ∧
        r.fnMap.map (fun e => (e.2.decl, e.2.loc)) =
          [(plain.range (at' 4), plain.range (at' 5)), (plain.range (at' 4), Range.zero)])) = true := by
    decide +kernel
  obtain ⟨p', cov, h1, h2⟩ := of_yields h
  obtain ⟨h2, h3, h4⟩ := of_decide_eq_true h2
  exact ⟨_, p', cov, by unfold Clean; decide +kernel, h1, by decide +kernel, h2, by decide +kernel, h3, h4⟩

/-- C34 fails: a statement that is a tagged template, without a semicolon, gets two statement entries with its range. -/
theorem C34_tagged_statement_fails : ∃ p p' cov, Clean p ∧ run plain p = .ok (p', cov) ∧ p.children.length = 1 ∧
    cov.inner.statementMap = [(0, plain.range (at' 2)), (1, plain.range (at' 2))] := by
  have h : yields (run plain (Build.module [expr 2 (tagged 2 (ident 2 "tag") [])]))
      (fun _ r => decide (r.statementMap = [(0, plain.range (at' 2)), (1, plain.range (at' 2))])) = true := by
    decide +kernel
  obtain ⟨p', cov, h1, h2⟩ := of_yields h
  exact ⟨_, p', cov, by unfold Clean; decide +kernel, h1, rfl, of_decide_eq_true h2⟩

end Verif
