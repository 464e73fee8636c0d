import Verif.Spec.EndToEnd
import Verif.Spec.Report
import Verif.Model.Summary
import Verif.Model.FileCoverage
/-
Reports of several runs of a file, merged.
-/
namespace Verif

/-- `m` is a report on the code that `r` reports on, perhaps with other ids: the statements, functions and branches listed
are those of `r`, each once, and the counts are given by `n`, for the counters in the numbering of `r`. -/
structure FileCoverage.Recounts (r : FileCoverage) (n : Counter → Nat) (m : FileCoverage) : Prop where
  path : m.path = r.path
  statement : ∀ id l, r.statementMap.get id = some l →
    ∃ id', m.statementMap.get id' = some l ∧ m.s.get id' = some (n (.s id))
  function : ∀ id x, r.fnMap.get id = some x → ∃ id', m.fnMap.get id' = some x ∧ m.f.get id' = some (n (.f id))
  branch : ∀ id x, r.branchMap.get id = some x →
    ∃ id', m.branchMap.get id' = some x ∧ ∀ i, i < x.locations.length → m.count (.b id' i) = some (n (.b id i))
  statements : ∀ id' l, m.statementMap.get id' = some l → ∃ id, r.statementMap.get id = some l
  functions : ∀ id' x, m.fnMap.get id' = some x → ∃ id, r.fnMap.get id = some x
  branches : ∀ id' x, m.branchMap.get id' = some x → ∃ id, r.branchMap.get id = some x
  distinct : m.DistinctLocs

/-- A report that can be merged: entries and items belong together, and locations are listed once. -/
structure FileCoverage.Shard (c : FileCoverage) : Prop where
  wf : c.WellFormed
  distinct : c.DistinctLocs
  truth : c.TruthMergeable

namespace Sem
variable {V A : Type}

/-- `n` gives the execution counts of `trs` for the counters of the instrumented program that count something. -/
structure Executed (p' : Node) (r : FileCoverage) (trs : List (List (Ev V A))) (n : Counter → Nat) : Prop where
  begun : ∀ k t, CountsBegun p' k t → r.count k = some 0 → n k = (trs.map fun tr => began t (visible tr)).sum
  entered : ∀ k t j, CountsEntered p' k t j → r.count k = some 0 → n k = (trs.map fun tr => entered t j (visible tr)).sum

/-- `n` gives, for the counters that count truthy values, how often these were given in `trs`. -/
def Gave (solid : V → Bool) (p' : Node) (r : FileCoverage) (trs : List (List (Ev V A))) (n : Counter → Nat) : Prop :=
  ∀ k t, CountsSolid p' k t → r.count k = some 0 → n k = (trs.map fun tr => gave solid t [] (visible tr)).sum

/-- The merged report `m` tells about all executions `trs`: it lists what the report `r` of the instrumenter lists, and
its counts are execution counts, of all executions together. -/
def TellsAll (p' : Node) (r : FileCoverage) (trs : List (List (Ev V A))) (m : FileCoverage) : Prop :=
  ∃ n : Counter → Nat, r.Recounts n m ∧ Executed p' r trs n

end Sem

/-- The totals of a summary of what `r` lists, if the counters have the values `n`: how many statements, functions and arms there are,
and how many of them were executed; on how many lines a statement starts, and on how many a statement that was executed. -/
structure CoverageSummary.Sums (sm : CoverageSummary) (r : FileCoverage) (n : Counter → Nat) : Prop where
  statements : sm.statements.total = r.statementMap.length
  statementsCovered : sm.statements.covered = r.statementMap.countP fun e => decide (0 < n (.s e.1))
  functions : sm.functions.total = r.fnMap.length
  functionsCovered : sm.functions.covered = r.fnMap.countP fun e => decide (0 < n (.f e.1))
  branches : sm.branches.total = (r.branchMap.map fun e => e.2.locations.length).sum
  branchesCovered : sm.branches.covered =
    (r.branchMap.map fun e => (List.range e.2.locations.length).countP fun i => decide (0 < n (.b e.1 i))).sum
  lines : ∀ ls : List Nat, ls.Nodup → (∀ l, l ∈ ls ↔ ∃ e ∈ r.statementMap, e.2.start.line = l) → sm.lines.total = ls.length
  linesCovered : ∀ ls : List Nat, ls.Nodup → (∀ l, l ∈ ls ↔ ∃ e ∈ r.statementMap, e.2.start.line = l ∧ 0 < n (.s e.1)) →
    sm.lines.covered = ls.length

/-- The line reports of `m` are right about what `r` lists, if the counters have the values `n`: a line has the largest count of
the statements that start on it, it is uncovered if none of them was executed, and it has the arms of the branches that start on it. -/
structure FileCoverage.LinesOf (m r : FileCoverage) (n : Counter → Nat) : Prop where
  hits : ∃ lm, m.getLineCoverage = .ok lm ∧ ∀ l c, lm.get l = some c ↔
    (∃ e ∈ r.statementMap, e.2.start.line = l ∧ n (.s e.1) = c) ∧ ∀ e ∈ r.statementMap, e.2.start.line = l → n (.s e.1) ≤ c
  uncovered : ∃ ls, m.getUncoveredLines = .ok ls ∧ ls.Nodup ∧ ∀ l, l ∈ ls ↔
    (∃ e ∈ r.statementMap, e.2.start.line = l) ∧ ∀ e ∈ r.statementMap, e.2.start.line = l → n (.s e.1) = 0
  arms : ∃ bl, m.getBranchCoverageByLine = .ok bl ∧ ∀ l covered total, bl.get l = some (covered, total) ↔
    (∃ e ∈ r.branchMap, e.2.line = some l) ∧
    covered = ((r.branchMap.filter fun e => decide (e.2.line = some l)).map fun e =>
      (List.range e.2.locations.length).countP fun i => decide (0 < n (.b e.1 i))).sum ∧
    total = ((r.branchMap.filter fun e => decide (e.2.line = some l)).map fun e => e.2.locations.length).sum

open Runtime Js Template

/-- A report that was obtained from a run: in some realm some complete executions `trs` of the instrumented program were what the
instances of the file did, with less than 2^32 increments of each counter, `JSON.stringify` wrote the coverage data of the
file, and istanbul-oxide loaded it as `c`. -/
structure Obtained {V A : Type} (solid : V → Bool) (path : String) (p' : Node) (r : FileCoverage) (trs : List (List (Sem.Ev V A)))
    (c : FileCoverage) : Prop where
  complete : ∀ tr ∈ trs, Sem.Complete solid p' tr
  few : ∀ k, (trs.map fun tr => Sem.counted k tr).sum < 2 ^ 32
  realm : ∃ (w : World) (covFn gcv : String) (st : State) (rm : Realm) (pre es : List Event) (ps : IndexMap String Cell) (a : Nat)
    (d : Data), Pristine gcv st ∧ (∀ j, Event.load j ∈ pre → j.path ≠ path) ∧ SameHash path (dataHash r) es ∧
      Lives w gcv (.new st) .empty rm (pre ++ .load (emit covFn gcv path r) :: es) ∧ NoHooks rm.st.heap ∧
      Mixed trs (hitsOf path [] (pre ++ .load (emit covFn gcv path r) :: es)) ∧
      registry gcv rm.st = some ps ∧ ps.get path = some (.data (.ref a)) ∧ Writes rm.st.heap [] (.ref a) (some d) ∧
      Serde.coverage d = some c

/-- Whenever reports are obtained from some runs of the instrumented program `p'`, at least one, and a coverage map is built from them,
together with reports on other files, in any order, it has a report for the file with the property `P` of all executions in these runs.
The map that a release build of istanbul-oxide makes, where counts wrap around, has one too if the counters were incremented less than 2^32
times in all runs together. -/
def Merged (path : String) (p' : Node) (r : FileCoverage)
    (P : (V A : Type) → (V → Bool) → List (List (Sem.Ev V A)) → FileCoverage → Prop) : Prop :=
  ∀ (V A : Type) (solid : V → Bool) (runs : List (List (List (Sem.Ev V A)) × FileCoverage)), runs ≠ [] →
    (∀ x ∈ runs, Obtained solid path p' r x.1 x.2) → ∀ cs : List FileCoverage,
    cs.filter (fun c => decide (c.path = path)) = runs.map (·.2) → (∀ c ∈ cs, c.path ≠ path → c.Shard) →
    (∃ M m, CoverageMap.fromIter cs = .ok M ∧ M.getCoverageForFile path = some m ∧ P V A solid (runs.map (·.1)).flatten m) ∧
    ((∀ k, ((runs.map (·.1)).flatten.map fun tr => Sem.counted k tr).sum < 2 ^ 32) → (∀ c ∈ cs, c.path ≠ path → c.Fits) →
      ∃ M m, CoverageMap.fromIterRelease cs = .ok M ∧ M.getCoverageForFile path = some m ∧
        P V A solid (runs.map (·.1)).flatten m)

end Verif
