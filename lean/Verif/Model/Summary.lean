import Verif.Model.FileCoverage
import Verif.Model.Percent
/-
packages/istanbul-oxide/src/coverage_summary.rs, coverage_map.rs and the summary part of file_coverage.rs
-/
namespace Verif

/-- coverage_summary.rs:3-7 `CoveragePercentage`. -/
inductive Pct where
  | unknown
  | value (p : Rat)
deriving DecidableEq

/-- coverage_summary.rs:15-21 `Totals`. -/
structure Totals where
  total : Nat
  covered : Nat
  skipped : Nat
  pct : Pct
deriving DecidableEq

/-- coverage_summary.rs:15,33-40 `Totals::default`. -/
def Totals.default : Totals := ⟨0, 0, 0, .unknown⟩

/-- coverage_summary.rs:43-50 `CoverageSummary`. -/
structure CoverageSummary where
  lines : Totals
  statements : Totals
  functions : Totals
  branches : Totals
  branchesTrue : Option Totals
deriving DecidableEq

/-- The derived `Default` (coverage_summary.rs:43), used by `get_coverage_summary`. -/
def CoverageSummary.derivedDefault : CoverageSummary :=
  ⟨.default, .default, .default, .default, none⟩

/-- The inherent `CoverageSummary::default` (coverage_summary.rs:79-87). -/
def CoverageSummary.inherentDefault : CoverageSummary :=
  ⟨.default, .default, .default, .default, some .default⟩

/-- coverage_summary.rs:91-94 (and 96-112 for the other three): add one group of totals. -/
def Totals.add (a b : Totals) : Totals where
  total := a.total + b.total
  covered := a.covered + b.covered
  skipped := a.skipped + b.skipped
  pct := .value (percent (a.covered + b.covered) (a.total + b.total))

/-- coverage_summary.rs:90-131 `CoverageSummary::merge`. -/
def CoverageSummary.merge (self summary : CoverageSummary) : CoverageSummary where
  lines := self.lines.add summary.lines
  statements := self.statements.add summary.statements
  functions := self.functions.add summary.functions
  branches := self.branches.add summary.branches
  branchesTrue :=
    match summary.branchesTrue with
    | some bt =>
      match self.branchesTrue with
      | some sv => some (sv.add bt)
      | none => some (Totals.default.add bt)
    | none => self.branchesTrue

/-- coverage_summary.rs:137-139 `is_empty`. -/
def CoverageSummary.isEmpty (s : CoverageSummary) : Bool := s.lines.total == 0

namespace FileCoverage

/-- file_coverage.rs:318-327 `compute_simple_totals`. -/
def computeSimpleTotals {K : Type} (m : IndexMap K Nat) : Totals where
  total := m.length
  covered := countPos (m.map (·.2))
  skipped := 0
  pct := .value (percent (countPos (m.map (·.2))) m.length)

/-- file_coverage.rs:332-335: the accumulation loop, `(covered, total)`. -/
def branchTotalsLoop : List (Nat × List Nat) → Nat × Nat → Nat × Nat
  | [], acc => acc
  | (_, br) :: rest, acc => branchTotalsLoop rest (acc.1 + countPos br, acc.2 + br.length)

/-- file_coverage.rs:329-339 `compute_branch_totals`. -/
def computeBranchTotals (m : BranchHitMap) : Totals :=
  let acc := branchTotalsLoop m (0, 0)
  ⟨acc.2, acc.1, 0, .value (percent acc.1 acc.2)⟩

/-- file_coverage.rs:361-376 `to_summary`. -/
def toSummary (fc : FileCoverage) : Except Panic CoverageSummary :=
  match fc.getLineCoverage with
  | .error e => .error e
  | .ok lines =>
    .ok { lines := computeSimpleTotals lines
          statements := computeSimpleTotals fc.s
          functions := computeSimpleTotals fc.f
          branches := computeBranchTotals fc.b
          branchesTrue := fc.bT.map computeBranchTotals }

end FileCoverage

/-- coverage_map.rs:7-9 `CoverageMap`. -/
abbrev CoverageMap := IndexMap String FileCoverage

namespace CoverageMap

/-- coverage_map.rs:69-75 `add_coverage_for_file`. -/
def addCoverageForFile (m : CoverageMap) (c : FileCoverage) : Except Panic CoverageMap :=
  match m.get c.path with
  | some v =>
    match v.merge c with
    | .error e => .error e
    | .ok v' => .ok (IndexMap.modify m c.path (fun _ => v'))
  | none => .ok (m.insert c.path c)

/-- The loop shared by `from_iter` (coverage_map.rs:24-34) and `merge` (37-41). -/
def addAll (m : CoverageMap) : List FileCoverage → Except Panic CoverageMap
  | [] => .ok m
  | c :: cs =>
    match m.addCoverageForFile c with
    | .error e => .error e
    | .ok m' => addAll m' cs

/-- coverage_map.rs:24-34 `from_iter`. -/
def fromIter (cs : List FileCoverage) : Except Panic CoverageMap := addAll [] cs

/-- coverage_map.rs:69-75 `add_coverage_for_file`, with the addition of hit counts as a parameter. -/
def addCoverageForFileWith (add : Nat → Nat → Nat) (m : CoverageMap) (c : FileCoverage) : Except Panic CoverageMap :=
  match m.get c.path with
  | some v =>
    match v.mergeWith add c with
    | .error e => .error e
    | .ok v' => .ok (IndexMap.modify m c.path (fun _ => v'))
  | none => .ok (m.insert c.path c)

/-- The loop of `from_iter`, with the addition as a parameter. -/
def addAllWith (add : Nat → Nat → Nat) (m : CoverageMap) : List FileCoverage → Except Panic CoverageMap
  | [] => .ok m
  | c :: cs =>
    match m.addCoverageForFileWith add c with
    | .error e => .error e
    | .ok m' => addAllWith add m' cs

/-- coverage_map.rs:24-34 `from_iter` in a release build, where the addition of counts wraps around. -/
def fromIterRelease (cs : List FileCoverage) : Except Panic CoverageMap := addAllWith addWrap32 [] cs

/-- coverage_map.rs:37-41 `merge`. -/
def merge (m m' : CoverageMap) : Except Panic CoverageMap := addAll m m'.values

/-- coverage_map.rs:48-52: the loop of `filter`. -/
def filterLoop (p : FileCoverage → Bool) : List (String × FileCoverage) → CoverageMap → CoverageMap
  | [], acc => acc
  | (_, c) :: rest, acc => filterLoop p rest (if p c then acc.insert c.path c else acc)

/-- coverage_map.rs:45-55 `filter`. -/
def filter (m : CoverageMap) (p : FileCoverage → Bool) : CoverageMap := filterLoop p m []

/-- coverage_map.rs:61-63 `get_files`. -/
def getFiles (m : CoverageMap) : List String := m.keys

/-- coverage_map.rs:65-67 `get_coverage_for_file`. -/
def getCoverageForFile (m : CoverageMap) (path : String) : Option FileCoverage := m.get path

/-- coverage_map.rs:80-82: the loop of `get_coverage_summary`. -/
def summaryLoop : List FileCoverage → CoverageSummary → Except Panic CoverageSummary
  | [], acc => .ok acc
  | c :: cs, acc =>
    match c.toSummary with
    | .error e => .error e
    | .ok s => summaryLoop cs (acc.merge s)

/-- coverage_map.rs:77-85 `get_coverage_summary`. -/
def getCoverageSummary (m : CoverageMap) : Except Panic CoverageSummary :=
  summaryLoop m.values .derivedDefault

end CoverageMap
end Verif
