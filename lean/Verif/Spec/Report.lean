import Verif.Model.Types
/-
What a coverage report says, independent of ids: tables from source locations to counts.
Nothing here refers to the merge algorithm.
-/
namespace Verif

/-- The count entries of a report paired with the source location of their item; `loc` extracts
the location of an item. -/
def located {H T : Type} (loc : T → Option Range) (hits : IndexMap Nat H) (map : IndexMap Nat T) :
    List (Range × H) :=
  hits.filterMap fun e => ((map.get e.1).bind loc).map (·, e.2)

/-- Sum of the counts recorded for a location. -/
def countAt (tab : List (Range × Nat)) (r : Range) : Nat :=
  ((tab.filter fun e => decide (e.1 = r)).map (·.2)).sum

/-- Sum of the counts recorded for arm `i` of a location (a missing arm counts 0). -/
def armAt (tab : List (Range × List Nat)) (r : Range) (i : Nat) : Nat :=
  ((tab.filter fun e => decide (e.1 = r)).map (fun e => e.2.getD i 0)).sum

/-- The last of the counts recorded for a location, 0 if there is none. -/
def lastAt (tab : List (Range × Nat)) (r : Range) : Nat :=
  ((tab.filter fun e => decide (e.1 = r)).map (·.2)).getLastD 0

/-- The last of the counts recorded for arm `i` of a location. -/
def lastArmAt (tab : List (Range × List Nat)) (r : Range) (i : Nat) : Nat :=
  ((tab.filter fun e => decide (e.1 = r)).map (·.2.getD i 0)).getLastD 0

namespace FileCoverage

/-- Statements of a report with their counts. -/
def statementTable (fc : FileCoverage) : List (Range × Nat) := located some fc.s fc.statementMap
/-- Functions of a report (identified by the range of their body) with their counts. -/
def functionTable (fc : FileCoverage) : List (Range × Nat) :=
  located (fun fn => some fn.loc) fc.f fc.fnMap
/-- The location by which a branch is identified across reports: that of its first arm. -/
def branchLoc (br : Branch) : Option Range := br.locations.head?
/-- Branches of a report with the counts of their arms. -/
def branchTable (fc : FileCoverage) : List (Range × List Nat) := located branchLoc fc.b fc.branchMap
/-- Branches of a report with their truthiness counts. -/
def truthTable (fc : FileCoverage) : List (Range × List Nat) :=
  located branchLoc (fc.bT.getD []) fc.branchMap

/-- The count of the last of the statements at `r`. -/
def lastStatementCount (fc : FileCoverage) (r : Range) : Nat := lastAt fc.statementTable r
/-- The count of the last of the functions at `r`. -/
def lastFunctionCount (fc : FileCoverage) (r : Range) : Nat := lastAt fc.functionTable r
/-- The count of arm `i` of the last of the branches at `r`. -/
def lastArmCount (fc : FileCoverage) (r : Range) (i : Nat) : Nat := lastArmAt fc.branchTable r i

/-- How often the report says the statement at `r` was executed. -/
def statementCount (fc : FileCoverage) (r : Range) : Nat := countAt fc.statementTable r
/-- How often the report says the function at `r` was entered. -/
def functionCount (fc : FileCoverage) (r : Range) : Nat := countAt fc.functionTable r
/-- How often the report says arm `i` of the branch at `r` was taken. -/
def armCount (fc : FileCoverage) (r : Range) (i : Nat) : Nat := armAt fc.branchTable r i
/-- How often the report says arm `i` of the branch at `r` was truthy. -/
def truthCount (fc : FileCoverage) (r : Range) (i : Nat) : Nat := armAt fc.truthTable r i

/-- A report whose count entries and items belong together. -/
structure WellFormed (fc : FileCoverage) : Prop where
  statements : ∀ k ∈ fc.s.keys, k ∈ fc.statementMap.keys
  functions : ∀ k ∈ fc.f.keys, k ∈ fc.fnMap.keys
  branches : ∀ k ∈ fc.b.keys, k ∈ fc.branchMap.keys
  arms : ∀ e ∈ fc.branchMap, e.2.locations ≠ []
  counted : ∀ k ∈ fc.branchMap.keys, k ∈ fc.b.keys
  truth : ∀ k ∈ (fc.bT.getD []).keys, k ∈ fc.branchMap.keys

/-- No two statements (functions, branches) of the report have the same location. -/
structure DistinctLocs (fc : FileCoverage) : Prop where
  statements : (fc.statementTable.map (·.1)).Nodup
  functions : (fc.functionTable.map (·.1)).Nodup
  branches : (fc.branchTable.map (·.1)).Nodup

/-- Ids are `0, 1, ..., n-1`, in this order, in the location table and in the count table. -/
structure Dense (fc : FileCoverage) : Prop where
  s : fc.s.keys = List.range fc.s.length
  statementMap : fc.statementMap.keys = List.range fc.s.length
  f : fc.f.keys = List.range fc.f.length
  fnMap : fc.fnMap.keys = List.range fc.f.length
  b : fc.b.keys = List.range fc.b.length
  branchMap : fc.branchMap.keys = List.range fc.b.length

end FileCoverage
end Verif

namespace Verif.FileCoverage

/-- A condition on the receiver of a merge under which its truthiness table can be looked up in the
merged (renumbered) branch table: it has none, or its branches are distinct and those with truthiness
counts have ids below the number of branches. (Reports of files in which the instrumenter dropped an
arm-less branch may violate it; see `C05_merge_panics`.) -/
def TruthMergeable (fc : FileCoverage) : Prop :=
  fc.bT = none ∨ ((∀ k ∈ IndexMap.keys (fc.bT.getD []), k < fc.b.length) ∧ (fc.branchTable.map (·.1)).Nodup)

/-- The branches with truthiness counts have ids below the number of branches. -/
def TruthInRange (fc : FileCoverage) : Prop := ∀ k ∈ IndexMap.keys (fc.bT.getD []), k < fc.b.length

/-- Apply a function to every count of a report. -/
def mapCounts (g : Nat → Nat) (fc : FileCoverage) : FileCoverage :=
  { fc with
    s := fc.s.map fun e => (e.1, g e.2)
    f := fc.f.map fun e => (e.1, g e.2)
    b := fc.b.map fun e => (e.1, e.2.map g)
    bT := fc.bT.map fun m => m.map fun e => (e.1, e.2.map g) }

/-- Every count of the report satisfies `p`. -/
def CountsSat (p : Nat → Prop) (fc : FileCoverage) : Prop :=
  (∀ e ∈ fc.s, p e.2) ∧ (∀ e ∈ fc.f, p e.2) ∧ (∀ e ∈ fc.b, ∀ x ∈ e.2, p x) ∧
    (∀ e ∈ fc.bT.getD [], ∀ x ∈ e.2, p x)

end Verif.FileCoverage
