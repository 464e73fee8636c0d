import Verif.Model.Types
/-
packages/istanbul-oxide/src/file_coverage.rs
-/
namespace Verif

/-- file_coverage.rs:12-17 `key_from_loc`. -/
def keyFromLoc (r : Range) : String :=
  toString r.start.line ++ "|" ++ toString r.start.column ++ "|" ++
    toString r.end.line ++ "|" ++ toString r.end.column

/-- file_coverage.rs:296,310: the key function for branches, `key_from_loc(&branch.locations[0])`.
Indexing an empty vector panics. -/
def branchKey (br : Branch) : Except Panic String :=
  match br.locations with
  | [] => .error .emptyLocations
  | l :: _ => .ok (keyFromLoc l)

section merge
variable {H T : Type}

/-- file_coverage.rs:28-35 and 80-87: the loop over `first_hits`.
`items.insert` overwrites an earlier entry with the same key. -/
def mergeFirst (key : T → Except Panic String) (map : IndexMap Nat T) :
    List (Nat × H) → IndexMap String (H × T) → Except Panic (IndexMap String (H × T))
  | [], items => .ok items
  | (k, h) :: rest, items =>
    match map.get k with
    | none => .error .missingItem
    | some item =>
      match key item with
      | .error e => .error e
      | .ok ik => mergeFirst key map rest (items.insert ik (h, item))

/-- file_coverage.rs:37-55 and 89-101: the loop over `second_hits`.
`entry().and_modify().or_insert()`; `comb` is the body of `and_modify`. -/
def mergeSecond (key : T → Except Panic String) (comb : H → H → H) (map : IndexMap Nat T) :
    List (Nat × H) → IndexMap String (H × T) → Except Panic (IndexMap String (H × T))
  | [], items => .ok items
  | (k, h) :: rest, items =>
    match map.get k with
    | none => .error .missingItem
    | some item =>
      match key item with
      | .error e => .error e
      | .ok ik =>
        mergeSecond key comb map rest (items.upsert ik (fun p => (comb p.1 h, p.2)) (h, item))

/-- file_coverage.rs:57-63 and 103-109: `values().enumerate()` inserted under the fresh keys
`i, i+1, ...` (inserting a fresh key appends). -/
def reindexFrom {A : Type} (i : Nat) : List A → IndexMap Nat A
  | [] => []
  | a :: as => (i, a) :: reindexFrom (i + 1) as

/-- file_coverage.rs:68-112 `merge_properties` and 19-66 `merge_properties_hits_vec`: the two
functions are textually the same up to the type of hits and the combining step `comb`. -/
def mergePropsWith (key : T → Except Panic String) (comb : H → H → H)
    (firstHits : IndexMap Nat H) (firstMap : IndexMap Nat T)
    (secondHits : IndexMap Nat H) (secondMap : IndexMap Nat T) :
    Except Panic (IndexMap Nat H × IndexMap Nat T) :=
  match mergeFirst key firstMap firstHits [] with
  | .error e => .error e
  | .ok items₁ =>
    match mergeSecond key comb secondMap secondHits items₁ with
    | .error e => .error e
    | .ok items =>
      .ok (reindexFrom 0 (items.values.map (·.1)), reindexFrom 0 (items.values.map (·.2)))

end merge

/-- file_coverage.rs:50-52: `pair.0[h] += hits` for `h` in the range of the second vector.
(`addInto [] (_ :: _)` would be an index panic; it cannot happen after the resize,
see `vecAdd_length`.) -/
def addInto (add : Nat → Nat → Nat) : List Nat → List Nat → List Nat
  | a :: as, b :: bs => add a b :: addInto add as bs
  | as, [] => as
  | [], _ :: _ => []

/-- file_coverage.rs:45-53: resize with zeros, then add pointwise. -/
def vecAdd (add : Nat → Nat → Nat) (a b : List Nat) : List Nat :=
  addInto add (if a.length < b.length then a ++ List.replicate (b.length - a.length) 0 else a) b

/-- Addition of `u32` in a release build (wrap-around). -/
def addWrap32 (a b : Nat) : Nat := (a + b) % 2 ^ 32

namespace FileCoverage

/-- file_coverage.rs:259-316 `FileCoverage::merge`, parametrised by the addition on hit counts
(`Nat.add` is exact arithmetic, `addWrap32` the release build). -/
def mergeWith (add : Nat → Nat → Nat) (self coverage : FileCoverage) :
    Except Panic FileCoverage :=
  -- 260-262
  if coverage.all then .ok self
  -- 264-267
  else if self.all then .ok coverage
  else
    -- 269-278
    match mergePropsWith (fun r => .ok (keyFromLoc r)) add self.s self.statementMap
        coverage.s coverage.statementMap with
    | .error e => .error e
    | .ok (s, statementMap) =>
      -- 280-289
      match mergePropsWith (fun fn => .ok (keyFromLoc fn.loc)) add self.f self.fnMap
          coverage.f coverage.fnMap with
      | .error e => .error e
      | .ok (f, fnMap) =>
        -- 291-299
        match mergePropsWith branchKey (vecAdd add) self.b self.branchMap
            coverage.b coverage.branchMap with
        | .error e => .error e
        | .ok (b, branchMap) =>
          -- 303-315: `&self.branch_map` is the already merged and renumbered map here
          match self.bT, coverage.bT with
          | some bt, some cbt =>
            match mergePropsWith branchKey (vecAdd add) bt branchMap cbt coverage.branchMap with
            | .error e => .error e
            | .ok (bt', _) =>
              .ok { self with s, statementMap, f, fnMap, b, branchMap, bT := some bt' }
          | _, _ => .ok { self with s, statementMap, f, fnMap, b, branchMap }

/-- `merge` with exact addition. -/
def merge (self coverage : FileCoverage) : Except Panic FileCoverage :=
  mergeWith (· + ·) self coverage

/-- file_coverage.rs:181-200: one iteration of the loop of `get_line_coverage`. -/
def lineStep (lineMap : LineHitMap) (line count : Nat) : LineHitMap :=
  match lineMap.get line with
  | some pre => if pre < count then lineMap.insert line count else lineMap
  | none => lineMap.insert line count

/-- file_coverage.rs:181-200: the loop of `get_line_coverage`. -/
def lineLoop (statementMap : StatementMap) : List (Nat × Nat) → LineHitMap → Except Panic LineHitMap
  | [], lm => .ok lm
  | (st, count) :: rest, lm =>
    match statementMap.get st with
    | none => .error .statementNotFound
    | some r => lineLoop statementMap rest (lineStep lm r.start.line count)

/-- file_coverage.rs:175-203 `get_line_coverage`. -/
def getLineCoverage (fc : FileCoverage) : Except Panic LineHitMap :=
  lineLoop fc.statementMap fc.s []

/-- file_coverage.rs:206-217 `get_uncovered_lines`. -/
def getUncoveredLines (fc : FileCoverage) : Except Panic (List Nat) :=
  match fc.getLineCoverage with
  | .error e => .error e
  | .ok lc => .ok ((lc.filter (fun e => e.2 == 0)).map (·.1))

/-- file_coverage.rs:227-231: the line of a branch. -/
def branchLine (br : Branch) : Except Panic Nat :=
  match br.line with
  | some l => .ok l
  | none =>
    match br.loc with
    | some r => .ok r.start.line
    | none => .error .noLineOrLoc

/-- file_coverage.rs:226-240: the first loop of `get_branch_coverage_by_line`. -/
def branchLineLoop (b : BranchHitMap) :
    List (Nat × Branch) → IndexMap Nat (List Nat) → Except Panic (IndexMap Nat (List Nat))
  | [], acc => .ok acc
  | (k, br) :: rest, acc =>
    match branchLine br with
    | .error e => .error e
    | .ok line =>
      match b.get k with
      | none => .error .branchDataNotFound
      | some data =>
        match acc.get line with
        | some old => branchLineLoop b rest (acc.insert line (old ++ data))
        | none => branchLineLoop b rest (acc.insert line data)

/-- Number of non-zero entries: `iter().filter(|x| *x > 0).count()`
(file_coverage.rs:243, 320, 333). -/
def countPos (l : List Nat) : Nat := (l.filter (fun x => decide (0 < x))).length

/-- file_coverage.rs:219-253 `get_branch_coverage_by_line`, as `line ↦ (covered, total)`.
The quotient (an `f32`) is added by `branchCoverageByLine` in `Model/Coverage.lean`. -/
def getBranchCoverageByLine (fc : FileCoverage) : Except Panic (IndexMap Nat (Nat × Nat)) :=
  match branchLineLoop fc.b fc.branchMap [] with
  | .error e => .error e
  | .ok data => .ok (data.map fun e => (e.1, (countPos e.2, e.2.length)))

/-- file_coverage.rs:341-359 `reset_hits`. -/
def resetHits (fc : FileCoverage) : FileCoverage :=
  { fc with
    s := fc.s.map fun e => (e.1, 0)
    f := fc.f.map fun e => (e.1, 0)
    b := fc.b.map fun e => (e.1, e.2.map fun _ => 0)
    bT := fc.bT.map fun m => m.map fun e => (e.1, e.2.map fun _ => 0) }

end FileCoverage
end Verif
