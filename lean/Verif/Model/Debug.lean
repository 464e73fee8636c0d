import Verif.Model.Summary
/-
Merging in a debug build of packages/istanbul-oxide, where `+=` on `u32` panics if the sum has more than 32 bits. The model of
`merge` in Model/FileCoverage.lean has the addition as a parameter, which cannot stop; here are the same functions once more,
with an addition that can.
-/
namespace Verif
namespace Debug

/-- Ways in which merging stops in a debug build. -/
inductive Failure where
  /-- a panic that release builds have as well -/
  | panic (p : Panic)
  /-- "attempt to add with overflow" -/
  | overflow
deriving DecidableEq, Repr

/-- `a += b` on `u32`. -/
def add (a b : Nat) : Except Failure Nat := if a + b < 2 ^ 32 then .ok (a + b) else .error .overflow

/-- file_coverage.rs:50-52: `pair.0[h] += hits` for `h` in the range of the second vector. (The last case does not occur, as
with `addInto`.) -/
def addInto : List Nat → List Nat → Except Failure (List Nat)
  | a :: as, b :: bs =>
    match add a b with
    | .error e => .error e
    | .ok c =>
      match addInto as bs with
      | .error e => .error e
      | .ok cs => .ok (c :: cs)
  | as, [] => .ok as
  | [], _ :: _ => .ok []

/-- file_coverage.rs:45-53. -/
def vecAdd (a b : List Nat) : Except Failure (List Nat) :=
  addInto (if a.length < b.length then a ++ List.replicate (b.length - a.length) 0 else a) b

section
variable {H T : Type}

/-- `entry(k).and_modify(|pair| pair.0 += h).or_insert((h, t))`. -/
def upsert (comb : H → H → Except Failure H) : IndexMap String (H × T) → String → H → T →
    Except Failure (IndexMap String (H × T))
  | [], k, h, t => .ok [(k, (h, t))]
  | (k', (h', t')) :: m, k, h, t =>
    if k' = k then
      match comb h' h with
      | .error e => .error e
      | .ok c => .ok ((k', (c, t')) :: m)
    else
      match upsert comb m k h t with
      | .error e => .error e
      | .ok m' => .ok ((k', (h', t')) :: m')

/-- file_coverage.rs:37-55 and 89-101: the loop over `second_hits`. -/
def mergeSecond (key : T → Except Panic String) (comb : H → H → Except Failure H) (map : IndexMap Nat T) :
    List (Nat × H) → IndexMap String (H × T) → Except Failure (IndexMap String (H × T))
  | [], items => .ok items
  | (k, h) :: rest, items =>
    match map.get k with
    | none => .error (.panic .missingItem)
    | some item =>
      match key item with
      | .error e => .error (.panic e)
      | .ok ik =>
        match upsert comb items ik h item with
        | .error e => .error e
        | .ok items' => mergeSecond key comb map rest items'

/-- file_coverage.rs:68-112 `merge_properties` and 19-66 `merge_properties_hits_vec`. -/
def mergeProps (key : T → Except Panic String) (comb : H → H → Except Failure H) (firstHits : IndexMap Nat H)
    (firstMap : IndexMap Nat T) (secondHits : IndexMap Nat H) (secondMap : IndexMap Nat T) :
    Except Failure (IndexMap Nat H × IndexMap Nat T) :=
  match mergeFirst key firstMap firstHits [] with
  | .error e => .error (.panic e)
  | .ok items₁ =>
    match mergeSecond key comb secondMap secondHits items₁ with
    | .error e => .error e
    | .ok items => .ok (reindexFrom 0 (items.values.map (·.1)), reindexFrom 0 (items.values.map (·.2)))

end

/-- file_coverage.rs:259-316 `FileCoverage::merge`. -/
def merge (self coverage : FileCoverage) : Except Failure FileCoverage :=
  if coverage.all then .ok self
  else if self.all then .ok coverage
  else
    match mergeProps (fun r => .ok (keyFromLoc r)) add self.s self.statementMap coverage.s coverage.statementMap with
    | .error e => .error e
    | .ok (s, statementMap) =>
      match mergeProps (fun fn => .ok (keyFromLoc fn.loc)) add self.f self.fnMap coverage.f coverage.fnMap with
      | .error e => .error e
      | .ok (f, fnMap) =>
        match mergeProps branchKey vecAdd self.b self.branchMap coverage.b coverage.branchMap with
        | .error e => .error e
        | .ok (b, branchMap) =>
          match self.bT, coverage.bT with
          | some bt, some cbt =>
            match mergeProps branchKey vecAdd bt branchMap cbt coverage.branchMap with
            | .error e => .error e
            | .ok (bt', _) => .ok { self with s, statementMap, f, fnMap, b, branchMap, bT := some bt' }
          | _, _ => .ok { self with s, statementMap, f, fnMap, b, branchMap }

/-- coverage_map.rs:69-75 `add_coverage_for_file`. -/
def addCoverageForFile (m : CoverageMap) (c : FileCoverage) : Except Failure CoverageMap :=
  match m.get c.path with
  | some v =>
    match merge v c with
    | .error e => .error e
    | .ok v' => .ok (IndexMap.modify m c.path (fun _ => v'))
  | none => .ok (m.insert c.path c)

/-- The loop shared by `from_iter` (coverage_map.rs:24-34) and `merge` (37-41). -/
def addAll (m : CoverageMap) : List FileCoverage → Except Failure CoverageMap
  | [] => .ok m
  | c :: cs =>
    match addCoverageForFile m c with
    | .error e => .error e
    | .ok m' => addAll m' cs

/-- coverage_map.rs:24-34 `from_iter`. -/
def fromIter (cs : List FileCoverage) : Except Failure CoverageMap := addAll [] cs

end Debug
end Verif
