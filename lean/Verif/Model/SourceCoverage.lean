import Verif.Model.Types
/-
packages/swc-coverage-instrument/src/source_coverage/mod.rs
-/
namespace Verif

/-- source_coverage/mod.rs:3-36 `SourceCoverage` with its `meta.last` counters. -/
structure SourceCoverage where
  inner : FileCoverage
  lastS : Nat
  lastF : Nat
  lastB : Nat
deriving DecidableEq, Repr

namespace SourceCoverage

/-- source_coverage/mod.rs:39-44 `SourceCoverage::new`. -/
def new (path : String) (reportLogic : Bool) : SourceCoverage :=
  ⟨FileCoverage.empty path reportLogic, 0, 0, 0⟩

/-- source_coverage/mod.rs:52-58 `new_statement`. -/
def newStatement (c : SourceCoverage) (loc : Range) : SourceCoverage × Nat :=
  let s := c.lastS
  ({ c with
      inner := { c.inner with
        statementMap := c.inner.statementMap.insert s loc
        s := c.inner.s.insert s 0 }
      lastS := s + 1 }, s)

/-- source_coverage/mod.rs:60-82 `new_function`. -/
def newFunction (c : SourceCoverage) (name : Option String) (decl loc : Range) :
    SourceCoverage × Nat :=
  let f := c.lastF
  let name := match name with
    | some n => n
    | none => "(anonymous_" ++ toString f ++ ")"
  ({ c with
      inner := { c.inner with
        fnMap := c.inner.fnMap.insert f ⟨name, decl, loc, loc.start.line⟩
        f := c.inner.f.insert f 0 }
      lastF := f + 1 }, f)

/-- source_coverage/mod.rs:108-129 `maybe_new_branch_true`. -/
def maybeNewBranchTrue (c : SourceCoverage) (t : BranchType) (name : Nat) (reportLogic : Bool) :
    SourceCoverage :=
  if reportLogic = false then c
  else match t with
    | .binaryExpr =>
      let m : BranchHitMap := match c.inner.bT with
        | none => []
        | some m => m
      { c with inner := { c.inner with bT := some (IndexMap.insert m name []) } }
    | _ => c

/-- source_coverage/mod.rs:84-106 `new_branch`. -/
def newBranch (c : SourceCoverage) (t : BranchType) (loc : Range) (reportLogic : Bool) :
    SourceCoverage × Nat :=
  let b := c.lastB
  let c := { c with
      inner := { c.inner with
        b := c.inner.b.insert b []
        branchMap := c.inner.branchMap.insert b ⟨some loc, t, [], some loc.start.line⟩ }
      lastB := b + 1 }
  (maybeNewBranchTrue c t b reportLogic, b)

/-- source_coverage/mod.rs:157-164 `maybe_add_branch_true`. -/
def maybeAddBranchTrue (c : SourceCoverage) (name : Nat) : SourceCoverage :=
  match c.inner.bT with
  | none => c
  | some m =>
    match m.get name with
    | none => c
    | some counts =>
      { c with inner := { c.inner with bT := some (IndexMap.modify m name fun _ => counts ++ [0]) } }

/-- source_coverage/mod.rs:131-155 `add_branch_path`. Both `expect`s are the error case. -/
def addBranchPath (c : SourceCoverage) (name : Nat) (loc : Range) :
    Except Panic (SourceCoverage × Nat) :=
  match c.inner.branchMap.get name with
  | none => .error .invalidBranch
  | some _ =>
    match c.inner.b.get name with
    | none => .error .invalidBranch
    | some counts =>
      let c := { c with
        inner := { c.inner with
          branchMap := IndexMap.modify c.inner.branchMap name fun br =>
            { br with locations := br.locations ++ [loc] }
          b := IndexMap.modify c.inner.b name fun _ => counts ++ [0] } }
      let c := maybeAddBranchTrue c name
      match c.inner.b.get name with
      | none => .error .invalidBranch
      | some counts => .ok (c, counts.length - 1)

/-- source_coverage/mod.rs:166-168 `set_input_source_map`. -/
def setInputSourceMap (c : SourceCoverage) (m : Option SourceMap) : SourceCoverage :=
  { c with inner := { c.inner with inputSourceMap := m } }

/-- source_coverage/mod.rs:176-186: the closure given to `retain`, run over the entries of the
branch map in order; it removes arm-less branches from `b` and `b_t` as a side effect. -/
def freezeLoop : List (Nat × Branch) → BranchHitMap → Option BranchHitMap →
    BranchMap × BranchHitMap × Option BranchHitMap
  | [], b, bT => ([], b, bT)
  | (k, br) :: rest, b, bT =>
    if br.locations.length = 0 then
      freezeLoop rest (b.swapRemove k) (bT.map fun m => m.swapRemove k)
    else
      let (m, b, bT) := freezeLoop rest b bT
      ((k, br) :: m, b, bT)

/-- source_coverage/mod.rs:170-187 `freeze`. -/
def freeze (c : SourceCoverage) : SourceCoverage :=
  let (m, b, bT) := freezeLoop c.inner.branchMap c.inner.b c.inner.bT
  { c with inner := { c.inner with branchMap := m, b := b, bT := bT } }

end SourceCoverage
end Verif
