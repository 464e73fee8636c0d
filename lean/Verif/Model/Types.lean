import Verif.Model.IndexMap
/-
Plain data types of packages/istanbul-oxide/src.
-/
namespace Verif

/-- Ways in which the modelled Rust code can panic. -/
inductive Panic where
  /-- `.expect("Corresponding map value should exist")`, file_coverage.rs:31,40,83,92 -/
  | missingItem
  /-- `branch.locations[0]` on an empty vector, file_coverage.rs:296,310 -/
  | emptyLocations
  /-- `.expect("statement not found")`, file_coverage.rs:184 -/
  | statementNotFound
  /-- `.expect("Either line or loc should exist")`, file_coverage.rs:230 -/
  | noLineOrLoc
  /-- `.expect("branch data not found")`, file_coverage.rs:233 -/
  | branchDataNotFound
  /-- `.expect("Invalid branch {}")` / `.expect("Counts should be available")`,
  source_coverage/mod.rs:131-155 -/
  | invalidBranch
  /-- `unimplemented!("Unable to process function body node type")`,
  instrumentation_counter_helper.rs:205 -/
  | noFunctionBody
  /-- `self.nodes.last().unwrap()`, instrumentation_counter_helper.rs:274 -/
  | emptyNodeStack
  /-- `tracing_subscriber` `init()` when a global subscriber is set, swc-plugin-coverage/src/lib.rs:49-52 -/
  | subscriberSet
  /-- Not a panic of the code: the model's recursion budget was too small. -/
  | outOfFuel
deriving DecidableEq, Repr

/-- range.rs:3-8 `Location`. `u32` is `Nat`. -/
structure Location where
  line : Nat
  column : Nat
deriving DecidableEq, Repr

/-- range.rs:14-18 `Range`. -/
structure Range where
  start : Location
  «end» : Location
deriving DecidableEq, Repr

/-- range.rs:21-26 `Range::default`. -/
def Range.zero : Range := ⟨⟨0, 0⟩, ⟨0, 0⟩⟩

/-- range.rs:27-38 `Range::new`. -/
def Range.mk4 (sl sc el ec : Nat) : Range := ⟨⟨sl, sc⟩, ⟨el, ec⟩⟩

/-- types.rs:6-12 `Function`. -/
structure Function where
  name : String
  decl : Range
  loc : Range
  line : Nat
deriving DecidableEq, Repr

/-- types.rs:14-22 `BranchType`. -/
inductive BranchType where
  | binaryExpr | defaultArg | «if» | switch | condExpr
deriving DecidableEq, Repr

/-- types.rs:24-34 `BranchType::to_string`. -/
def BranchType.toStr : BranchType → String
  | .binaryExpr => "binary-expr"
  | .defaultArg => "default-arg"
  | .if => "if"
  | .switch => "switch"
  | .condExpr => "cond-expr"

/-- types.rs:36-43 `Branch`. -/
structure Branch where
  loc : Option Range
  branchType : BranchType
  locations : List Range
  line : Option Nat
deriving DecidableEq, Repr

/-- types.rs:46-53 `Branch::from_line`. -/
def Branch.fromLine (t : BranchType) (line : Nat) (locations : List Range) : Branch :=
  ⟨none, t, locations, some line⟩

/-- types.rs:54-61 `Branch::from_loc`. -/
def Branch.fromLoc (t : BranchType) (loc : Range) (locations : List Range) : Branch :=
  ⟨some loc, t, locations, none⟩

/-- source_map.rs:5-16 `SourceMap`. -/
structure SourceMap where
  version : Nat
  file : Option String
  sourceRoot : Option String
  sources : List String
  sourcesContent : Option (List (Option String))
  names : List String
  mappings : String
deriving DecidableEq, Repr

/-- source_map.rs:18-30 `SourceMap::default`. -/
def SourceMap.default : SourceMap := ⟨3, none, none, [], none, [], ""⟩

/-- types.rs:65-70: the map aliases. -/
abbrev LineHitMap := IndexMap Nat Nat
abbrev StatementMap := IndexMap Nat Range
abbrev FunctionMap := IndexMap Nat Function
abbrev BranchMap := IndexMap Nat Branch
abbrev BranchHitMap := IndexMap Nat (List Nat)

/-- file_coverage.rs:127-143 `FileCoverage`. -/
structure FileCoverage where
  all : Bool
  path : String
  statementMap : StatementMap
  fnMap : FunctionMap
  branchMap : BranchMap
  s : LineHitMap
  f : LineHitMap
  b : BranchHitMap
  bT : Option BranchHitMap
  inputSourceMap : Option SourceMap
deriving DecidableEq, Repr

/-- file_coverage.rs:146-163 `FileCoverage::empty` (and `from_file_path`, 165-167). -/
def FileCoverage.empty (path : String) (reportLogic : Bool) : FileCoverage where
  all := false
  path := path
  statementMap := []
  fnMap := []
  branchMap := []
  s := []
  f := []
  b := []
  bT := if reportLogic then some [] else none
  inputSourceMap := none

end Verif
