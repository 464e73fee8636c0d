import Verif.Spec.Grammar
import Verif.Model.Plugin
import Mathlib.Data.List.Forall2
/-
Which JSON values stand for coverage data and for options: a struct is an object with a member for each field, in any
order, once each; members with other names do not matter. Written as relations between the value and the data.
-/
namespace Verif.Layout

/-- There is no member `k`. -/
def Absent (fs : List (String × Data)) (k : String) : Prop := ∀ e ∈ fs, e.1 ≠ k

/-- The member `k` is there once, with the value `d`. -/
def Once (fs : List (String × Data)) (k : String) (d : Data) : Prop :=
  ∃ a b, fs = a ++ (k, d) :: b ∧ Absent a k ∧ Absent b k

/-- A field that has to be there. -/
def Field {V : Type} (P : Data → V → Prop) (fs : List (String × Data)) (k : String) (v : V) : Prop :=
  ∃ d, Once fs k d ∧ P d v

/-- A field that may be left out. -/
def FieldOr {V : Type} (dflt : V) (P : Data → V → Prop) (fs : List (String × Data)) (k : String) (v : V) : Prop :=
  Field P fs k v ∨ (Absent fs k ∧ v = dflt)

/-- A number of 32 bits. -/
def IsU32 (d : Data) (n : Nat) : Prop := d = .num n ∧ n ≤ 4294967295

/-- A string. -/
def IsStr (d : Data) (s : String) : Prop := d = .str s

/-- A truth value. -/
def IsBool (d : Data) (b : Bool) : Prop := d = .bool b

/-- Nothing is `null`. -/
def IsOpt {V : Type} (P : Data → V → Prop) (d : Data) : Option V → Prop
  | none => d = .null
  | some v => d ≠ .null ∧ P d v

/-- A list is an array. -/
def IsList {V : Type} (P : Data → V → Prop) (d : Data) (l : List V) : Prop := ∃ ds, d = .arr ds ∧ List.Forall₂ P ds l

/-- A key of a table is a number in quotes. -/
def IsKey (s : String) (n : Nat) : Prop := Json.Whole s.toList ∧ Json.decimal s.toList = n ∧ n ≤ 4294967295

/-- A table is an object. Of members with the same key the last one counts, in the place of the first one. -/
def IsTable {V : Type} (P : Data → V → Prop) (d : Data) (m : List (Nat × V)) : Prop :=
  ∃ fs es, d = .obj fs ∧ List.Forall₂ (fun e x => IsKey e.1 x.1 ∧ P e.2 x.2) fs es ∧
    m.map Prod.fst = (es.map Prod.fst).eraseDups ∧ ∀ x ∈ m, (es.filter fun y => y.1 = x.1).getLast? = some x

/-- range.rs:3-12. -/
def IsLocation (d : Data) (l : Location) : Prop :=
  ∃ fs, d = .obj fs ∧ Field IsU32 fs "line" l.line ∧ Field IsU32 fs "column" l.column

/-- range.rs:14-18. -/
def IsRange (d : Data) (r : Range) : Prop :=
  ∃ fs, d = .obj fs ∧ Field IsLocation fs "start" r.start ∧ Field IsLocation fs "end" r.end

/-- types.rs:6-12. -/
def IsFunction (d : Data) (f : Function) : Prop :=
  ∃ fs, d = .obj fs ∧ Field IsStr fs "name" f.name ∧ Field IsRange fs "decl" f.decl ∧ Field IsRange fs "loc" f.loc ∧
    Field IsU32 fs "line" f.line

/-- The names of the branch types in istanbul reports. -/
def branchNames : List (String × BranchType) :=
  [("if", .if), ("switch", .switch), ("cond-expr", .condExpr), ("binary-expr", .binaryExpr), ("default-arg", .defaultArg)]

/-- types.rs:14-22. -/
def IsBranchType (d : Data) (t : BranchType) : Prop := ∃ s, d = .str s ∧ (s, t) ∈ branchNames

/-- types.rs:36-44. -/
def IsBranch (d : Data) (b : Branch) : Prop :=
  ∃ fs, d = .obj fs ∧ FieldOr none (IsOpt IsRange) fs "loc" b.loc ∧ Field IsBranchType fs "type" b.branchType ∧
    Field (IsList IsRange) fs "locations" b.locations ∧ FieldOr none (IsOpt IsU32) fs "line" b.line

/-- source_map.rs:3-30. -/
def IsSourceMap (d : Data) (m : SourceMap) : Prop :=
  ∃ fs, d = .obj fs ∧ FieldOr 3 IsU32 fs "version" m.version ∧ FieldOr none (IsOpt IsStr) fs "file" m.file ∧
    FieldOr none (IsOpt IsStr) fs "sourceRoot" m.sourceRoot ∧ FieldOr [] (IsList IsStr) fs "sources" m.sources ∧
    FieldOr none (IsOpt (IsList (IsOpt IsStr))) fs "sourcesContent" m.sourcesContent ∧
    FieldOr [] (IsList IsStr) fs "names" m.names ∧ FieldOr "" IsStr fs "mappings" m.mappings

/-- file_coverage.rs:127-143. -/
def IsCoverage (d : Data) (c : FileCoverage) : Prop :=
  ∃ fs, d = .obj fs ∧ FieldOr false IsBool fs "all" c.all ∧ Field IsStr fs "path" c.path ∧
    Field (IsTable IsRange) fs "statementMap" c.statementMap ∧ Field (IsTable IsFunction) fs "fnMap" c.fnMap ∧
    Field (IsTable IsBranch) fs "branchMap" c.branchMap ∧ Field (IsTable IsU32) fs "s" c.s ∧ Field (IsTable IsU32) fs "f" c.f ∧
    Field (IsTable (IsList IsU32)) fs "b" c.b ∧ FieldOr none (IsOpt (IsTable (IsList IsU32))) fs "bT" c.bT ∧
    FieldOr none (IsOpt IsSourceMap) fs "inputSourceMap" c.inputSourceMap

/-- instrument_options.rs:4-18. -/
def IsLog (d : Data) (o : Plugin.LogOptions) : Prop :=
  ∃ fs, d = .obj fs ∧ FieldOr none (IsOpt IsStr) fs "level" o.level ∧ FieldOr false IsBool fs "enableTrace" o.enableTrace

/-- instrument_options.rs:20-49. -/
def IsOptions (d : Data) (o : Plugin.Options) : Prop :=
  ∃ fs, d = .obj fs ∧ FieldOr "__coverage__" IsStr fs "coverageVariable" o.coverageVariable ∧
    FieldOr false IsBool fs "compact" o.compact ∧ FieldOr false IsBool fs "reportLogic" o.reportLogic ∧
    FieldOr [] (IsList IsStr) fs "ignoreClassMethods" o.ignoreClassMethods ∧
    FieldOr none (IsOpt IsSourceMap) fs "inputSourceMap" o.inputSourceMap ∧
    FieldOr ⟨none, false⟩ IsLog fs "instrumentLog" o.instrumentLog ∧
    FieldOr false IsBool fs "debugInitialCoverageComment" o.debugInitialCoverageComment ∧
    FieldOr none (IsOpt (IsList IsStr)) fs "unstableExclude" o.unstableExclude

end Verif.Layout
