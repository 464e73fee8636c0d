import Verif.Model.Emit
import Verif.Model.Program
/-
The plugin: packages/swc-plugin-coverage/src/lib.rs, packages/swc-coverage-instrument/src/options/instrument_options.rs,
coverage_template/create_coverage_fn_decl.rs:22-45.

External code is a parameter (`Externals`). What is printed and logged is left out; of the debug comment its text is
modelled, not where the printer of swc puts it.
-/
namespace Verif
namespace Plugin

/-- instrument_options.rs:4-18 `InstrumentLogOptions`. -/
structure LogOptions where
  level : Option String
  enableTrace : Bool
deriving DecidableEq, Repr

/-- instrument_options.rs:20-34 `InstrumentOptions`. -/
structure Options where
  coverageVariable : String
  compact : Bool
  reportLogic : Bool
  ignoreClassMethods : List String
  inputSourceMap : Option SourceMap
  instrumentLog : LogOptions
  debugInitialCoverageComment : Bool
  unstableExclude : Option (List String)
deriving DecidableEq, Repr

/-- instrument_options.rs:11-18. -/
def LogOptions.default : LogOptions := ⟨none, false⟩

/-- instrument_options.rs:36-49. -/
def Options.default : Options where
  coverageVariable := "__coverage__"
  compact := false
  reportLogic := false
  ignoreClassMethods := []
  inputSourceMap := none
  instrumentLog := .default
  debugInitialCoverageComment := false
  unstableExclude := none

open Serde in
/-- instrument_options.rs:4-9, derived `Deserialize`. -/
def LogOptions.read (d : Data) : Option LogOptions := do
  let fs ← struct ["level", "enableTrace"] d
  let level ← optional string fs "level"
  let enableTrace ← withDefault false bool fs "enableTrace"
  pure ⟨level, enableTrace⟩

open Serde in
/-- instrument_options.rs:20-34, derived `Deserialize`. -/
def Options.read (d : Data) : Option Options := do
  let fs ← struct ["coverageVariable", "compact", "reportLogic", "ignoreClassMethods", "inputSourceMap",
    "instrumentLog", "debugInitialCoverageComment", "unstableExclude"] d
  let coverageVariable ← withDefault "__coverage__" string fs "coverageVariable"
  let compact ← withDefault false bool fs "compact"
  let reportLogic ← withDefault false bool fs "reportLogic"
  let ignoreClassMethods ← withDefault [] (vec string) fs "ignoreClassMethods"
  let inputSourceMap ← optional sourceMap fs "inputSourceMap"
  let instrumentLog ← withDefault .default LogOptions.read fs "instrumentLog"
  let debugInitialCoverageComment ← withDefault false bool fs "debugInitialCoverageComment"
  let unstableExclude ← optional (vec string) fs "unstableExclude"
  pure ⟨coverageVariable, compact, reportLogic, ignoreClassMethods, inputSourceMap, instrumentLog,
    debugInitialCoverageComment, unstableExclude⟩

open Serde in
/-- instrument_options.rs:4-9, derived `Serialize`. -/
def LogOptions.tree (o : LogOptions) : Data :=
  .obj [("level", optTree .str o.level), ("enableTrace", .bool o.enableTrace)]

open Serde in
/-- instrument_options.rs:20-34, derived `Serialize`. -/
def Options.tree (o : Options) : Data :=
  .obj [("coverageVariable", .str o.coverageVariable), ("compact", .bool o.compact),
    ("reportLogic", .bool o.reportLogic), ("ignoreClassMethods", vecTree .str o.ignoreClassMethods),
    ("inputSourceMap", optTree sourceMapTree o.inputSourceMap), ("instrumentLog", o.instrumentLog.tree),
    ("debugInitialCoverageComment", .bool o.debugInitialCoverageComment),
    ("unstableExclude", optTree (vecTree .str) o.unstableExclude)]

/-- `serde_json::from_str::<InstrumentOptions>(text)`. -/
def Options.parse (text : String) : Option Options := (Json.parse text).bind Options.read

/-- lib.rs:67-76: the options of a run. -/
def options (config : Option String) : Options :=
  match config with
  | none => .default
  | some text => (Options.parse text).getD .default

/-- Code of other crates. -/
structure Externals where
  cc : CharClasses
  /-- `typed_path`: a path recognised as a Windows path, with Unix separators -/
  toUnix : String → Option String
  /-- `wax::any(patterns)` and `is_match` -/
  globAny : List String → Option (String → Bool)

/-- lib.rs:17-28 `normalize_path`. -/
def normalizePath (x : Externals) (path : String) : String :=
  match x.toUnix path with
  | some p => p
  | none => if path.toList.contains '\\' then String.ofList (path.toList.map fun c => if c = '\\' then '/' else c)
    else path

/-- The state of a process (of an instance of the plugin): create_coverage_fn_decl.rs:22-24 `COVERAGE_FN_IDENT`,
`COVERAGE_FN_TRUE_TEMP_IDENT`; whether `tracing` has a global subscriber. -/
structure Process where
  covFn : Option String
  tempFn : Option String
  logging : Bool
deriving DecidableEq, Repr

/-- A new process. -/
def Process.fresh : Process := ⟨none, none, false⟩

/-- lib.rs:31-38: the levels. -/
def isLevel (s : String) : Bool := ["error", "debug", "info", "warn", "trace"].contains s

/-- lib.rs:30-54 `initialize_instrumentation_log`. -/
def initLog (o : LogOptions) (p : Process) : Except Panic Process :=
  match o.level with
  | none => .ok p
  | some l =>
    if isLevel l then
      if p.logging then .error .subscriberSet else .ok { p with logging := true }
    else .ok p

/-- create_coverage_fn_decl.rs:32-34: the name computed for a file. -/
def fnName (file : String) : String := "cov_" ++ toString (SipHash.hash file)

/-- `OnceCell::get_or_init`. -/
def getOrInit (cell : Option String) (v : String) : Option String :=
  match cell with
  | some u => some u
  | none => some v

/-- create_coverage_fn_decl.rs:31-45 `create_coverage_fn_ident`. -/
def createFnIdent (file : String) (p : Process) : Process :=
  { p with
    covFn := getOrInit p.covFn (fnName file)
    tempFn := getOrInit p.tempFn (fnName file ++ "_temp") }

/-- What the plugin is given with a program: `TransformPluginProgramMetadata`. -/
structure Metadata where
  filename : Option String
  config : Option String
  comments : Comments
  pos : BytePos → Location

/-- lib.rs:59-64: the name of the file. -/
def Metadata.file (m : Metadata) : String := m.filename.getD "unknown.js"

/-- lib.rs:81-101: whether the file is excluded. -/
def excluded (x : Externals) (exclude : Option (List String)) (file : String) : Bool :=
  match exclude with
  | none => false
  | some patterns =>
    match x.globAny (patterns.map (normalizePath x)) with
    | none => false
    | some matches_ => matches_ (normalizePath x file)

/-- What the injected nodes of a program stand for: the coverage function of the visitor
(create_instrumentation_visitor.rs:43-44) and the name of its temporary; the text of the debug comment
(create_coverage_fn_decl.rs:158-174). -/
structure Injected where
  input : Template.Input
  tempFn : String
  comment : Option String

/-- The result of the plugin. Without a visitor there is nothing injected. -/
structure Output where
  program : Node
  injected : Option Injected

/-- lib.rs:105-110: the context of the visitors. -/
def context (x : Externals) (m : Metadata) (o : Options) : Ctx where
  cc := x.cc
  comments := m.comments
  pos := m.pos
  reportLogic := o.reportLogic
  ignoreMethods := o.ignoreClassMethods

/-- coverage_visitor.rs:114-126, 129-220: whether the coverage function is created for a program. -/
def templated (cx : Ctx) (program : Node) : Bool :=
  !Hint.shouldIgnoreFile cx.cc cx.comments program.span && (program.kind = .module || program.kind = .script)

/-- create_coverage_fn_decl.rs:158-174: the text of the debug comment, a block comment. -/
def debugComment (c : FileCoverage) : String := "__coverage_data_json_comment__::" ++ Serde.save c

/-- lib.rs:105-112, coverage_visitor.rs:20-41 `create_coverage_instrumentation_visitor`, and the visit. The two
cells are read with `expect`; `createFnIdent` has set them. -/
def transform (x : Externals) (fuel : Nat) (m : Metadata) (o : Options) (source : Node) (p : Process) :
    Except Panic (Output × Process) :=
  let p := createFnIdent m.file p
  match Visitor.instrument (context x m o) fuel m.file o.inputSourceMap source with
  | .error e => .error e
  | .ok (program, cov) =>
    let covFn := p.covFn.getD ""
    let comment := if templated (context x m o) source && o.debugInitialCoverageComment
      then some (debugComment cov.inner) else none
    .ok (⟨program, some ⟨Template.emit covFn o.coverageVariable m.file cov.inner, p.tempFn.getD "", comment⟩⟩, p)

/-- lib.rs:81-113: the run, once the options are read. -/
def run (x : Externals) (fuel : Nat) (m : Metadata) (o : Options) (program : Node) (p : Process) :
    Except Panic (Output × Process) :=
  if excluded x o.unstableExclude m.file then .ok (⟨program, none⟩, p)
  else
    match initLog o.instrumentLog p with
    | .error e => .error e
    | .ok p => transform x fuel m o program p

/-- lib.rs:57-113 `process`. -/
def process (x : Externals) (fuel : Nat) (p : Process) (m : Metadata) (program : Node) :
    Except Panic (Output × Process) := run x fuel m (options m.config) program p

/-- The files of one process, one after the other. -/
def processAll (x : Externals) (fuel : Nat) (p : Process) : List (Metadata × Node) →
    Except Panic (List Output × Process)
  | [] => .ok ([], p)
  | (m, program) :: files =>
    match process x fuel p m program with
    | .error e => .error e
    | .ok (out, p) =>
      match processAll x fuel p files with
      | .error e => .error e
      | .ok (outs, p) => .ok (out :: outs, p)

end Plugin
end Verif
