import Verif.Model.Json
import Verif.Model.Types
/-
The derived `Serialize` and `Deserialize` of the coverage data: packages/istanbul-oxide/src/file_coverage.rs:127-143,
types.rs:6-44, range.rs:3-18, source_map.rs:3-30.

Reading is modelled on trees (`serde_json` reads values from the text without building the tree). Not modelled:
a struct may also be given as an array of its fields.
-/
namespace Verif
namespace Serde

/-! ### Writing -/

/-- serde: a map with integer keys; `serde_json` writes the keys as strings. -/
def mapTree {V : Type} (f : V → Data) (m : IndexMap Nat V) : Data :=
  .obj (m.map fun e => (toString e.1, f e.2))

/-- serde: a vector. -/
def vecTree {V : Type} (f : V → Data) (l : List V) : Data := .arr (l.map f)

/-- serde: an option, `null` for nothing. -/
def optTree {V : Type} (f : V → Data) : Option V → Data
  | none => .null
  | some v => f v

/-- `skip_serializing_if = "Option::is_none"`. -/
def skipNone {V : Type} (k : String) (f : V → Data) : Option V → List (String × Data)
  | none => []
  | some v => [(k, f v)]

/-- range.rs:3-12. -/
def locationTree (l : Location) : Data := .obj [("line", .num l.line), ("column", .num l.column)]

/-- range.rs:14-18. -/
def rangeTree (r : Range) : Data := .obj [("start", locationTree r.start), ("end", locationTree r.end)]

/-- types.rs:6-12. -/
def functionTree (f : Function) : Data :=
  .obj [("name", .str f.name), ("decl", rangeTree f.decl), ("loc", rangeTree f.loc), ("line", .num f.line)]

/-- types.rs:14-22, `rename_all = "kebab-case"`. -/
def branchTypeTree : BranchType → Data
  | .binaryExpr => .str "binary-expr"
  | .defaultArg => .str "default-arg"
  | .if => .str "if"
  | .switch => .str "switch"
  | .condExpr => .str "cond-expr"

/-- types.rs:36-44. -/
def branchTree (b : Branch) : Data :=
  .obj [("loc", optTree rangeTree b.loc), ("type", branchTypeTree b.branchType),
    ("locations", vecTree rangeTree b.locations), ("line", optTree .num b.line)]

/-- source_map.rs:3-17. -/
def sourceMapTree (m : SourceMap) : Data :=
  .obj ([("version", .num m.version)] ++ skipNone "file" .str m.file ++ skipNone "sourceRoot" .str m.sourceRoot
    ++ [("sources", vecTree .str m.sources)] ++ skipNone "sourcesContent" (vecTree (optTree .str)) m.sourcesContent
    ++ [("names", vecTree .str m.names), ("mappings", .str m.mappings)])

/-- file_coverage.rs:127-143. -/
def coverageTree (c : FileCoverage) : Data :=
  .obj ([("all", .bool c.all), ("path", .str c.path), ("statementMap", mapTree rangeTree c.statementMap),
      ("fnMap", mapTree functionTree c.fnMap), ("branchMap", mapTree branchTree c.branchMap),
      ("s", mapTree .num c.s), ("f", mapTree .num c.f), ("b", mapTree (vecTree .num) c.b)]
    ++ skipNone "bT" (mapTree (vecTree .num)) c.bT ++ skipNone "inputSourceMap" sourceMapTree c.inputSourceMap)

/-- `serde_json::to_string(&file_coverage)`. -/
def save (c : FileCoverage) : String := Json.text (coverageTree c)

/-! ### Reading -/

/-- serde: an unsigned integer of 32 bits. -/
def u32 : Data → Option Nat
  | .num n => if n < 2 ^ 32 then some n else none
  | _ => none

/-- serde: a string. -/
def string : Data → Option String
  | .str s => some s
  | _ => none

/-- serde: a truth value. -/
def bool : Data → Option Bool
  | .bool b => some b
  | _ => none

/-- serde: an option. -/
def opt {V : Type} (f : Data → Option V) : Data → Option (Option V)
  | .null => some none
  | d => (f d).map some

/-- Reads the elements of a list, from the left; stops at the first that is malformed. -/
def readAll {A V : Type} (f : A → Option V) : List A → Option (List V)
  | [] => some []
  | d :: l =>
    match f d with
    | none => none
    | some v => (readAll f l).map (v :: ·)

/-- serde: a vector. -/
def vec {V : Type} (f : Data → Option V) : Data → Option (List V)
  | .arr l => readAll f l
  | _ => none

/-- `serde_json` `MapKey::deserialize_u32`: an integer key. -/
def key (s : String) : Option Nat :=
  match Json.number s.toList with
  | some (.num n, []) => u32 (.num n)
  | _ => none

/-- One member of a map. -/
def entry {V : Type} (f : Data → Option V) (e : String × Data) : Option (Nat × V) :=
  match key e.1 with
  | none => none
  | some n => (f e.2).map fun v => (n, v)

/-- indexmap `visit_map`: the members are inserted one after the other. -/
def map {V : Type} (f : Data → Option V) : Data → Option (IndexMap Nat V)
  | .obj fs => (readAll (entry f) fs).map fun l => l.foldl (fun m e => m.insert e.1 e.2) []
  | _ => none

/-- serde: the members of a struct. Unknown members are ignored, a member that occurs twice is an error. -/
def struct (known : List String) : Data → Option (List (String × Data))
  | .obj fs => if known.all fun k => (fs.filter fun e => e.1 = k).length ≤ 1 then some fs else none
  | _ => none

/-- The value of a member. -/
def member (fs : List (String × Data)) (k : String) : Option Data := IndexMap.get fs k

/-- serde: a field that has to be there. -/
def required {V : Type} (f : Data → Option V) (fs : List (String × Data)) (k : String) : Option V :=
  match member fs k with
  | none => none
  | some d => f d

/-- serde `default`: a field with a default. -/
def withDefault {V : Type} (v : V) (f : Data → Option V) (fs : List (String × Data)) (k : String) : Option V :=
  match member fs k with
  | none => some v
  | some d => f d

/-- serde: an optional field; a missing one is `None` (`missing_field`). -/
def optional {V : Type} (f : Data → Option V) : List (String × Data) → String → Option (Option V) :=
  withDefault none (opt f)

/-- range.rs:3-12. -/
def location (d : Data) : Option Location := do
  let fs ← struct ["line", "column"] d
  let line ← required u32 fs "line"
  let column ← required u32 fs "column"
  pure ⟨line, column⟩

/-- range.rs:14-18. -/
def range (d : Data) : Option Range := do
  let fs ← struct ["start", "end"] d
  let s ← required location fs "start"
  let e ← required location fs "end"
  pure ⟨s, e⟩

/-- types.rs:6-12. -/
def function (d : Data) : Option Function := do
  let fs ← struct ["name", "decl", "loc", "line"] d
  let name ← required string fs "name"
  let decl ← required range fs "decl"
  let loc ← required range fs "loc"
  let line ← required u32 fs "line"
  pure ⟨name, decl, loc, line⟩

/-- types.rs:14-22. -/
def branchType : Data → Option BranchType
  | .str s =>
    if s = "binary-expr" then some .binaryExpr
    else if s = "default-arg" then some .defaultArg
    else if s = "if" then some .if
    else if s = "switch" then some .switch
    else if s = "cond-expr" then some .condExpr
    else none
  | _ => none

/-- types.rs:36-44. -/
def branch (d : Data) : Option Branch := do
  let fs ← struct ["loc", "type", "locations", "line"] d
  let loc ← optional range fs "loc"
  let type ← required branchType fs "type"
  let locations ← required (vec range) fs "locations"
  let line ← optional u32 fs "line"
  pure ⟨loc, type, locations, line⟩

/-- source_map.rs:3-30, `default` on the struct. -/
def sourceMap (d : Data) : Option SourceMap := do
  let fs ← struct ["version", "file", "sourceRoot", "sources", "sourcesContent", "names", "mappings"] d
  let version ← withDefault 3 u32 fs "version"
  let file ← optional string fs "file"
  let sourceRoot ← optional string fs "sourceRoot"
  let sources ← withDefault [] (vec string) fs "sources"
  let sourcesContent ← optional (vec (opt string)) fs "sourcesContent"
  let names ← withDefault [] (vec string) fs "names"
  let mappings ← withDefault "" string fs "mappings"
  pure ⟨version, file, sourceRoot, sources, sourcesContent, names, mappings⟩

/-- file_coverage.rs:127-143. -/
def coverage (d : Data) : Option FileCoverage := do
  let fs ← struct ["all", "path", "statementMap", "fnMap", "branchMap", "s", "f", "b", "bT", "inputSourceMap"] d
  let all ← withDefault false bool fs "all"
  let path ← required string fs "path"
  let statementMap ← required (map range) fs "statementMap"
  let fnMap ← required (map function) fs "fnMap"
  let branchMap ← required (map branch) fs "branchMap"
  let s ← required (map u32) fs "s"
  let f ← required (map u32) fs "f"
  let b ← required (map (vec u32)) fs "b"
  let bT ← optional (map (vec u32)) fs "bT"
  let inputSourceMap ← optional sourceMap fs "inputSourceMap"
  pure ⟨all, path, statementMap, fnMap, branchMap, s, f, b, bT, inputSourceMap⟩

/-- `serde_json::from_str::<FileCoverage>(text)`. -/
def load (text : String) : Option FileCoverage := (Json.parse text).bind coverage

end Serde
end Verif
