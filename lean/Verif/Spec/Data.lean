import Verif.Model.Js
import Verif.Model.Types
import Verif.Model.Json
/-
Coverage data as a reader of the emitted program sees it: a tree of plain values (`Data`), what it means
for a value of the heap to be such a tree (`Reads`), and how a consumer of coverage data (the `FileCoverage`
interface of istanbul, file_coverage.rs:127-143 with its field names) reads the tree (`decode`).
-/
namespace Verif

/-- No key occurs twice in any of the tables. -/
structure FileCoverage.Keyed (c : FileCoverage) : Prop where
  statementMap : c.statementMap.NodupKeys
  fnMap : c.fnMap.NodupKeys
  branchMap : c.branchMap.NodupKeys
  s : c.s.NodupKeys
  f : c.f.NodupKeys
  b : c.b.NodupKeys
  bT : ∀ m ∈ c.bT, IndexMap.NodupKeys m

namespace Data

/-- The value of a field. -/
def field (k : String) : Data → Option Data
  | .obj fs => IndexMap.get fs k
  | _ => none

/-- A number. -/
def nat : Data → Option Nat
  | .num n => some n
  | _ => none

/-- A string. -/
def text : Data → Option String
  | .str s => some s
  | _ => none

/-- A truth value. -/
def truth : Data → Option Bool
  | .bool b => some b
  | _ => none

/-- Reads every element of a list. -/
def each {α β : Type} (f : α → Option β) : List α → Option (List β)
  | [] => some []
  | a :: l =>
    match f a, each f l with
    | some b, some bs => some (b :: bs)
    | _, _ => none

/-- An array. -/
def list {β : Type} (f : Data → Option β) : Data → Option (List β)
  | .arr l => each f l
  | _ => none

/-- An optional field: it may be missing, but if it is there it has to be well formed. -/
def optional {β : Type} (f : Data → Option β) (k : String) (d : Data) : Option (Option β) :=
  match d.field k with
  | none => some none
  | some v => (f v).map some

/-- A required field. -/
def required {β : Type} (f : Data → Option β) (k : String) (d : Data) : Option β :=
  match d.field k with
  | none => none
  | some v => f v

/-- A key in decimal notation. -/
def key (s : String) : Option Nat :=
  let n := Nat.ofDigitChars 10 s.toList 0
  if toString n = s then some n else none

/-- An object with decimal keys. -/
def table {β : Type} (f : Data → Option β) : Data → Option (IndexMap Nat β)
  | .obj fs => each (fun e => match key e.1, f e.2 with
      | some n, some b => some (n, b)
      | _, _ => none) fs
  | _ => none

/-- `{line, column}` -/
def location (d : Data) : Option Location := do
  let line ← required nat "line" d
  let column ← required nat "column" d
  pure ⟨line, column⟩

/-- `{start, end}` -/
def range (d : Data) : Option Range := do
  let s ← required location "start" d
  let e ← required location "end" d
  pure ⟨s, e⟩

/-- `{name, decl, loc, line}` -/
def function (d : Data) : Option Function := do
  let name ← required text "name" d
  let decl ← required range "decl" d
  let loc ← required range "loc" d
  let line ← required nat "line" d
  pure ⟨name, decl, loc, line⟩

/-- The names of the branch types. -/
def branchType : Data → Option BranchType
  | .str "binary-expr" => some .binaryExpr
  | .str "default-arg" => some .defaultArg
  | .str "if" => some .if
  | .str "switch" => some .switch
  | .str "cond-expr" => some .condExpr
  | _ => none

/-- `{loc?, type, locations, line?}`. A strict reader insists on the list of locations, a lenient one takes a
missing list for an empty one. -/
def branch (strict : Bool) (d : Data) : Option Branch := do
  let loc ← optional range "loc" d
  let type ← required branchType "type" d
  let locations ← match d.field "locations" with
    | some v => list range v
    | none => if strict then none else some []
  let line ← optional nat "line" d
  pure ⟨loc, type, locations, line⟩

/-- A string or null. -/
def textOrNull : Data → Option (Option String)
  | .null => some none
  | .str s => some (some s)
  | _ => none

/-- `{version, file?, sourceRoot?, sources, sourcesContent?, names, mappings}` -/
def sourceMap (d : Data) : Option SourceMap := do
  let version ← required nat "version" d
  let file ← optional text "file" d
  let sourceRoot ← optional text "sourceRoot" d
  let sources ← required (list text) "sources" d
  let sourcesContent ← optional (list textOrNull) "sourcesContent" d
  let names ← required (list text) "names" d
  let mappings ← required text "mappings" d
  pure ⟨version, file, sourceRoot, sources, sourcesContent, names, mappings⟩

/-- Reads coverage data. -/
def coverage (strict : Bool) (d : Data) : Option FileCoverage := do
  let all ← required truth "all" d
  let path ← required text "path" d
  let statementMap ← required (table range) "statementMap" d
  let fnMap ← required (table function) "fnMap" d
  let branchMap ← required (table (branch strict)) "branchMap" d
  let s ← required (table nat) "s" d
  let f ← required (table nat) "f" d
  let b ← required (table (list nat)) "b" d
  let bT ← optional (table (list nat)) "bT" d
  let inputSourceMap ← optional sourceMap "inputSourceMap" d
  pure ⟨all, path, statementMap, fnMap, branchMap, s, f, b, bT, inputSourceMap⟩

end Data

namespace Js

/-- The fields of an array. -/
def indexed : Nat → List Data → List (String × Data)
  | _, [] => []
  | i, d :: l => (toString i, d) :: indexed (i + 1) l

mutual
/-- `Reads h lo hi v d`: in the heap `h`, the value `v` is the tree `d`, and all objects of the tree are
different and have addresses from `lo` to below `hi`. -/
inductive Reads (h : List Obj) : Nat → Nat → Value → Data → Prop where
  | null {lo hi} : lo ≤ hi → Reads h lo hi .null .null
  | bool {lo hi} (b) : lo ≤ hi → Reads h lo hi (.bool b) (.bool b)
  | num {lo hi} (n) : lo ≤ hi → Reads h lo hi (.num n) (.num n)
  | str {lo hi} (s) : lo ≤ hi → Reads h lo hi (.str s) (.str s)
  | obj {lo hi m a ps fs} : h[a]? = some ⟨.plain, some objectProto, ps⟩ → m ≤ a → a < hi →
      ReadsAll h lo m ps fs → Reads h lo hi (.ref a) (.obj fs)
  | arr {lo hi m a ps l} : h[a]? = some ⟨.array, some arrayProto, ps⟩ → m ≤ a → a < hi →
      ReadsAll h lo m ps (indexed 0 l) → Reads h lo hi (.ref a) (.arr l)

/-- The properties of an object are the given fields, in the same order. -/
inductive ReadsAll (h : List Obj) : Nat → Nat → List (String × Cell) → List (String × Data) → Prop where
  | nil {lo hi} : lo ≤ hi → ReadsAll h lo hi [] []
  | cons {lo m hi k v d ps fs} : Reads h lo m v d → ReadsAll h m hi ps fs →
      ReadsAll h lo hi ((k, .data v) :: ps) ((k, d) :: fs)
end

end Js
end Verif
