import Verif.Model.Js
import Verif.Model.Counter
import Verif.Model.FileCoverage
/-
packages/swc-coverage-instrument/src/coverage_template/*.rs and instrument/*.rs: the emitted coverage code as
JavaScript.
-/
namespace Verif.Template
open Js

/-- create_coverage_data_object.rs:16-26 `create_str` / `create_str_lit_expr`: the raw text is the value
between quotes, not escaped. -/
def strLit (v : String) : Expr := .str v (some ("\"" ++ v ++ "\""))

/-- `Lit::Str(Str { value, ..Str::dummy() })` and `Str::from(value)`: no raw text, the printer escapes. -/
def plainStr (v : String) : Expr := .str v none

/-- create_coverage_data_object.rs:50-79 `create_range_object_prop`. -/
def rangeProps (r : Range) : Props := .ofList
  [("start", .obj (.ofList [("line", .num r.start.line), ("column", .num r.start.column)])),
   ("end", .obj (.ofList [("line", .num r.end.line), ("column", .num r.end.column)]))]

/-- create_coverage_data_object.rs:81-86 `create_range_object_lit`. -/
def rangeLit (r : Range) : Expr := .obj (rangeProps r)

/-- create_coverage_data_object.rs:88-101 `create_fn_prop`, without the key. -/
def fnLit (f : Function) : Expr := .obj (.ofList
  [("name", strLit f.name), ("decl", rangeLit f.decl), ("loc", rangeLit f.loc), ("line", .num f.line)])

/-- create_coverage_data_object.rs:103-116 `create_branch_vec_prop`. -/
def countsLit (v : List Nat) : Expr := .arr (.ofList (v.map .num))

/-- create_coverage_data_object.rs:118-169 `create_branch_prop`, without the key. -/
def branchLit (b : Branch) : Expr := .obj (.ofList
  ((match b.loc with | some r => [("loc", rangeLit r)] | none => [])
    ++ [("type", strLit b.branchType.toStr)]
    ++ (if b.locations.length > 0
        then [("locations", .arr (.ofList (b.locations.map fun r => .obj (rangeProps r))))] else [])
    ++ (match b.line with | some n => [("line", .num n)] | none => [])))

/-- create_coverage_data_object.rs:191-286: a table as an object literal with the keys in decimal. -/
def tableLit {V : Type} (f : V → Expr) (m : IndexMap Nat V) : Expr :=
  .obj (.ofList (m.map fun e => (toString e.1, f e.2)))

/-- create_coverage_data_object.rs:305-414: the input source map. -/
def sourceMapLit (m : SourceMap) : Expr := .obj (.ofList
  ([("version", .num m.version)]
    ++ (match m.file with | some f => [("file", plainStr f)] | none => [])
    ++ (match m.sourceRoot with | some f => [("sourceRoot", plainStr f)] | none => [])
    ++ [("sources", .arr (.ofList (m.sources.map plainStr)))]
    ++ (match m.sourcesContent with
        | some cs => [("sourcesContent", .arr (.ofList (cs.map fun
            | some c => plainStr c
            | none => .null)))]
        | none => [])
    ++ [("names", .arr (.ofList (m.names.map plainStr))),
        ("mappings", plainStr m.mappings)]))

/-- build.rs:26-45 `COVERAGE_MAGIC_KEY`. -/
def magicKey : String := "_coverageSchema"

/-- create_coverage_data_object.rs:171-443 `create_coverage_data_object`: the object literal. `magic` is
`COVERAGE_MAGIC_VALUE`, `hash` the hash of the serialised data. -/
def dataLit (magic hash : String) (c : FileCoverage) : Expr := .obj (.ofList
  ([("all", .bool c.all),
    ("path", plainStr c.path),
    ("statementMap", tableLit rangeLit c.statementMap),
    ("fnMap", tableLit fnLit c.fnMap),
    ("branchMap", tableLit branchLit c.branchMap),
    ("s", tableLit .num c.s),
    ("f", tableLit .num c.f),
    ("b", tableLit countsLit c.b)]
    ++ (match c.bT with | some m => [("bT", tableLit countsLit m)] | none => [])
    ++ (match c.inputSourceMap with | some m => [("inputSourceMap", sourceMapLit m)] | none => [])
    ++ [(magicKey, strLit magic), ("hash", strLit hash)]))

/-- create_assignment_stmt.rs:7-22 `create_assignment_stmt`. -/
def assignStmt (x : String) (e : Expr) : Stmt := .var x e

/-- create_global_stmt_template.rs:12-40 `create_global_stmt_template`:
`var global = (new ((function(){}).constructor)("return this"))()`. -/
def globalStmt (scope : String) : Stmt :=
  assignStmt "global" (.call (.paren (.newFn (plainStr ("return " ++ scope)))) .nil)

/-- The free inputs of `create_coverage_fn_decl` (create_coverage_fn_decl.rs:48-56). -/
structure Input where
  /-- the name of the coverage function -/
  covFn : String
  /-- the property of the global object the data is kept in -/
  coverageVariable : String
  path : String
  magic : String
  hash : String
  data : FileCoverage

/-- create_coverage_fn_decl.rs:60-157: the body of the coverage function. -/
def fnBody (i : Input) : Stmts := .ofList
  [assignStmt "path" (plainStr i.path),
   assignStmt "hash" (plainStr i.hash),
   globalStmt "this",
   assignStmt "gcv" (plainStr i.coverageVariable),
   assignStmt "coverageData" (dataLit i.magic i.hash i.data),
   -- :95-100
   .var "coverage" (.or (.index (.ident "global") (.ident "gcv"))
     (.paren (.assign (.index (.ident "global") (.ident "gcv")) (.obj .nil)))),
   -- :102-112
   .ifThen (.or (.not (.index (.ident "coverage") (.ident "path")))
       (.ne (.member (.index (.ident "coverage") (.ident "path")) "hash") (.ident "hash")))
     (.block (.ofList [.expr (.assign (.index (.ident "coverage") (.ident "path")) (.ident "coverageData"))])),
   -- :115-121
   .var "actualCoverage" (.index (.ident "coverage") (.ident "path")),
   -- :128-153
   .block (.ofList [.expr (.assign (.ident i.covFn) (.fn (.ofList [.ret (.ident "actualCoverage")])))]),
   -- :155-177
   .ret (.ident "actualCoverage")]

/-- create_coverage_fn_decl.rs:180-191. -/
def fnDecl (i : Input) : Stmt := .fnDecl i.covFn (fnBody i)

/-- coverage_visitor.rs:54-107 `get_coverage_templates`: the declaration, and one call of it. -/
def prelude (i : Input) : Stmts := .ofList [fnDecl i, .expr (.call (.ident i.covFn) .nil)]

/-- create_increase_counter_expr.rs:7-63 `create_increase_counter_expr`. -/
def counter (covFn : String) (c : Counter) : Expr :=
  let field (f : String) : Expr := .member (.call (.ident covFn) .nil) f
  .incr (match c with
    | .s id => .index (field "s") (.num id)
    | .f id => .index (field "f") (.num id)
    | .b id arm => .index (.index (field "b") (.num id)) (.num arm)
    | .bT id arm => .index (.index (field "bT") (.num id)) (.num arm))

/-- create_coverage_fn_decl.rs:31-45: the name of the temporary. -/
def tempName (covFn : String) : String := covFn ++ "_temp"

/-- create_increase_true_expr.rs:18-25: `cov().temp`. -/
def temp (covFn tempFn : String) : Expr := .member (.call (.ident covFn) .nil) tempFn

/-- create_increase_true_expr.rs:61-189 `validate_true_non_trivial`. -/
def validate (covFn tempFn : String) : Expr :=
  let t := temp covFn tempFn
  let on (o m : String) : Expr := .call (.member (.ident o) m) (.ofList [t])
  .and t (.and
    (.paren (.or (.not (on "Array" "isArray")) (.member t "length")))
    (.paren (.or (.ne (on "Object" "getPrototypeOf") (.member (.ident "Object") "prototype"))
      (.member (on "Object" "values") "length"))))

/-- create_increase_true_expr.rs:11-59 `create_increase_true_expr`. -/
def truthWrapper (covFn tempFn : String) (branch arm : Nat) (e : Expr) : Expr := .seq (.ofList
  [.assign (temp covFn tempFn) e,
   .paren (.cond (validate covFn tempFn) (counter covFn (.bT branch arm)) .null),
   temp covFn tempFn])

end Verif.Template
