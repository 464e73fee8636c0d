import Verif.Model.FileCoverage
import Verif.Model.Serde
import Verif.Model.Emit
/-
spec/swc-coverage-instrument-wasm/src/lib.rs: coverage data for JavaScript, and spec/util/verifier.ts:110-171, which reads it.

`serde_wasm_bindgen::to_value` is modelled as it is by default: a map becomes a `Map`, a vector an array, a struct an
object, `None` `undefined`.
-/
namespace Verif
namespace Interop

/-- The JavaScript values that are handed out. -/
inductive JsVal where
  | undefined
  | num (n : Nat)
  | str (s : String)
  | arr (l : List JsVal)
  | map (entries : List (JsVal × JsVal))
  | obj (fields : List (String × JsVal))

/-- ECMA-262 7.2.11 `SameValueZero`. Arrays, maps and objects are the same only if they are one; those made for a report never are. -/
def sameKey : JsVal → JsVal → Bool
  | .undefined, .undefined => true
  | .num a, .num b => a = b
  | .str a, .str b => a = b
  | _, _ => false

/-- ECMA-262 24.1.3.9 `Map.prototype.set`, on the entries of the map. -/
def setEntry (k v : JsVal) : List (JsVal × JsVal) → List (JsVal × JsVal)
  | [] => [(k, v)]
  | e :: l => if sameKey e.1 k then (e.1, v) :: l else e :: setEntry k v l

/-- ECMA-262 24.1.3.6 `Map.prototype.get`, on the entries of the map. -/
def getEntry (k : JsVal) : List (JsVal × JsVal) → JsVal
  | [] => .undefined
  | e :: l => if sameKey e.1 k then e.2 else getEntry k l

/-- serde_wasm_bindgen `MapSerializer`: the entries are set one after the other. -/
def toMap {V : Type} (f : V → JsVal) (m : IndexMap Nat V) : JsVal :=
  .map (m.foldl (fun l e => setEntry (.num e.1) (f e.2) l) [])

/-- serde_wasm_bindgen `ArraySerializer`. -/
def toArr {V : Type} (f : V → JsVal) (l : List V) : JsVal := .arr (l.map f)

/-- serde_wasm_bindgen `serialize_none`, `serialize_some`. -/
def toOpt {V : Type} (f : V → JsVal) : Option V → JsVal
  | none => .undefined
  | some v => f v

/-- `skip_serializing_if = "Option::is_none"`. -/
def skipNone {V : Type} (k : String) (f : V → JsVal) : Option V → List (String × JsVal)
  | none => []
  | some v => [(k, f v)]

/-- source_map.rs:3-17 by serde_wasm_bindgen `ObjectSerializer`. -/
def toSourceMap (m : SourceMap) : JsVal :=
  .obj ([("version", .num m.version)] ++ skipNone "file" .str m.file ++ skipNone "sourceRoot" .str m.sourceRoot
    ++ [("sources", toArr .str m.sources)] ++ skipNone "sourcesContent" (toArr (toOpt .str)) m.sourcesContent
    ++ [("names", toArr .str m.names), ("mappings", .str m.mappings)])

/-- lib.rs:34-40 `FileCoverageInterop::new`, given what `JSON.stringify` makes of the value. `into_serde` takes `null` if that is
`undefined`. Nothing: `unwrap` panics. -/
def new (text : Option String) : Option FileCoverage := Serde.load (text.getD "null")

/-- lib.rs:42-45 `getLineCoverage`. -/
def getLineCoverage (c : FileCoverage) : Except Panic JsVal :=
  match c.getLineCoverage with
  | .error e => .error e
  | .ok lines => .ok (toMap .num lines)

/-- lib.rs:47-50 `f`. -/
def getF (c : FileCoverage) : JsVal := toMap .num c.f

/-- lib.rs:52-55 `b`. -/
def getB (c : FileCoverage) : JsVal := toMap (toArr .num) c.b

/-- lib.rs:57-60 `bT`. -/
def getBT (c : FileCoverage) : JsVal := toOpt (toMap (toArr .num)) c.bT

/-- lib.rs:62-65 `s`. -/
def getS (c : FileCoverage) : JsVal := toMap .num c.s

/-- lib.rs:67-74 `inputSourceMap`. `to_value` does not fail for a source map. -/
def getInputSourceMap (c : FileCoverage) : JsVal :=
  match c.inputSourceMap with
  | some m => toSourceMap m
  | none => .undefined

/-- lib.rs:10-24 `getCoverageMagicConstants`. -/
def getCoverageMagicConstants : JsVal := .obj [("key", .str Template.magicKey), ("value", .str Template.magicValue)]

/-- verifier.ts:166-170 `getFileCoverage`: the members of the coverage data that are handed on. -/
def handedOn (fs : List (String × Data)) : List (String × Data) :=
  fs.filter fun e => decide (e.1 ≠ "_coverageSchema" ∧ e.1 ≠ "hash")

end Interop
end Verif
