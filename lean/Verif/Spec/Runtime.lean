import Verif.Model.Template
import Verif.Spec.Data
/-
What the emitted coverage code is meant to do at run time: a machine on coverage data that knows nothing of
objects, scopes and closures (`Books`), the histories it goes through (`Event`), and the same histories played
by the emitted code (`play`).
-/
namespace Verif

/-- Adding one to the cell of a counter. -/
def FileCoverage.hit (c : FileCoverage) : Counter → FileCoverage
  | .s id => { c with s := c.s.modify id Js.bump }
  | .f id => { c with f := c.f.modify id Js.bump }
  | .b id arm => { c with b := c.b.modify id fun l => l.modify arm Js.bump }
  | .bT id arm => { c with bT := c.bT.map fun m => m.modify id fun l => l.modify arm Js.bump }

/-- The data after some counters were hit. -/
def FileCoverage.hits (c : FileCoverage) (l : List Counter) : FileCoverage := l.foldl FileCoverage.hit c

/-- The count in the cell of a counter. -/
def FileCoverage.count (c : FileCoverage) : Counter → Option Nat
  | .s id => c.s.get id
  | .f id => c.f.get id
  | .b id arm => (c.b.get id).bind (·[arm]?)
  | .bT id arm => (c.bT.bind (·.get id)).bind (·[arm]?)

namespace Runtime
open Js Template

/-- A history: instrumented files are loaded (a file may be loaded any number of times, in any of its
versions), and the counters of a loaded instance are hit. -/
inductive Event where
  | load (i : Input)
  | hit (instance_ : Nat) (c : Counter)

/-- The books: the data sets opened so far with their hashes, the one that is current for each path, and the
one each loaded instance writes to. -/
structure Books where
  sets : List (Input × FileCoverage)
  current : IndexMap String Nat
  writes : List Nat

/-- Nothing loaded yet. -/
def Books.empty : Books := ⟨[], [], []⟩

/-- The file and the data that are current for a path. -/
def Books.at (b : Books) (path : String) : Option (Input × FileCoverage) :=
  match b.current.get path with
  | none => none
  | some n => b.sets[n]?

/-- The data set to be kept for a file, if there is one: that of the same path, with the same hash. -/
def Books.kept (b : Books) (i : Input) : Option Nat :=
  match b.current.get i.path with
  | none => none
  | some n =>
    match b.sets[n]? with
    | some (i', _) => if i'.hash = i.hash then some n else none
    | none => none

/-- Loading a file goes on with the data set that is there for its path if that has the same hash, and
otherwise opens a new one with the initial data. -/
def Books.load (b : Books) (i : Input) : Books :=
  match b.kept i with
  | some n => { b with writes := b.writes ++ [n] }
  | none =>
    { sets := b.sets ++ [(i, i.data)]
      current := b.current.insert i.path b.sets.length
      writes := b.writes ++ [b.sets.length] }

/-- Hitting a counter of an instance adds one to its cell in the data set the instance writes to. -/
def Books.hit (b : Books) (inst : Nat) (c : Counter) : Books :=
  match b.writes[inst]? with
  | none => b
  | some n => { b with sets := b.sets.modify n fun e => (e.1, e.2.hit c) }

/-- One event. -/
def Books.step (b : Books) : Event → Books
  | .load i => b.load i
  | .hit n c => b.hit n c

/-- A history. -/
def Books.after (b : Books) : List Event → Books
  | [] => b
  | e :: es => (b.step e).after es

/-- The files of a realm agree on the coverage variable; the name of the coverage function is none of the
variables of the coverage function; no path is `__proto__`; keys are distinct. -/
structure Proper (gcv : String) (i : Input) : Prop where
  variable_ : i.coverageVariable = gcv
  covFn : i.covFn ∉ ["path", "hash", "global", "gcv", "coverageData", "coverage", "actualCoverage"]
  path : i.path ≠ "__proto__"
  keyed : i.data.Keyed

/-- An event that can happen: only loaded instances hit counters, and only counters of their file. -/
def Books.Allows (gcv : String) (b : Books) : Event → Prop
  | .load i => Proper gcv i
  | .hit n c => ∃ m ∈ b.writes[n]?, ∃ e ∈ b.sets[m]?, (e.2.count c).isSome

/-- A history in which every event can happen. -/
def Books.AllowsAll (gcv : String) (b : Books) : List Event → Prop
  | [] => True
  | e :: es => b.Allows gcv e ∧ (b.step e).AllowsAll gcv es

/-- A loaded instance: its scope and the name of its coverage function. -/
abbrev Instance := Nat × String

/-- One event, played by the emitted code. Each file is loaded in a scope of its own, as modules are. -/
def playOne (w : World) (insts : List Instance) : Event → M (List Instance)
  | .load i => do
    let f ← Js.load w (prelude i)
    pure (insts ++ [(f, i.covFn)])
  | .hit n c =>
    match insts[n]? with
    | none => M.fail .referenceError
    | some (f, cov) => do
      let _ ← eval w [f] (counter cov c)
      pure insts

/-- A history, played by the emitted code. -/
def play (w : World) (insts : List Instance) : List Event → M (List Instance)
  | [] => pure insts
  | e :: es => do
    let insts' ← playOne w insts e
    play w insts' es

/-- A realm before anything is loaded: `Object.prototype` has built-in functions only, and there is no
property with the name of the coverage variable. -/
structure Pristine (gcv : String) (st : State) : Prop where
  object : ∃ ps, st.heap[objectProto]? = some ⟨.plain, none, ps⟩ ∧ ps.get gcv = none ∧
    ∀ k c, ps.get k = some c → ∃ n, c = .data (.native n) ∧ nativeMember n "hash" = .undef
  global : ∃ ps, st.heap[globalObj]? = some ⟨.plain, some objectProto, ps⟩ ∧ ps.get gcv = none
  size : 4 ≤ st.heap.length
  proto : gcv ≠ "__proto__"

/-- The own properties of the object the coverage data is kept in, `globalThis[gcv]`. -/
def registry (gcv : String) (st : State) : Option (IndexMap String Cell) :=
  match st.heap[globalObj]? with
  | none => none
  | some g =>
    match g.props.get gcv with
    | some (.data (.ref r)) => (st.heap[r]?).map Obj.props
    | _ => none

/-- The names of the properties of a data object. -/
def fieldNames : List String :=
  ["all", "path", "statementMap", "fnMap", "branchMap", "s", "f", "b", "bT", "inputSourceMap", "_coverageSchema",
   "hash"]

/-- `Shows st v c magic hash`: the value is an object whose known properties read as the coverage data `c`, with
the schema key and the hash. Other properties may be there (the temporary of the truthiness counters). -/
def Shows (st : State) (v : Value) (c : FileCoverage) (magic hash : String) : Prop :=
  ∃ a ps lo hi fs, v = .ref a ∧ st.heap[a]? = some ⟨.plain, some objectProto, ps⟩ ∧
    ReadsAll st.heap lo hi (ps.filter fun e => e.1 ∈ fieldNames) fs ∧
    (Data.obj fs).field "_coverageSchema" = some (.str magic) ∧ (Data.obj fs).field "hash" = some (.str hash) ∧
    (Data.obj fs).coverage false = some c

/-- `Reports gcv st path i c`: the coverage object has an entry for the path, and that shows the data `c`. -/
def Reports (gcv : String) (st : State) (path : String) (i : Input) (c : FileCoverage) : Prop :=
  ∃ ps v, registry gcv st = some ps ∧ ps.get path = some (.data v) ∧ Shows st v c i.magic i.hash

/-- The counters hit by instances of the file at a path, in order; `paths` has the paths of the instances
loaded before. -/
def hitsOf (path : String) : List String → List Event → List Counter
  | _, [] => []
  | paths, .load i :: es => hitsOf path (paths ++ [i.path]) es
  | paths, .hit n c :: es =>
    if paths[n]? = some path then c :: hitsOf path paths es else hitsOf path paths es

/-- The paths of the loaded instances after a history. -/
def pathsAfter : List String → List Event → List String
  | paths, [] => paths
  | paths, .load i :: es => pathsAfter (paths ++ [i.path]) es
  | paths, .hit _ _ :: es => pathsAfter paths es

/-- The path of the file an event belongs to; `paths` has the paths of the instances loaded before. -/
def Event.path (paths : List String) : Event → Option String
  | .load i => some i.path
  | .hit n _ => paths[n]?

/-- The loads of a path all have the same hash. -/
def SameHash (path hash : String) (es : List Event) : Prop :=
  ∀ i, Event.load i ∈ es → i.path = path → i.hash = hash

end Runtime
end Verif
