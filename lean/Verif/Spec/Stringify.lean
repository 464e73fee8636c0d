import Verif.Spec.Data
import Mathlib.Data.Option.Defs
/-
`JSON.stringify` of values of the heap (ECMA-262, 25.5.2), as a relation between a value and the tree that is written;
the text is that of the tree (`Json.text`). This is how coverage data leaves the program and how the wasm interface
takes it in (spec/swc-coverage-instrument-wasm/src/lib.rs:35-41: `JsValue::into_serde` is `JSON.stringify` followed
by `serde_json::from_str`).

Simplifications: where `JSON.stringify` runs user code (`toJSON`, getters, proxies) it may write anything, but that
code does not change the objects that are written.
-/
namespace Verif.Js

/-- Puts an element in its place in an ascending list. -/
def place {A : Type} (idx : A → Nat) (a : A) : List A → List A
  | [] => [a]
  | b :: l => if idx a ≤ idx b then a :: b :: l else b :: place idx a l

/-- Sorts in ascending order. -/
def ascending {A : Type} (idx : A → Nat) : List A → List A
  | [] => []
  | a :: l => place idx a (ascending idx l)

/-- First what has an index, in ascending order, and then the rest as it is. -/
def arrange {A : Type} (idx : A → Option Nat) (l : List A) : List A :=
  ascending (fun a => (idx a).getD 0) (l.filter fun a => (idx a).isSome) ++ l.filter fun a => (idx a).isNone

/-- ECMA-262 6.1.7: a property key that is an array index. -/
def arrayIndex (k : String) : Option Nat :=
  match Data.key k with
  | some n => if n < 2 ^ 32 - 1 then some n else none
  | none => none

/-- ECMA-262 10.1.11.1 `OrdinaryOwnPropertyKeys`: the order in which properties are listed. -/
def listed {A : Type} (ps : List (String × A)) : List (String × A) := arrange (fun e => arrayIndex e.1) ps

/-- The object or an object on its prototype chain has a property. -/
inductive Inherits (h : List Obj) : Nat → String → Prop where
  | own {a : Nat} {o : Obj} {k : String} {c : Cell} (obj : h[a]? = some o) (prop : o.props.get k = some c) :
      Inherits h a k
  | proto {a p : Nat} {o : Obj} {k : String} (obj : h[a]? = some o) (proto : o.proto = some p)
      (above : Inherits h p k) : Inherits h a k

/-- The properties of an array of the given elements. -/
def itemCells : Nat → List Value → List (String × Cell)
  | _, [] => []
  | i, v :: l => (toString i, .data v) :: itemCells (i + 1) l

mutual
/-- ECMA-262 25.5.2.2 `SerializeJSONProperty`: `Writes h stack v o`, the value `v` is written as `o` (`none`: it is
left out), when the objects `stack` are being written. Cyclic values and big integers are not written: an exception
is thrown. -/
inductive Writes (h : List Obj) : List Nat → Value → Option Data → Prop where
  | undef {s} : Writes h s .undef none
  | native {s} (name) : Writes h s (.native name) none
  | null {s} : Writes h s .null (some .null)
  | bool {s} (b) : Writes h s (.bool b) (some (.bool b))
  | num {s} (n) : Writes h s (.num n) (some (.num n))
  | nan {s} : Writes h s .nan (some .null)
  | str {s} (x) : Writes h s (.str x) (some (.str x))
  /-- symbols -/
  | symbol {s} (tag t) : Writes h s (.prim tag t) none
  /-- negative and fractional numbers -/
  | real {s} (tag t text) : Writes h s (.prim tag t) (some (.real text))
  /-- infinite numbers -/
  | infinite {s} (tag t) : Writes h s (.prim tag t) (some .null)
  | closure {s a body env p ps} : h[a]? = some ⟨.closure body env, p, ps⟩ → ¬ Inherits h a "toJSON" →
      Writes h s (.ref a) none
  /-- `toJSON` is called. -/
  | hook {s a} (o) : Inherits h a "toJSON" → Writes h s (.ref a) o
  | proxy {s a t p ps} (o) : h[a]? = some ⟨.proxy t, p, ps⟩ → Writes h s (.ref a) o
  /-- A getter is run. -/
  | getter {s a obj k g} (o) : h[a]? = some obj → (k, Cell.getter g) ∈ obj.props → Writes h s (.ref a) o
  /-- 25.5.2.4 `SerializeJSONObject` -/
  | obj {s a p ps fs} : h[a]? = some ⟨.plain, p, ps⟩ → ¬ Inherits h a "toJSON" → a ∉ s →
      WritesAll h (a :: s) (listed ps) fs → Writes h s (.ref a) (some (.obj fs))
  /-- 25.5.2.5 `SerializeJSONArray` -/
  | arr {s a p vs l} : h[a]? = some ⟨.array, p, itemCells 0 vs⟩ → ¬ Inherits h a "toJSON" → a ∉ s →
      WritesItems h (a :: s) vs l → Writes h s (.ref a) (some (.arr l))
  /-- Arrays with holes or with other properties. -/
  | oddArr {s a p ps} (l) : h[a]? = some ⟨.array, p, ps⟩ → (∀ vs, ps ≠ itemCells 0 vs) → ¬ Inherits h a "toJSON" →
      a ∉ s → Writes h s (.ref a) (some (.arr l))

/-- The members of an object. -/
inductive WritesAll (h : List Obj) : List Nat → List (String × Cell) → List (String × Data) → Prop where
  | nil {s} : WritesAll h s [] []
  | skip {s k v ps fs} : Writes h s v none → WritesAll h s ps fs → WritesAll h s ((k, .data v) :: ps) fs
  | keep {s k v d ps fs} : Writes h s v (some d) → WritesAll h s ps fs →
      WritesAll h s ((k, .data v) :: ps) ((k, d) :: fs)

/-- The elements of an array. -/
inductive WritesItems (h : List Obj) : List Nat → List Value → List Data → Prop where
  | nil {s} : WritesItems h s [] []
  | skip {s v vs l} : Writes h s v none → WritesItems h s vs l → WritesItems h s (v :: vs) (.null :: l)
  | keep {s v d vs l} : Writes h s v (some d) → WritesItems h s vs l → WritesItems h s (v :: vs) (d :: l)
end

/-- Objects and arrays of the program are written as they are: there is no `toJSON` on their prototypes. -/
structure NoHooks (h : List Obj) : Prop where
  object : ¬ Inherits h objectProto "toJSON"
  array : ¬ Inherits h arrayProto "toJSON"

end Verif.Js

namespace Verif

/-- Two tables with the same entries: what `==` of the maps of /repo compares (`IndexMap`, types.rs:65-70). -/
def IndexMap.Same {V : Type} (m m' : IndexMap Nat V) : Prop := ∀ k, m.get k = m'.get k

/-- The same coverage data, up to the order of the tables: `==` of `FileCoverage` (file_coverage.rs:127,
`PartialEq`). -/
structure FileCoverage.Same (c c' : FileCoverage) : Prop where
  all : c.all = c'.all
  path : c.path = c'.path
  statementMap : c.statementMap.Same c'.statementMap
  fnMap : c.fnMap.Same c'.fnMap
  branchMap : c.branchMap.Same c'.branchMap
  s : c.s.Same c'.s
  f : c.f.Same c'.f
  b : c.b.Same c'.b
  bT : Option.Rel IndexMap.Same c.bT c'.bT
  inputSourceMap : c.inputSourceMap = c'.inputSourceMap

/-- The entries of a table are listed by ascending ids. -/
def IndexMap.Ordered {V : Type} (m : IndexMap Nat V) : Prop := m.keys.Pairwise (· < ·)

/-- All tables of a report are listed by ascending ids. -/
structure FileCoverage.Ordered (c : FileCoverage) : Prop where
  statementMap : c.statementMap.Ordered
  fnMap : c.fnMap.Ordered
  branchMap : c.branchMap.Ordered
  s : c.s.Ordered
  f : c.f.Ordered
  b : c.b.Ordered
  bT : ∀ t ∈ c.bT, t.Ordered

end Verif
