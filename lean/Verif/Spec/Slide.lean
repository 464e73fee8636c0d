import Verif.Model.Program
import Mathlib.Data.List.Forall2
/-
Code put before other code: trees and reports whose ids are moved up.
-/
namespace Verif

/-- By how much the ids of statements, functions and branches are moved up. -/
structure Offset where
  s : Nat
  f : Nat
  b : Nat
deriving DecidableEq, Repr

/-- The counter with moved ids. -/
def Counter.slide (d : Offset) : Counter → Counter
  | .s i => .s (d.s + i)
  | .f i => .f (d.f + i)
  | .b i a => .b (d.b + i) a
  | .bT i a => .bT (d.b + i) a

/-- The kind with moved ids. -/
def Kind.slide (d : Offset) : Kind → Kind
  | .counter c => .counter (c.slide d)
  | k => k

namespace Node

mutual
/-- The tree with moved ids in its counters. -/
def slide (d : Offset) : Node → Node
  | mk k sp cs => mk (k.slide d) sp (slideList d cs)
/-- The trees with moved ids in their counters. -/
def slideList (d : Offset) : List Node → List Node
  | [] => []
  | c :: cs => slide d c :: slideList d cs
end

/-- Nodes whose parts are visited by visitors of their own, with copies of the node stack: statement lists, arrow functions (of
parameters and a body), switches. -/
def _root_.Verif.Kind.shields : Kind → (parts : Nat) → Bool
  | .block, _ => true
  | .arrow _, 2 => true
  | .switchStmt, _ => true
  | _, _ => false

mutual
/-- There is a node with the property outside of statement lists, arrow functions and switches. -/
def exposes (p : Kind → Bool) : Node → Bool
  | mk k _ cs => p k || (!k.shields cs.length && exposesList p cs)
/-- One of the trees has such a node. -/
def exposesList (p : Kind → Bool) : List Node → Bool
  | [] => false
  | c :: cs => exposes p c || exposesList p cs
end

end Node

/-- What must not be exposed if the node stack is to be left as it was: logical expressions (and `case`s without a `switch`), and
with truthiness reporting tagged templates, which may be visited twice and then contain the logical expressions of the first visit. -/
def Kind.disturbs (reportLogic : Bool) : Kind → Bool
  | .bin op => op.isLogical
  | .switchCase => true
  | .taggedTpl => reportLogic
  | _ => false

/-- The name of a function that has none. -/
def anonymous (i : Nat) : String := "(anonymous_" ++ toString i ++ ")"

/-- A table, of which the entries below `n` are those of `a` and the others those of `b`, moved up by `n`. -/
def TableJoin {V : Type} (n : Nat) (a b r : IndexMap Nat V) : Prop :=
  ∀ k, r.get k = if k < n then a.get k else b.get (k - n)

/-- A report that is `r₁` followed by `r₂`, with the ids in `r₂` moved up by `d`; functions without a name are named after their new id. -/
structure Joined (d : Offset) (r₁ r₂ r : FileCoverage) : Prop where
  path : r.path = r₁.path
  sourceMap : r.inputSourceMap = r₁.inputSourceMap
  statementMap : r.statementMap = r₁.statementMap ++ r₂.statementMap.map fun e => (d.s + e.1, e.2)
  s : r.s = r₁.s ++ r₂.s.map fun e => (d.s + e.1, e.2)
  fnMap : ∃ l, r.fnMap = r₁.fnMap ++ l ∧ List.Forall₂ (fun (x y : Nat × Function) => x.1 = d.f + y.1 ∧ x.2.decl = y.2.decl ∧
    x.2.loc = y.2.loc ∧ x.2.line = y.2.line ∧
    (x.2.name = y.2.name ∨ y.2.name = anonymous y.1 ∧ x.2.name = anonymous x.1)) l r₂.fnMap
  f : r.f = r₁.f ++ r₂.f.map fun e => (d.f + e.1, e.2)
  branchMap : TableJoin d.b r₁.branchMap r₂.branchMap r.branchMap
  b : TableJoin d.b r₁.b r₂.b r.b
  bT : TableJoin d.b (r₁.bT.getD []) (r₂.bT.getD []) (r.bT.getD [])
  bTSome : r.bT.isSome = r₁.bT.isSome ∧ r.bT.isSome = r₂.bT.isSome

end Verif
