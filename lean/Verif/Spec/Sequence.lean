import Verif.Spec.Provenance
import Verif.Spec.Each
/-
The order of the entries of a report and the order of the source.
-/
namespace Verif

/-- The tables of a report: statements, functions and branches. -/
inductive Table where
  | s | f | b
deriving DecidableEq

/-- The first location is the second one or before it. -/
def Location.NotAfter (a b : Location) : Prop := a.line < b.line ∨ (a.line = b.line ∧ a.column ≤ b.column)

/-- The entries of a table with their ranges. That of a function is the range of its declaration. -/
def FileCoverage.shown (c : FileCoverage) : Table → List (Nat × Range)
  | .s => c.statementMap
  | .f => c.fnMap.map fun e => (e.1, e.2.decl)
  | .b => c.branchMap.map fun e => (e.1, e.2.loc.getD Range.zero)

/-- Of two entries the one with the smaller id does not start later in the source. Entries without position (those with the
zero range) do not matter. -/
def FileCoverage.InOrder (c : FileCoverage) (t : Table) : Prop :=
  ∀ e ∈ c.shown t, ∀ e' ∈ c.shown t, e.1 < e'.1 → e.2 ≠ Range.zero → e'.2 ≠ Range.zero → e.2.start.NotAfter e'.2.start

namespace Node

/-- The positions of the entries that a node may have in a table: statements are entered with their own position, initialisers and the
bodies of `=> e` likewise, but for the node they belong to; functions with that of their name, if they have one; branches with their own. -/
def entries : Table → Node → List Span
  | .s, mk .varDeclarator _ (_ :: init :: _) => [init.span]
  | .s, mk .classProp _ (_ :: value :: _) => [value.span]
  | .s, mk .privateProp _ (_ :: value :: _) => [value.span]
  | .s, mk (.arrow _) _ [_, body] => if body.kind = .block then [] else [body.span]
  | .s, mk k sp _ => if k.marks ∨ k = .exportDecl then [sp] else []
  | .f, mk .fnDecl _ [ident, fn] => [if ident.kind.ident?.isSome then ident.span else fn.span]
  | .f, mk .fnExpr _ [ident, fn] => [if ident.kind.ident?.isSome then ident.span else fn.span]
  | .f, mk .classMethod _ (key :: _) => [key.span]
  | .f, mk .methodProp _ (key :: _) => [key.span]
  | .f, mk .getterProp sp (key :: _) => [if key.kind.prop?.isSome then key.span else sp]
  | .f, mk .setterProp sp (key :: _) => [if key.kind.prop?.isSome then key.span else sp]
  | .f, mk (.arrow _) sp _ => [sp]
  | .f, _ => []
  | .b, mk k sp _ => if k.branchType.isSome then [sp] else []

/-- There is nothing in the tree that may have an entry in the table. -/
def inert (t : Table) (n : Node) : Bool := n.each.all fun x => (x.entries t).isEmpty

/-- The test of an `if`, which is visited after the arms, has no entries, and no initialiser is a tagged template, which would be visited
twice. -/
def orderly (t : Table) : Node → Bool
  | mk .ifStmt _ [test, _, _] => test.inert t
  | mk .varDeclarator _ (_ :: init :: _) => init.kind ≠ .taggedTpl
  | mk .classProp _ (_ :: value :: _) => value.kind ≠ .taggedTpl
  | mk .privateProp _ (_ :: value :: _) => value.kind ≠ .taggedTpl
  | _ => true

/-- That is so for all nodes of the tree. -/
def Orderly (t : Table) (n : Node) : Prop := ∀ x ∈ n.each, x.orderly t = true

/-- The places at which entries of a tree start, from the root to the leaves and from left to right. Entries without position are left
out. -/
def starts (t : Table) (n : Node) : List Nat := ((n.each.flatMap (entries t)).map fun sp => sp.lo).filter (· ≠ 0)

/-- The constructs that may have entries are listed in the tree in the order of the source. (The parts of a node are listed in the order in
which they are visited. It is the order of the source except for a few: the test of a `do` loop, decorators.) -/
def AsWritten (t : Table) (n : Node) : Prop := (n.starts t).Pairwise (· ≤ ·)

/-- All nodes of the tree are listed in the order of the source. -/
def Ascending (n : Node) : Prop := ((n.each.map fun x => x.span.lo).filter (· ≠ 0)).Pairwise (· ≤ ·)

end Node
end Verif
