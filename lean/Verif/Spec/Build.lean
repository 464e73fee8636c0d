import Verif.Model.Program
/-
Short names for building example programs. The span of a node is given by one number: `at' n` stands for the
positions from `n` to `n + 1`, and the example source map puts position `n` on line `n`.
-/
namespace Verif
namespace Build
open Node

/-- The span from position `n` to `n + 1`. -/
def at' (n : Nat) : Span := ⟨n, n + 1⟩

/-- A context without comments, one position per line. -/
def plain : Ctx where
  cc := ⟨fun c => c = ' ', fun c => c.isAlphanum⟩
  comments := ⟨fun _ => [], fun _ => []⟩
  pos n := ⟨n, 0⟩
  reportLogic := false
  ignoreMethods := []

/-- The same with one comment text leading position `p`. -/
def hinted (p : Nat) (text : String) : Ctx :=
  { plain with comments := ⟨fun q => if q = p then [text.toList] else [], fun _ => []⟩ }

/-- An identifier expression. -/
def ident (n : Nat) (name : String) : Node := mk (.ident name) (at' n) []
/-- A number literal. -/
def num (n : Nat) (v : String) : Node := mk (.other .expr ("Num " ++ v)) (at' n) []
/-- An expression statement. -/
def expr (n : Nat) (e : Node) : Node := mk .exprStmt (at' n) [e]
/-- A call with arguments. -/
def call (n : Nat) (f : Node) (args : List Node) : Node :=
  mk (.other .expr "Call") (at' n) [f, mk .list Span.dummy args]
/-- A variable declaration with one declarator. -/
def decl (n : Nat) (k : VarKind) (name : String) (init : Node) : Node :=
  mk (.varDecl k) (at' n) [mk .varDeclarator (at' n) [ident n name, init]]
/-- An arrow function without parameters. -/
def arrow (n : Nat) (body : Node) : Node := mk (.arrow "") (at' n) [mk .list Span.dummy [], body]
/-- A block. -/
def block (n : Nat) (ss : List Node) : Node := mk .block (at' n) ss
/-- A function with parameters and body. -/
def function (n : Nat) (params : List Node) (body : Node) : Node :=
  mk (.function "") (at' n) [mk .list Span.dummy params, mk .list Span.dummy [], body]
/-- A function declaration. -/
def fnDecl (n : Nat) (name : String) (params : List Node) (ss : List Node) : Node :=
  mk .fnDecl (at' n) [ident n name, function n params (block n ss)]
/-- A logical or other binary expression. -/
def bin (n : Nat) (op : BinOp) (a b : Node) : Node := mk (.bin op) (at' n) [a, b]
/-- A conditional expression. -/
def cond (n : Nat) (a b c : Node) : Node := mk .cond (at' n) [a, b, c]
/-- A tagged template. -/
def tagged (n : Nat) (tag : Node) (exprs : List Node) : Node :=
  mk .taggedTpl (at' n) [tag, mk (.other .misc "Tpl") (at' n) exprs]
/-- A module. -/
def module (items : List Node) : Node := mk .module ⟨1, 1000⟩ items
/-- A script. -/
def script (items : List Node) : Node := mk .script ⟨1, 1000⟩ items

/-- Instrument with a generous bound. -/
def run (cx : Ctx) (p : Node) : Except Panic (Node × SourceCoverage) :=
  Visitor.instrument cx 60 "/f.js" none p

/-- Instrumentation succeeds with a program and data that pass a check. -/
def yields (x : Except Panic (Node × SourceCoverage)) (f : Node → FileCoverage → Bool) : Bool :=
  match x with
  | .ok (p, c) => f p c.inner
  | .error _ => false

theorem of_yields {x : Except Panic (Node × SourceCoverage)} {f : Node → FileCoverage → Bool}
    (h : yields x f = true) : ∃ p c, x = .ok (p, c) ∧ f p c.inner = true := by
  unfold yields at h
  split at h
  · next p c => exact ⟨p, c, rfl, h⟩
  · cases h

mutual
/-- The counters of a tree from left to right. -/
def counters : Node → List Counter
  | mk (.counter c) _ _ => [c]
  | mk _ _ cs => countersList cs
/-- The counters of a list of trees. -/
def countersList : List Node → List Counter
  | [] => []
  | c :: cs => counters c ++ countersList cs
end

end Build
end Verif
