import Verif.Model.Template
import Verif.Model.Json
/-
spec/util/read-coverage.ts: reading the coverage data off the text of an instrumented program without running it.

The program is one of the fragment `Js`. The base class `Visitor` of @swc/core, which is not part of the
repository, is taken to visit all children of a node from left to right. Simplifications: user code that is not
of the fragment (`extern`) is taken to contain no function declarations and no object literals, property keys are
identifiers or numerals, and an array with holes has `null` in their place.
-/
namespace Verif.Reader
open Js

/-- read-coverage.ts:34-36: the state of `CoverageReadVisitor`, with function declarations as their bodies. -/
structure Search where
  current : Option Stmts
  scope : Option Stmts

/-- read-coverage.ts:54-59: is this the property that marks coverage data? -/
def isMark (magic k : String) : Expr → Bool
  | .str v _ => k == Template.magicKey && v == magic
  | _ => false

/-- read-coverage.ts:47-64 `visitObjectProperty`, for all properties of a literal. The values are not visited. -/
def visitProps (magic : String) : Props → Search → Search
  | .nil, s => s
  | .cons k e ps, s => visitProps magic ps (if isMark magic k e then { s with scope := s.current } else s)

mutual
/-- `Visitor.visitExpression`. -/
def visitExpr (magic : String) : Expr → Search → Search
  | .obj ps, s => visitProps magic ps s
  | .arr es, s => visitExprs magic es s
  | .member o _, s => visitExpr magic o s
  | .index o i, s => visitExpr magic i (visitExpr magic o s)
  | .call f args, s => visitExprs magic args (visitExpr magic f s)
  | .newFn t, s => visitExpr magic t s
  | .assign t v, s => visitExpr magic v (visitExpr magic t s)
  | .incr t, s => visitExpr magic t s
  | .and l r, s => visitExpr magic r (visitExpr magic l s)
  | .or l r, s => visitExpr magic r (visitExpr magic l s)
  | .not e, s => visitExpr magic e s
  | .ne l r, s => visitExpr magic r (visitExpr magic l s)
  | .cond t c a, s => visitExpr magic a (visitExpr magic c (visitExpr magic t s))
  | .seq es, s => visitExprs magic es s
  | .paren e, s => visitExpr magic e s
  | .fn body, s => visitStmts magic body s
  | .str _ _, s => s
  | .num _, s => s
  | .bool _, s => s
  | .null, s => s
  | .ident _, s => s
  | .extern _, s => s

/-- `Visitor` on lists of expressions. -/
def visitExprs (magic : String) : Exprs → Search → Search
  | .nil, s => s
  | .cons e es, s => visitExprs magic es (visitExpr magic e s)

/-- `Visitor.visitStatement`, and read-coverage.ts:40-45 `visitFunctionDeclaration`. -/
def visitStmt (magic : String) : Stmt → Search → Search
  | .var _ e, s => visitExpr magic e s
  | .expr e, s => visitExpr magic e s
  | .ifThen c t, s => visitStmt magic t (visitExpr magic c s)
  | .block ss, s => visitStmts magic ss s
  | .ret e, s => visitExpr magic e s
  | .fnDecl _ body, s =>
    let s := visitStmts magic body { s with current := some body }
    { s with current := none }

/-- `Visitor.visitStatements`. -/
def visitStmts (magic : String) : Stmts → Search → Search
  | .nil, s => s
  | .cons t ts, s => visitStmts magic ts (visitStmt magic t s)
end

/-- read-coverage.ts:69-71: the function declaration with the data. -/
def findScope (magic : String) (p : Stmts) : Option Stmts := (visitStmts magic p ⟨none, none⟩).scope

/-- read-coverage.ts:79-97: the initialiser of the first variable of the given name that is declared directly in
the body. -/
def findVar (x : String) : Stmts → Option Expr
  | .nil => none
  | .cons (.var y e) ss => if y = x then some e else findVar x ss
  | .cons _ ss => findVar x ss

/-- Assignment to an element of an array. -/
def setAt (l : List Data) (i : Nat) (d : Data) : List Data :=
  if i < l.length then l.set i d else l ++ List.replicate (i - l.length) .null ++ [d]

/-- The array a property holds, or a new one: read-coverage.ts:122-124. -/
def arrayAt (o : IndexMap String Data) (k : String) : List Data :=
  match IndexMap.get o k with
  | some (.arr l) => l
  | _ => []

mutual
/-- read-coverage.ts:105-137 `setPropertiesRecursive`. Literals and identifiers have a `value`, for an identifier it is
its name. -/
def setRec (o : IndexMap String Data) (k : String) : Expr → IndexMap String Data
  | .obj ps => IndexMap.insert o k (.obj (setProps [] ps))
  | .arr .nil => IndexMap.insert o k (.arr [])
  | .arr (.cons e es) => IndexMap.insert o k (.arr (setElems (setElem (arrayAt o k) 0 e) 1 es))
  | .str v _ => IndexMap.insert o k (.str v)
  | .num n => IndexMap.insert o k (.num n)
  | .bool b => IndexMap.insert o k (.bool b)
  | .ident x => IndexMap.insert o k (.str x)
  | _ => o

/-- read-coverage.ts:114-116. -/
def setProps (o : IndexMap String Data) : Props → IndexMap String Data
  | .nil => o
  | .cons k e ps => setProps (setRec o k e) ps

/-- read-coverage.ts:126-133: one element. What is neither an object nor has a value is left out. -/
def setElem (l : List Data) (i : Nat) : Expr → List Data
  | .obj ps => setAt l i (.obj (setProps [] ps))
  | .str v _ => l ++ [.str v]
  | .num n => l ++ [.num n]
  | .bool b => l ++ [.bool b]
  | .ident x => l ++ [.str x]
  | _ => l

/-- read-coverage.ts:121-134. -/
def setElems (l : List Data) (i : Nat) : Exprs → List Data
  | .nil => l
  | .cons e es => setElems (setElem l i e) (i + 1) es
end

/-- read-coverage.ts:88-140: the loop over the names. -/
def collect (body : Stmts) : List String → IndexMap String Data → Option (IndexMap String Data)
  | [], o => some o
  | x :: xs, o =>
    match findVar x body with
    | none => none
    | some e => collect body xs (setRec o x e)

/-- `delete o[k]` -/
def delete (k : String) : Data → Data
  | .obj fs => .obj (fs.filter fun e => e.1 ≠ k)
  | d => d

/-- read-coverage.ts:66-146 `readInitialCoverage`, after parsing. Nothing is JavaScript's `null`. -/
def read (magic : String) (p : Stmts) : Except Js.Err (Option (IndexMap String Data)) :=
  match findScope magic p with
  | none => .ok none
  | some body =>
    match collect body ["path", "hash", "gcv", "coverageData"] [] with
    | none => .ok none
    | some o =>
      match IndexMap.get o "coverageData" with
      | none => .error .typeError
      | some d => .ok (some (IndexMap.insert o "coverageData" (delete "hash" (delete Template.magicKey d))))

end Verif.Reader
