import Verif.Model.Counter
/-
Reading an instrumented program: its counters, its source positions, and the program that is left
when the counters are deleted.
-/
namespace Verif
namespace Node

mutual
/-- The counters incremented somewhere in a tree, from left to right. -/
def sites : Node → List Counter
  | mk (.counter c) _ cs => c :: sitesList cs
  | mk _ _ cs => sitesList cs

/-- The counters of a list of trees. -/
def sitesList : List Node → List Counter
  | [] => []
  | c :: cs => sites c ++ sitesList cs
end

mutual
/-- All spans of a tree. -/
def spans : Node → List Span
  | mk _ sp cs => sp :: spansList cs

/-- All spans of a list of trees. -/
def spansList : List Node → List Span
  | [] => []
  | c :: cs => spans c ++ spansList cs
end

/-- A statement consisting of a counter increment. -/
def isCounterStmt : Node → Bool
  | mk .exprStmt _ [mk (.counter _) _ _] => true
  | _ => false

/-- What instrumentation may add to a list of statements or module items. -/
def isInjectedItem (n : Node) : Bool :=
  isCounterStmt n || n.kind = .covDecl || n.kind = .covCall

/-- Remove `(counter, e)` and `counter, (temp = e, ..., temp)` around an expression `e`. -/
def unwrap : Node → Node
  | mk .paren _ [mk .seq _ [mk (.counter _) _ _, e]] => unwrap e
  | mk .seq _ [mk (.counter _) _ _, mk .seq _ [mk (.assign _) _ [mk (.temp true) _ _, e], _, mk (.temp false) _ _]] =>
    unwrap e
  | n => n

/-- A statement as a block. (A body that is nothing but a counter would be an empty block.) -/
def asBlock : Node → Node
  | mk .block sp ss => mk .block sp ss
  | s => mk .block Span.dummy (if isInjectedItem s then [] else [s])

/-- An optional `else` as a block. -/
def asElse (alt : Node) : Node := if alt.isNone then mk .block Span.dummy [] else asBlock alt

/-- The body of an arrow function as a block: an expression `e` becomes `{ return e }`. -/
def asArrowBody : Node → Node
  | mk .block sp ss => mk .block sp ss
  | e => mk .block Span.dummy [mk .returnStmt e.span [e]]

/-- Apply a function to the last element. -/
def mapLast (f : Node → Node) : List Node → List Node
  | [] => []
  | [c] => [f c]
  | c :: cs => c :: mapLast f cs

/-- Kinds whose expression children may be wrapped with a counter. -/
def _root_.Verif.Kind.wraps : Kind → Bool
  | .cond | .bin _ | .assignPat | .varDeclarator | .classProp | .privateProp => true
  | _ => false

/-- Delete the counters directly below a node and bring its bodies into normal form: bodies of `if`,
loops and `with` are blocks, a missing `else` is an empty block, the body of an arrow function is a block. -/
def tidy (k : Kind) (cs : List Node) : List Node :=
  match k, cs with
  | .block, ss => ss.filter fun s => !isInjectedItem s
  | .module, ss => ss.filter fun s => !isInjectedItem s
  | .script, ss => ss.filter fun s => !isInjectedItem s
  | .switchCase, test :: ss => test :: ss.filter fun s => !isInjectedItem s
  | .ifStmt, [test, cons, alt] => [test, asBlock cons, asElse alt]
  | .loop _, cs => mapLast asBlock cs
  | .withStmt, [obj, body] => [obj, asBlock body]
  | .arrow _, [params, body] => [params, asArrowBody body]
  | k, cs => if k.wraps then cs.map unwrap else cs

mutual
/-- The program that is left when the counters are deleted, in normal form. -/
def strip : Node → Node
  | mk k sp cs => mk k sp (tidy k (stripList cs))

/-- `strip` on lists. -/
def stripList : List Node → List Node
  | [] => []
  | c :: cs => strip c :: stripList cs
end

/-- The normal form alone, without deleting anything. -/
def tidyBodies (k : Kind) (cs : List Node) : List Node :=
  match k, cs with
  | .ifStmt, [test, cons, alt] =>
    [test, (if cons.kind = .block then cons else mk .block Span.dummy [cons]),
      if alt.isNone then mk .block Span.dummy []
      else if alt.kind = .block then alt else mk .block Span.dummy [alt]]
  | .loop _, cs => mapLast (fun b => if b.kind = .block then b else mk .block Span.dummy [b]) cs
  | .withStmt, [obj, body] => [obj, if body.kind = .block then body else mk .block Span.dummy [body]]
  | .arrow _, [params, body] => [params, asArrowBody body]
  | _, cs => cs

mutual
/-- Bodies of `if`, loops and `with` made blocks, missing `else` made an empty block, arrow functions
given a block body. These rewritings do not change what a program does. -/
def norm : Node → Node
  | mk k sp cs => mk k sp (tidyBodies k (normList cs))

/-- `norm` on lists. -/
def normList : List Node → List Node
  | [] => []
  | c :: cs => norm c :: normList cs
end

/-- Node kinds that only instrumentation produces. -/
def _root_.Verif.Kind.injected : Kind → Bool
  | .counter _ | .temp _ | .covDecl | .covCall => true
  | _ => false

/-- A source program: nothing injected in it. -/
def Clean (n : Node) : Prop := n.any Kind.injected = false

mutual
/-- The number of nodes whose kind has a property. -/
def countKinds (p : Kind → Bool) : Node → Nat
  | mk k _ cs => (if p k then 1 else 0) + countKindsList p cs

/-- `countKinds` on lists. -/
def countKindsList (p : Kind → Bool) : List Node → Nat
  | [] => 0
  | c :: cs => countKinds p c + countKindsList p cs
end

/-- Kinds of nodes that occur in what instrumentation adds or takes away. -/
def _root_.Verif.Kind.added : Kind → Bool
  | .block | .exprStmt | .returnStmt | .paren | .seq | .assign _ | .cond | .bin _ | .list | .counter _
  | .temp _ | .ident _ | .other _ _ | .none => true
  | _ => false

/-! ### Where counters for a statement are collected -/

/-- Node kinds whose visit asks for a counter before the enclosing statement. -/
def _root_.Verif.Kind.marks : Kind → Bool
  | .taggedTpl | .exprStmt | .breakStmt | .returnStmt | .loop _ | .labeled | .continueStmt
  | .switchStmt | .ifStmt | .tryStmt | .throwStmt | .withStmt | .varDeclarator | .classProp
  | .privateProp | .exportDecl => true
  | _ => false

/-- Do counters asked for below this position go before the same statement as those of the node itself?
Not if the position is in a statement list: all children of a block, all but the first child of a switch
case. -/
def _root_.Verif.Kind.carries (k : Kind) (first : Bool) : Bool :=
  match k with
  | .block => false
  | .switchCase => first
  | _ => true

mutual
/-- Visiting the tree asks for no counter before the enclosing statement. -/
def quiet : Node → Bool
  | mk k _ cs => !k.marks && quietList k true cs

/-- `quiet` on the children that carry. -/
def quietList (k : Kind) (first : Bool) : List Node → Bool
  | [] => true
  | c :: cs => (!k.carries first || quiet c) && quietList k false cs
end

mutual
/-- No part of a switch statement outside the statements of its cases asks for a counter before the
switch statement: neither the discriminant nor a case test contains, outside of nested statement lists, a tagged
template or a class field. -/
def quietSwitches : Node → Bool
  | mk k _ cs => (!(k = .switchStmt) || cs.all quiet) && quietSwitchesList cs

/-- `quietSwitches` on lists. -/
def quietSwitchesList : List Node → Bool
  | [] => true
  | c :: cs => quietSwitches c && quietSwitchesList cs
end

end Node
end Verif
