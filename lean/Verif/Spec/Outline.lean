import Verif.Spec.ArmsOf
/-
The statements, functions and branches of a program as a function of the source, in the order in which they are numbered.
-/
namespace Verif
open Node

/-- A statement, function or branch that is counted. Whether one that is not sure is counted depends on what comes before it. -/
inductive Entry where
  | statement (range : Range) (sure : Bool)
  | function (name : Option String) (decl loc : Range)
  | branch (type : BranchType) (range : Range) (arms : List Range)
deriving DecidableEq, Repr

namespace Entry

/-- The branches of a list of entries. -/
def branches : List Entry → List Branch
  | [] => []
  | statement .. :: es | function .. :: es => branches es
  | branch t r arms :: es => ⟨some r, t, arms, some r.start.line⟩ :: branches es

/-- The functions of a list of entries, of which the first has number `k`. One without a name is called after its number. -/
def functions (k : Nat) : List Entry → List Function
  | [] => []
  | function name decl loc :: es => ⟨name.getD ("(anonymous_" ++ toString k ++ ")"), decl, loc, loc.start.line⟩ :: functions (k + 1) es
  | statement .. :: es | branch .. :: es => functions k es

/-- The statements of a list of entries. -/
def statements : List Entry → List (Range × Bool)
  | [] => []
  | statement r sure :: es => (r, sure) :: statements es
  | function .. :: es | branch .. :: es => statements es

end Entry

/-- The second list has the elements of the first, in this order, except for some that are not sure. -/
inductive Picks : List (α × Bool) → List α → Prop where
  | nil : Picks [] []
  | take {a : α} {sure : Bool} {l : List (α × Bool)} {l' : List α} : Picks l l' → Picks ((a, sure) :: l) (a :: l')
  | drop {a : α} {l : List (α × Bool)} {l' : List α} : Picks l l' → Picks ((a, false) :: l) l'

/-- How a part of a construct is looked at: not at all; as a part of the program outside of statement lists; as a part inside of such a list; as the
body of a statement or arrow function, in which case the hint before a block is not looked for. -/
inductive Look where
  | skip | outer | inner | body
deriving DecidableEq, Repr

namespace Node

/-- A statement of a list: it is left out if a hint says so, or if it is itself a counter of a statement or function. -/
def lookStmt (cx : Ctx) (s : Node) : Look := if cx.hinted s || isInjectedStmt s then .skip else .inner

/-- The last part of a loop is its body. -/
def lookLoop (cx : Ctx) (l : Look) : List Node → List Look
  | [] => []
  | [b] => [if b.kind = .block then l else if cx.hint Span.dummy = some .next then .skip else lookStmt cx b]
  | _ :: cs => l :: lookLoop cx l cs

/-- How the parts of a construct are looked at, if the construct is looked at in this way. -/
def looks (cx : Ctx) (l : Look) : Node → List Look
  | mk .block _ ss => ss.map (lookStmt cx)
  | mk .switchCase _ (_ :: ss) => l :: ss.map (lookStmt cx)
  | mk .switchStmt _ cs => cs.map fun _ => .inner
  | mk (.arrow _) _ [_, b] => [.skip, if b.kind = .block then .body else if cx.hinted b then .skip else .inner]
  | mk .ifStmt sp [_, _, alt] =>
    [l, if cx.hint sp = some .if then .skip else .body, if cx.hint sp = some .else || alt.isNone then .skip else .body]
  | mk .withStmt _ [_, _] => [.skip, .body]
  | mk (.loop _) _ cs => lookLoop cx l cs
  | mk .exprStmt _ [mk (.strLit v) _ _] => [if v ∈ ["use strict", "use asm", "use strong"] then .skip else l]
  | mk .fnExpr _ [ident, _] => if cx.excludes ident.identName? then [.skip, .skip] else [l, l]
  | mk .classMethod _ [key, _] => if key.propName? = none || cx.excludes key.propName? then [.skip, .skip] else [l, l]
  | mk .methodProp _ [key, _] | mk .getterProp _ [key, _] => if cx.excludes key.propName? then [.skip, .skip] else [l, l]
  | mk .setterProp _ [key, _, _, _] => if cx.excludes key.propName? then [.skip, .skip, .skip, .skip] else [l, l, l, l]
  | mk (.bin op) _ [left, right] =>
    if op.isLogical then [if leaf cx left then l else .skip, if leaf cx right then l else .skip] else [l, l]
  | mk .assignPat _ [_, right] => [.skip, if leaf cx right then l else .skip]
  | mk _ _ cs => cs.map fun _ => l

/-- An arrow function. -/
def isArrow : Node → Bool
  | mk (.arrow _) _ _ => true
  | _ => false

/-- An initialiser counts as a statement. If there are functions or classes in that of a variable, but no block, this is not sure. -/
def ofInit (cx : Ctx) (decl : Bool) (e : Node) : List Entry :=
  if e.isNone then []
  else if e.any Kind.isBlock then [.statement (cx.range e.span) true]
  else (if e.any Kind.isStmt then [.statement (cx.range e.span) true] else []) ++
    if e.any Kind.isHoisting && decl then [.statement (cx.range e.span) false]
    else if e.any Kind.isExpr then [.statement (cx.range e.span) true] else []

/-- What counts as a statement at a construct. -/
def counted (cx : Ctx) : Node → List Entry
  | mk .exprStmt _ [mk (.counter (.s _)) _ _] | mk .exprStmt _ [mk (.counter (.f _)) _ _] => []
  | mk .exprStmt sp [mk (.strLit v) _ _] => if v ∈ ["use strict", "use asm", "use strong"] then [] else [.statement (cx.range sp) true]
  | mk .exprStmt sp [_] | mk .ifStmt sp [_, _, _] | mk .withStmt sp [_, _] | mk .breakStmt sp _ | mk .continueStmt sp _ | mk .returnStmt sp _
  | mk .throwStmt sp _ | mk .labeled sp _ | mk .switchStmt sp _ | mk .tryStmt sp _ | mk (.loop _) sp _ | mk .taggedTpl sp _ =>
    [.statement (cx.range sp) true]
  | mk (.arrow _) _ [_, b] => if b.kind = .block || cx.hinted b then [] else [.statement (cx.range b.span) true]
  | mk .varDeclarator _ [_, e] => ofInit cx true e
  | mk .classProp _ [_, e, _] | mk .privateProp _ [_, e, _] => ofInit cx false e
  | _ => []

/-- The branch or function that a construct is. -/
def head (cx : Ctx) (n : Node) : List Entry :=
  match n.branch? cx, fnHead cx n, bodyOf n with
  | some (t, arms), _, _ => [.branch t (cx.range n.span) arms]
  | none, some (name, decl), some body =>
    if body.kind = .block || n.isArrow then [.function name (cx.range decl) (cx.range body.span)] else []
  | _, _, _ => []

/-- What a construct itself is. -/
def own (cx : Ctx) (n : Node) : List Entry := counted cx n ++ head cx n

/-- The order in which the parts of a construct are looked at: the test of an `if` comes last. -/
def inOrder : Node → List α → List α
  | mk .ifStmt _ _, [test, cons, alt] => [cons, alt, test]
  | _, es => es

/-- A hint before the construct excludes it. -/
def excluded (cx : Ctx) (l : Look) (n : Node) : Bool := cx.hinted n &&
  (n.hintable || n.isCase || (l = .outer && (n.kind = .exportDecl || n.kind = .exportDefault || n.kind = .debugger)))

mutual
/-- The entries of a construct. -/
def outline (cx : Ctx) (l : Look) : Node → List Entry
  | mk k sp cs =>
    if l = .skip then []
    else if l = .body && k = .block then (outlines cx (cs.map (lookStmt cx)) cs).flatten
    else if excluded cx l (mk k sp cs) then []
    else own cx (mk k sp cs) ++
      (inOrder (mk k sp cs) (outlines cx (looks cx (if l = .outer then .outer else .inner) (mk k sp cs)) cs)).flatten

/-- The entries of several constructs. -/
def outlines (cx : Ctx) : List Look → List Node → List (List Entry)
  | l :: ls, c :: cs => outline cx l c :: outlines cx ls cs
  | _, _ => []
end

/-- A string as a statement. -/
def isString : Node → Bool
  | mk .exprStmt _ [mk (.strLit _) _ _] => true
  | _ => false

/-- `export const …` -/
def isConst : Node → Bool
  | mk .exportDecl _ [mk (.varDecl .const) _ _] => true
  | _ => false

/-- The entries of an item of a module. -/
def itemOutline (cx : Ctx) (i : Node) : List Entry := if isString i then [] else
  (if isConst i then [.statement (cx.range i.span) true] else []) ++ outline cx (if cx.hinted i then .skip else .outer) i

/-- The entries of a program. -/
def programOutline (cx : Ctx) : Node → List Entry
  | mk .module sp items => if Hint.shouldIgnoreFile cx.cc cx.comments sp then [] else
    items.flatMap (itemOutline cx)
  | mk .script sp items => if Hint.shouldIgnoreFile cx.cc cx.comments sp then [] else items.flatMap (outline cx .outer)
  | _ => []

end Node
end Verif
