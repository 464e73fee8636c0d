import Verif.Model.Hint
/-
Syntax trees, as far as the visitors look at them (swc_ecma_ast).

One rose tree: kind, span, children in the field order of the SWC structs, which is the order of the
default traversal. SWC's enum wrappers (`Expr`, `Stmt`, `Decl`, `Box`, ...) have no node of their own:
visiting the children of a wrapper is visiting the wrapped node. An absent optional field is a `none`
node, a `Vec` field is a `list` node unless noted. `FnExpr`, `FnDecl`, `MethodProp`, `ClassExpr` and
`ClassDecl` have no span of their own in SWC; their node carries the span of their function or class,
which is the span the code uses for them.
-/
namespace Verif

/-- `VarDeclKind`. -/
inductive VarKind where
  | var | «let» | const
deriving DecidableEq, Repr

/-- The five loop statements. -/
inductive LoopKind where
  | «for» | forIn | forOf | «while» | doWhile
deriving DecidableEq, Repr

/-- `BinaryOp`: the logical operators, and everything else. -/
inductive BinOp where
  | and | or | nullish | other (name : String)
deriving DecidableEq, Repr

/-- `BinaryOp::LogicalOr | BinaryOp::LogicalAnd | BinaryOp::NullishCoalescing`. -/
def BinOp.isLogical : BinOp → Bool
  | .and | .or | .nullish => true
  | .other _ => false

/-- The counter an injected increment refers to: `s[id]`, `f[id]`, `b[id][arm]`, `bT[id][arm]`. -/
inductive Counter where
  | s (id : Nat)
  | f (id : Nat)
  | b (id arm : Nat)
  | bT (id arm : Nat)
deriving DecidableEq, Repr

/-- Syntactic category of a node kind that the visitors do not single out. -/
inductive Cat where
  /-- an expression -/
  | expr
  /-- a statement -/
  | stmt
  /-- a module declaration (import, export, ...) -/
  | decl
  /-- anything else (patterns, properties, class bodies, template parts, ...) -/
  | misc
deriving DecidableEq, Repr

/-- Node kinds. The comment gives the children. -/
inductive Kind where
  /-- `BlockStmt`: the statements -/
  | block
  /-- `ExprStmt`: expr -/
  | exprStmt
  /-- `VarDecl`: the declarators -/
  | varDecl (k : VarKind)
  /-- `VarDeclarator`: name, init? -/
  | varDeclarator
  /-- `FnDecl`: ident, function -/
  | fnDecl
  /-- `ClassDecl`: ident, class -/
  | classDecl
  /-- `IfStmt`: test, cons, alt? -/
  | ifStmt
  /-- `ForStmt`: init?, test?, update?, body; `ForInStmt`, `ForOfStmt`: left, right, body;
  `WhileStmt`, `DoWhileStmt`: test, body. The body is last in all of them. -/
  | loop (k : LoopKind)
  /-- `LabeledStmt`: label, body -/
  | labeled
  /-- `SwitchStmt`: discriminant, then the cases -/
  | switchStmt
  /-- `SwitchCase`: test?, then the statements -/
  | switchCase
  /-- `TryStmt`: block, handler?, finalizer? -/
  | tryStmt
  /-- `ThrowStmt`: arg -/
  | throwStmt
  /-- `ReturnStmt`: arg? -/
  | returnStmt
  /-- `BreakStmt`: label? -/
  | breakStmt
  /-- `ContinueStmt`: label? -/
  | continueStmt
  /-- `WithStmt`: obj, body -/
  | withStmt
  /-- `DebuggerStmt` -/
  | debugger
  /-- `ArrowExpr`: params (list), body (block or expression) -/
  | arrow (attrs : String)
  /-- `FnExpr`: ident?, function -/
  | fnExpr
  /-- `ClassExpr`: ident?, class -/
  | classExpr
  /-- `CondExpr`: test, cons, alt -/
  | cond
  /-- `BinExpr`: left, right -/
  | bin (op : BinOp)
  /-- `TaggedTpl`: tag, tpl -/
  | taggedTpl
  /-- `ParenExpr`: expr -/
  | paren
  /-- `SeqExpr`: the expressions -/
  | seq
  /-- `AssignExpr`: left, right -/
  | assign (op : String)
  /-- `Lit::Str` -/
  | strLit (value : String)
  /-- `Ident` -/
  | ident (name : String)
  /-- An injected counter increment, see `Model/Counter.lean` for the tree it stands for. -/
  | counter (c : Counter)
  /-- The injected member expression `cov().temp`, as an expression or as an assignment target. -/
  | temp (target : Bool)
  /-- `Function`: params (list), decorators (list), body? (block) -/
  | function (attrs : String)
  /-- `ClassProp`: key, value?, decorators (list) -/
  | classProp
  /-- `PrivateProp`: key, value?, decorators (list) -/
  | privateProp
  /-- `ClassMethod`: key, function -/
  | classMethod
  /-- `MethodProp`: key, function -/
  | methodProp
  /-- `GetterProp`: key, body? -/
  | getterProp
  /-- `SetterProp`: key, this_param?, param, body? (body last) -/
  | setterProp
  /-- `PropName::Ident` -/
  | propIdent (name : String)
  /-- `AssignPat`: left, right -/
  | assignPat
  /-- `ExportDecl`: decl -/
  | exportDecl
  /-- `ExportDefaultDecl`: decl -/
  | exportDefault
  /-- `Module`: the items -/
  | module
  /-- `Script`: the statements -/
  | script
  /-- an absent optional field -/
  | none
  /-- a vector field -/
  | list
  /-- the injected declaration of the coverage function -/
  | covDecl
  /-- the injected call of the coverage function -/
  | covCall
  /-- any other node: only ever traversed by default -/
  | other (cat : Cat) (name : String)
deriving DecidableEq, Repr

namespace Kind

/-- Nodes that are wrapped in `Expr`. -/
def isExpr : Kind → Bool
  | arrow _ | fnExpr | classExpr | cond | bin _ | taggedTpl | paren | seq | assign _ | strLit _
  | ident _ | counter _ | temp false | other .expr _ => true
  | _ => false

/-- Nodes that are wrapped in `Stmt`. -/
def isStmt : Kind → Bool
  | block | exprStmt | varDecl _ | fnDecl | classDecl | ifStmt | loop _ | labeled | switchStmt
  | tryStmt | throwStmt | returnStmt | breakStmt | continueStmt | withStmt | debugger
  | covDecl | covCall | other .stmt _ => true
  | _ => false

/-- Nodes that are wrapped in `ModuleItem::ModuleDecl`. -/
def isModuleDecl : Kind → Bool
  | exportDecl | exportDefault | other .decl _ => true
  | _ => false

/-- A logical binary expression. -/
def isLogical : Kind → Bool
  | bin op => op.isLogical
  | _ => false

/-- What `HoistingFinder` looks for, visitors/finders.rs:16-28. -/
def isHoisting : Kind → Bool
  | fnExpr | arrow _ | classExpr => true
  | _ => false

/-- What `BlockStmtFinder` looks for, visitors/finders.rs:40-44. -/
def isBlock : Kind → Bool
  | block => true
  | _ => false

end Kind

/-- Syntax trees. -/
inductive Node where
  | mk (kind : Kind) (span : Span) (children : List Node)
deriving Repr

namespace Node

/-- The kind of the root. -/
def kind : Node → Kind
  | mk k _ _ => k

/-- The span of the root (`Spanned::span`). -/
def span : Node → Span
  | mk _ sp _ => sp

/-- The children of the root. -/
def children : Node → List Node
  | mk _ _ cs => cs

mutual
/-- Equality of trees is decidable. -/
def decEq : (a b : Node) → Decidable (a = b)
  | mk k sp cs, mk k' sp' cs' =>
    if hk : k = k' then
      if hs : sp = sp' then
        match decEqList cs cs' with
        | isTrue hc => isTrue (by subst hk hs hc; rfl)
        | isFalse hc => isFalse (by intro h; cases h; exact hc rfl)
      else isFalse (by intro h; cases h; exact hs rfl)
    else isFalse (by intro h; cases h; exact hk rfl)

/-- Equality of lists of trees is decidable. -/
def decEqList : (a b : List Node) → Decidable (a = b)
  | [], [] => isTrue rfl
  | [], _ :: _ => isFalse (by intro h; cases h)
  | _ :: _, [] => isFalse (by intro h; cases h)
  | a :: as, b :: bs =>
    match decEq a b with
    | isTrue h1 =>
      match decEqList as bs with
      | isTrue h2 => isTrue (by rw [h1, h2])
      | isFalse h2 => isFalse (by intro h; cases h; exact h2 rfl)
    | isFalse h1 => isFalse (by intro h; cases h; exact h1 rfl)
end

instance : DecidableEq Node := decEq

mutual
/-- Does some node of the tree have a kind with the given property? (The finder visitors.) -/
def any (p : Kind → Bool) : Node → Bool
  | mk k _ cs => p k || anyList p cs

/-- `any` on a list of trees. -/
def anyList (p : Kind → Bool) : List Node → Bool
  | [] => false
  | c :: cs => any p c || anyList p cs
end

/-- Induction over trees: the property of a node may use it for all its children. -/
theorem ind {P : Node → Prop} (h : ∀ k sp cs, (∀ c ∈ cs, P c) → P (mk k sp cs)) : ∀ n, P n := by
  intro n
  exact Node.rec (motive_1 := P) (motive_2 := fun cs => ∀ c ∈ cs, P c)
    (fun k sp cs ih => h k sp cs ih)
    (fun c hc => by cases hc)
    (fun c cs hc hcs x hx => by
      rcases List.mem_cons.1 hx with rfl | hx
      · exact hc
      · exact hcs x hx) n

/-- The name of an identifier node. -/
def identName? : Node → Option String
  | mk (.ident n) _ _ => some n
  | _ => none

/-- The name of a `PropName::Ident` node. -/
def propName? : Node → Option String
  | mk (.propIdent n) _ _ => some n
  | _ => none

/-- Is an optional field absent? -/
def isNone : Node → Bool
  | mk .none _ [] => true
  | _ => false

/-- An absent optional field. -/
def absent : Node := mk .none Span.dummy []

end Node
end Verif
