import Verif.Model.Ast
/-
Injected expressions: packages/swc-coverage-instrument/src/instrument/*.rs and the helpers that put
them into statements.
-/
namespace Verif
namespace Node

/-- create_increase_counter_expr.rs:7-63: the increment `cov().s[id]++` (etc.) as one opaque node. The
tree it stands for is `counterTree`. -/
def counterExpr (c : Counter) : Node := mk (.counter c) Span.dummy []

/-- `Stmt::Expr(ExprStmt { span: DUMMY_SP, expr: counter })`, e.g. instrumentation_counter_helper.rs:160-163. -/
def counterStmt (c : Counter) : Node := mk .exprStmt Span.dummy [counterExpr c]

/-- create_increase_counter_expr.rs:7-63 `create_increase_counter_expr`, literally. `cov` is the
name of the coverage function. -/
def counterTree (cov : String) (c : Counter) : Node :=
  let d := Span.dummy
  let call := mk (.other .expr "Call") d [mk (.ident cov) d [], mk .list d []]
  let num (n : Nat) := mk (.other .misc "Computed") d [mk (.other .expr ("Num " ++ toString n)) d []]
  let field (f : String) := mk (.other .expr "Member") d [call, mk (.other .misc ("IdentName " ++ f)) d []]
  let index (o : Node) (n : Nat) := mk (.other .expr "Member") d [o, num n]
  let arg := match c with
    | .s id => index (field "s") id
    | .f id => index (field "f") id
    | .b id arm => index (index (field "b") id) arm
    | .bT id arm => index (index (field "bT") id) arm
  mk (.other .expr "Update ++ postfix") d [arg]

/-- instrumentation_counter_helper.rs:210-227 `is_injected_counter_expr`: an update of a member of a
member of a call of the coverage function. That is the shape of `s` and `f` counters; `b` and
`bT` counters have one member access more (see `C33_injected_trees` in `Props/Syntax.lean`). -/
def isInjectedExpr : Node → Bool
  | mk (.counter (.s _)) _ _ => true
  | mk (.counter (.f _)) _ _ => true
  | _ => false

/-- instrumentation_counter_helper.rs:210-227 on the literal trees, where the names of updates begin with `Update`. -/
def isInjectedTree (cov : String) : Node → Bool
  | mk (.other .expr u) _
      [mk (.other .expr "Member") _
        [mk (.other .expr "Member") _ [mk (.other .expr "Call") _ (mk (.ident x) _ _ :: _), _], _]] =>
    "Update".toList.isPrefixOf u.toList && x = cov
  | _ => false

/-- instrumentation_counter_helper.rs:230-236 `is_injected_counter_stmt`. -/
def isInjectedStmt : Node → Bool
  | mk .exprStmt _ [e] => isInjectedExpr e
  | _ => false

/-- instrumentation_counter_helper.rs:47-59: `(counter, expr)`. -/
def wrapCounter (c : Counter) (e : Node) : Node :=
  mk .paren Span.dummy [mk .seq Span.dummy [counterExpr c, e]]

/-- `cov().temp` as an expression, create_increase_true_expr.rs:18-25. -/
def tempExpr : Node := mk (.temp false) Span.dummy []

/-- `cov().temp` as an assignment target. -/
def tempTarget : Node := mk (.temp true) Span.dummy []

/-- A call `obj.method(temp)`. -/
def callTemp (obj method : String) : Node :=
  let d := Span.dummy
  mk (.other .expr "Call") d
    [mk (.other .expr "Member") d [mk (.ident obj) d [], mk (.other .misc ("IdentName " ++ method)) d []],
     mk .list d [mk (.other .misc "ExprOrSpread") d [tempExpr]]]

/-- create_increase_true_expr.rs:61-189 `validate_true_non_trivial`:
`temp && ((!Array.isArray(temp) || temp.length) && (Object.getPrototypeOf(temp) !== Object.prototype
|| Object.values(temp).length))`. -/
def validateTrue : Node :=
  let d := Span.dummy
  let length (o : Node) := mk (.other .expr "Member") d [o, mk (.other .misc "IdentName length") d []]
  let leftForRight := mk .paren d [mk (.bin .or) d
    [mk (.other .expr "Unary !") d [callTemp "Array" "isArray"], length tempExpr]]
  let rightForRight := mk .paren d [mk (.bin .or) d
    [mk (.bin (.other "!==")) d
      [callTemp "Object" "getPrototypeOf",
       mk (.other .expr "Member") d [mk (.ident "Object") d [], mk (.other .misc "IdentName prototype") d []]],
     length (callTemp "Object" "values")]]
  mk (.bin .and) d [tempExpr, mk (.bin .and) d [leftForRight, rightForRight]]

/-- create_increase_true_expr.rs:34-47: the conditional increment of the truthiness counter. -/
def truthCond (branch arm : Nat) : Node :=
  mk .cond Span.dummy
    [validateTrue, counterExpr (.bT branch arm), mk (.other .expr "Null") Span.dummy []]

/-- create_increase_true_expr.rs:11-59 `create_increase_true_expr`:
`temp = expr, (validate ? bT++ : null), temp`. -/
def increaseTrue (branch arm : Nat) (e : Node) : Node :=
  mk .seq Span.dummy
    [mk (.assign "=") Span.dummy [tempTarget, e],
     mk .paren Span.dummy [truthCond branch arm],
     tempExpr]

/-- instrumentation_counter_helper.rs:99-120: `b++, (temp = expr, ..., temp)`. -/
def wrapTruth (branch arm : Nat) (e : Node) : Node :=
  mk .seq Span.dummy [counterExpr (.b branch arm), increaseTrue branch arm e]

end Node
end Verif
