import Verif.Model.Counter
import Verif.Model.Template
/-
What the syntax trees of expressions mean: the expressions of the language of `Model/Js.lean`. The visitor works on
trees (`Model/Ast.lean`, `Model/Counter.lean`), evaluation on expressions (`Model/Js.lean`, `Model/Template.lean`).
-/
namespace Verif
open Node Js

/-- Trees that are none of those below. -/
def Node.foreign : Node → Bool
  | mk (.other .expr s) _ _ => ! ["Call", "Member", "Update ++ postfix", "Unary !", "Null"].contains s && !("Num ".toList.isPrefixOf s.toList)
  | mk (.ident _) _ _ => false
  | mk (.bin _) _ _ => false
  | mk (.assign _) _ _ => false
  | mk (.counter _) _ _ => false
  | mk (.temp _) _ _ => false
  | mk .paren _ _ => false
  | mk .seq _ _ => false
  | mk .cond _ _ => false
  | _ => true

variable (cov tmp : String) (code : Node → Option Nat)

mutual
/-- The tree is the syntax of the expression. The names are those of the coverage function and of the temporary; other
trees than those of which injected code consists may be pieces of user code, given by `code`. -/
inductive SyntaxOf : Node → Expr → Prop where
  | user {n : Node} {id : Nat} (hf : n.foreign = true) (h : code n = some id) : SyntaxOf n (.extern id)
  | ident {x : String} {sp : Span} : SyntaxOf (mk (.ident x) sp []) (.ident x)
  | num {s : String} {sp : Span} {n : Nat} (hs : s = "Num " ++ toString n) : SyntaxOf (mk (.other .expr s) sp []) (.num n)
  | null {s : String} {sp : Span} (hs : s = "Null") : SyntaxOf (mk (.other .expr s) sp []) .null
  | call {s : String} {sp lp : Span} {f : Node} {as : List Node} {e : Expr} {es : Exprs} (hs : s = "Call") (hf : SyntaxOf f e)
      (ha : SyntaxOfArgs as es) : SyntaxOf (mk (.other .expr s) sp [f, mk .list lp as]) (.call e es)
  | member {s t : String} {sp np : Span} {o : Node} {e : Expr} {f : String} (hs : s = "Member") (ht : t = "IdentName " ++ f)
      (ho : SyntaxOf o e) : SyntaxOf (mk (.other .expr s) sp [o, mk (.other .misc t) np []]) (.member e f)
  | index {s t : String} {sp np : Span} {o i : Node} {e j : Expr} (hs : s = "Member") (ht : t = "Computed") (ho : SyntaxOf o e)
      (hi : SyntaxOf i j) : SyntaxOf (mk (.other .expr s) sp [o, mk (.other .misc t) np [i]]) (.index e j)
  | incr {s : String} {sp : Span} {n : Node} {e : Expr} (hs : s = "Update ++ postfix") (hn : SyntaxOf n e) :
      SyntaxOf (mk (.other .expr s) sp [n]) (.incr e)
  | not {s : String} {sp : Span} {n : Node} {e : Expr} (hs : s = "Unary !") (hn : SyntaxOf n e) :
      SyntaxOf (mk (.other .expr s) sp [n]) (.not e)
  | and {sp : Span} {l r : Node} {a b : Expr} (hl : SyntaxOf l a) (hr : SyntaxOf r b) : SyntaxOf (mk (.bin .and) sp [l, r]) (.and a b)
  | or {sp : Span} {l r : Node} {a b : Expr} (hl : SyntaxOf l a) (hr : SyntaxOf r b) : SyntaxOf (mk (.bin .or) sp [l, r]) (.or a b)
  | ne {s : String} {sp : Span} {l r : Node} {a b : Expr} (hs : s = "!==") (hl : SyntaxOf l a) (hr : SyntaxOf r b) :
      SyntaxOf (mk (.bin (.other s)) sp [l, r]) (.ne a b)
  | cond {sp : Span} {t c a : Node} {x y z : Expr} (ht : SyntaxOf t x) (hc : SyntaxOf c y) (ha : SyntaxOf a z) :
      SyntaxOf (mk .cond sp [t, c, a]) (.cond x y z)
  | assign {s : String} {sp : Span} {l r : Node} {a b : Expr} (hs : s = "=") (hl : SyntaxOf l a) (hr : SyntaxOf r b) :
      SyntaxOf (mk (.assign s) sp [l, r]) (.assign a b)
  | paren {sp : Span} {n : Node} {e : Expr} (hn : SyntaxOf n e) : SyntaxOf (mk .paren sp [n]) (.paren e)
  | seq {sp : Span} {ns : List Node} {es : Exprs} (hn : SyntaxOfAll ns es) : SyntaxOf (mk .seq sp ns) (.seq es)
  /-- the opaque node of a counter stands for its tree -/
  | counter {c : Counter} {sp : Span} {e : Expr} (h : SyntaxOf (counterTree cov c) e) : SyntaxOf (mk (.counter c) sp []) e
  /-- the opaque node of the temporary stands for `cov().temp` -/
  | temp {t : Bool} {sp : Span} : SyntaxOf (mk (.temp t) sp []) (.member (.call (.ident cov) .nil) tmp)

/-- The trees are the syntax of the expressions. -/
inductive SyntaxOfAll : List Node → Exprs → Prop where
  | nil : SyntaxOfAll [] .nil
  | cons {n : Node} {ns : List Node} {e : Expr} {es : Exprs} (h : SyntaxOf n e) (t : SyntaxOfAll ns es) : SyntaxOfAll (n :: ns) (.cons e es)

/-- The trees are the syntax of arguments of a call. -/
inductive SyntaxOfArgs : List Node → Exprs → Prop where
  | nil : SyntaxOfArgs [] .nil
  | cons {s : String} {sp : Span} {n : Node} {ns : List Node} {e : Expr} {es : Exprs} (hs : s = "ExprOrSpread") (h : SyntaxOf n e)
      (t : SyntaxOfArgs ns es) : SyntaxOfArgs (mk (.other .misc s) sp [n] :: ns) (.cons e es)
end

end Verif
