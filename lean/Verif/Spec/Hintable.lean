import Verif.Model.Visitor
/-
Constructs at which hints are looked up.
-/
namespace Verif
namespace Node

/-- Statements, functions, class members, variables and operators at which every visitor of statements
looks for a hint. -/
def hintable : Node → Bool
  | mk .block _ _ | mk .fnDecl _ [_, _] | mk (.arrow _) _ [_, _] | mk .fnExpr _ [_, _]
  | mk .exprStmt _ [_] | mk .breakStmt _ _ | mk .cond _ [_, _, _] | mk .taggedTpl _ _
  | mk .returnStmt _ _ | mk (.varDecl _) _ _ | mk .classDecl _ _ | mk .classProp _ [_, _, _]
  | mk .privateProp _ [_, _, _] | mk .classMethod _ [_, _] | mk .methodProp _ [_, _]
  | mk .getterProp _ [_, _] | mk .setterProp _ [_, _, _, _] | mk .varDeclarator _ [_, _]
  | mk (.loop _) _ _ | mk .labeled _ _ | mk .continueStmt _ _ | mk .switchStmt _ _
  | mk .ifStmt _ [_, _, _] | mk (.bin _) _ [_, _] | mk .assignPat _ [_, _] | mk .tryStmt _ _
  | mk .throwStmt _ _ | mk .withStmt _ [_, _] => true
  | _ => false

end Node
end Verif
