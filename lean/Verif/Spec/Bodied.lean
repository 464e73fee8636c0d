import Verif.Model.Ast
/-
Programs in which every function has a body.
-/
namespace Verif
namespace Node

/-- Is a node that is a function one with a body? -/
def hasBody : Node → Bool
  | mk (.function _) _ cs => cs.getLast?.any fun b => b.kind.isBlock
  | _ => true

mutual
/-- Every function in the tree has a body. (TypeScript overload signatures and `declare function`
have none.) -/
def bodied : Node → Bool
  | mk k sp cs => hasBody (mk k sp cs) && bodiedList cs

/-- `bodied` for a list. -/
def bodiedList : List Node → Bool
  | [] => true
  | c :: cs => bodied c && bodiedList cs
end

end Node
end Verif
