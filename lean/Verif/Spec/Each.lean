import Verif.Model.Ast
/-
The nodes of a tree.
-/
namespace Verif
namespace Node

mutual
/-- All nodes of a tree, in source order. -/
def each : Node → List Node
  | mk k sp cs => mk k sp cs :: eachList cs

/-- All nodes of a list of trees. -/
def eachList : List Node → List Node
  | [] => []
  | c :: cs => each c ++ eachList cs
end

/-- All nodes below the root. -/
def inner (n : Node) : List Node := eachList n.children

end Node
end Verif
