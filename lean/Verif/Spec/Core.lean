import Verif.Spec.Exchange
/-
What matters of an expression that is not counted itself: the counted constructs in it.
-/
namespace Verif
namespace Node

mutual
/-- The outermost constructs within an expression that something may be counted of, or that have a hint before them, in the order of the source. -/
def core (cx : Ctx) : Node → List Node
  | mk k sp cs => if k.ordinary && !decide (cx.hint sp = some .next) then cores cx cs else [mk k sp cs]

/-- `core` on lists. -/
def cores (cx : Ctx) : List Node → List Node
  | [] => []
  | c :: cs => core cx c ++ cores cx cs
end

/-- The constructs are the same, or they are expressions other than strings, or patterns, properties or lists, at the same place that are not counted
themselves and have no hint before them, and in which there are the same counted constructs in the same order. Expressions and names are in both of
them or in none. -/
inductive Regroup (cx : Ctx) : Node → Node → Prop where
  | same (n : Node) : Regroup cx n n
  | core {a b : Node} : a.kind.loose = true → b.kind.loose = true → b.span = a.span → cx.hint a.span ≠ some .next → core cx b = core cx a →
    b.any Kind.isExpr = a.any Kind.isExpr → Regroup cx a b

/-- The names of functions stay. -/
def SparesNames (f : Node → Node) (p : Node) : Prop :=
  ∀ m ∈ p.each, (m.kind = .fnDecl ∨ m.kind = .fnExpr) → ∀ c ∈ m.children, (rewrite f c).identName? = c.identName?

end Node
end Verif
