import Verif.Spec.Alike
/-
Exchanging expressions that nothing is counted in.
-/
namespace Verif
open Node

/-- What expressions consist of that nothing is counted in: no functions, classes, statements, conditional or logical expressions, tagged templates or
default values. -/
def Kind.ordinary : Kind → Bool
  | ident _ | propIdent _ | strLit _ | none | list | paren | seq | assign _ => true
  | other c _ => c ≠ .stmt
  | bin op => !op.isLogical
  | _ => false

/-- An expression with an operator. -/
def Kind.isBin : Kind → Bool
  | bin _ => true
  | _ => false

namespace Node

/-- There is nothing but such kinds in the construct. -/
def ordinary (n : Node) : Bool := !n.any fun k => !k.ordinary

/-- An expression in which nothing is counted, other than a single name or string. -/
structure Plain (n : Node) : Prop where
  inner : n.kind.inner = true
  ordinary : n.ordinary = true

/-- The constructs are the same, or they are expressions in which nothing is counted at the same place, or they are expressions with the same parts
that only differ in their operator, or in what is done with their parts. -/
inductive Exchange : Node → Node → Prop where
  | same (n : Node) : Exchange n n
  | plain {a b : Node} : a.Plain → b.Plain → b.span = a.span → Exchange a b
  | operator {k k' : Kind} (sp : Span) (cs : List Node) : k.inner = true → k'.inner = true → k'.isBin = k.isBin → Exchange (mk k sp cs) (mk k' sp cs)

/-- The constructs are the same, except that they may be different kinds of loops, declared with different words out of `var`, `let` and `const`, or
functions one of which is `async` or a generator and the other is not. -/
inductive Variant : Node → Node → Prop where
  | mk {k k' : Kind} (sp : Span) (cs : List Node) : k'.blur = k.blur → Variant (mk k sp cs) (mk k' sp cs)

/-- Exported declarations stay `const`, or not `const`, whatever is in them. -/
def SparesExports (f : Node → Node) (p : Node) : Prop :=
  ∀ m ∈ p.each, m.kind = .exportDecl → ∀ c ∈ m.children, ∀ cs, (f (mk c.kind c.span cs)).constDecl = c.constDecl

end Node
end Verif
