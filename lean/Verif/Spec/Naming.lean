import Verif.Spec.Sem
import Verif.Spec.Each
/-
What JavaScript reads off the text of a program besides executing it: names given to anonymous functions, and
directives.
-/
namespace Verif
namespace Sem
open Node

/-- For each node with one of the kinds: where it is and which of its parts are anonymous functions or classes, that
JavaScript would give a name to. -/
def namings (ks : List Kind) (p : Node) : List (Kind × Span × List Bool) :=
  ((each p).filter fun m => ks.contains m.kind).map fun m => (m.kind, m.span, m.children.map isFnDef)

/-- Class fields and default values. -/
def fieldKinds : List Kind := [.classProp, .privateProp, .assignPat]

/-- Kinds of nodes that can start with directives. -/
def isCode : Kind → Bool
  | .module | .script | .function _ | .arrow _ | .getterProp | .setterProp => true
  | _ => false

/-- The directives of the program and of each of its functions. -/
def prologues (p : Node) : List (Kind × Span × List String) :=
  ((each p).filter fun m => isCode m.kind).map fun m => (m.kind, m.span, directivesOf (codeOf m))

/-- No default value of the program is an anonymous function or class, and no class field is one without a block in it
(like `p = x => x`; a field `p = x => { ... }` is fine). -/
def UnnamedFields (p : Node) : Prop :=
  ∀ m ∈ each p, fieldKinds.contains m.kind = true → ∀ c ∈ m.children, isFnDef c = true →
    m.kind ≠ .assignPat ∧ c.any Kind.isBlock = true

/-- No function of the program starts with directives; nor does the program, except that a module may start with one. -/
def FewDirectives (p : Node) : Prop :=
  (∀ m ∈ inner p, directivesOf (codeOf m) = []) ∧
  (directivesOf (codeOf p)).length ≤ if p.kind = .module then 1 else 0

instance (p : Node) : Decidable (UnnamedFields p) := by unfold UnnamedFields; infer_instance

instance (p : Node) : Decidable (FewDirectives p) := by unfold FewDirectives; infer_instance

end Sem
end Verif
