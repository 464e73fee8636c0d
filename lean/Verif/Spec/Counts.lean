import Verif.Spec.Sem
import Verif.Spec.Provenance
/-
How often something happens in an execution.

Parts of a program are identified by their kind and position. An execution tells when a part begins (`Ev.present`), and
when a part of a part is demanded (`Ev.pick`), such as the body of a function or an arm of an `if`.
-/
namespace Verif
namespace Sem
open Node

/-- Kind and position. -/
abbrev Tag := Kind × Span

/-- The tag of a node. -/
def tag (n : Node) : Tag := (n.kind, n.span)

section
variable {V A : Type}

/-- An increment of the counter. -/
def Ev.counts (c : Counter) : Ev V A → Bool
  | .count c' => c' = c
  | _ => false

/-- The beginning of the part with this tag. -/
def Ev.begins (t : Tag) : Ev V A → Bool
  | .present f => (f.kind, f.span) = t
  | _ => false

/-- The demand of part `j` of the part with this tag. -/
def Ev.enters (t : Tag) (j : Nat) : Ev V A → Bool
  | .pick _ i f => i = j && (f.kind, f.span) = t
  | _ => false

/-- How often a counter was incremented. -/
def counted (c : Counter) (tr : List (Ev V A)) : Nat := tr.countP (·.counts c)

/-- How often a part began. -/
def began (t : Tag) (tr : List (Ev V A)) : Nat := tr.countP (·.begins t)

/-- How often part `j` of a part was entered. -/
def entered (t : Tag) (j : Nat) (tr : List (Ev V A)) : Nat := tr.countP (·.enters t j)

/-- It ends normally with a value that is solid: truthy, not an empty array and not an empty plain object. -/
def Outcome.gives (solid : V → Bool) : Outcome V A → Bool
  | .normal v => v.any solid
  | _ => false

/-- How often a part ended with a solid value. An answer is about the part that began last among those that have not ended
(`open_`: those that have begun and have not ended, the last one first). -/
def gave (solid : V → Bool) (t : Tag) : (open_ : List Tag) → List (Ev V A) → Nat
  | _, [] => 0
  | ts, .present f :: tr => gave solid t ((f.kind, f.span) :: ts) tr
  | x :: ts, .answer o :: tr => (if x = t ∧ o.gives solid = true then 1 else 0) + gave solid t ts tr
  | ts, _ :: tr => gave solid t ts tr

/-- One if the observation was cut off: the last increment or its event may be missing. -/
def Outcome.slack : Outcome V A → Nat
  | .cut => 1
  | _ => 0

end

/-- In every execution of the program the counter is incremented as often as the part begins. While the execution of the
program, or of the callbacks after it, is not finished, the counter may be ahead. -/
def CountsBegun (p : Node) (c : Counter) (t : Tag) : Prop :=
  ∀ (V A : Type) (solid : V → Bool) (tr : List (Ev V A)) (o o' : Outcome V A), Exec solid p tr o o' →
    ∃ ε, ε ≤ o.slack + o'.slack ∧ counted c tr = began t (visible tr) + ε

/-- In every execution of the program the counter is incremented as often as part `j` of the part is entered. While the
execution of the program, or of the callbacks after it, is not finished, the counter may be behind. -/
def CountsEntered (p : Node) (c : Counter) (t : Tag) (j : Nat) : Prop :=
  ∀ (V A : Type) (solid : V → Bool) (tr : List (Ev V A)) (o o' : Outcome V A), Exec solid p tr o o' →
    ∃ ε, ε ≤ o.slack + o'.slack ∧ counted c tr + ε = entered t j (visible tr)

/-- In every execution of the program the counter is incremented as often as the part ends with a solid value. (If
the execution of the program is cut off, the next answer is taken for that of the part that was cut off.) -/
def CountsSolid (p : Node) (c : Counter) (t : Tag) : Prop :=
  ∀ (V A : Type) (solid : V → Bool) (tr : List (Ev V A)) (o o' : Outcome V A), Exec solid p tr o o' →
    ∃ ε, ε ≤ o.slack ∧ counted c tr + ε = gave solid t [] (visible tr)

/-- The increments of an execution. -/
def increments {V A : Type} (tr : List (Ev V A)) : List Counter :=
  tr.filterMap fun
    | .count c => some c
    | _ => none

/-- A part with this tag exists exactly once. (`norm` makes every arrow function `=> e` one with `return e`, at the position
of `e`, so such a statement must not exist in addition.) -/
def Only (p : Node) (t : Tag) : Prop := (tags (norm p)).count t = 1 ∧ t.2 ≠ Span.dummy ∧ t.1 ≠ .none

/-- The node of a function-like construct whose part is the body, and the number of that part. -/
def bodyPart : Node → Option (Tag × Nat)
  | mk .fnDecl _ [_, mk (.function a) sp _] => some ((.function a, sp), 2)
  | mk .fnExpr _ [_, mk (.function a) sp _] => some ((.function a, sp), 2)
  | mk .classMethod _ [_, mk (.function a) sp _] => some ((.function a, sp), 2)
  | mk .methodProp _ [_, mk (.function a) sp _] => some ((.function a, sp), 2)
  | mk (.arrow a) sp _ => some ((.arrow a, sp), 1)
  | mk .getterProp sp _ => some ((.getterProp, sp), 1)
  | mk .setterProp sp _ => some ((.setterProp, sp), 3)
  | _ => none

end Sem
end Verif
