import Verif.Spec.Counts
/-
How the counts of a report are related while the program runs.
-/
namespace Verif
namespace Sem
open Node

/-- At no moment of an execution the second counter is ahead of the first. -/
def NeverAhead (p : Node) (c c' : Counter) : Prop :=
  ∀ (V A : Type) (solid : V → Bool) (tr : List (Ev V A)) (o o' : Outcome V A), Exec solid p tr o o' →
    counted c' tr ≤ counted c tr

/-- In every execution both counters are incremented equally often. While the execution of the program, or of the callbacks after
it, is not finished, the first one may be ahead. -/
def InStep (p : Node) (c c' : Counter) : Prop :=
  ∀ (V A : Type) (solid : V → Bool) (tr : List (Ev V A)) (o o' : Outcome V A), Exec solid p tr o o' →
    ∃ ε, ε ≤ o.slack + o'.slack ∧ counted c tr = counted c' tr + ε

end Sem
end Verif
