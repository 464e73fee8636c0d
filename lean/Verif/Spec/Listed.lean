import Verif.Spec.Outline
/-
Which branches of an outline are listed in a report, and where they are.
-/
namespace Verif

namespace Branch

/-- Not all arms are excluded. -/
def armed (b : Branch) : Bool := !b.locations.isEmpty

/-- A logical expression that is listed. -/
def logical (b : Branch) : Bool := b.branchType = .binaryExpr && b.armed

end Branch

/-- A branch without arms comes after all branches with arms. -/
def ArmedFirst (B : List Branch) : Prop := ∀ (i j : Nat) (b c : Branch), i < j → B[i]? = some b → B[j]? = some c → c.armed = true → b.armed = true

/-- The place of every logical expression is below the number of branches that are listed. -/
def LogicInRange (B : List Branch) : Prop := ∀ (i : Nat) (b : Branch), B[i]? = some b → b.logical = true → i < (B.filter Branch.armed).length

/-- Logical expressions that are listed come before all other branches. -/
def LogicFirst (B : List Branch) : Prop := ∃ K, ∀ i : Nat, B[i]?.any Branch.logical = true ↔ i < K

instance (B : List Branch) : Decidable (LogicInRange B) :=
  decidable_of_iff (∀ i : Fin B.length, B[i].logical = true → i.1 < (B.filter Branch.armed).length)
    ⟨fun h i b hb hl => by
      obtain ⟨hi, rfl⟩ := List.getElem?_eq_some_iff.1 hb
      exact h ⟨i, hi⟩ hl,
     fun h i hl => h i.1 B[i] (List.getElem?_eq_getElem i.2) hl⟩

end Verif
