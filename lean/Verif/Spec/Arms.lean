import Verif.Model.Hint
/-
The arms of an `if` statement.
-/
namespace Verif

/-- The number of arms counted at an `if` statement with the given hint: both, or one of them. -/
def ifArms : Option IgnoreScope → Nat
  | some .if => 1
  | some .else => 1
  | _ => 2

end Verif
