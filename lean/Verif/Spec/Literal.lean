import Verif.Model.Js
/-
String literals in program text (ECMAScript, StringLiteral): how a quoted text is read back, and what it means
for an expression to be read back from its printed form. The printer writes the `raw` text of a string literal
if it has one and quotes and escapes the value itself otherwise.
-/
namespace Verif.Js

/-- Characters that end a string literal or start an escape in one. -/
def Special (c : Char) : Prop := c = '"' ∨ c = '\\' ∨ c = '\n' ∨ c = '\r'

instance (c : Char) : Decidable (Special c) := inferInstanceAs (Decidable (_ ∨ _))

/-- The escape sequences of a single character. -/
def escape : Char → Char
  | 'n' => '\n'
  | 't' => '\t'
  | 'r' => '\r'
  | 'b' => Char.ofNat 8
  | 'v' => Char.ofNat 11
  | 'f' => Char.ofNat 12
  | c => c

/-- Reads the rest of a double-quoted literal up to the end of the text. Nothing if the literal ends earlier, or
not at all, or has an escape sequence of more than one character. -/
def unquoteTail : List Char → Option (List Char)
  | [] => none
  | '"' :: l => if l = [] then some [] else none
  | '\\' :: c :: l => if c ∈ ['\n', '\r', 'u', 'x', '0', '1', '2', '3', '4', '5', '6', '7'] then none
      else (unquoteTail l).map (escape c :: ·)
  | c :: l => if Special c then none else (unquoteTail l).map (c :: ·)

/-- Reads a text that is one double-quoted literal. -/
def unquote (s : String) : Option String :=
  match s.toList with
  | '"' :: l => (unquoteTail l).map String.ofList
  | _ => none

mutual
/-- Every string literal that is printed as given is read back as its value. -/
def Expr.printsAs : Expr → Bool
  | .str v raw =>
    match raw with
    | some r => unquote r == some v
    | none => true
  | .obj ps => Props.printsAs ps
  | .arr es => Exprs.printsAs es
  | .num _ => true
  | .bool _ => true
  | .null => true
  | _ => false

/-- `Expr.printsAs` for properties. -/
def Props.printsAs : Props → Bool
  | .nil => true
  | .cons _ e ps => e.printsAs && ps.printsAs

/-- `Expr.printsAs` for elements. -/
def Exprs.printsAs : Exprs → Bool
  | .nil => true
  | .cons e es => e.printsAs && es.printsAs
end

end Verif.Js
