import Verif.Model.Hint
/-
The documented form of hint comments, as a grammar.
-/
namespace Verif

/-- `text` reads: white space, "istanbul", white space, "ignore", white space, `kw`, and then ends
or goes on with a character that is not a word character. -/
def ReadsAs (cc : CharClasses) (kw text : List Char) : Prop :=
  ∃ w1 w2 w3 rest,
    text = w1 ++ "istanbul".toList ++ w2 ++ "ignore".toList ++ w3 ++ kw ++ rest ∧
    (∀ c ∈ w1, cc.space c = true) ∧
    w2 ≠ [] ∧ (∀ c ∈ w2, cc.space c = true) ∧
    w3 ≠ [] ∧ (∀ c ∈ w3, cc.space c = true) ∧
    (rest = [] ∨ ∃ c r, rest = c :: r ∧ cc.word c = false)

/-- Lower-case letters are word characters and not white space (true of the Unicode tables). -/
def CharClasses.Sane (cc : CharClasses) : Prop :=
  ∀ c, 'a' ≤ c → c ≤ 'z' → cc.space c = false ∧ cc.word c = true

/-- The word of a hint. -/
def IgnoreScope.word : IgnoreScope → List Char
  | .next => "next".toList
  | .if => "if".toList
  | .else => "else".toList

end Verif
