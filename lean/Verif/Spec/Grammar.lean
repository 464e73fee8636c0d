import Verif.Spec.Json
/-
The grammar of JSON texts (RFC 8259, sections 2 to 7) with the value a text stands for, written down without a parser:
which texts stand for a value, not how they are read.
-/
namespace Verif.Json

/-- White space (section 2). -/
def Blank (w : List Char) : Prop := ∀ c ∈ w, c ∈ [' ', '\t', '\n', '\r']

/-- The decimal digits. -/
def decimals : List Char := "0123456789".toList

/-- Digits, at least one (section 6). -/
def Digits (w : List Char) : Prop := w ≠ [] ∧ ∀ c ∈ w, c ∈ decimals

/-- The number with the given digits. -/
def decimal (w : List Char) : Nat := w.foldl (fun n c => 10 * n + decimals.idxOf c) 0

/-- The integer part of a number: no zero before other digits (section 6). -/
def Whole (w : List Char) : Prop := Digits w ∧ (w.head? = some '0' → w = ['0'])

/-- The fraction of a number, if there is one (section 6). -/
inductive Fraction : List Char → Prop
  | absent : Fraction []
  | present {w : List Char} : Digits w → Fraction ('.' :: w)

/-- The exponent of a number, if there is one (section 6). -/
inductive Exponent : List Char → Prop
  | absent : Exponent []
  | present {e : Char} {sign w : List Char} : e ∈ ['e', 'E'] → sign ∈ [[], ['+'], ['-']] → Digits w → Exponent (e :: (sign ++ w))

mutual
/-- The text `w` stands for the data, with arrays and objects nested at most `n` deep. -/
inductive Written : (n : Nat) → Data → (w : List Char) → Prop
  | null {n : Nat} : Written n .null "null".toList
  | yes {n : Nat} : Written n (.bool true) "true".toList
  | no {n : Nat} : Written n (.bool false) "false".toList
  | whole {n : Nat} {w : List Char} : Whole w → Written n (.num (decimal w)) w
  | real {n : Nat} {w fr ex : List Char} : Whole w → Fraction fr → Exponent ex → fr ++ ex ≠ [] →
      Written n (.real (w ++ fr ++ ex)) (w ++ fr ++ ex)
  | minus {n : Nat} {w fr ex : List Char} : Whole w → Fraction fr → Exponent ex →
      Written n (.real ('-' :: (w ++ fr ++ ex))) ('-' :: (w ++ fr ++ ex))
  | str {n : Nat} {l w : List Char} : SpelledAll l w → Written n (.str (String.ofList l)) ('"' :: (w ++ ['"']))
  | emptyArr {n : Nat} {a : List Char} : Blank a → Written (n + 1) (.arr []) ('[' :: (a ++ [']']))
  | arr {n : Nat} {l : List Data} {w : List Char} : Items n l w → Written (n + 1) (.arr l) ('[' :: (w ++ [']']))
  | emptyObj {n : Nat} {a : List Char} : Blank a → Written (n + 1) (.obj []) ('{' :: (a ++ ['}']))
  | obj {n : Nat} {fs : List (String × Data)} {w : List Char} : Fields n fs w →
      Written (n + 1) (.obj fs) ('{' :: (w ++ ['}']))

/-- The text `w` stands for the elements, one at least. -/
inductive Items : (n : Nat) → List Data → (w : List Char) → Prop
  | one {n : Nat} {d : Data} {a w b : List Char} : Blank a → Written n d w → Blank b → Items n [d] (a ++ w ++ b)
  | more {n : Nat} {d : Data} {l : List Data} {a w b v : List Char} : Blank a → Written n d w → Blank b → Items n l v →
      Items n (d :: l) (a ++ w ++ b ++ ',' :: v)

/-- The text `w` stands for the members, one at least. -/
inductive Fields : (n : Nat) → List (String × Data) → (w : List Char) → Prop
  | one {n : Nat} {d : Data} {w : List Char} {k : String} : Member n k d w → Fields n [(k, d)] w
  | more {n : Nat} {d : Data} {fs : List (String × Data)} {w v : List Char} {k : String} : Member n k d w → Fields n fs v →
      Fields n ((k, d) :: fs) (w ++ ',' :: v)

/-- The text `w` stands for a member. -/
inductive Member : (n : Nat) → String → Data → (w : List Char) → Prop
  | mk {n : Nat} {d : Data} {k a s b c w e : List Char} : Blank a → SpelledAll k s → Blank b → Blank c → Written n d w →
      Blank e → Member n (String.ofList k) d (a ++ '"' :: (s ++ '"' :: (b ++ ':' :: (c ++ w ++ e))))
end

/-- The text stands for the data: one value with white space around it, nested at most 127 deep. -/
def IsText (text : String) (d : Data) : Prop :=
  ∃ a w b, Blank a ∧ Blank b ∧ text.toList = a ++ w ++ b ∧ Written 127 d w

end Verif.Json
