import Verif.Model.Json
/-
How a character may be written inside a JSON string (RFC 8259, section 7).
-/
namespace Verif.Json

/-- Hexadecimal digits of either case. -/
def hexDigits : List (Char × Nat) :=
  ("0123456789".toList.zipIdx) ++ ("abcdef".toList.zipIdx 10) ++ ("ABCDEF".toList.zipIdx 10)

/-- Four hexadecimal digits stand for a number. -/
def Hex4 (ds : List Char) (n : Nat) : Prop :=
  ∃ a b c d i j k l, ds = [a, b, c, d] ∧ (a, i) ∈ hexDigits ∧ (b, j) ∈ hexDigits ∧ (c, k) ∈ hexDigits ∧ (d, l) ∈ hexDigits ∧
    n = i * 16 ^ 3 + j * 16 ^ 2 + k * 16 + l

/-- The escapes of two characters. -/
def shortEscapes : List (Char × Char) :=
  [('"', '"'), ('\\', '\\'), ('/', '/'), ('\x08', 'b'), ('\x0c', 'f'), ('\n', 'n'), ('\r', 'r'), ('\t', 't')]

/-- The ways to write a character: as it is, with a short escape, with its code, or with the codes of a surrogate pair. -/
inductive Spelled : Char → List Char → Prop
  | plain {c : Char} : 0x20 ≤ c.toNat → c ≠ '"' → c ≠ '\\' → Spelled c [c]
  | short {c e : Char} : (c, e) ∈ shortEscapes → Spelled c ['\\', e]
  | code {c : Char} {ds : List Char} : Hex4 ds c.toNat → Spelled c ('\\' :: 'u' :: ds)
  | pair {c : Char} {ds es : List Char} {hi lo : Nat} : Hex4 ds (0xD800 + hi) → Hex4 es (0xDC00 + lo) → hi < 0x400 → lo < 0x400 →
      c.toNat = 0x10000 + hi * 0x400 + lo → Spelled c ('\\' :: 'u' :: ds ++ '\\' :: 'u' :: es)

/-- The ways to write a text. -/
inductive SpelledAll : List Char → List Char → Prop
  | nil : SpelledAll [] []
  | cons {c : Char} {l w v : List Char} : Spelled c w → SpelledAll l v → SpelledAll (c :: l) (w ++ v)

end Verif.Json
