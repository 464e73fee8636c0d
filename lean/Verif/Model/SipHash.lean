/-
`std::collections::hash_map::DefaultHasher` (SipHash-1-3 with both keys 0) on strings, a dependency of
create_coverage_data_object.rs:419-423, create_coverage_fn_decl.rs:32-34 and build.rs:30-36. 64 bit arithmetic is
done with natural numbers.
-/
namespace Verif.SipHash

/-- UTF-8. -/
def utf8 (c : Char) : List Nat :=
  let n := c.toNat
  if n < 0x80 then [n]
  else if n < 0x800 then [0xC0 + n / 0x40, 0x80 + n % 0x40]
  else if n < 0x10000 then [0xE0 + n / 0x1000, 0x80 + n / 0x40 % 0x40, 0x80 + n % 0x40]
  else [0xF0 + n / 0x40000, 0x80 + n / 0x1000 % 0x40, 0x80 + n / 0x40 % 0x40, 0x80 + n % 0x40]

/-- The bytes of a string. -/
def bytes : List Char → List Nat
  | [] => []
  | c :: l => utf8 c ++ bytes l

/-- Addition of 64 bit numbers. -/
def add (a b : Nat) : Nat := (a + b) % 2 ^ 64

/-- Rotation of a 64 bit number to the left. -/
def rotl (a k : Nat) : Nat := (a <<< k) % 2 ^ 64 ||| a >>> (64 - k)

/-- The state: four 64 bit numbers. -/
structure State where
  v0 : Nat
  v1 : Nat
  v2 : Nat
  v3 : Nat

/-- One round. -/
def round (s : State) : State :=
  let v0 := add s.v0 s.v1
  let v2 := add s.v2 s.v3
  let v1 := rotl s.v1 13 ^^^ v0
  let v3 := rotl s.v3 16 ^^^ v2
  let v0 := rotl v0 32
  let v2 := add v2 v1
  let v0 := add v0 v3
  let v1 := rotl v1 17 ^^^ v2
  let v3 := rotl v3 21 ^^^ v0
  let v2 := rotl v2 32
  ⟨v0, v1, v2, v3⟩

/-- The state for the keys 0 and 0. -/
def start : State := ⟨0x736f6d6570736575, 0x646f72616e646f6d, 0x6c7967656e657261, 0x7465646279746573⟩

/-- One word of the message: one round. -/
def absorb (s : State) (m : Nat) : State :=
  let s := round { s with v3 := s.v3 ^^^ m }
  { s with v0 := s.v0 ^^^ m }

/-- Little endian. -/
def littleEndian : List Nat → Nat
  | [] => 0
  | b :: l => b + 256 * littleEndian l

/-- The words of the message, the last of which has the length (modulo 256) in its highest byte. -/
def message (length : Nat) : Nat → List Nat → State → State
  | 0, _, s => s
  | fuel + 1, l, s =>
    if l.length < 8 then absorb s (littleEndian l + length % 256 * 2 ^ 56)
    else message length fuel (l.drop 8) (absorb s (littleEndian (l.take 8)))

/-- SipHash-1-3: one round per word, three rounds at the end. -/
def sip (l : List Nat) : Nat :=
  let s := message l.length (l.length + 1) l start
  let s := round (round (round { s with v2 := s.v2 ^^^ 0xff }))
  s.v0 ^^^ s.v1 ^^^ s.v2 ^^^ s.v3

/-- `Hash for str` and `DefaultHasher::finish`: the bytes of the string and 0xff. -/
def hash (s : String) : Nat := sip (bytes s.toList ++ [0xff])

end Verif.SipHash
