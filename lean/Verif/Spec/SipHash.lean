/-
SipHash as it was published (Aumasson, Bernstein, "SipHash: a fast short-input PRF", section 2), on machine words, for any
numbers of rounds and any key. Rust's `DefaultHasher` is SipHash-1-3 with key 0.
-/
namespace Verif.Sip

/-- The four words of the state. -/
structure Words where
  v0 : BitVec 64
  v1 : BitVec 64
  v2 : BitVec 64
  v3 : BitVec 64

/-- The first half of a round: additions and exclusive ors of the columns. -/
def half (s : Words) : Words :=
  let a := s.v0 + s.v1
  let c := s.v2 + s.v3
  ⟨a.rotateLeft 32, s.v1.rotateLeft 13 ^^^ a, c, s.v3.rotateLeft 16 ^^^ c⟩

/-- The second half of a round. -/
def half' (s : Words) : Words :=
  let c := s.v2 + s.v1
  let a := s.v0 + s.v3
  ⟨a, s.v1.rotateLeft 17 ^^^ c, c.rotateLeft 32, s.v3.rotateLeft 21 ^^^ a⟩

/-- `n` rounds. -/
def rounds : Nat → Words → Words
  | 0, s => s
  | n + 1, s => rounds n (half' (half s))

/-- The four words "somepseudorandomlygeneratedbytes" and the key. -/
def keyed (k0 k1 : BitVec 64) : Words :=
  ⟨k0 ^^^ 0x736f6d6570736575#64, k1 ^^^ 0x646f72616e646f6d#64, k0 ^^^ 0x6c7967656e657261#64, k1 ^^^ 0x7465646279746573#64⟩

/-- The byte at a place of the padded message: the message, zeros, and its length in the last byte of the last word. -/
def padded (bs : List UInt8) (i : Nat) : Nat :=
  if h : i < bs.length then bs[i].toNat
  else if i = 8 * (bs.length / 8) + 7 then bs.length % 256
  else 0

/-- A word of the message, lowest byte first. -/
def word (bs : List UInt8) (i : Nat) : BitVec 64 :=
  BitVec.ofNat 64 ((List.range 8).foldr (fun j n => padded bs (8 * i + j) + 256 * n) 0)

/-- One word of the message. -/
def compress (c : Nat) (s : Words) (m : BitVec 64) : Words :=
  let t := rounds c { s with v3 := s.v3 ^^^ m }
  { t with v0 := t.v0 ^^^ m }

/-- SipHash-c-d. -/
def hash (c d : Nat) (k0 k1 : BitVec 64) (bs : List UInt8) : BitVec 64 :=
  let s := ((List.range (bs.length / 8 + 1)).map (word bs)).foldl (compress c) (keyed k0 k1)
  let t := rounds d { s with v2 := s.v2 ^^^ 0xff#64 }
  t.v0 ^^^ t.v1 ^^^ t.v2 ^^^ t.v3

end Verif.Sip
