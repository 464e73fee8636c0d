import Verif.Lemmas.SipHash
import Verif.Props.Plugin
/-
C42: which hash stands for the data. The hashes in emitted programs and in names are SipHash-1-3 with key 0 (published
algorithm, Spec/SipHash) of the UTF-8 bytes and a final byte 255.
-/
namespace Verif

/-- The hash of a text: what Rust's `DefaultHasher` makes of a string. -/
def rustHash (s : String) : Nat := (Sip.hash 1 3 0#64 0#64 (s.toUTF8.data.toList ++ [0xff])).toNat

/-- C42. The hash function of the model is SipHash-1-3 of the bytes of the text. -/
theorem C42_siphash (s : String) : SipHash.hash s = rustHash s := SipHash.hash_eq s

/-- C42. The emitted hash is the SipHash of the JSON text of the data, the magic value that of the name of the instrumenter, the
name of the coverage function that of the file name. -/
theorem C42_emitted : (∀ c, Template.dataHash c = toString (rustHash (Serde.save c))) ∧
    Template.magicValue = toString (rustHash "swc-coverage-instrument@0") ∧
    ∀ file, Plugin.fnName file = "cov_" ++ toString (rustHash file) := by
  refine ⟨fun c => ?_, ?_, fun file => ?_⟩
  · unfold Template.dataHash; rw [C42_siphash]
  · unfold Template.magicValue; rw [C42_siphash]
  · unfold Plugin.fnName; rw [C42_siphash]

/-- The hash has 64 bits. -/
theorem C42_bits (s : String) : SipHash.hash s < 2 ^ 64 := by rw [C42_siphash]; exact BitVec.isLt _

/-- The example of the paper for SipHash-2-4: key 00 01 … 0f, message 00 01 … 0e. -/
example : Sip.hash 2 4 0x0706050403020100#64 0x0f0e0d0c0b0a0908#64 ((List.range 15).map UInt8.ofNat) = 0xa129ca6149be45e5#64 := by
  decide +kernel

/-- A file name with letters of two, three and four bytes. -/
example : (rustHash "é☃😀.js") = SipHash.sip [0xC3, 0xA9, 0xE2, 0x98, 0x83, 0xF0, 0x9F, 0x98, 0x80, 0x2E, 0x6A, 0x73, 0xff] := by
  rw [← C42_siphash]; decide +kernel

end Verif
