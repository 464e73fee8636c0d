import Verif.Model.SipHash
import Verif.Spec.SipHash
/-
The model of the hash on natural numbers is SipHash on machine words.
-/
namespace Verif.SipHash
open Sip (Words)

/-- The words with these numbers. -/
def nats (s : Words) : State := ⟨s.v0.toNat, s.v1.toNat, s.v2.toNat, s.v3.toNat⟩

theorem add_toNat (a b : BitVec 64) : add a.toNat b.toNat = (a + b).toNat := (BitVec.toNat_add a b).symm

theorem rotl_toNat (a : BitVec 64) (k : Nat) (h : k < 64) : rotl a.toNat k = (a.rotateLeft k).toNat := by
  rw [BitVec.toNat_rotateLeft, Nat.mod_eq_of_lt h]
  rfl

theorem round_nats (s : Words) : round (nats s) = nats (Sip.half' (Sip.half s)) := by
  simp only [round, nats, Sip.half, Sip.half', add_toNat, rotl_toNat _ _ (by decide : 13 < 64), rotl_toNat _ _ (by decide : 16 < 64),
    rotl_toNat _ _ (by decide : 32 < 64), rotl_toNat _ _ (by decide : 17 < 64), rotl_toNat _ _ (by decide : 21 < 64),
    ← BitVec.toNat_xor]

theorem absorb_nats (s : Words) (m : BitVec 64) : absorb (nats s) m.toNat = nats (Sip.compress 1 s m) := by
  have h1 : ({ nats s with v3 := (nats s).v3 ^^^ m.toNat } : State) = nats { s with v3 := s.v3 ^^^ m } := by
    simp only [nats, BitVec.toNat_xor]
  unfold absorb
  simp only [h1, round_nats]
  simp only [Sip.compress, Sip.rounds, nats, BitVec.toNat_xor]

/-- The padded message of the rest of a message of the given length. -/
def rest (length : Nat) (bs : List UInt8) (i : Nat) : Nat :=
  if h : i < bs.length then bs[i].toNat
  else if i = 8 * (bs.length / 8) + 7 then length % 256
  else 0

theorem littleEndian_foldr (l : List Nat) : littleEndian l = l.foldr (fun b n => b + 256 * n) 0 := by
  induction l with
  | nil => rfl
  | cons b l ih => rw [littleEndian, List.foldr_cons, ih]

theorem littleEndian_append (a b : List Nat) : littleEndian (a ++ b) = littleEndian a + 256 ^ a.length * littleEndian b := by
  induction a with
  | nil => simp [littleEndian]
  | cons x a ih =>
    rw [List.cons_append, littleEndian, littleEndian, ih, List.length_cons, Nat.pow_succ, Nat.mul_add, ← Nat.mul_assoc,
      Nat.mul_comm 256 (256 ^ _), Nat.add_assoc]

theorem littleEndian_zeros (n : Nat) : littleEndian (List.replicate n 0) = 0 := by
  induction n with
  | zero => rfl
  | succ n ih => rw [List.replicate_succ, littleEndian, ih]

theorem littleEndian_lt (l : List Nat) (h : ∀ b ∈ l, b < 256) : littleEndian l < 256 ^ l.length := by
  induction l with
  | nil => decide
  | cons b l ih =>
    have h1 := h b (by simp)
    have h2 := ih fun x hx => h x (by simp [hx])
    rw [littleEndian, List.length_cons, Nat.pow_succ]
    omega

/-- A word of it. -/
def restWord (length : Nat) (bs : List UInt8) (i : Nat) : Nat :=
  littleEndian ((List.range 8).map fun j => rest length bs (8 * i + j))

theorem rest_drop (length : Nat) (bs : List UInt8) (h : 8 ≤ bs.length) (i : Nat) :
    rest length (bs.drop 8) i = rest length bs (i + 8) := by
  unfold rest
  have hd : (bs.drop 8).length = bs.length - 8 := List.length_drop
  by_cases hi : i + 8 < bs.length
  · rw [dif_pos (by omega), dif_pos hi, List.getElem_drop]
    congr 2
    omega
  · rw [dif_neg (by omega), dif_neg hi, hd]
    have : (bs.length - 8) / 8 = bs.length / 8 - 1 := by omega
    by_cases h2 : i = 8 * ((bs.length - 8) / 8) + 7
    · rw [if_pos h2, if_pos (by omega)]
    · rw [if_neg h2, if_neg (by omega)]

theorem restWord_drop (length : Nat) (bs : List UInt8) (h : 8 ≤ bs.length) (i : Nat) :
    restWord length (bs.drop 8) i = restWord length bs (i + 1) := by
  unfold restWord
  congr 1
  apply List.map_congr_left
  intro j _
  rw [rest_drop _ _ h, show 8 * i + j + 8 = 8 * (i + 1) + j by omega]

theorem restWord_full (length : Nat) (bs : List UInt8) (h : 8 ≤ bs.length) :
    restWord length bs 0 = littleEndian ((bs.take 8).map UInt8.toNat) := by
  unfold restWord
  congr 1
  apply List.ext_getElem
  · simp only [List.length_map, List.length_range, List.length_take]; omega
  · intro i h1 h2
    simp only [List.length_map, List.length_range] at h1
    simp only [List.getElem_map, List.getElem_range, List.getElem_take, rest, Nat.mul_zero, Nat.zero_add]
    rw [dif_pos (by omega)]

theorem restWord_last (length : Nat) (bs : List UInt8) (h : bs.length < 8) :
    restWord length bs 0 = littleEndian (bs.map UInt8.toNat) + length % 256 * 2 ^ 56 := by
  have key : ((List.range 8).map fun j => rest length bs (8 * 0 + j)) =
      bs.map UInt8.toNat ++ (List.replicate (7 - bs.length) 0 ++ [length % 256]) := by
    apply List.ext_getElem
    · simp only [List.length_map, List.length_range, List.length_append, List.length_replicate, List.length_cons, List.length_nil]
      omega
    · intro i h1 h2
      simp only [List.length_map, List.length_range] at h1
      simp only [List.getElem_map, List.getElem_range, Nat.mul_zero, Nat.zero_add]
      unfold rest
      rw [List.getElem_append]
      simp only [List.length_map]
      by_cases hi : i < bs.length
      · rw [dif_pos hi, dif_pos hi, List.getElem_map]
      · rw [dif_neg hi, dif_neg hi, List.getElem_append]
        simp only [List.length_replicate]
        by_cases h7 : i = 7
        · rw [if_pos (by omega), dif_neg (by omega)]
          simp
        · rw [if_neg (by omega), dif_pos (by omega), List.getElem_replicate]
  rw [restWord, key, littleEndian_append, littleEndian_append, littleEndian_zeros, List.length_replicate, List.length_map]
  simp only [littleEndian, Nat.mul_zero, Nat.add_zero, Nat.zero_add]
  rw [← Nat.mul_assoc, ← Nat.pow_add, show bs.length + (7 - bs.length) = 7 by omega, Nat.mul_comm,
    show (256 : Nat) ^ 7 = 2 ^ 56 from by decide]

theorem rest_lt (length : Nat) (bs : List UInt8) (i : Nat) : rest length bs i < 256 := by
  unfold rest
  split
  · exact UInt8.toNat_lt _
  · split <;> omega

theorem restWord_lt (length : Nat) (bs : List UInt8) (i : Nat) : restWord length bs i < 2 ^ 64 := by
  have := littleEndian_lt ((List.range 8).map fun j => rest length bs (8 * i + j)) (by
    intro b hb
    obtain ⟨j, -, rfl⟩ := List.mem_map.1 hb
    exact rest_lt _ _ _)
  rw [List.length_map, List.length_range, show (256 : Nat) ^ 8 = 2 ^ 64 from by decide] at this
  exact this

theorem message_nats (length : Nat) (fuel : Nat) (bs : List UInt8) (s : Words) (h : bs.length < 8 * fuel) :
    message length fuel (bs.map UInt8.toNat) (nats s) =
      nats (((List.range (bs.length / 8 + 1)).map fun i => BitVec.ofNat 64 (restWord length bs i)).foldl (Sip.compress 1) s) := by
  induction fuel generalizing bs s with
  | zero => omega
  | succ fuel ih =>
    rw [message, List.length_map]
    have word : ∀ i, restWord length bs i = (BitVec.ofNat 64 (restWord length bs i)).toNat := fun i => by
      rw [BitVec.toNat_ofNat, Nat.mod_eq_of_lt (restWord_lt _ _ _)]
    by_cases hl : bs.length < 8
    · rw [if_pos hl, ← restWord_last _ _ hl, word, absorb_nats, show bs.length / 8 = 0 by omega]
      rfl
    · rw [if_neg hl, ← List.map_drop, ← List.map_take, ← restWord_full length bs (by omega), word, absorb_nats,
        ih _ _ (by rw [List.length_drop]; omega), List.length_drop]
      have : bs.length / 8 + 1 = (bs.length - 8) / 8 + 1 + 1 := by omega
      have hr : List.range (bs.length / 8 + 1) = 0 :: (List.range ((bs.length - 8) / 8 + 1)).map Nat.succ := by
        rw [this, List.range_succ_eq_map]
      rw [hr, List.map_cons, List.foldl_cons, List.map_map]
      have hm : ((List.range ((bs.length - 8) / 8 + 1)).map fun i => BitVec.ofNat 64 (restWord length (bs.drop 8) i)) =
          (List.range ((bs.length - 8) / 8 + 1)).map ((fun i => BitVec.ofNat 64 (restWord length bs i)) ∘ Nat.succ) := by
        apply List.map_congr_left
        intro i _
        rw [restWord_drop _ _ (by omega)]
        rfl
      rw [hm]

theorem start_nats : start = nats (Sip.keyed 0#64 0#64) := rfl

theorem sip_nats (bs : List UInt8) : sip (bs.map UInt8.toNat) = (Sip.hash 1 3 0#64 0#64 bs).toNat := by
  unfold sip
  simp only [List.length_map]
  rw [start_nats, message_nats _ _ _ _ (by omega)]
  generalize hs : ((List.range (bs.length / 8 + 1)).map fun i => BitVec.ofNat 64 (restWord bs.length bs i)).foldl (Sip.compress 1)
    (Sip.keyed 0#64 0#64) = s
  have h1 : ({ nats s with v2 := (nats s).v2 ^^^ 0xff } : State) = nats { s with v2 := s.v2 ^^^ 0xff#64 } := by
    simp only [nats, BitVec.toNat_xor]; rfl
  rw [h1, round_nats, round_nats, round_nats]
  unfold Sip.hash
  have h2 : (List.range (bs.length / 8 + 1)).map (Sip.word bs) =
      (List.range (bs.length / 8 + 1)).map fun i => BitVec.ofNat 64 (restWord bs.length bs i) := by
    apply List.map_congr_left
    intro i _
    unfold Sip.word restWord
    rw [littleEndian_foldr, List.foldr_map]
    rfl
  rw [h2, hs]
  simp only [Sip.rounds, nats, BitVec.toNat_xor]

/-! ### Bytes -/

theorem utf8_eq (c : Char) : utf8 c = (String.utf8EncodeChar c).map UInt8.toNat := by
  have hv : c.toNat < 0x110000 := by
    have : c.toNat < 0xD800 ∨ (0xDFFF < c.toNat ∧ c.toNat < 0x110000) := c.valid
    omega
  have hc : c.val.toNat = c.toNat := rfl
  unfold utf8 String.utf8EncodeChar
  simp only [hc]
  by_cases h1 : c.toNat < 0x80
  · rw [if_pos h1, if_pos (show c.toNat ≤ 127 by omega)]
    simp only [List.map_cons, List.map_nil, UInt8.toNat_ofNat', List.cons.injEq, and_true]
    omega
  rw [if_neg h1, if_neg (show ¬ c.toNat ≤ 127 by omega)]
  by_cases h2 : c.toNat < 0x800
  · rw [if_pos h2, if_pos (show c.toNat ≤ 2047 by omega)]
    simp only [List.map_cons, List.map_nil, UInt8.toNat_ofNat', List.cons.injEq, and_true]
    omega
  rw [if_neg h2, if_neg (show ¬ c.toNat ≤ 2047 by omega)]
  by_cases h3 : c.toNat < 0x10000
  · rw [if_pos h3, if_pos (show c.toNat ≤ 65535 by omega)]
    simp only [List.map_cons, List.map_nil, UInt8.toNat_ofNat', List.cons.injEq, and_true]
    omega
  rw [if_neg h3, if_neg (show ¬ c.toNat ≤ 65535 by omega)]
  simp only [List.map_cons, List.map_nil, UInt8.toNat_ofNat', List.cons.injEq, and_true]
  omega

theorem bytes_eq (l : List Char) : bytes l = (l.flatMap String.utf8EncodeChar).map UInt8.toNat := by
  induction l with
  | nil => rfl
  | cons c l ih => rw [bytes, ih, utf8_eq, List.flatMap_cons, List.map_append]

theorem bytes_string (s : String) : bytes s.toList = s.toUTF8.data.toList.map UInt8.toNat := by
  have h : s.toUTF8 = s.toList.utf8Encode := String.utf8Encode_toList.symm
  rw [h, bytes_eq]
  unfold List.utf8Encode
  simp

theorem hash_eq (s : String) : hash s = (Sip.hash 1 3 0#64 0#64 (s.toUTF8.data.toList ++ [0xff])).toNat := by
  rw [hash, bytes_string, ← sip_nats, List.map_append]
  rfl

end Verif.SipHash
