import Verif.Model.Percent
import Mathlib.Tactic.Linarith
import Mathlib.Tactic.Positivity
import Mathlib.Tactic.NormNum
import Mathlib.Tactic.FieldSimp
import Mathlib.Data.Rat.Floor
namespace Verif

/-! Rounding to an integer -/

theorem floor_toNat_le {q : Rat} (h : 0 ≤ q) : ((q.floor.toNat : Nat) : Rat) ≤ q := by
  have h0 : 0 ≤ q.floor := Rat.le_floor_iff.2 (by simpa using h)
  have : ((q.floor.toNat : Nat) : Rat) = ((q.floor : Int) : Rat) := by
    have := congrArg (fun z : Int => (z : Rat)) (Int.toNat_of_nonneg h0)
    exact_mod_cast this
  rw [this]; exact Rat.floor_le q

theorem lt_floor_toNat {q : Rat} (h : 0 ≤ q) : q < ((q.floor.toNat : Nat) : Rat) + 1 := by
  have h0 : 0 ≤ q.floor := Rat.le_floor_iff.2 (by simpa using h)
  have : ((q.floor.toNat : Nat) : Rat) = ((q.floor : Int) : Rat) := by
    have := congrArg (fun z : Int => (z : Rat)) (Int.toNat_of_nonneg h0)
    exact_mod_cast this
  rw [this]
  have := Rat.lt_floor_add_one q
  push_cast at this; exact this

theorem floor_toNat_eq {q : Rat} {n : Nat} (h1 : (n : Rat) ≤ q) (h2 : q < n + 1) :
    q.floor.toNat = n := by
  have h0 : (0 : Rat) ≤ q := le_trans (by positivity) h1
  have a := floor_toNat_le h0
  have b := lt_floor_toNat h0
  have c : (n : Rat) < ((q.floor.toNat : Nat) : Rat) + 1 := lt_of_le_of_lt h1 b
  have d : ((q.floor.toNat : Nat) : Rat) < (n : Rat) + 1 := lt_of_le_of_lt a h2
  have c' : n < q.floor.toNat + 1 := by exact_mod_cast c
  have d' : q.floor.toNat < n + 1 := by exact_mod_cast d
  omega

/-- The result is within one half. -/
theorem roundHalfEven_near {q : Rat} (h : 0 ≤ q) :
    (roundHalfEven q : Rat) - 1 / 2 ≤ q ∧ q ≤ (roundHalfEven q : Rat) + 1 / 2 := by
  have a := floor_toNat_le h
  have b := lt_floor_toNat h
  unfold roundHalfEven
  simp only
  split
  · constructor <;> linarith
  · split
    · push_cast; constructor <;> linarith
    · split
      · constructor <;> linarith
      · push_cast; constructor <;> linarith

/-- No integer is nearer. -/
theorem roundHalfEven_nearest {q : Rat} (h : 0 ≤ q) (n : Nat) : |(roundHalfEven q : Rat) - q| ≤ |(n : Rat) - q| := by
  obtain ⟨h1, h2⟩ := roundHalfEven_near h
  rcases Nat.lt_trichotomy n (roundHalfEven q) with hn | hn | hn
  · have : (n : Rat) + 1 ≤ roundHalfEven q := by exact_mod_cast hn
    rw [abs_of_nonpos (show (n : Rat) - q ≤ 0 by linarith), abs_le]
    constructor <;> linarith
  · rw [hn]
  · have : (roundHalfEven q : Rat) + 1 ≤ n := by exact_mod_cast hn
    rw [abs_of_nonneg (show (0 : Rat) ≤ (n : Rat) - q by linarith), abs_le]
    constructor <;> linarith

/-- A value halfway between two integers goes to the even one. -/
theorem roundHalfEven_tie {q : Rat} (h : 0 ≤ q) (ht : |(roundHalfEven q : Rat) - q| = 1 / 2) : roundHalfEven q % 2 = 0 := by
  have a := floor_toNat_le h
  have b := lt_floor_toNat h
  revert ht
  unfold roundHalfEven
  simp only
  split
  · intro ht
    rw [abs_of_nonpos (by linarith)] at ht
    linarith
  · split
    · intro ht
      push_cast at ht
      rw [abs_of_nonneg (by linarith)] at ht
      linarith
    · split
      · intro _; assumption
      · intro _; omega

theorem roundHalfEven_nat (n : Nat) : roundHalfEven (n : Rat) = n := by
  have : (n : Rat).floor.toNat = n := floor_toNat_eq (le_refl _) (by linarith)
  unfold roundHalfEven
  simp only [this]
  rw [if_pos (by norm_num)]

theorem roundHalfEven_mono {p q : Rat} (h0 : 0 ≤ p) (h : p ≤ q) :
    roundHalfEven p ≤ roundHalfEven q := by
  have hq : 0 ≤ q := le_trans h0 h
  have a := floor_toNat_le h0
  have b := lt_floor_toNat h0
  have a' := floor_toNat_le hq
  have b' := lt_floor_toNat hq
  have hfl : p.floor.toNat ≤ q.floor.toNat := by
    have : ((p.floor.toNat : Nat) : Rat) < ((q.floor.toNat : Nat) : Rat) + 1 := by linarith
    have : p.floor.toNat < q.floor.toNat + 1 := by exact_mod_cast this
    omega
  rcases Nat.lt_or_ge p.floor.toNat q.floor.toNat with hlt | hge
  · have h1 : roundHalfEven p ≤ p.floor.toNat + 1 := by
      unfold roundHalfEven; simp only; split <;> (try split) <;> (try split) <;> omega
    have h2 : q.floor.toNat ≤ roundHalfEven q := by
      unfold roundHalfEven; simp only; split <;> (try split) <;> (try split) <;> omega
    omega
  · have heq : p.floor.toNat = q.floor.toNat := by omega
    unfold roundHalfEven
    simp only [heq]
    have hd : p - (q.floor.toNat : Nat) ≤ q - (q.floor.toNat : Nat) := by linarith
    split
    · split <;> (try split) <;> (try split) <;> omega
    · rename_i h1
      have h1' : ¬ q - (q.floor.toNat : Nat) < 1 / 2 := by intro h2; exact h1 (lt_of_le_of_lt hd h2)
      rw [if_neg h1']
      split
      · rename_i h2
        rw [if_pos (lt_of_lt_of_le h2 hd)]
      · split <;> split <;> omega

/-! The binary exponent -/

theorem scaleExp_bounds (q : Rat) (fuel k : Nat) :
    k ≤ scaleExp q fuel k ∧ scaleExp q fuel k ≤ k + fuel := by
  induction fuel generalizing k with
  | zero => simp [scaleExp]
  | succ f ih =>
    unfold scaleExp
    split
    · omega
    · have := ih (k + 1); omega

/-- Below the exponent the scaled value is too small. -/
theorem scaleExp_lt (q : Rat) (fuel k j : Nat) (h1 : k ≤ j) (h2 : j < scaleExp q fuel k) :
    q * 2 ^ j < 2 ^ 23 := by
  induction fuel generalizing k with
  | zero => simp [scaleExp] at h2; omega
  | succ f ih =>
    unfold scaleExp at h2
    split at h2
    · omega
    · rename_i hk
      rcases Nat.eq_or_lt_of_le h1 with h | h
      · subst h; exact not_le.1 hk
      · exact ih (k + 1) h h2

/-- At the exponent the scaled value is large enough unless the search was cut off. -/
theorem scaleExp_ge (q : Rat) (fuel k : Nat) (h : scaleExp q fuel k < k + fuel) :
    2 ^ 23 ≤ q * 2 ^ scaleExp q fuel k := by
  induction fuel generalizing k with
  | zero => simp [scaleExp] at h
  | succ f ih =>
    unfold scaleExp at h ⊢
    split
    · assumption
    · rename_i hk
      rw [if_neg hk] at h
      exact ih (k + 1) (by omega)

/-! Rounding to single precision -/

theorem roundF32_pos_eq {q : Rat} (h : 0 < q) :
    roundF32 q = (roundHalfEven (q * 2 ^ scaleExp q 149 0) : Rat) / 2 ^ scaleExp q 149 0 := by
  unfold roundF32
  rw [if_neg (not_le.2 h)]

theorem roundF32_nonneg (q : Rat) : 0 ≤ roundF32 q := by
  unfold roundF32
  split
  · exact le_refl _
  · positivity

/-- Scaled value is below `2^24` for `q < 2^24`. -/
theorem scaled_lt {q : Rat} (hq : q < 2 ^ 24) :
    q * 2 ^ scaleExp q 149 0 < 2 ^ 24 := by
  cases hk : scaleExp q 149 0 with
  | zero => simpa using hq
  | succ k =>
    have := scaleExp_lt q 149 0 k (Nat.zero_le _) (by omega)
    rw [pow_succ]; linarith

theorem roundF32_mono {p q : Rat} (h : p ≤ q) (hq : q < 2 ^ 24) : roundF32 p ≤ roundF32 q := by
  rcases le_or_gt p 0 with hp | hp
  · have : roundF32 p = 0 := by unfold roundF32; rw [if_pos hp]
    rw [this]; exact roundF32_nonneg q
  · have hq0 : 0 < q := lt_of_lt_of_le hp h
    have hp24 : p < 2 ^ 24 := lt_of_le_of_lt h hq
    rw [roundF32_pos_eq hp, roundF32_pos_eq hq0]
    set kp := scaleExp p 149 0 with hkp
    set kq := scaleExp q 149 0 with hkq
    have hpp : (0 : Rat) < 2 ^ kp := by positivity
    have hqp : (0 : Rat) < 2 ^ kq := by positivity
    rcases Nat.lt_trichotomy kq kp with hlt | heq | hgt
    · -- `q` is in a higher binade
      have h1 : roundHalfEven (p * 2 ^ kp) ≤ 2 ^ 24 := by
        have := roundHalfEven_mono (by positivity) (le_of_lt (scaled_lt hp24))
        have e : roundHalfEven ((2 : Rat) ^ 24) = 2 ^ 24 := by
          have := roundHalfEven_nat (2 ^ 24); push_cast at this; exact this
        rw [e] at this; exact this
      have hb := (scaleExp_bounds p 149 0).2
      have h2 : 2 ^ 23 ≤ roundHalfEven (q * 2 ^ kq) := by
        have hge := scaleExp_ge q 149 0 (by omega)
        have := roundHalfEven_mono (by positivity) hge
        have e : roundHalfEven ((2 : Rat) ^ 23) = 2 ^ 23 := by
          have := roundHalfEven_nat (2 ^ 23); push_cast at this; exact this
        rw [e] at this; exact this
      have h1' : (roundHalfEven (p * 2 ^ kp) : Rat) ≤ 2 ^ 24 := by exact_mod_cast h1
      have h2' : (2 : Rat) ^ 23 ≤ (roundHalfEven (q * 2 ^ kq) : Rat) := by exact_mod_cast h2
      rw [div_le_div_iff₀ hpp hqp]
      have h3 : (2 : Rat) * 2 ^ kq ≤ 2 ^ kp := by
        rw [← pow_succ']
        exact pow_le_pow_right₀ (by norm_num) (by omega)
      have h4 : (roundHalfEven (p * 2 ^ kp) : Rat) * 2 ^ kq ≤ 2 ^ 24 * 2 ^ kq :=
        mul_le_mul_of_nonneg_right h1' (le_of_lt hqp)
      have h5 : (2 : Rat) ^ 24 * 2 ^ kq ≤ 2 ^ 23 * 2 ^ kp := by
        have : (2 : Rat) ^ 24 * 2 ^ kq = 2 ^ 23 * (2 * 2 ^ kq) := by ring
        rw [this]
        exact mul_le_mul_of_nonneg_left h3 (by positivity)
      have h6 : (2 : Rat) ^ 23 * 2 ^ kp ≤ (roundHalfEven (q * 2 ^ kq) : Rat) * 2 ^ kp :=
        mul_le_mul_of_nonneg_right h2' (le_of_lt hpp)
      linarith
    · rw [heq]
      have h1 : roundHalfEven (p * 2 ^ kp) ≤ roundHalfEven (q * 2 ^ kp) :=
        roundHalfEven_mono (by positivity) (mul_le_mul_of_nonneg_right h (le_of_lt hpp))
      have h1' : (roundHalfEven (p * 2 ^ kp) : Rat) ≤ (roundHalfEven (q * 2 ^ kp) : Rat) := by
        exact_mod_cast h1
      exact div_le_div_of_nonneg_right h1' (le_of_lt hpp)
    · -- impossible: the exponent decreases
      exfalso
      have h1 := scaleExp_lt q 149 0 kp (Nat.zero_le _) hgt
      have hb := (scaleExp_bounds q 149 0).2
      have h2 := scaleExp_ge p 149 0 (by omega)
      have h3 : p * 2 ^ kp ≤ q * 2 ^ kp := mul_le_mul_of_nonneg_right h (le_of_lt hpp)
      have h2' : (2 : Rat) ^ 23 ≤ p * 2 ^ kp := h2
      linarith

/-- Numbers with at most 24 significant bits are not changed. -/
theorem roundF32_exact (m j : Nat) (hm : m < 2 ^ 24) (hj : j ≤ 149) :
    roundF32 ((m : Rat) / 2 ^ j) = (m : Rat) / 2 ^ j := by
  rcases Nat.eq_zero_or_pos m with h | h
  · subst h; simp [roundF32]
  · have hmp : (0 : Rat) < m := by exact_mod_cast h
    have hq : (0 : Rat) < (m : Rat) / 2 ^ j := by positivity
    rw [roundF32_pos_eq hq]
    set q := (m : Rat) / 2 ^ j with hqd
    set k := scaleExp q 149 0 with hk
    have hkj : j ≤ k := by
      by_contra hlt
      have hlt : k < j := Nat.lt_of_not_le hlt
      have h1 := scaleExp_ge q 149 0 (by omega)
      have h2 : (2 : Rat) * 2 ^ k ≤ 2 ^ j := by
        rw [← pow_succ']; exact pow_le_pow_right₀ (by norm_num) (by omega)
      have h3 : q * (2 * 2 ^ k) ≤ q * 2 ^ j := mul_le_mul_of_nonneg_left h2 (le_of_lt hq)
      have h4 : q * 2 ^ j = m := by rw [hqd]; field_simp
      have h5 : (m : Rat) < 2 ^ 24 := by exact_mod_cast hm
      have h1' : (2 : Rat) ^ 23 ≤ q * 2 ^ k := h1
      have : (2 : Rat) ^ 24 ≤ q * (2 * 2 ^ k) := by
        have : q * (2 * 2 ^ k) = 2 * (q * 2 ^ k) := by ring
        rw [this]; linarith
      linarith
    have hint : q * 2 ^ k = ((m * 2 ^ (k - j) : Nat) : Rat) := by
      have : (2 : Rat) ^ k = 2 ^ j * 2 ^ (k - j) := by
        rw [← pow_add]; congr 1; omega
      rw [hqd, this]; push_cast; field_simp
    rw [hint, roundHalfEven_nat, ← hint]
    field_simp

theorem roundF32_nat (m : Nat) (hm : m < 2 ^ 24) : roundF32 (m : Rat) = m := by
  have := roundF32_exact m 0 hm (by omega)
  simpa using this

/-- The middle step of `percent`: dividing by ten and flooring is exact integer division. -/
theorem tenth_exact (n : Nat) (hn : n ≤ 100000) :
    (roundF32 ((n : Rat) / 10)).floor = ((n / 10 : Nat) : Int) := by
  have hlo : ((n / 10 : Nat) : Rat) ≤ (n : Rat) / 10 := by
    rw [le_div_iff₀ (by norm_num)]
    have : n / 10 * 10 ≤ n := Nat.div_mul_le_self n 10
    exact_mod_cast this
  have hn' : (n : Rat) ≤ 100000 := by exact_mod_cast hn
  have h24 : (n : Rat) / 10 < 2 ^ 24 := by
    rw [div_lt_iff₀ (by norm_num)]; linarith
  have h1 : ((n / 10 : Nat) : Rat) ≤ roundF32 ((n : Rat) / 10) := by
    have := roundF32_mono hlo h24
    rwa [roundF32_nat _ (by omega)] at this
  -- the next representable sixteenth below the next integer
  have hhi : (n : Rat) / 10 ≤ ((16 * (n / 10) + 15 : Nat) : Rat) / 2 ^ 4 := by
    rw [div_le_div_iff₀ (by norm_num) (by norm_num)]
    have : n * 16 ≤ (16 * (n / 10) + 15) * 10 := by omega
    have : (n : Rat) * 16 ≤ ((16 * (n / 10) + 15 : Nat) : Rat) * 10 := by exact_mod_cast this
    norm_num
    push_cast at this ⊢
    linarith
  have hb : (16 * (n / 10) + 15 : Nat) < 2 ^ 24 := by omega
  have h2 : roundF32 ((n : Rat) / 10) ≤ ((16 * (n / 10) + 15 : Nat) : Rat) / 2 ^ 4 := by
    have hlt : ((16 * (n / 10) + 15 : Nat) : Rat) / 2 ^ 4 < 2 ^ 24 := by
      rw [div_lt_iff₀ (by norm_num)]
      have : ((16 * (n / 10) + 15 : Nat) : Rat) < 2 ^ 24 := by exact_mod_cast hb
      linarith
    have := roundF32_mono hhi hlt
    rwa [roundF32_exact _ 4 hb (by omega)] at this
  have h3 : roundF32 ((n : Rat) / 10) < ((n / 10 : Nat) : Rat) + 1 := by
    refine lt_of_le_of_lt h2 ?_
    rw [div_lt_iff₀ (by norm_num)]
    push_cast
    linarith
  apply le_antisymm
  · have := Rat.floor_le (roundF32 ((n : Rat) / 10))
    have hlt : (((roundF32 ((n : Rat) / 10)).floor : Int) : Rat) < (((n / 10 : Nat) : Int) : Rat) + 1 := by
      have : (((n / 10 : Nat) : Int) : Rat) = ((n / 10 : Nat) : Rat) := by norm_cast
      rw [this]; linarith
    have : (roundF32 ((n : Rat) / 10)).floor < ((n / 10 : Nat) : Int) + 1 := by exact_mod_cast hlt
    omega
  · rw [Rat.le_floor_iff]
    have : (((n / 10 : Nat) : Int) : Rat) = ((n / 10 : Nat) : Rat) := by norm_cast
    rw [this]; exact h1

/-- What `percent` computes: hundredths of a percent, truncated, then one rounding. -/
theorem percent_eq {c t : Nat} (ht : 0 < t) (hc : c ≤ t) :
    percent c t = roundF32 (((10000 * c / t : Nat) : Rat) / 100) ∧ 10000 * c / t ≤ 10000 := by
  have hle : 100000 * c / t ≤ 100000 := by
    apply Nat.div_le_of_le_mul
    rw [Nat.mul_comm t]; exact Nat.mul_le_mul_left _ hc
  have hdiv : 100000 * c / t / 10 = 10000 * c / t := by
    rw [Nat.div_div_eq_div_mul, Nat.mul_comm t 10, ← Nat.div_div_eq_div_mul,
      show 100000 * c = 10 * (10000 * c) by omega, Nat.mul_div_cancel_left _ (by omega)]
  refine ⟨?_, ?_⟩
  · unfold percent
    rw [if_pos ht]
    simp only [show 1000 * 100 * c = 100000 * c by omega]
    rw [roundF32_nat _ (by omega), tenth_exact _ hle, hdiv, Int.cast_natCast]
  · apply Nat.div_le_of_le_mul
    rw [Nat.mul_comm t]; exact Nat.mul_le_mul_left _ hc

end Verif
