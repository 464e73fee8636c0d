import Verif.Lemmas.Percent
/-
C11: percentages. The reference values are exact rationals; `roundF32` is IEEE-754 rounding.
-/
namespace Verif

/-- C11: between 0 and 100. -/
theorem C11_percent_range (c t : Nat) (h : c ≤ t) : 0 ≤ percent c t ∧ percent c t ≤ 100 := by
  rcases Nat.eq_zero_or_pos t with h0 | ht
  · subst h0; simp [percent]
  · obtain ⟨e, hle⟩ := percent_eq ht h
    rw [e]
    refine ⟨roundF32_nonneg _, ?_⟩
    have h1 : (((10000 * c / t : Nat) : Rat)) ≤ 10000 := by exact_mod_cast hle
    have h2 : ((10000 * c / t : Nat) : Rat) / 100 ≤ ((100 : Nat) : Rat) := by
      rw [div_le_iff₀ (by norm_num)]; push_cast; linarith
    have := roundF32_mono h2 (by norm_num)
    rw [roundF32_nat 100 (by norm_num)] at this
    exact_mod_cast this

/-- C11: 100 exactly when everything is covered (or there is nothing to cover). -/
theorem C11_percent_100 (c t : Nat) (h : c ≤ t) : percent c t = 100 ↔ c = t := by
  rcases Nat.eq_zero_or_pos t with h0 | ht
  · subst h0
    simp [percent, Nat.le_zero.1 h]
  · obtain ⟨e, hle⟩ := percent_eq ht h
    rw [e]
    constructor
    · intro h100
      by_contra hne
      have hlt : c < t := Nat.lt_of_le_of_ne h hne
      have hn : 10000 * c / t ≤ 9999 := by
        have : 10000 * c / t < 10000 := by
          rw [Nat.div_lt_iff_lt_mul ht]; exact Nat.mul_lt_mul_of_pos_left hlt (by omega)
        omega
      have h1 : (((10000 * c / t : Nat) : Rat)) ≤ 9999 := by exact_mod_cast hn
      have h2 : ((10000 * c / t : Nat) : Rat) / 100 ≤ ((12799 : Nat) : Rat) / 2 ^ 7 := by
        rw [div_le_div_iff₀ (by norm_num) (by norm_num)]; push_cast; linarith
      have := roundF32_mono h2 (by norm_num)
      rw [roundF32_exact 12799 7 (by norm_num) (by omega), h100] at this
      norm_num at this
    · rintro rfl
      have : 10000 * c / c = 10000 := Nat.mul_div_cancel _ ht
      rw [this]
      have h2 : ((10000 : Nat) : Rat) / 100 = ((100 : Nat) : Rat) := by norm_num
      rw [h2, roundF32_nat 100 (by norm_num)]; norm_num

/-- C11: 0 exactly when less than 0.01% is covered. -/
theorem C11_percent_0 (c t : Nat) (h : c ≤ t) (ht : 0 < t) :
    percent c t = 0 ↔ 10000 * c < t := by
  obtain ⟨e, hle⟩ := percent_eq ht h
  rw [e]
  constructor
  · intro h0
    by_contra hge
    have hn : 1 ≤ 10000 * c / t := by rw [Nat.le_div_iff_mul_le ht]; omega
    have h1 : (1 : Rat) ≤ ((10000 * c / t : Nat) : Rat) := by exact_mod_cast hn
    have hle' : (((10000 * c / t : Nat) : Rat)) ≤ 10000 := by exact_mod_cast hle
    have h2 : ((1 : Nat) : Rat) / 2 ^ 7 ≤ ((10000 * c / t : Nat) : Rat) / 100 := by
      rw [div_le_div_iff₀ (by norm_num) (by norm_num)]; push_cast; linarith
    have := roundF32_mono h2 (by rw [div_lt_iff₀ (by norm_num)]; linarith)
    rw [roundF32_exact 1 7 (by norm_num) (by omega), h0] at this
    norm_num at this
  · intro hlt
    rw [Nat.div_eq_of_lt hlt]
    simp [roundF32]

/-- C11: the reported value lies within a hundredth of a percent below the true ratio, up to the
single rounding to `f32`. In particular it never exceeds the rounded true ratio. -/
theorem C11_percent_accuracy (c t : Nat) (h : c ≤ t) (ht : 0 < t) :
    roundF32 (100 * c / t - 1 / 100) ≤ percent c t ∧ percent c t ≤ roundF32 (100 * c / t) := by
  obtain ⟨e, hle⟩ := percent_eq ht h
  have htq : (0 : Rat) < t := by exact_mod_cast ht
  have hcq : (c : Rat) ≤ t := by exact_mod_cast h
  have hle' : (((10000 * c / t : Nat) : Rat)) ≤ 10000 := by exact_mod_cast hle
  rw [e]
  constructor
  · apply roundF32_mono
    · have hlt : 10000 * c < (10000 * c / t + 1) * t := by
        have := Nat.lt_div_mul_add (a := 10000 * c) ht
        rw [Nat.add_mul, Nat.one_mul]; exact this
      have hlt' : 10000 * (c : Rat) < (((10000 * c / t : Nat) : Rat) + 1) * t := by exact_mod_cast hlt
      have : 100 * (c : Rat) / t ≤ (((10000 * c / t : Nat) : Rat) + 1) / 100 := by
        rw [div_le_div_iff₀ htq (by norm_num)]; linarith
      linarith
    · rw [div_lt_iff₀ (by norm_num)]; linarith
  · apply roundF32_mono
    · rw [div_le_div_iff₀ (by norm_num) htq]
      have := Nat.div_mul_le_self (10000 * c) t
      have : ((10000 * c / t : Nat) : Rat) * t ≤ 10000 * c := by exact_mod_cast this
      linarith
    · have : 100 * (c : Rat) / t ≤ 100 := by rw [div_le_iff₀ htq]; linarith
      linarith

/-- C11: truncated to hundredths of a percent: the single-precision number next to the largest number of hundredths that is not above the true
percentage. -/
theorem C11_percent_truncated (c t : Nat) (h : c ≤ t) (ht : 0 < t) :
    ∃ n : Nat, percent c t = roundF32 ((n : Rat) / 100) ∧ (n : Rat) / 100 ≤ 100 * c / t ∧ (100 : Rat) * c / t < ((n + 1 : Nat) : Rat) / 100 := by
  obtain ⟨e, _⟩ := percent_eq ht h
  have htq : (0 : Rat) < t := by exact_mod_cast ht
  refine ⟨10000 * c / t, e, ?_, ?_⟩
  · rw [div_le_div_iff₀ (by norm_num) htq]
    have : ((10000 * c / t : Nat) : Rat) * t ≤ 10000 * c := by exact_mod_cast Nat.div_mul_le_self (10000 * c) t
    linarith
  · have hlt : 10000 * c < (10000 * c / t + 1) * t := by
      have := Nat.lt_div_mul_add (a := 10000 * c) ht
      rw [Nat.add_mul, Nat.one_mul]; exact this
    have hlt' : 10000 * (c : Rat) < ((10000 * c / t + 1 : Nat) : Rat) * t := by exact_mod_cast hlt
    rw [div_lt_div_iff₀ htq (by norm_num)]; linarith

/-- C11: covering more never lowers the percentage; adding uncovered items never raises it. -/
theorem C11_percent_monotone (c c' t t' : Nat) (hc : c ≤ c') (ht : t' ≤ t) (ht0 : 0 < t')
    (h : c' ≤ t') : percent c t ≤ percent c' t' := by
  obtain ⟨e, _⟩ := percent_eq (c := c) (t := t) (by omega) (by omega)
  obtain ⟨e', hle'⟩ := percent_eq (c := c') (t := t') ht0 h
  rw [e, e']
  have hle'' : (((10000 * c' / t' : Nat) : Rat)) ≤ 10000 := by exact_mod_cast hle'
  apply roundF32_mono
  · have : 10000 * c / t ≤ 10000 * c' / t' :=
      Nat.div_le_div (Nat.mul_le_mul_left _ hc) ht (by omega)
    have : ((10000 * c / t : Nat) : Rat) ≤ ((10000 * c' / t' : Nat) : Rat) := by exact_mod_cast this
    exact div_le_div_of_nonneg_right this (by norm_num)
  · rw [div_lt_iff₀ (by norm_num)]; linarith

/-- `roundF32` is correct rounding, part 1: numbers with a 24-bit significand are kept. -/
theorem C11_f32_exact (m j : Nat) (hm : m < 2 ^ 24) (hj : j ≤ 149) :
    roundF32 ((m : Rat) / 2 ^ j) = (m : Rat) / 2 ^ j := roundF32_exact m j hm hj

/-- `roundF32` is correct rounding, part 2: it is monotone. With part 1 a value is never moved across
a representable number. -/
theorem C11_f32_mono (p q : Rat) (h : p ≤ q) (hq : q < 2 ^ 24) : roundF32 p ≤ roundF32 q :=
  roundF32_mono h hq

/-- `roundF32` is correct rounding, part 3: the result is representable. -/
theorem C11_f32_representable (q : Rat) (hq : q < 2 ^ 24) :
    ∃ m j : Nat, m ≤ 2 ^ 24 ∧ j ≤ 149 ∧ roundF32 q = (m : Rat) / 2 ^ j := by
  rcases le_or_gt q 0 with h | h
  · exact ⟨0, 0, by omega, by omega, by simp [roundF32, h]⟩
  · refine ⟨roundHalfEven (q * 2 ^ scaleExp q 149 0), scaleExp q 149 0, ?_, ?_, roundF32_pos_eq h⟩
    · have := roundHalfEven_mono (by positivity) (le_of_lt (scaled_lt hq))
      have e : roundHalfEven ((2 : Rat) ^ 24) = 2 ^ 24 := by
        have := roundHalfEven_nat (2 ^ 24); push_cast at this; exact this
      rw [e] at this; exact this
    · have := (scaleExp_bounds q 149 0).2; omega

/-- `roundF32` is correct rounding, part 4: the error is at most half a unit in the last place. -/
theorem C11_f32_error (q : Rat) (h : 0 < q) :
    |roundF32 q - q| ≤ 1 / 2 / 2 ^ scaleExp q 149 0 := by
  rw [roundF32_pos_eq h]
  obtain ⟨h1, h2⟩ := roundHalfEven_near (q := q * 2 ^ scaleExp q 149 0) (by positivity)
  have hp : (0 : Rat) < 2 ^ scaleExp q 149 0 := by positivity
  rw [abs_le]
  constructor
  · have : q ≤ ((roundHalfEven (q * 2 ^ scaleExp q 149 0) : Rat) + 1 / 2) / 2 ^ scaleExp q 149 0 := by
      rw [le_div_iff₀ hp]; exact h2
    rw [add_div] at this; linarith
  · have : ((roundHalfEven (q * 2 ^ scaleExp q 149 0) : Rat) - 1 / 2) / 2 ^ scaleExp q 149 0 ≤ q := by
      rw [div_le_iff₀ hp]; exact h1
    rw [sub_div] at this; linarith

/-- `roundF32` is correct rounding, part 5: halfway between two candidates the one with the even significand is taken. -/
theorem C11_f32_tie (q : Rat) (h : 0 < q) (ht : |roundF32 q - q| = 1 / 2 / 2 ^ scaleExp q 149 0) :
    ∃ m : Nat, roundF32 q = ((2 * m : Nat) : Rat) / 2 ^ scaleExp q 149 0 := by
  have hp : (0 : Rat) < 2 ^ scaleExp q 149 0 := by positivity
  rw [roundF32_pos_eq h] at ht ⊢
  have e : (roundHalfEven (q * 2 ^ scaleExp q 149 0) : Rat) / 2 ^ scaleExp q 149 0 - q =
      ((roundHalfEven (q * 2 ^ scaleExp q 149 0) : Rat) - q * 2 ^ scaleExp q 149 0) / 2 ^ scaleExp q 149 0 := by
    field_simp
  rw [e, abs_div, abs_of_pos hp] at ht
  have ht' := (div_left_inj' (ne_of_gt hp)).1 ht
  have := roundHalfEven_tie (by positivity) ht'
  exact ⟨roundHalfEven (q * 2 ^ scaleExp q 149 0) / 2, by rw [Nat.mul_div_cancel' (Nat.dvd_of_mod_eq_zero this)]⟩

/-- `roundF32` is correct rounding, part 6: no number with a 24-bit significand is nearer. -/
theorem C11_f32_nearest (q : Rat) (h : 0 < q) (m j : Nat) (hm : m < 2 ^ 24) (hj : j ≤ 149) :
    |roundF32 q - q| ≤ |(m : Rat) / 2 ^ j - q| := by
  have hp : (0 : Rat) < 2 ^ scaleExp q 149 0 := by positivity
  have scaled : ∀ a : Rat, |a - q| * 2 ^ scaleExp q 149 0 = |a * 2 ^ scaleExp q 149 0 - q * 2 ^ scaleExp q 149 0| := by
    intro a
    rw [← sub_mul, abs_mul, abs_of_pos hp]
  rw [← mul_le_mul_iff_left₀ hp, scaled, scaled, roundF32_pos_eq h, div_mul_cancel₀ _ (ne_of_gt hp)]
  have near := roundHalfEven_nearest (q := q * 2 ^ scaleExp q 149 0) (by positivity)
  rcases Nat.lt_or_ge (scaleExp q 149 0) j with hk | hk
  · have hge : 2 ^ 23 ≤ q * 2 ^ scaleExp q 149 0 := scaleExp_ge q 149 0 (by omega)
    have hlt : (m : Rat) / 2 ^ j * 2 ^ scaleExp q 149 0 ≤ 2 ^ 23 := by
      obtain ⟨d, rfl⟩ := Nat.exists_eq_add_of_lt hk
      have hm' : (m : Rat) ≤ 2 ^ 24 := by exact_mod_cast hm.le
      have hd : (1 : Rat) ≤ 2 ^ d := one_le_pow₀ (by norm_num)
      rw [pow_add, pow_add, div_mul_eq_mul_div, div_le_iff₀ (by positivity)]
      have h1 : (m : Rat) * 2 ^ scaleExp q 149 0 ≤ 2 ^ 24 * 2 ^ scaleExp q 149 0 := mul_le_mul_of_nonneg_right hm' hp.le
      have h2 : (2 : Rat) ^ scaleExp q 149 0 * 1 ≤ 2 ^ scaleExp q 149 0 * 2 ^ d := mul_le_mul_of_nonneg_left hd hp.le
      linarith
    refine le_trans (near (2 ^ 23)) ?_
    push_cast
    rw [abs_of_nonpos (by linarith), abs_of_nonpos (by linarith)]
    linarith
  · obtain ⟨d, hd⟩ := Nat.exists_eq_add_of_le hk
    have e : (m : Rat) / 2 ^ j * 2 ^ scaleExp q 149 0 = ((m * 2 ^ d : Nat) : Rat) := by
      rw [hd, pow_add]
      push_cast
      field_simp
    rw [e]
    exact near _

/-- Non-vacuity: 2²³ + 1/2 is such a value, and goes down to 2²³. -/
example : |roundF32 (8388608 + 1 / 2) - (8388608 + 1 / 2)| = 1 / 2 / 2 ^ scaleExp (8388608 + 1 / 2) 149 0 ∧
    roundF32 (8388608 + 1 / 2) = 8388608 := by
  decide +kernel

/-- Non-vacuity: the value the repository tests (percent.rs:22-24) is below 100. -/
example : percent 999998 999999 < 100 :=
  lt_of_le_of_ne (C11_percent_range _ _ (by omega)).2
    fun h => absurd ((C11_percent_100 _ _ (by omega)).1 h) (by omega)

/-- Non-vacuity: two thirds is reported as the single-precision number next to 66.66. -/
example : percent 2 3 = 2184315 / 32768 := by decide +kernel

end Verif
