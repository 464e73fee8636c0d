import Verif.Model.Coverage
import Verif.Props.Percent
import Verif.Props.Lines
/-
C14: the share of covered arms that `get_branch_coverage_by_line` reports for a line. Unlike the
percentages of summaries it is not truncated, and it is NaN for a line without arms.
-/
namespace Verif
open IndexMap

/-- A number below `2^m` is rounded with at least `24 - m` bits after the point. -/
theorem scaleExp_small {q : Rat} {j : Nat} (hj : j ≤ 149) (h : q * 2 ^ j ≤ 2 ^ 23)
    (hne : q * 2 ^ j ≠ 2 ^ 23) (h0 : 0 < q) : j < scaleExp q 149 0 ∨ scaleExp q 149 0 = 149 := by
  by_contra hc
  rw [not_or] at hc
  obtain ⟨h1, h2⟩ := hc
  have hb := (scaleExp_bounds q 149 0).2
  have hge := scaleExp_ge q 149 0 (by omega)
  have hle : (2 : Rat) ^ scaleExp q 149 0 ≤ 2 ^ j := pow_le_pow_right₀ (by norm_num) (by omega)
  have : q * 2 ^ scaleExp q 149 0 ≤ q * 2 ^ j := mul_le_mul_of_nonneg_left hle h0.le
  exact hne (le_antisymm h (le_trans hge this))

/-- The error of rounding a positive number up to one. -/
theorem roundF32_near_one {q : Rat} (h0 : 0 < q) (h1 : q ≤ 1) : |roundF32 q - q| ≤ 1 / 2 ^ 24 := by
  refine le_trans (C11_f32_error q h0) ?_
  have hk : 23 ≤ scaleExp q 149 0 := by
    rcases scaleExp_small (j := 22) (by omega) (by norm_num; linarith) (by norm_num; linarith) h0 with h | h <;> omega
  have : (2 : Rat) ^ 23 ≤ 2 ^ scaleExp q 149 0 := pow_le_pow_right₀ (by norm_num) hk
  rw [div_div, div_le_div_iff₀ (by positivity) (by norm_num)]
  linarith

/-- The error of rounding a positive number up to a hundred. -/
theorem roundF32_near_hundred {q : Rat} (h0 : 0 < q) (h1 : q ≤ 100) : |roundF32 q - q| ≤ 1 / 2 ^ 18 := by
  refine le_trans (C11_f32_error q h0) ?_
  have hk : 17 ≤ scaleExp q 149 0 := by
    rcases scaleExp_small (j := 16) (by omega) (by norm_num; linarith) (by norm_num; linarith) h0 with h | h <;> omega
  have : (2 : Rat) ^ 17 ≤ 2 ^ scaleExp q 149 0 := pow_le_pow_right₀ (by norm_num) hk
  rw [div_div, div_le_div_iff₀ (by positivity) (by norm_num)]
  linarith

/-- C14: of a line with arms, fewer than `2^24`, the reported share lies between 0 and 100, is 100
exactly if all arms are covered and 0 exactly if none is, and differs from the true share by less
than a fifty-thousandth. -/
theorem C14_quotient (c t : Nat) (h : c ≤ t) (ht : 0 < t) (hb : t < 2 ^ 24) :
    ∃ q, lineQuotient c t = some q ∧ 0 ≤ q ∧ q ≤ 100 ∧ (q = 100 ↔ c = t) ∧ (q = 0 ↔ c = 0) ∧
      |q - 100 * c / t| < 1 / 50000 := by
  have htq : (0 : Rat) < t := by exact_mod_cast ht
  have hcq : (c : Rat) ≤ t := by exact_mod_cast h
  have hbq : (t : Rat) ≤ 2 ^ 24 - 1 := by
    have : ((t + 1 : Nat) : Rat) ≤ ((2 ^ 24 : Nat) : Rat) := by exact_mod_cast hb
    push_cast at this; linarith
  have hr1 : (c : Rat) / t ≤ 1 := (div_le_one htq).2 hcq
  have e : lineQuotient c t = some (roundF32 (roundF32 ((c : Rat) / t) * 100)) := by
    rw [lineQuotient, if_neg (by omega), roundF32_nat c (by omega), roundF32_nat t hb]
  have hone : roundF32 1 = 1 := by
    have := roundF32_nat 1 (by norm_num); push_cast at this; exact this
  have hhundred : roundF32 100 = 100 := by
    have := roundF32_nat 100 (by norm_num); push_cast at this; exact this
  have hx1 : roundF32 ((c : Rat) / t) ≤ 1 := by
    have := roundF32_mono hr1 (by norm_num); rwa [hone] at this
  have hx0 := roundF32_nonneg ((c : Rat) / t)
  have hy : roundF32 ((c : Rat) / t) * 100 ≤ 100 := by linarith
  refine ⟨_, e, roundF32_nonneg _, ?_, ?_, ?_, ?_⟩
  · have := roundF32_mono hy (by norm_num); rwa [hhundred] at this
  · constructor
    · intro h100
      by_contra hne
      have hlt : c + 1 ≤ t := by omega
      have hltq : (c : Rat) + 1 ≤ t := by exact_mod_cast hlt
      have h1 : (c : Rat) / t ≤ ((2 ^ 24 - 1 : Nat) : Rat) / 2 ^ 24 := by
        rw [div_le_div_iff₀ htq (by norm_num)]; push_cast; linarith
      have h2 := roundF32_mono h1 (by norm_num)
      rw [roundF32_exact (2 ^ 24 - 1) 24 (by norm_num) (by omega)] at h2
      have h3 : roundF32 ((c : Rat) / t) * 100 ≤ 100 - 100 / 2 ^ 24 := by
        push_cast at h2; linarith
      have h4 := roundF32_mono h3 (by norm_num)
      have h5 := (abs_le.1 (roundF32_near_hundred (q := 100 - 100 / 2 ^ 24) (by norm_num) (by norm_num))).2
      rw [h100] at h4
      norm_num at h4 h5
      linarith
    · rintro rfl
      rw [div_self htq.ne', hone, one_mul, hhundred]
  · constructor
    · intro hz
      by_contra hne
      have h1 : ((1 : Nat) : Rat) / 2 ^ 24 ≤ (c : Rat) / t := by
        have : (1 : Rat) ≤ c := by exact_mod_cast Nat.one_le_iff_ne_zero.2 hne
        rw [div_le_div_iff₀ (by norm_num) htq]; push_cast; linarith
      have h2 := roundF32_mono h1 (by linarith)
      rw [roundF32_exact 1 24 (by norm_num) (by omega)] at h2
      have h3 : ((100 : Nat) : Rat) / 2 ^ 24 ≤ roundF32 ((c : Rat) / t) * 100 := by
        push_cast at h2 ⊢; linarith
      have h4 := roundF32_mono h3 (by linarith)
      rw [roundF32_exact 100 24 (by norm_num) (by omega), hz] at h4
      norm_num at h4
    · rintro rfl
      simp [roundF32]
  · rcases Nat.eq_zero_or_pos c with rfl | hc
    · norm_num [roundF32]
    · have hcp : (0 : Rat) < c := by exact_mod_cast hc
      have hq0 : 0 < (c : Rat) / t := div_pos hcp htq
      have h1 : ((1 : Nat) : Rat) / 2 ^ 24 ≤ (c : Rat) / t := by
        have : (1 : Rat) ≤ c := by exact_mod_cast hc
        rw [div_le_div_iff₀ (by norm_num) htq]; push_cast; linarith
      have h2 := roundF32_mono h1 (by linarith)
      rw [roundF32_exact 1 24 (by norm_num) (by omega)] at h2
      have hxp : 0 < roundF32 ((c : Rat) / t) := lt_of_lt_of_le (by norm_num) h2
      have a := abs_le.1 (roundF32_near_one hq0 hr1)
      have b := abs_le.1 (roundF32_near_hundred (q := roundF32 ((c : Rat) / t) * 100) (by linarith) hy)
      rw [mul_div_assoc, abs_lt]
      norm_num at a b ⊢
      constructor <;> linarith

/-- C14: what is reported of a line is the pair of `C14_branches_by_line` and the share; there is no share (NaN) only
if no branch of the line has an arm. -/
theorem C14_entries (fc : FileCoverage) (bl : IndexMap Nat (Nat × Nat))
    (h : fc.getBranchCoverageByLine = .ok bl) :
    ∃ full, fc.branchCoverageByLine = .ok full ∧ full.keys = bl.keys ∧
      ∀ l e, full.get l = some e → bl.get l = some (e.covered, e.total) ∧
        e.coverage = lineQuotient e.covered e.total ∧ (e.coverage = none ↔ e.total = 0) := by
  unfold FileCoverage.getBranchCoverageByLine at h
  unfold FileCoverage.branchCoverageByLine
  cases hd : FileCoverage.branchLineLoop fc.b fc.branchMap [] with
  | error e => rw [hd] at h; cases h
  | ok data =>
    rw [hd] at h
    cases h
    refine ⟨_, rfl, by simp [keys], ?_⟩
    clear hd
    intro l e he
    have key : ∀ (data : IndexMap Nat (List Nat)),
        (IndexMap.get (data.map fun e => (e.1, lineEntry e.2)) l = some e) →
        IndexMap.get (data.map fun e => (e.1, (FileCoverage.countPos e.2, e.2.length))) l = some (e.covered, e.total) ∧
          e.coverage = lineQuotient e.covered e.total := by
      intro data
      induction data with
      | nil => intro h; simp [IndexMap.get] at h
      | cons d ds ih =>
        intro h
        rcases d with ⟨k, v⟩
        by_cases hk : k = l
        · subst hk
          simp only [List.map_cons, IndexMap.get, if_true, Option.some.injEq] at h ⊢
          subst h
          exact ⟨rfl, rfl⟩
        · simp only [List.map_cons, IndexMap.get, if_neg hk] at h ⊢
          exact ih h
    obtain ⟨h1, h2⟩ := key data he
    refine ⟨h1, h2, ?_⟩
    rw [h2, lineQuotient]
    split <;> simp [*]

/-- Non-vacuity: the shares of the lines of a report. One arm of three is not reported as the `33.33` of summaries. -/
example : ∃ q, lineQuotient 1 3 = some q ∧ percent 1 3 < q := by
  obtain ⟨q, e, _, _, _, _, h⟩ := C14_quotient 1 3 (by omega) (by omega) (by norm_num)
  refine ⟨q, e, ?_⟩
  have a := (abs_lt.1 h).1
  have hp : percent 1 3 = roundF32 (((3333 : Nat) : Rat) / 100) := (percent_eq (c := 1) (t := 3) (by omega) (by omega)).1
  have b := (abs_le.1 (roundF32_near_hundred (q := ((3333 : Nat) : Rat) / 100) (by norm_num) (by norm_num))).2
  rw [hp]
  norm_num at a b ⊢
  linarith

/-- A branch without arms makes the share of its line NaN, where a summary says 100. -/
theorem C14_no_arms_no_share : ∃ fc : FileCoverage,
    fc.branchCoverageByLine = .ok [(1, ⟨0, 0, none⟩)] ∧ percent 0 0 = 100 :=
  ⟨{ FileCoverage.empty "a.js" false with
      branchMap := [(0, ⟨none, .if, [], some 1⟩)], b := [(0, [])] }, rfl, by simp [percent]⟩

/-- C14: covering more arms never lowers the share of a line, and further uncovered arms never raise it. -/
theorem C14_quotient_monotone (c c' t t' : Nat) (hc : c ≤ c') (ht : t' ≤ t) (h0 : 0 < t') (h : c' ≤ t') (hb : t < 2 ^ 24) :
    ∃ q q', lineQuotient c t = some q ∧ lineQuotient c' t' = some q' ∧ q ≤ q' := by
  have htq : (0 : Rat) < t' := by exact_mod_cast h0
  have htq' : (t' : Rat) ≤ t := by exact_mod_cast ht
  have hcq : (c : Rat) ≤ c' := by exact_mod_cast hc
  have hcq' : (c' : Rat) ≤ t' := by exact_mod_cast h
  have h1 : (c : Rat) / t ≤ c' / t' := div_le_div₀ (by positivity) hcq htq htq'
  have h2 : (c' : Rat) / t' ≤ 1 := (div_le_one htq).2 hcq'
  have hone : roundF32 1 = 1 := by
    have := roundF32_nat 1 (by norm_num); push_cast at this; exact this
  have h3 : roundF32 ((c' : Rat) / t') ≤ 1 := by
    have := roundF32_mono h2 (by norm_num); rwa [hone] at this
  have h4 := roundF32_mono h1 (by linarith)
  refine ⟨_, _, by rw [lineQuotient, if_neg (by omega), roundF32_nat c (by omega), roundF32_nat t hb],
    by rw [lineQuotient, if_neg (by omega), roundF32_nat c' (by omega), roundF32_nat t' (by omega)], ?_⟩
  exact roundF32_mono (by linarith) (by linarith)

/-- Non-vacuity: one arm of three, and two of three. -/
example : lineQuotient 1 3 ≠ lineQuotient 2 3 ∧ lineQuotient 1 3 ≠ lineQuotient 1 4 := by decide +kernel

end Verif
