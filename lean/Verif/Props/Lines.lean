import Verif.Lemmas.Lines
import Verif.Props.Merge
/-
C08, C09, C14: line coverage, file summaries, branch coverage by line.
-/
namespace Verif

open IndexMap FileCoverage

/-! ### C08 -/

/-- C08: the line report of a well-formed report lists exactly the lines on which a statement
starts, each once, with the largest count of the statements starting there. -/
theorem C08_line_coverage (fc : FileCoverage) (h : fc.WellFormed) :
    ∃ lm, fc.getLineCoverage = .ok lm ∧ lm.NodupKeys ∧
      (∀ l, l ∈ lm.keys ↔ ∃ e ∈ fc.statementTable, e.1.start.line = l) ∧
      (∀ l c, lm.get l = some c ↔
        (∃ e ∈ fc.statementTable, e.1.start.line = l ∧ e.2 = c) ∧
        (∀ e ∈ fc.statementTable, e.1.start.line = l → e.2 ≤ c)) := by
  obtain ⟨lm, h1, h2, h3⟩ := getLineCoverage_ok h
  refine ⟨lm, h1, h2, ?_, ?_⟩
  · intro l
    rw [mem_keys_iff]
    constructor
    · rintro ⟨c, hc⟩
      rw [h3, max?_eq_iff] at hc
      obtain ⟨e, he, _⟩ := List.mem_map.1 hc.1
      obtain ⟨he1, he2⟩ := List.mem_filter.1 he
      exact ⟨e, he1, by simpa using he2⟩
    · rintro ⟨e, he, hl⟩
      rw [h3]
      cases hm : (fc.lineCounts l).max? with
      | some c => exact ⟨c, rfl⟩
      | none =>
        have hnil := List.max?_eq_none_iff.1 hm
        have : e.2 ∈ fc.lineCounts l :=
          List.mem_map.2 ⟨e, List.mem_filter.2 ⟨he, by simpa using hl⟩, rfl⟩
        rw [hnil] at this; cases this
  · intro l c
    rw [h3, max?_eq_iff]
    unfold lineCounts
    simp only [List.mem_map, List.mem_filter, decide_eq_true_eq]
    constructor
    · rintro ⟨⟨e, ⟨h1, h2⟩, h3⟩, h4⟩
      exact ⟨⟨e, h1, h2, h3⟩, fun e he hl => h4 _ ⟨e, ⟨he, hl⟩, rfl⟩⟩
    · rintro ⟨⟨e, h1, h2, h3⟩, h4⟩
      refine ⟨⟨e, ⟨h1, h2⟩, h3⟩, ?_⟩
      rintro x ⟨e', ⟨h5, h6⟩, rfl⟩
      exact h4 e' h5 h6

/-- C08, uncovered lines: exactly the lines on which statements start, all of them with count 0,
each listed once. -/
theorem C08_uncovered_lines (fc : FileCoverage) (h : fc.WellFormed) :
    ∃ ls, fc.getUncoveredLines = .ok ls ∧ ls.Nodup ∧
      ∀ l, l ∈ ls ↔ (∃ e ∈ fc.statementTable, e.1.start.line = l) ∧
        ∀ e ∈ fc.statementTable, e.1.start.line = l → e.2 = 0 := by
  obtain ⟨lm, h1, h2, h3, h4⟩ := C08_line_coverage fc h
  refine ⟨_, by simp only [getUncoveredLines, h1]; rfl, ?_, ?_⟩
  · exact nodup_filter_keys h2 _
  · intro l
    have key : l ∈ (lm.filter (fun e => e.2 == 0)).map (·.1) ↔ lm.get l = some 0 := by
      rw [List.mem_map]
      constructor
      · rintro ⟨e, he, rfl⟩
        obtain ⟨he1, he2⟩ := List.mem_filter.1 he
        have e0 : e.2 = 0 := by simpa using he2
        have := get_of_mem h2 (k := e.1) (v := e.2) he1
        rwa [e0] at this
      · intro hg
        exact ⟨(l, 0), List.mem_filter.2 ⟨mem_of_get hg, rfl⟩, rfl⟩
    rw [key, h4]
    constructor
    · rintro ⟨⟨e, he, hl, _⟩, hz⟩
      exact ⟨⟨e, he, hl⟩, fun e he hl => Nat.le_zero.1 (hz e he hl)⟩
    · rintro ⟨⟨e, he, hl⟩, hz⟩
      exact ⟨⟨e, he, hl, hz e he hl⟩, fun e he hl => Nat.le_of_eq (hz e he hl)⟩

namespace LinesEx

/-- Three statements on two lines. -/
def fc : FileCoverage :=
  { FileCoverage.empty "a.js" false with
    statementMap := [(0, .mk4 1 0 1 5), (1, .mk4 1 6 1 9), (2, .mk4 2 0 2 5)]
    s := [(0, 0), (1, 4), (2, 0)]
    branchMap := [(0, .fromLine .if 1 [.mk4 1 0 1 5, .mk4 1 0 1 5]),
      (1, .fromLoc .switch (.mk4 2 0 2 5) [.mk4 2 1 2 5]), (2, .fromLine .condExpr 1 [.mk4 1 2 1 5])]
    b := [(0, [1, 0]), (1, [0]), (2, [3])] }

theorem wf : fc.WellFormed := MergeEx.wf_of_good (by decide)

end LinesEx

/-- Non-vacuity of C08: line 1 has count `max 0 4`, line 2 is uncovered. -/
example : ∃ lm, LinesEx.fc.getLineCoverage = .ok lm ∧ lm.get 1 = some 4 ∧
    LinesEx.fc.getUncoveredLines = .ok [2] := by
  obtain ⟨lm, h, _, _, h4⟩ := C08_line_coverage _ LinesEx.wf
  exact ⟨lm, h, (h4 1 4).2 ⟨⟨(.mk4 1 6 1 9, 4), by decide, rfl, rfl⟩, by decide⟩, rfl⟩

/-- C08, what cannot be dropped: a count without location aborts. -/
theorem C08_aborts_without_location : ∃ fc : FileCoverage, fc.getLineCoverage = .error .statementNotFound :=
  ⟨{ FileCoverage.empty "a.js" false with s := [(0, 1)] }, rfl⟩

/-! ### C09 -/

/-- C09: the totals of a file summary count what they say. For lines: `ls` is any duplicate-free
enumeration of the lines on which statements start, `cls` one of those with a covered statement. -/
theorem C09_summary_totals (fc : FileCoverage) (h : fc.WellFormed) (ls cls : List Nat)
    (hls : ls.Nodup) (hcls : cls.Nodup)
    (hl : ∀ l, l ∈ ls ↔ ∃ e ∈ fc.statementTable, e.1.start.line = l)
    (hc : ∀ l, l ∈ cls ↔ ∃ e ∈ fc.statementTable, e.1.start.line = l ∧ 0 < e.2) :
    ∃ sm, fc.toSummary = .ok sm ∧
      sm.statements.total = fc.s.length ∧
      sm.statements.covered = fc.s.countP (fun e => decide (0 < e.2)) ∧
      sm.functions.total = fc.f.length ∧
      sm.functions.covered = fc.f.countP (fun e => decide (0 < e.2)) ∧
      sm.branches.total = fc.totalArms ∧
      sm.branches.covered = fc.coveredArms ∧
      sm.lines.total = ls.length ∧ sm.lines.covered = cls.length := by
  obtain ⟨lm, h1, h2, h3, h4⟩ := C08_line_coverage fc h
  have hcp : ∀ m : LineHitMap, countPos (m.map (·.2)) = m.countP (fun e => decide (0 < e.2)) := by
    intro m; rw [countPos_eq_countP, List.countP_map]; rfl
  refine ⟨_, by simp only [toSummary, h1]; rfl, rfl, hcp _, rfl, hcp _, ?_, ?_, ?_, ?_⟩
  · simp [computeBranchTotals, branchTotalsLoop_eq, totalArms]
  · simp [computeBranchTotals, branchTotalsLoop_eq, coveredArms, countPos_eq_countP]
  · have : (keys lm).length = ls.length := length_eq_of_mem_iff h2 hls fun l => by rw [h3, hl]
    simpa [keys, computeSimpleTotals] using this
  · refine countPos_vals h2 hcls fun l => ?_
    rw [hc]
    constructor
    · rintro ⟨e, he, hel, hpos⟩
      obtain ⟨c, hg⟩ := get_isSome_of_mem ((h3 l).2 ⟨e, he, hel⟩)
      exact ⟨c, hg, Nat.lt_of_lt_of_le hpos (((h4 l c).1 hg).2 e he hel)⟩
    · rintro ⟨c, hg, hpos⟩
      obtain ⟨⟨e, he, hel, rfl⟩, _⟩ := (h4 l c).1 hg
      exact ⟨e, he, hel, hpos⟩

/-- The truthiness totals, when present, count the arms of the truthiness table. -/
theorem C09_truth_totals (fc : FileCoverage) (h : fc.WellFormed) :
    ∃ sm, fc.toSummary = .ok sm ∧
      (fc.bT = none → sm.branchesTrue = none) ∧
      (∀ bt, fc.bT = some bt → ∃ t, sm.branchesTrue = some t ∧
        t.total = (bt.map (·.2)).flatten.length ∧
        t.covered = (bt.map (·.2)).flatten.countP (fun x => decide (0 < x))) := by
  obtain ⟨lm, h1, -⟩ := C08_line_coverage fc h
  refine ⟨_, by simp only [toSummary, h1]; rfl, ?_, ?_⟩
  · intro hb; simp [hb]
  · intro bt hb
    exact ⟨_, by simp only [hb, Option.map_some]; rfl,
      by simp [computeBranchTotals, branchTotalsLoop_eq],
      by simp [computeBranchTotals, branchTotalsLoop_eq, countPos_eq_countP]⟩

/-- C09: nothing is counted as covered that is not counted, and nothing is skipped. -/
theorem C09_covered_le_total (fc : FileCoverage) (sm : CoverageSummary) (h : fc.toSummary = .ok sm) :
    sm.lines.covered ≤ sm.lines.total ∧ sm.statements.covered ≤ sm.statements.total ∧
    sm.functions.covered ≤ sm.functions.total ∧ sm.branches.covered ≤ sm.branches.total ∧
    (∀ t, sm.branchesTrue = some t → t.covered ≤ t.total) ∧
    sm.lines.skipped = 0 ∧ sm.statements.skipped = 0 ∧ sm.functions.skipped = 0 ∧
    sm.branches.skipped = 0 := by
  have hs : ∀ {K : Type} (m : IndexMap K Nat),
      (computeSimpleTotals m).covered ≤ (computeSimpleTotals m).total := by
    intro K m
    have := countPos_le (m.map (·.2))
    simpa [computeSimpleTotals] using this
  have hb : ∀ m : BranchHitMap, (computeBranchTotals m).covered ≤ (computeBranchTotals m).total := by
    intro m
    simp only [computeBranchTotals, branchTotalsLoop_eq, Nat.zero_add]
    exact countPos_le _
  unfold toSummary at h
  split at h
  · cases h
  · cases h
    refine ⟨hs _, hs _, hs _, hb _, ?_, rfl, rfl, rfl, rfl⟩
    intro t ht
    obtain ⟨bt, _, rfl⟩ := Option.map_eq_some_iff.1 ht
    exact hb _

theorem forall₂_countP_le {A : Type} (p : A → Bool) {l l' : List A}
    (h : List.Forall₂ (fun a b => p a = true → p b = true) l l') : l.countP p ≤ l'.countP p := by
  induction h with
  | nil => exact Nat.le_refl _
  | cons h _ ih =>
    rw [List.countP_cons, List.countP_cons]
    split <;> split <;> first | omega | (rename_i h1 h2; exact absurd (h h1) h2)

theorem forall₂_flatten {l l' : BranchHitMap}
    (h : List.Forall₂ (fun e e' => e'.1 = e.1 ∧ List.Forall₂ (· ≤ ·) e.2 e'.2) l l') :
    List.Forall₂ (fun a b : Nat => a ≤ b) (l.map (·.2)).flatten (l'.map (·.2)).flatten := by
  induction h with
  | nil => exact .nil
  | cons h _ ih =>
    simp only [List.map_cons, List.flatten_cons]
    have happ : ∀ {a a' c c' : List Nat}, List.Forall₂ (· ≤ ·) a a' → List.Forall₂ (· ≤ ·) c c' →
        List.Forall₂ (· ≤ ·) (a ++ c) (a' ++ c') := by
      intro a a' c c' h1 h2
      induction h1 with
      | nil => exact h2
      | cons h _ ih => exact .cons h ih
    exact happ h.2 ih

theorem forall₂_length {A B : Type} {R : A → B → Prop} {l : List A} {l' : List B}
    (h : List.Forall₂ R l l') : l.length = l'.length := by
  induction h with
  | nil => rfl
  | cons _ _ ih => simp [ih]

theorem located_forall₂ {sm : StatementMap} {s s' : LineHitMap}
    (h : List.Forall₂ (fun e e' => e'.1 = e.1 ∧ e.2 ≤ e'.2) s s') :
    List.Forall₂ (fun e e' => e'.1 = e.1 ∧ e.2 ≤ e'.2) (located some s sm) (located some s' sm) := by
  induction h with
  | nil => exact .nil
  | @cons a b l l' h _ ih =>
    obtain ⟨k, x⟩ := a
    obtain ⟨k', x'⟩ := b
    simp only at h
    obtain ⟨rfl, hle⟩ := h
    simp only [located, List.filterMap_cons] at ih ⊢
    cases IndexMap.get sm k' with
    | none => simpa using ih
    | some r => exact List.Forall₂.cons (a := (r, x)) (b := (r, x')) ⟨rfl, hle⟩ ih

/-- C09: further executions never decrease any covered count and never change a total. -/
theorem C09_covered_monotone (fc fc' : FileCoverage) (h : fc.WellFormed) (hf : fc.FurtherHits fc') :
    ∃ sm sm', fc.toSummary = .ok sm ∧ fc'.toSummary = .ok sm' ∧
      sm'.lines.total = sm.lines.total ∧ sm.lines.covered ≤ sm'.lines.covered ∧
      sm'.statements.total = sm.statements.total ∧ sm.statements.covered ≤ sm'.statements.covered ∧
      sm'.functions.total = sm.functions.total ∧ sm.functions.covered ≤ sm'.functions.covered ∧
      sm'.branches.total = sm.branches.total ∧ sm.branches.covered ≤ sm'.branches.covered := by
  have hkeys : ∀ {s s' : LineHitMap}, List.Forall₂ (fun e e' => e'.1 = e.1 ∧ e.2 ≤ e'.2) s s' →
      keys s' = keys s := by
    intro s s' h
    induction h with
    | nil => rfl
    | cons h _ ih => simp only [keys, List.map_cons] at ih ⊢; rw [ih, h.1]
  have hloc' : Located some fc'.s fc'.statementMap := by
    intro e he
    have : e.1 ∈ fc'.statementMap.keys := by
      rw [hf.statementMap]
      exact h.statements _ (hkeys hf.s ▸ mem_keys_of_mem he)
    obtain ⟨t, ht⟩ := get_isSome_of_mem this
    exact ⟨t, t, ht, rfl⟩
  obtain ⟨lm, h1, h2, h3⟩ := getLineCoverage_ok h
  obtain ⟨lm', h1', h2', h3'⟩ := lineLoop_ok fc'.statementMap fc'.s [] [] hloc'
    (by simp [NodupKeys, keys]) (by intro l; rfl)
  have htab := located_forall₂ (sm := fc.statementMap) hf.s
  -- counts on a line only grow
  have hline : ∀ l, List.Forall₂ (· ≤ ·) (tableLine (located some fc.s fc.statementMap) l)
      (tableLine (located some fc'.s fc'.statementMap) l) := by
    intro l
    rw [hf.statementMap]
    generalize located some fc.s fc.statementMap = T at htab
    generalize located some fc'.s fc.statementMap = T' at htab
    unfold tableLine
    induction htab with
    | nil => exact .nil
    | @cons a b _ _ hab _ ih =>
      by_cases hl : a.1.start.line = l
      · have hl' : b.1.start.line = l := by rw [hab.1]; exact hl
        simp only [List.filter_cons, hl, hl', decide_true, if_true, List.map_cons]
        exact .cons hab.2 ih
      · have hl' : ¬ b.1.start.line = l := by rw [hab.1]; exact hl
        simpa [List.filter_cons, hl, hl'] using ih
  have hmax : ∀ l, (∀ c, lm.get l = some c → ∃ c', lm'.get l = some c' ∧ c ≤ c') ∧
      (lm.get l = none → lm'.get l = none) := by
    intro l
    have e3 := h3 l
    have e3' := h3' l
    simp only [List.nil_append] at e3'
    have hL := hline l
    change lm.get l = (tableLine (located some fc.s fc.statementMap) l).max? at e3
    rw [e3, e3']
    generalize tableLine (located some fc.s fc.statementMap) l = A at hL
    generalize tableLine (located some fc'.s fc'.statementMap) l = B at hL
    constructor
    · intro c hc
      have hc1 := ((max?_eq_iff A c).1 hc).1
      have : ∃ x ∈ B, c ≤ x := by
        clear hc
        induction hL with
        | nil => cases hc1
        | cons h _ ih =>
          rcases List.mem_cons.1 hc1 with rfl | hc1
          · exact ⟨_, List.mem_cons_self, h⟩
          · obtain ⟨x, hx, hle⟩ := ih hc1
            exact ⟨x, List.mem_cons_of_mem _ hx, hle⟩
      obtain ⟨x, hx, hle⟩ := this
      cases hm : B.max? with
      | none => rw [List.max?_eq_none_iff.1 hm] at hx; cases hx
      | some c' => exact ⟨c', rfl, Nat.le_trans hle (((max?_eq_iff B c').1 hm).2 x hx)⟩
    · intro hA
      rw [List.max?_eq_none_iff] at hA ⊢
      subst hA; cases hL; rfl
  have hgl' : fc'.getLineCoverage = .ok lm' := h1'
  refine ⟨_, _, by simp only [toSummary, h1]; rfl, by simp only [toSummary, hgl']; rfl, ?_, ?_, ?_, ?_, ?_, ?_, ?_,
    ?_⟩
  · have : (keys lm').length = (keys lm).length := length_eq_of_mem_iff h2' h2 fun l => by
      rw [mem_keys_iff, mem_keys_iff]
      constructor
      · rintro ⟨c, hc⟩
        cases hg : IndexMap.get lm l with
        | none => rw [(hmax l).2 hg] at hc; cases hc
        | some c => exact ⟨c, rfl⟩
      · rintro ⟨c, hc⟩
        obtain ⟨c', hc', _⟩ := (hmax l).1 c hc
        exact ⟨c', hc'⟩
    simpa [keys, computeSimpleTotals] using this
  · have e := countPos_vals h2 (L := (lm.filter fun e => decide (0 < e.2)).map (·.1))
      (nodup_filter_keys h2 _) (fun l => by
        rw [List.mem_map]
        constructor
        · rintro ⟨x, hx, rfl⟩
          obtain ⟨a, b⟩ := List.mem_filter.1 hx
          exact ⟨x.2, get_of_mem h2 a, by simpa using b⟩
        · rintro ⟨c, a, b⟩
          exact ⟨(l, c), List.mem_filter.2 ⟨mem_of_get a, by simpa using b⟩, rfl⟩)
    have e' := countPos_vals h2' (L := (lm'.filter fun e => decide (0 < e.2)).map (·.1))
      (nodup_filter_keys h2' _) (fun l => by
        rw [List.mem_map]
        constructor
        · rintro ⟨x, hx, rfl⟩
          obtain ⟨a, b⟩ := List.mem_filter.1 hx
          exact ⟨x.2, get_of_mem h2' a, by simpa using b⟩
        · rintro ⟨c, a, b⟩
          exact ⟨(l, c), List.mem_filter.2 ⟨mem_of_get a, by simpa using b⟩, rfl⟩)
    simp only [computeSimpleTotals]
    rw [e, e']
    apply List.Nodup.length_le_of_subset
      (nodup_filter_keys h2 _)
    intro l hl
    obtain ⟨x, hx, rfl⟩ := List.mem_map.1 hl
    obtain ⟨a, b⟩ := List.mem_filter.1 hx
    obtain ⟨c', hc', hle⟩ := (hmax x.1).1 x.2 (get_of_mem h2 a)
    refine List.mem_map.2 ⟨(x.1, c'), List.mem_filter.2 ⟨mem_of_get hc', ?_⟩, rfl⟩
    simp only [decide_eq_true_eq] at b ⊢
    omega
  · exact (forall₂_length hf.s).symm
  · simp only [computeSimpleTotals, countPos_eq_countP, List.countP_map]
    refine forall₂_countP_le _ (forall₂_imp ?_ hf.s)
    intro a b hab; simp only [Function.comp, decide_eq_true_eq]; omega
  · exact (forall₂_length hf.f).symm
  · simp only [computeSimpleTotals, countPos_eq_countP, List.countP_map]
    refine forall₂_countP_le _ (forall₂_imp ?_ hf.f)
    intro a b hab; simp only [Function.comp, decide_eq_true_eq]; omega
  · simp only [computeBranchTotals, branchTotalsLoop_eq, Nat.zero_add]
    exact (forall₂_length (forall₂_flatten hf.b)).symm
  · simp only [computeBranchTotals, branchTotalsLoop_eq, Nat.zero_add, countPos_eq_countP]
    refine forall₂_countP_le _ (forall₂_imp ?_ (forall₂_flatten hf.b))
    intro a b hab; simp only [decide_eq_true_eq]; omega

/-- Non-vacuity of C09. -/
example : ∃ sm, LinesEx.fc.toSummary = .ok sm ∧ sm.lines.total = 2 ∧ sm.lines.covered = 1 ∧
    sm.statements.total = 3 ∧ sm.branches.total = 4 ∧ sm.branches.covered = 2 := by
  obtain ⟨sm, h, a, _, _, _, b, c, d, e⟩ := C09_summary_totals LinesEx.fc LinesEx.wf [1, 2] [1] (by decide)
    (by decide)
    (by
      intro l
      have ht : LinesEx.fc.statementTable =
        [(.mk4 1 0 1 5, 0), (.mk4 1 6 1 9, 4), (.mk4 2 0 2 5, 0)] := by decide
      rw [ht]; simp [Range.mk4]; omega)
    (by
      intro l
      have ht : LinesEx.fc.statementTable =
        [(.mk4 1 0 1 5, 0), (.mk4 1 6 1 9, 4), (.mk4 2 0 2 5, 0)] := by decide
      rw [ht]; simp [Range.mk4]; omega)
  exact ⟨sm, h, d, e, a, b, c⟩

/-! ### C14 -/

/-- C14: the per-line branch report lists exactly the lines of branches, each once, with the arms of
the branches of that line; summed over all lines it gives the branch totals of the file. -/
theorem C14_branches_by_line (fc : FileCoverage) (hp : fc.Placed) (hb : fc.b.NodupKeys)
    (hm : fc.branchMap.NodupKeys) (hk : ∀ k, k ∈ fc.branchMap.keys ↔ k ∈ fc.b.keys) :
    ∃ bl, fc.getBranchCoverageByLine = .ok bl ∧ bl.NodupKeys ∧
      (∀ l, l ∈ bl.keys ↔ ∃ e ∈ fc.branchMap, ReportedOn e.2 l) ∧
      (∀ l ct, bl.get l = some ct → ∀ (on : List Nat), on.Nodup →
        (∀ k, k ∈ on ↔ ∃ br, (k, br) ∈ fc.branchMap ∧ ReportedOn br l) →
        ct.1 = (on.map fun k => ((fc.b.get k).getD []).countP fun x => decide (0 < x)).sum ∧
        ct.2 = (on.map fun k => ((fc.b.get k).getD []).length).sum) ∧
      (bl.map fun e => e.2.1).sum = fc.coveredArms ∧
      (bl.map fun e => e.2.2).sum = fc.totalArms := by
  obtain ⟨acc, h1, h2, h3, h4⟩ := branchLineLoop_ok fc.b fc.branchMap [] [] hp
    (fun e he => (hk _).1 (mem_keys_of_mem he)) (by simp [NodupKeys, keys])
    (by intro l; rfl)
  simp only [List.nil_append] at h3
  have hkeys : keys (acc.map fun e => (e.1, (countPos e.2, e.2.length))) = keys acc := by
    simp [keys, Function.comp_def]
  have hget : ∀ l, IndexMap.get (acc.map fun e => (e.1, (countPos e.2, e.2.length))) l =
      (acc.get l).map fun d => (countPos d, d.length) := by
    intro l
    clear h1 h2 h3 h4 hkeys
    induction acc with
    | nil => rfl
    | cons e acc ih =>
      obtain ⟨k, v⟩ := e
      simp only [List.map_cons, IndexMap.get]
      split
      · rfl
      · exact ih
  have hon : ∀ e ∈ fc.branchMap, ∀ l, lineOf? e.2 = some l ↔ ReportedOn e.2 l := by
    intro e _ l
    rw [reportedOn_iff]
    unfold lineOf?
    cases branchLine e.2 with
    | error x => simp [Except.toOption]
    | ok y => simp [Except.toOption]
  refine ⟨_, by simp only [getBranchCoverageByLine, h1]; rfl, ?_, ?_, ?_, ?_, ?_⟩
  · unfold NodupKeys; rw [hkeys]; exact h2
  · intro l
    rw [hkeys, mem_keys_iff, h3]
    unfold armsOn
    constructor
    · rintro ⟨v, hv⟩
      split at hv
      · cases hv
      · rename_i hne
        cases hf : fc.branchMap.filter (fun e => decide (lineOf? e.2 = some l)) with
        | nil => rw [hf] at hne; exact absurd rfl hne
        | cons e t =>
          have : e ∈ fc.branchMap.filter (fun e => decide (lineOf? e.2 = some l)) := by
            rw [hf]; exact List.mem_cons_self
          obtain ⟨ha, hb⟩ := List.mem_filter.1 this
          exact ⟨e, ha, (hon e ha l).1 (by simpa using hb)⟩
    · rintro ⟨e, he, hr⟩
      have hmem : e ∈ fc.branchMap.filter (fun e => decide (lineOf? e.2 = some l)) :=
        List.mem_filter.2 ⟨he, by simpa using (hon e he l).2 hr⟩
      rw [if_neg]
      · exact ⟨_, rfl⟩
      · intro hnil
        rw [List.map_eq_nil_iff] at hnil
        rw [hnil] at hmem; cases hmem
  · intro l ct hct on hond honm
    rw [hget, h3] at hct
    split at hct
    · cases hct
    · simp only [Option.map_some, Option.some.injEq] at hct
      have hks : ((fc.branchMap.filter fun e => decide (lineOf? e.2 = some l)).map (·.1)).Perm on := by
        rw [List.perm_ext_iff_of_nodup
          (nodup_filter_keys hm _) hond]
        intro k
        rw [honm, List.mem_map]
        constructor
        · rintro ⟨e, he, rfl⟩
          obtain ⟨a, b⟩ := List.mem_filter.1 he
          exact ⟨e.2, a, (hon e a l).1 (by simpa using b)⟩
        · rintro ⟨br, a, b⟩
          exact ⟨(k, br), List.mem_filter.2 ⟨a, by simpa using (hon _ a l).2 b⟩, rfl⟩
      have harms : armsOn fc.b fc.branchMap l =
          ((fc.branchMap.filter fun e => decide (lineOf? e.2 = some l)).map (·.1)).map
            (fun k => (fc.b.get k).getD []) := by
        unfold armsOn; rw [List.map_map]; rfl
      subst hct
      rw [harms]
      have hcp : ∀ L : List (List Nat), countPos L.flatten = (L.map countPos).sum := by
        intro L
        induction L with
        | nil => rfl
        | cons a L ih => simp only [List.flatten_cons, countPos_append, ih, List.map_cons, List.sum_cons]
      constructor
      · simp only [hcp]
        rw [List.map_map]
        have := (hks.map (countPos ∘ fun k => (fc.b.get k).getD [])).sum_nat
        rw [this]
        congr 1
        apply List.map_congr_left
        intro k _
        exact countPos_eq_countP _
      · simp only [List.length_flatten]
        rw [List.map_map]
        exact (hks.map (List.length ∘ fun k => (fc.b.get k).getD [])).sum_nat
  · have hs := h4 countPos countPos_append
    unfold accSum at hs
    rw [List.map_map]
    have : ((fun e : Nat × Nat × Nat => e.2.1) ∘ fun e : Nat × List Nat => (e.1, (countPos e.2, e.2.length))) =
      fun e => countPos e.2 := rfl
    rw [this, hs]
    have hk' := sum_by_keys countPos [] hb hm hk
    have e1 : (fc.branchMap.map fun e => countPos ((fc.b.get e.1).getD [])) =
        (keys fc.branchMap).map fun k => countPos ((fc.b.get k).getD []) := by
      unfold keys; rw [List.map_map]; rfl
    rw [e1, hk']
    simp only [List.map_nil, List.sum_nil, Nat.zero_add, coveredArms]
    generalize fc.b = b
    induction b with
    | nil => rfl
    | cons e b ih =>
      simp only [List.map_cons, List.sum_cons, List.flatten_cons, List.countP_append, ih]
      rw [countPos_eq_countP]
  · have hs := h4 List.length (fun _ _ => List.length_append)
    unfold accSum at hs
    rw [List.map_map]
    have : ((fun e : Nat × Nat × Nat => e.2.2) ∘ fun e : Nat × List Nat => (e.1, (countPos e.2, e.2.length))) =
      fun e => e.2.length := rfl
    rw [this, hs]
    have hk' := sum_by_keys List.length [] hb hm hk
    have e1 : (fc.branchMap.map fun e => ((fc.b.get e.1).getD []).length) =
        (keys fc.branchMap).map fun k => ((fc.b.get k).getD []).length := by
      unfold keys; rw [List.map_map]; rfl
    rw [e1, hk']
    simp [totalArms, List.length_flatten, Function.comp_def]

/-- Non-vacuity of C14: two branches on line 1, one (with `loc` only) on line 2. -/
example : ∃ bl, LinesEx.fc.getBranchCoverageByLine = .ok bl ∧ (bl.map fun e => e.2.1).sum = 2 ∧
    (bl.map fun e => e.2.2).sum = 4 ∧ bl = [(1, (2, 3)), (2, (0, 1))] := by
  obtain ⟨bl, h, _, _, _, h4, h5⟩ := C14_branches_by_line LinesEx.fc
    (by
      intro e he
      have : e ∈ [(0, Branch.fromLine .if 1 [.mk4 1 0 1 5, .mk4 1 0 1 5]),
        (1, .fromLoc .switch (.mk4 2 0 2 5) [.mk4 2 1 2 5]),
        (2, .fromLine .condExpr 1 [.mk4 1 2 1 5])] := he
      simp only [List.mem_cons, List.not_mem_nil, or_false] at this
      rcases this with rfl | rfl | rfl
      · exact ⟨1, .inl rfl⟩
      · exact ⟨2, .inr ⟨rfl, _, rfl, rfl⟩⟩
      · exact ⟨1, .inl rfl⟩)
    (by decide) (by decide) (by intro k; exact Iff.rfl)
  refine ⟨bl, h, ?_, ?_, ?_⟩
  · rw [h4]; decide
  · rw [h5]; decide
  · cases h; decide

/-- C14, what cannot be dropped: a branch with neither line nor location aborts the report. -/
theorem C14_aborts_without_line : ∃ fc : FileCoverage,
    fc.getBranchCoverageByLine = .error .noLineOrLoc :=
  ⟨{ FileCoverage.empty "a.js" false with
      branchMap := [(0, ⟨none, .if, [.zero], none⟩)], b := [(0, [1])] }, rfl⟩

end Verif
