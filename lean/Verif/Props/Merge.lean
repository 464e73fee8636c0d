import Verif.Lemmas.MergeTruth
/-
C01-C07: merging of coverage reports.
-/
namespace Verif

open FileCoverage

/-! ### Concrete reports used to show that hypotheses are satisfiable -/

namespace MergeEx

def r1 : Range := .mk4 1 0 1 10
def r2 : Range := .mk4 2 0 2 10
def r3 : Range := .mk4 3 0 3 10

/-- Two statements, one function, one branch with two arms. -/
def shardA : FileCoverage where
  all := false
  path := "a.js"
  statementMap := [(0, r1), (1, r2)]
  fnMap := [(0, ⟨"f", r1, r2, 1⟩)]
  branchMap := [(0, .fromLine .if 1 [r1, r2])]
  s := [(0, 3), (1, 0)]
  f := [(0, 2)]
  b := [(0, [1, 0])]
  bT := none
  inputSourceMap := none

/-- Another report of the same file, with another statement. -/
def shardB : FileCoverage :=
  { shardA with
    statementMap := [(0, r2), (1, r3)]
    s := [(0, 5), (1, 7)]
    b := [(0, [0, 4, 9])] }

/-- Decidable form of the hypotheses used below. -/
def good (fc : FileCoverage) : Bool :=
  decide ((∀ k ∈ fc.s.keys, k ∈ fc.statementMap.keys) ∧ (∀ k ∈ fc.f.keys, k ∈ fc.fnMap.keys) ∧
    (∀ k ∈ fc.b.keys, k ∈ fc.branchMap.keys) ∧ (∀ e ∈ fc.branchMap, e.2.locations ≠ []) ∧
    (∀ k ∈ fc.branchMap.keys, k ∈ fc.b.keys) ∧
    (∀ k ∈ (fc.bT.getD []).keys, k ∈ fc.branchMap.keys))

theorem wf_of_good {fc : FileCoverage} (h : good fc = true) : fc.WellFormed := by
  have h := of_decide_eq_true h
  exact ⟨h.1, h.2.1, h.2.2.1, h.2.2.2.1, h.2.2.2.2.1, h.2.2.2.2.2⟩

def distinct (fc : FileCoverage) : Bool :=
  decide ((fc.statementTable.map (·.1)).Nodup ∧ (fc.functionTable.map (·.1)).Nodup ∧
    (fc.branchTable.map (·.1)).Nodup)

theorem distinct_of {fc : FileCoverage} (h : distinct fc = true) : fc.DistinctLocs := by
  have h := of_decide_eq_true h
  exact ⟨h.1, h.2.1, h.2.2⟩

theorem shardA_wf : shardA.WellFormed := wf_of_good (by decide)
theorem shardB_wf : shardB.WellFormed := wf_of_good (by decide)
theorem shardA_distinct : shardA.DistinctLocs := distinct_of (by decide)
theorem shardB_distinct : shardB.DistinctLocs := distinct_of (by decide)

end MergeEx

/-! ### C07: merge keys -/

/-- C07: different ranges have different merge keys. -/
theorem C07_key_injective (r r' : Range) (h : keyFromLoc r = keyFromLoc r') : r = r' :=
  keyFromLoc_inj h

/-- Non-vacuity: the separator matters, `1|23` and `12|3` differ. -/
example : keyFromLoc (.mk4 1 23 4 5) ≠ keyFromLoc (.mk4 12 3 4 5) :=
  fun h => absurd (C07_key_injective _ _ h) (by decide)

/-! ### C01, C03: one merge -/

/-- C01: merging two real reports succeeds and adds the counts location by location. Only the
receiver must list each location at most once. -/
theorem C01_merge_adds_counts (a c : FileCoverage) (ha : a.WellFormed) (hc : c.WellFormed)
    (hd : a.DistinctLocs) (ht : a.TruthMergeable) (ra : a.all = false) (rc : c.all = false) :
    ∃ m, a.merge c = .ok m ∧
      (∀ r, m.statementCount r = a.statementCount r + c.statementCount r) ∧
      (∀ r, m.functionCount r = a.functionCount r + c.functionCount r) ∧
      (∀ r i, m.armCount r i = a.armCount r i + c.armCount r i) := by
  obtain ⟨m, hm, R⟩ := merge_real ha hc ht ra rc
  exact ⟨m, hm, R.statementSum hd.statements, R.functionSum hd.functions, R.branchSum hd.branches⟩

/-- C01 whenever the merge of two real reports succeeds, whatever truthiness counts they have: the counts are added. -/
theorem C01_whenever (a c m : FileCoverage) (ha : a.WellFormed) (hc : c.WellFormed) (hd : a.DistinctLocs)
    (ra : a.all = false) (rc : c.all = false) (hm : a.merge c = .ok m) :
    (∀ r, m.statementCount r = a.statementCount r + c.statementCount r) ∧
      (∀ r, m.functionCount r = a.functionCount r + c.functionCount r) ∧
      (∀ r i, m.armCount r i = a.armCount r i + c.armCount r i) := by
  obtain ⟨m', hm', R⟩ := merge_real (a := { a with bT := none })
    ⟨ha.statements, ha.functions, ha.branches, ha.arms, ha.counted, by simp [IndexMap.keys]⟩ hc (.inl rfl) ra rc
  rw [merge_truthless ra rc hm] at hm'
  cases hm'
  exact ⟨R.statementSum hd.statements, R.functionSum hd.functions, R.branchSum hd.branches⟩

/-- Non-vacuity of C01: the hypotheses hold for two overlapping shards, and the sums are the
expected ones. -/
example : ∃ m, MergeEx.shardA.merge MergeEx.shardB = .ok m ∧
    m.statementCount MergeEx.r1 = 3 ∧ m.statementCount MergeEx.r2 = 5 ∧
    m.statementCount MergeEx.r3 = 7 ∧ m.armCount MergeEx.r1 1 = 4 ∧ m.armCount MergeEx.r1 2 = 9 := by
  obtain ⟨m, hm, h1, _, h3⟩ := C01_merge_adds_counts MergeEx.shardA MergeEx.shardB MergeEx.shardA_wf
    MergeEx.shardB_wf MergeEx.shardA_distinct (.inl rfl) rfl rfl
  refine ⟨m, hm, ?_, ?_, ?_, ?_, ?_⟩
  · rw [h1]; decide
  · rw [h1]; decide
  · rw [h1]; decide
  · rw [h3]; decide
  · rw [h3]; decide

/-- C01, the proviso: when the receiver lists a location twice the earlier count is lost
(`items.insert` overwrites), so the distinctness hypothesis cannot be dropped. -/
theorem C01_fails_on_duplicates : ∃ a c : FileCoverage, a.WellFormed ∧ c.WellFormed ∧
    a.TruthMergeable ∧ a.all = false ∧ c.all = false ∧
    ∃ m r, a.merge c = .ok m ∧ m.statementCount r ≠ a.statementCount r + c.statementCount r := by
  refine ⟨{ FileCoverage.empty "a.js" false with
            statementMap := [(0, MergeEx.r1), (1, MergeEx.r1)], s := [(0, 5), (1, 0)] },
    FileCoverage.empty "a.js" false, MergeEx.wf_of_good (by decide), MergeEx.wf_of_good (by decide),
    .inl rfl, rfl, rfl, _, MergeEx.r1, rfl, by decide⟩

/-- C03, partial: merging two well-formed real reports does not abort, if the truthiness counts of the receiver allow it, and yields a well-formed report with
distinct locations and with ids `0..n-1` in both tables, listing exactly the locations of the two.
In particular the result can be merged again (it satisfies the hypotheses of this theorem). -/
theorem C03_merge_well_formed_partial (a c : FileCoverage) (ha : a.WellFormed) (hc : c.WellFormed)
    (ht : a.TruthMergeable) (ra : a.all = false) (rc : c.all = false) :
    ∃ m, a.merge c = .ok m ∧ m.all = false ∧ m.path = a.path ∧ m.WellFormed ∧ m.DistinctLocs ∧
      m.Dense ∧ m.TruthMergeable ∧
      (∀ r, r ∈ m.statementTable.map (·.1) ↔
        r ∈ a.statementTable.map (·.1) ∨ r ∈ c.statementTable.map (·.1)) ∧
      (∀ r, r ∈ m.functionTable.map (·.1) ↔
        r ∈ a.functionTable.map (·.1) ∨ r ∈ c.functionTable.map (·.1)) ∧
      (∀ r, r ∈ m.branchTable.map (·.1) ↔
        r ∈ a.branchTable.map (·.1) ∨ r ∈ c.branchTable.map (·.1)) := by
  obtain ⟨m, hm, R⟩ := merge_real ha hc ht ra rc
  exact ⟨m, hm, R.all, R.path, R.wf, R.distinct, R.dense, R.truthMergeable,
    R.statementLocs, R.functionLocs, R.branchLocs⟩

/-- C03 whenever the merge succeeds: the result has distinct locations, namely those of both reports, and ids `0..n-1` in both
tables. If the receiver has no truthiness counts, or both reports have some, then the result is well formed and can be merged
again. -/
theorem C03_whenever (a c m : FileCoverage) (ha : a.WellFormed) (hc : c.WellFormed)
    (ra : a.all = false) (rc : c.all = false) (hm : a.merge c = .ok m) :
    m.all = false ∧ m.path = a.path ∧ m.DistinctLocs ∧ m.Dense ∧
      (∀ r, r ∈ m.statementTable.map (·.1) ↔
        r ∈ a.statementTable.map (·.1) ∨ r ∈ c.statementTable.map (·.1)) ∧
      (∀ r, r ∈ m.functionTable.map (·.1) ↔
        r ∈ a.functionTable.map (·.1) ∨ r ∈ c.functionTable.map (·.1)) ∧
      (∀ r, r ∈ m.branchTable.map (·.1) ↔
        r ∈ a.branchTable.map (·.1) ∨ r ∈ c.branchTable.map (·.1)) ∧
      (a.bT = none ∨ c.bT ≠ none → m.WellFormed ∧ m.TruthMergeable) := by
  obtain ⟨m', hm', R⟩ := merge_real (a := { a with bT := none })
    ⟨ha.statements, ha.functions, ha.branches, ha.arms, ha.counted, by simp [IndexMap.keys]⟩ hc (.inl rfl) ra rc
  rw [merge_truthless ra rc hm] at hm'
  cases hm'
  refine ⟨R.all, R.path, ⟨R.distinct.statements, R.distinct.functions, R.distinct.branches⟩,
    ⟨R.dense.s, R.dense.statementMap, R.dense.f, R.dense.fnMap, R.dense.b, R.dense.branchMap⟩,
    R.statementLocs, R.functionLocs, R.branchLocs, fun h => ?_⟩
  obtain ⟨m', hm', R'⟩ := merge_core ha hc (fun ls hls hmem k hk => by
    rcases (merge_ok_iff ha hc ra rc hls hmem).1 ⟨m, hm⟩ with h1 | h1 | h1
    · rw [h1] at hk; cases hk
    · rcases h with h | h
      · rw [h] at hk; cases hk
      · exact absurd h1 h
    · exact h1 k hk) ra rc
  rw [hm] at hm'
  cases hm'
  exact ⟨R'.wf, R'.truthMergeable⟩

/-- Non-vacuity of C03. -/
example : ∃ m, MergeEx.shardA.merge MergeEx.shardB = .ok m ∧ m.Dense ∧ m.s.length = 3 :=
  ⟨_, rfl, (by
    obtain ⟨m, hm, _, _, _, _, h, _⟩ := C03_merge_well_formed_partial MergeEx.shardA MergeEx.shardB
      MergeEx.shardA_wf MergeEx.shardB_wf (.inl rfl) rfl rfl
    cases hm; exact h), rfl⟩

/-- C03, what cannot be dropped: an entry without location aborts the merge. -/
theorem C03_aborts_without_item : ∃ a c : FileCoverage, a.all = false ∧ c.all = false ∧
    c.WellFormed ∧ a.merge c = .error .missingItem :=
  ⟨{ FileCoverage.empty "a.js" false with s := [(0, 1)] }, FileCoverage.empty "a.js" false, rfl, rfl,
    MergeEx.wf_of_good (by decide), rfl⟩

/-- C03, what cannot be dropped: a branch without arms aborts the merge. (The instrumenter removes
such branches, C16.) -/
theorem C03_aborts_on_empty_branch : ∃ a : FileCoverage, a.all = false ∧
    (∀ k ∈ a.b.keys, k ∈ a.branchMap.keys) ∧ a.merge a = .error .emptyLocations :=
  ⟨{ FileCoverage.empty "a.js" false with
      branchMap := [(0, .fromLine .switch 1 [])], b := [(0, [])] }, rfl, by decide, rfl⟩

/-- C03 fails: merging two well-formed real reports with distinct locations may abort. This is a report of
`switch (x) {}; a || b`: the first branch was dropped because it has no arm, so that the only id is 1. -/
theorem C03_truth_fails : ∃ a : FileCoverage, a.WellFormed ∧ a.DistinctLocs ∧ a.all = false ∧ a.merge a = .error .missingItem :=
  ⟨{ FileCoverage.empty "a.js" true with
      branchMap := [(1, .fromLine .binaryExpr 2 [MergeEx.r2, MergeEx.r3])], b := [(1, [1, 1])], bT := some [(1, [0, 1])] },
    MergeEx.wf_of_good (by decide), MergeEx.distinct_of (by decide), rfl, rfl⟩

/-- C03 fails: the result of a merge of well-formed reports may be not well formed. The ids of the truthiness counts of the
receiver are kept when the other report has none, and the branches get new ids. -/
theorem C03_ids_fail : ∃ a c m : FileCoverage, a.WellFormed ∧ c.WellFormed ∧ a.DistinctLocs ∧ c.DistinctLocs ∧
    a.all = false ∧ c.all = false ∧ a.merge c = .ok m ∧ ¬ m.WellFormed :=
  ⟨{ FileCoverage.empty "a.js" true with
      branchMap := [(1, .fromLine .binaryExpr 2 [MergeEx.r2, MergeEx.r3])], b := [(1, [1, 1])], bT := some [(1, [0, 1])] },
    FileCoverage.empty "a.js" false, _,
    MergeEx.wf_of_good (by decide), MergeEx.wf_of_good (by decide), MergeEx.distinct_of (by decide),
    MergeEx.distinct_of (by decide), rfl, rfl, rfl, fun h => absurd (h.truth 1 (by decide)) (by decide)⟩

/-! ### C02: any number of shards -/

/-- A way of combining reports: which are merged into which, in which grouping. -/
inductive MergeTree where
  | leaf (fc : FileCoverage)
  | node (l r : MergeTree)

namespace MergeTree

/-- Carry out the merges. -/
def eval : MergeTree → Except Panic FileCoverage
  | leaf fc => .ok fc
  | node l r =>
    match l.eval with
    | .error e => .error e
    | .ok a =>
      match r.eval with
      | .error e => .error e
      | .ok c => a.merge c

/-- The reports that are combined, from left to right. -/
def leaves : MergeTree → List FileCoverage
  | leaf fc => [fc]
  | node l r => l.leaves ++ r.leaves

/-- Merging one report after the other into the first, as `CoverageMap` does. -/
def leftFold (t : MergeTree) : List FileCoverage → MergeTree
  | [] => t
  | c :: cs => leftFold (node t (leaf c)) cs

end MergeTree

/-- What one shard contributes: its count, or nothing if it is a placeholder. -/
def contribution (count : FileCoverage → Nat) (fc : FileCoverage) : Nat :=
  if fc.all then 0 else count fc

/-- A report as a test shard delivers it. -/
structure GoodShard (fc : FileCoverage) : Prop where
  wf : fc.WellFormed
  distinct : fc.DistinctLocs
  truth : fc.TruthMergeable

theorem mergeTree_eval (t : MergeTree) (h : ∀ fc ∈ t.leaves, GoodShard fc) :
    ∃ m, t.eval = .ok m ∧ GoodShard m ∧ m.all = t.leaves.all (·.all) ∧
      (∀ r, contribution (·.statementCount r) m =
        (t.leaves.map (contribution (·.statementCount r))).sum) ∧
      (∀ r, contribution (·.functionCount r) m =
        (t.leaves.map (contribution (·.functionCount r))).sum) ∧
      (∀ r i, contribution (·.armCount r i) m =
        (t.leaves.map (contribution (·.armCount r i))).sum) := by
  induction t with
  | leaf fc =>
    refine ⟨fc, rfl, h fc (by simp [MergeTree.leaves]), ?_, ?_, ?_, ?_⟩ <;> simp [MergeTree.leaves]
  | node l r ihl ihr =>
    obtain ⟨a, ea, ga, aa, sa, fa, ba⟩ := ihl fun fc hfc => h fc (by simp [MergeTree.leaves, hfc])
    obtain ⟨c, ec, gc, ac, sc, fc, bc⟩ := ihr fun fc hfc => h fc (by simp [MergeTree.leaves, hfc])
    simp only [MergeTree.eval, ea, ec, MergeTree.leaves, List.map_append, List.sum_append,
      List.all_append, ← sa, ← fa, ← ba, ← sc, ← fc, ← bc, ← aa, ← ac]
    by_cases hc : c.all = true
    · refine ⟨a, by simp [merge, mergeWith, hc], ga, by simp [hc], ?_, ?_, ?_⟩ <;>
        simp [contribution, hc]
    · have hc : c.all = false := by simpa using hc
      by_cases ha : a.all = true
      · refine ⟨c, by simp [merge, mergeWith, hc, ha], gc, by simp [ha], ?_, ?_, ?_⟩ <;>
          simp [contribution, ha]
      · have ha : a.all = false := by simpa using ha
        obtain ⟨m, hm, R⟩ := merge_real ga.wf gc.wf ga.truth ha hc
        refine ⟨m, hm, ⟨R.wf, R.distinct, R.truthMergeable⟩, ?_, ?_, ?_, ?_⟩
        · simp [R.all, ha, hc]
        · simp [contribution, R.all, ha, hc, R.statementSum ga.distinct.statements]
        · simp [contribution, R.all, ha, hc, R.functionSum ga.distinct.functions]
        · simp [contribution, R.all, ha, hc, R.branchSum ga.distinct.branches]

/-- C02, partial: however any shards that list no location twice (real reports and placeholders) are ordered and grouped, the merge
succeeds, and the counts per location agree. -/
theorem C02_merge_order_independent_partial (t t' : MergeTree) (hp : t.leaves.Perm t'.leaves)
    (h : ∀ fc ∈ t.leaves, GoodShard fc) :
    ∃ m m', t.eval = .ok m ∧ t'.eval = .ok m' ∧ m.all = m'.all ∧
      (m.all = false →
        (∀ r, m.statementCount r = m'.statementCount r) ∧
        (∀ r, m.functionCount r = m'.functionCount r) ∧
        (∀ r i, m.armCount r i = m'.armCount r i)) := by
  obtain ⟨m, e, _, a, s, f, b⟩ := mergeTree_eval t h
  obtain ⟨m', e', _, a', s', f', b'⟩ := mergeTree_eval t' fun fc hfc => h fc (hp.mem_iff.2 hfc)
  have hall : m.all = m'.all := by
    rw [a, a', Bool.eq_iff_iff, List.all_eq_true, List.all_eq_true]
    exact ⟨fun h x hx => h x (hp.mem_iff.2 hx), fun h x hx => h x (hp.mem_iff.1 hx)⟩
  refine ⟨m, m', e, e', hall, fun hm => ?_⟩
  have hm' : m'.all = false := hall ▸ hm
  have key : ∀ count : FileCoverage → Nat,
      contribution count m = (t.leaves.map (contribution count)).sum →
      contribution count m' = (t'.leaves.map (contribution count)).sum → count m = count m' := by
    intro count h1 h2
    have := (hp.map (contribution count)).sum_nat
    rw [← h1, ← h2] at this
    simpa [contribution, hm, hm'] using this
  exact ⟨fun r => key _ (s r) (s' r), fun r => key _ (f r) (f' r), fun r i => key _ (b r i) (b' r i)⟩

/-- C02, partial, the value: the merged count is the sum of the counts of the real shards. -/
theorem C02_merge_is_sum_partial (t : MergeTree) (h : ∀ fc ∈ t.leaves, GoodShard fc)
    (hreal : ∃ fc ∈ t.leaves, fc.all = false) :
    ∃ m, t.eval = .ok m ∧
      (∀ r, m.statementCount r = (t.leaves.map (contribution (·.statementCount r))).sum) ∧
      (∀ r, m.functionCount r = (t.leaves.map (contribution (·.functionCount r))).sum) ∧
      (∀ r i, m.armCount r i = (t.leaves.map (contribution (·.armCount r i))).sum) := by
  obtain ⟨m, e, _, a, s, f, b⟩ := mergeTree_eval t h
  have hm : m.all = false := by
    rw [a]
    obtain ⟨fc, hfc, hr⟩ := hreal
    cases hall : t.leaves.all (·.all) with
    | false => rfl
    | true => rw [List.all_eq_true.1 hall fc hfc] at hr; cases hr
  refine ⟨m, e, fun r => ?_, fun r => ?_, fun r i => ?_⟩
  · rw [← s r]; simp [contribution, hm]
  · rw [← f r]; simp [contribution, hm]
  · rw [← b r i]; simp [contribution, hm]

theorem MergeEx.shardA_good : GoodShard MergeEx.shardA :=
  ⟨shardA_wf, shardA_distinct, .inl rfl⟩
theorem MergeEx.shardB_good : GoodShard MergeEx.shardB :=
  ⟨shardB_wf, shardB_distinct, .inl rfl⟩

/-- C02 fails for reports that list a location twice, which the instrumenter emits (C34): the count depends on the order. -/
theorem C02_duplicates_fails : ∃ a c m m' : FileCoverage, ∃ r, a.WellFormed ∧ c.WellFormed ∧ a.bT = none ∧ c.bT = none ∧
    a.all = false ∧ c.all = false ∧ (MergeTree.node (.leaf a) (.leaf c)).eval = .ok m ∧
    (MergeTree.node (.leaf c) (.leaf a)).eval = .ok m' ∧ m.statementCount r ≠ m'.statementCount r :=
  ⟨{ FileCoverage.empty "a.js" false with statementMap := [(0, MergeEx.r1), (1, MergeEx.r1)], s := [(0, 5), (1, 0)] },
    MergeEx.shardA, _, _, MergeEx.r1, MergeEx.wf_of_good (by decide), MergeEx.shardA_wf, rfl, rfl, rfl, rfl, rfl, rfl, by decide⟩

/-- C02 fails for reports with truthiness counts, even if no location is listed twice: the merge succeeds in one order and
aborts in the other. -/
theorem C02_truth_fails : ∃ a c : FileCoverage, a.WellFormed ∧ c.WellFormed ∧ a.DistinctLocs ∧ c.DistinctLocs ∧
    a.all = false ∧ c.all = false ∧ (∃ m, (MergeTree.node (.leaf a) (.leaf c)).eval = .ok m) ∧
    (MergeTree.node (.leaf c) (.leaf a)).eval = .error .missingItem :=
  ⟨{ FileCoverage.empty "a.js" true with
      branchMap := [(0, .fromLine .binaryExpr 2 [MergeEx.r2, MergeEx.r3])], b := [(0, [1, 1])], bT := some [(0, [0, 1])] },
    { FileCoverage.empty "a.js" true with
      branchMap := [(1, .fromLine .binaryExpr 2 [MergeEx.r2, MergeEx.r3])], b := [(1, [1, 1])], bT := some [(1, [0, 1])] },
    MergeEx.wf_of_good (by decide), MergeEx.wf_of_good (by decide), MergeEx.distinct_of (by decide),
    MergeEx.distinct_of (by decide), rfl, rfl, ⟨_, rfl⟩, rfl⟩

/-- Non-vacuity of C02: `(A · B) · A` and `A · (A · B)`. -/
example : ∃ m m' : FileCoverage,
    (MergeTree.node (.node (.leaf MergeEx.shardA) (.leaf MergeEx.shardB)) (.leaf MergeEx.shardA)).eval
      = .ok m ∧
    (MergeTree.node (.leaf MergeEx.shardA) (.node (.leaf MergeEx.shardA) (.leaf MergeEx.shardB))).eval
      = .ok m' ∧ m.statementCount MergeEx.r1 = m'.statementCount MergeEx.r1 := by
  obtain ⟨m, m', e, e', h, h'⟩ := C02_merge_order_independent_partial
    (MergeTree.node (.node (.leaf MergeEx.shardA) (.leaf MergeEx.shardB)) (.leaf MergeEx.shardA))
    (MergeTree.node (.leaf MergeEx.shardA) (.node (.leaf MergeEx.shardA) (.leaf MergeEx.shardB)))
    (by
      simp only [MergeTree.leaves, List.cons_append, List.nil_append]
      exact .cons _ (.swap _ _ _))
    (by
      intro fc hfc
      simp only [MergeTree.leaves, List.cons_append, List.nil_append, List.mem_cons, List.not_mem_nil,
        or_false] at hfc
      rcases hfc with rfl | rfl | rfl
      · exact MergeEx.shardA_good
      · exact MergeEx.shardB_good
      · exact MergeEx.shardA_good)
  refine ⟨m, m', e, e', (h' ?_).1 _⟩
  cases e; rfl

/-! ### C04: covered stays covered -/

/-- C04 as stated fails in exact arithmetic already: a receiver that lists a location twice loses the
earlier count. (The instrumenter emits such reports, see C34.) -/
theorem C04_fails_on_duplicates : ∃ a c : FileCoverage, a.WellFormed ∧ c.WellFormed ∧
    a.TruthMergeable ∧ a.all = false ∧ c.all = false ∧
    ∃ m r, a.merge c = .ok m ∧ 0 < a.statementCount r ∧ m.statementCount r = 0 := by
  refine ⟨{ FileCoverage.empty "a.js" false with
            statementMap := [(0, MergeEx.r1), (1, MergeEx.r1)], s := [(0, 5), (1, 0)] },
    FileCoverage.empty "a.js" false, MergeEx.wf_of_good (by decide), MergeEx.wf_of_good (by decide),
    .inl rfl, rfl, rfl, _, MergeEx.r1, rfl, by decide, by decide⟩

/-- C04 as stated fails with 32-bit wrap-around (release build), also without duplicates. -/
theorem C04_fails_on_overflow : ∃ a c : FileCoverage, GoodShard a ∧ GoodShard c ∧
    a.all = false ∧ c.all = false ∧ a.CountsSat (· < 2 ^ 32) ∧ c.CountsSat (· < 2 ^ 32) ∧
    ∃ m r, a.mergeWith addWrap32 c = .ok m ∧ 0 < a.statementCount r ∧ 0 < c.statementCount r ∧
      m.statementCount r = 0 := by
  refine ⟨{ FileCoverage.empty "a.js" false with
            statementMap := [(0, MergeEx.r1)], s := [(0, 4294967295)] },
    { FileCoverage.empty "a.js" false with statementMap := [(0, MergeEx.r1)], s := [(0, 1)] },
    ⟨MergeEx.wf_of_good (by decide), MergeEx.distinct_of (by decide), .inl rfl⟩,
    ⟨MergeEx.wf_of_good (by decide), MergeEx.distinct_of (by decide), .inl rfl⟩,
    rfl, rfl, ?_, ?_, _, MergeEx.r1, rfl, by decide, by decide, by decide⟩ <;>
  exact ⟨by decide, by decide, by decide, by decide⟩

/-- C04, partial: with exact counts, what the argument covers stays covered in all cases, and what
the receiver covers stays covered when it lists each location once. Missing: duplicates in the
receiver and 32-bit overflow, refuted above. -/
theorem C04_covered_stays_covered_partial (a c : FileCoverage) (ha : a.WellFormed)
    (hc : c.WellFormed) (ht : a.TruthMergeable) (ra : a.all = false) (rc : c.all = false) :
    ∃ m, a.merge c = .ok m ∧
      (∀ r, 0 < c.statementCount r → 0 < m.statementCount r) ∧
      (∀ r, 0 < c.functionCount r → 0 < m.functionCount r) ∧
      (∀ r i, 0 < c.armCount r i → 0 < m.armCount r i) ∧
      (a.DistinctLocs →
        (∀ r, 0 < a.statementCount r → 0 < m.statementCount r) ∧
        (∀ r, 0 < a.functionCount r → 0 < m.functionCount r) ∧
        (∀ r i, 0 < a.armCount r i → 0 < m.armCount r i)) := by
  obtain ⟨m, hm, R⟩ := merge_real ha hc ht ra rc
  refine ⟨m, hm, fun r h => Nat.lt_of_lt_of_le h (R.statementGe r),
    fun r h => Nat.lt_of_lt_of_le h (R.functionGe r),
    fun r i h => Nat.lt_of_lt_of_le h (R.branchGe r i), fun hd => ⟨fun r h => ?_, fun r h => ?_,
    fun r i h => ?_⟩⟩
  · rw [R.statementSum hd.statements]; omega
  · rw [R.functionSum hd.functions]; omega
  · rw [R.branchSum hd.branches]; omega

/-- Non-vacuity of C04_partial. -/
example : ∃ m, MergeEx.shardA.merge MergeEx.shardB = .ok m ∧ 0 < m.statementCount MergeEx.r1 ∧
    0 < m.statementCount MergeEx.r3 := by
  obtain ⟨m, hm, h1, _, _, h4⟩ := C04_covered_stays_covered_partial MergeEx.shardA MergeEx.shardB
    MergeEx.shardA_wf MergeEx.shardB_wf (.inl rfl) rfl rfl
  exact ⟨m, hm, (h4 MergeEx.shardA_distinct).1 _ (by decide), h1 _ (by decide)⟩

/-- C04, 32-bit counts: for reports with 32-bit counts the release build computes exactly the exact
merge with all counts reduced modulo `2^32` (and panics exactly when the exact merge does). -/
theorem C04_wrap_is_mod (a c : FileCoverage) (ha : a.CountsSat (· < 2 ^ 32))
    (hc : c.CountsSat (· < 2 ^ 32)) :
    a.mergeWith addWrap32 c = (a.merge c).map (mapCounts (· % 2 ^ 32)) := by
  have hid : ∀ fc : FileCoverage, fc.CountsSat (· < 2 ^ 32) → fc.mapCounts (· % 2 ^ 32) = fc := by
    intro fc h
    apply mapCounts_id_of
    exact ⟨fun e he => Nat.mod_eq_of_lt (h.1 e he), fun e he => Nat.mod_eq_of_lt (h.2.1 e he),
      fun e he x hx => Nat.mod_eq_of_lt (h.2.2.1 e he x hx),
      fun e he x hx => Nat.mod_eq_of_lt (h.2.2.2 e he x hx)⟩
  have := mergeWith_map (· % 2 ^ 32) rfl (· + ·) addWrap32
    (fun x y => by simp only [addWrap32]; omega) a c
  rw [hid a ha, hid c hc] at this
  exact this

/-- C04, 32-bit counts without overflow: if no exact merged count reaches `2^32`, the release build
computes the exact merge. -/
theorem C04_no_overflow (a c m : FileCoverage) (ha : a.CountsSat (· < 2 ^ 32))
    (hc : c.CountsSat (· < 2 ^ 32)) (hm : a.merge c = .ok m) (hb : m.CountsSat (· < 2 ^ 32)) :
    a.mergeWith addWrap32 c = .ok m := by
  rw [C04_wrap_is_mod a c ha hc, hm]
  simp only [Except.map, Except.ok.injEq]
  apply mapCounts_id_of
  exact ⟨fun e he => Nat.mod_eq_of_lt (hb.1 e he), fun e he => Nat.mod_eq_of_lt (hb.2.1 e he),
    fun e he x hx => Nat.mod_eq_of_lt (hb.2.2.1 e he x hx),
    fun e he x hx => Nat.mod_eq_of_lt (hb.2.2.2 e he x hx)⟩

/-- Non-vacuity of C04_no_overflow. -/
example : ∃ m, MergeEx.shardA.mergeWith addWrap32 MergeEx.shardB = .ok m :=
  ⟨_, C04_no_overflow MergeEx.shardA MergeEx.shardB _ ⟨by decide, by decide, by decide, by decide⟩
    ⟨by decide, by decide, by decide, by decide⟩ rfl ⟨by decide, by decide, by decide, by decide⟩⟩

/-! ### C05: truthiness counts -/

namespace MergeEx

/-- `if (x) {} ; a || b` with logic reporting: branch 0 is the `if`, branch 1 the logical
expression; only the latter has truthiness counts. -/
def logicA : FileCoverage :=
  { FileCoverage.empty "a.js" true with
    branchMap := [(0, .fromLine .if 1 [r1, r1]), (1, .fromLine .binaryExpr 2 [r2, r3])]
    b := [(0, [1, 0]), (1, [1, 1])]
    bT := some [(1, [0, 1])] }

/-- `switch (x) {}; a || b` with logic reporting: branch 0 was dropped because it has no arm. -/
def logicB : FileCoverage :=
  { FileCoverage.empty "a.js" true with
    branchMap := [(1, .fromLine .binaryExpr 2 [r2, r3])]
    b := [(1, [1, 1])]
    bT := some [(1, [0, 1])] }

/-- Only logical expressions. -/
def logicC : FileCoverage :=
  { FileCoverage.empty "a.js" true with
    branchMap := [(0, .fromLine .binaryExpr 1 [r1, r2]), (1, .fromLine .binaryExpr 2 [r3, r2])]
    b := [(0, [1, 0]), (1, [1, 1])]
    bT := some [(0, [1, 0]), (1, [0, 1])] }

end MergeEx

/-- C05 fails: merging a report with itself moves the truthiness counts of the logical expression to
the `if` statement, in a perfectly ordinary report. -/
theorem C05_counts_move : ∃ a : FileCoverage, GoodShard a ∧ a.Dense ∧ a.all = false ∧ a.bT.isSome ∧
    ∃ m r r', a.merge a = .ok m ∧ a.truthCount r 1 = 1 ∧ m.truthCount r 1 = 0 ∧
      a.truthCount r' 1 = 0 ∧ m.truthCount r' 1 = 2 := by
  refine ⟨MergeEx.logicA, ⟨MergeEx.wf_of_good (by decide), MergeEx.distinct_of (by decide),
    .inr (by decide)⟩, ?_, rfl, rfl, _, MergeEx.r2, MergeEx.r1, rfl, by decide, by decide, by decide,
    by decide⟩
  exact ⟨by decide, by decide, by decide, by decide, by decide, by decide⟩

/-- C05 fails: merging a well-formed report with itself aborts when an arm-less branch was dropped
before (ids with a gap). -/
theorem C05_merge_panics : ∃ a : FileCoverage, a.WellFormed ∧ a.DistinctLocs ∧ a.all = false ∧
    a.bT.isSome ∧ a.merge a = .error .missingItem :=
  ⟨MergeEx.logicB, MergeEx.wf_of_good (by decide), MergeEx.distinct_of (by decide), rfl, rfl, rfl⟩

/-- C05: exactly when a merge aborts. Merging two real, well-formed reports succeeds if and only if one of them has no truthiness
counts, or those of the receiver have ids below the number of branch locations of both reports together. -/
theorem C05_succeeds_iff (a c : FileCoverage) (ha : a.WellFormed) (hc : c.WellFormed) (ra : a.all = false) (rc : c.all = false)
    (ls : List Range) (hls : ls.Nodup)
    (hmem : ∀ r, r ∈ ls ↔ r ∈ a.branchTable.map (·.1) ∨ r ∈ c.branchTable.map (·.1)) :
    (∃ m, a.merge c = .ok m) ↔
      a.bT = none ∨ c.bT = none ∨ ∀ k ∈ IndexMap.keys (a.bT.getD []), k < ls.length :=
  merge_ok_iff ha hc ra rc hls hmem

/-- Non-vacuity of C05_succeeds_iff: merging the report with the gap into itself aborts, merging it with one that has another
branch does not. -/
example : (¬ ∃ m, MergeEx.logicB.merge MergeEx.logicB = .ok m) ∧ ∃ m, MergeEx.logicB.merge MergeEx.logicC = .ok m := by
  have hB := MergeEx.wf_of_good (fc := MergeEx.logicB) (by decide)
  have hC := MergeEx.wf_of_good (fc := MergeEx.logicC) (by decide)
  constructor
  · rw [C05_succeeds_iff _ _ hB hB rfl rfl [MergeEx.r2] (by decide) (by
      intro r
      have : MergeEx.logicB.branchTable.map (·.1) = [MergeEx.r2] := by decide
      simp [this])]
    decide
  · rw [C05_succeeds_iff _ _ hB hC rfl rfl [MergeEx.r2, MergeEx.r1, MergeEx.r3] (by decide) (by
      intro r
      have h1 : MergeEx.logicB.branchTable.map (·.1) = [MergeEx.r2] := by decide
      have h2 : MergeEx.logicC.branchTable.map (·.1) = [MergeEx.r1, MergeEx.r3] := by decide
      simp [h1, h2])]
    decide

/-- C05 fails: truthiness counts present in the argument only are dropped. -/
theorem C05_counts_dropped : ∃ a c m : FileCoverage, GoodShard a ∧ GoodShard c ∧
    a.all = false ∧ c.all = false ∧ a.merge c = .ok m ∧
    ∃ r i, 0 < c.truthCount r i ∧ m.truthCount r i = 0 := by
  refine ⟨FileCoverage.empty "a.js" false, MergeEx.logicC, _,
    ⟨MergeEx.wf_of_good (by decide), MergeEx.distinct_of (by decide), .inl rfl⟩,
    ⟨MergeEx.wf_of_good (by decide), MergeEx.distinct_of (by decide), .inr (by decide)⟩, rfl, rfl, rfl,
    MergeEx.r1, 0, by decide, by decide⟩

/-- C05, partial: when in both reports every branch has truthiness counts, and the receiver's
branches are distinct and numbered `0..n-1`, truthiness counts are added location by location and
stay listed for every branch. Missing: reports in which only some branches have truthiness counts
(refuted by `C05_counts_move`). -/
theorem C05_truth_counts_add_partial (a c : FileCoverage) (ha : a.WellFormed) (hc : c.WellFormed)
    (ra : a.all = false) (rc : c.all = false) (hd : a.b.keys = List.range a.b.length)
    (hnd : (a.branchTable.map (·.1)).Nodup)
    (hk : a.bT.map IndexMap.keys = some a.b.keys) (hck : c.bT.map IndexMap.keys = some c.b.keys) :
    ∃ m, a.merge c = .ok m ∧ m.bT.map IndexMap.keys = some m.b.keys ∧
      ∀ r i, m.truthCount r i = a.truthCount r i + c.truthCount r i := by
  obtain ⟨bt, hbt, hk⟩ := Option.map_eq_some_iff.1 hk
  obtain ⟨cbt, hcbt, hck⟩ := Option.map_eq_some_iff.1 hck
  exact merge_truth ha hc ra rc hd hnd hbt hcbt hk hck

/-- Non-vacuity of C05_partial. -/
example : ∃ m, MergeEx.logicC.merge MergeEx.logicC = .ok m ∧ m.truthCount MergeEx.r3 1 = 2 := by
  obtain ⟨m, hm, _, h⟩ := C05_truth_counts_add_partial MergeEx.logicC MergeEx.logicC
    (MergeEx.wf_of_good (by decide)) (MergeEx.wf_of_good (by decide)) rfl rfl (by decide) (by decide)
    (by decide) (by decide)
  exact ⟨m, hm, by rw [h]; decide⟩

/-! ### C06: placeholders -/

/-- C06: a placeholder merged into anything changes nothing; anything real merged into a placeholder
replaces it. No well-formedness is needed. -/
theorem C06_placeholders (a c : FileCoverage) :
    (c.all = true → a.merge c = .ok a) ∧ (c.all = false → a.all = true → a.merge c = .ok c) := by
  constructor
  · intro h; simp [merge, mergeWith, h]
  · intro h h'; simp [merge, mergeWith, h, h']

/-- Non-vacuity of C06. -/
example : FileCoverage.merge { FileCoverage.empty "a.js" false with all := true } MergeEx.shardA =
    .ok MergeEx.shardA := (C06_placeholders _ _).2 rfl rfl

end Verif
