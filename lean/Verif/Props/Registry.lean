import Verif.Lemmas.Registry
import Verif.Spec.Report
/-
C15, C16: the registry of counters built while a file is instrumented.
-/
namespace Verif

open IndexMap RegOp

/-! ### C15 -/

/-- C15: any history of registrations that adds arms only to branches registered before succeeds;
the resulting report is the one described by `RegOp.report`, and each call returns the number of
earlier registrations of its kind (for an arm: of earlier arms of its branch). -/
theorem C15_registry (path : String) (rl : Bool) (ops : List RegOp) (h : Legal ops) :
    ∃ c ids, runAll (SourceCoverage.new path rl) ops = .ok (c, ids) ∧
      c.inner = report path rl none ops ∧
      ids.length = ops.length ∧
      ∀ pre op post, ops = pre ++ op :: post → ids[pre.length]? = some (expectedId pre op) := by
  obtain ⟨c, ids, h1, h2, h3, h4⟩ := inv_runAll legal_nil (inv_new (p := path) (rl := rl)) ops h
  exact ⟨c, ids, h1, h2.inner, h3, h4⟩

/-- C15: a history that adds an arm to a branch not registered before aborts. -/
theorem C15_aborts_on_unknown_branch (path : String) (rl : Bool) (ops : List RegOp) (h : ¬ Legal ops) :
    runAll (SourceCoverage.new path rl) ops = .error .invalidBranch :=
  runAll_error legal_nil (inv_new (p := path) (rl := rl)) ops h

/-- C15: no id is handed out twice for the same kind of item. -/
theorem C15_ids_fresh (pre mid : List RegOp) (op op' : RegOp)
    (hk : match op, op' with
      | .statement _, .statement _ => True
      | .function .., .function .. => True
      | .branch .., .branch .. => True
      | .path k _, .path k' _ => k = k'
      | _, _ => False) :
    expectedId pre op < expectedId (pre ++ op :: mid) op' := by
  cases op <;> cases op' <;> simp only at hk <;> try exact hk.elim
  · simp [expectedId, statements, List.filterMap_append]
  · simp [expectedId, functions, List.filterMap_append]
  · simp [expectedId, branches, List.filterMap_append]
  · subst hk; simp [expectedId, arms, List.filterMap_append]

/-- C15: the tables of the report have the same ids `0, 1, ..., n-1`, each branch has as many counts
as arms, and all counts are zero. -/
theorem C15_tables_in_step (path : String) (rl : Bool) (ops : List RegOp) :
    (report path rl none ops).Dense ∧
    (∀ k br, (report path rl none ops).branchMap.get k = some br →
      (report path rl none ops).b.get k = some (List.replicate br.locations.length 0)) ∧
    (∀ k v, ((report path rl none ops).bT.getD []).get k = some v →
      (report path rl none ops).b.get k = some v) ∧
    (report path rl none ops).CountsSat (· = 0) := by
  refine ⟨⟨?_, ?_, ?_, ?_, ?_, ?_⟩, ?_, ?_, ?_⟩
  any_goals (simp only [report]; rw [keys_numbered]; simp [numbered]; done)
  · intro k br h
    simp only [report, get_numbered] at h ⊢
    cases hb : (branches ops)[k]? with
    | none => simp [hb] at h
    | some x =>
      simp only [hb, Option.map_some, Option.some.injEq] at h ⊢
      subst h
      simp [List.map_const']
  · intro k v h
    rw [bT_eq] at h
    have hm : (k, v) ∈ truthEntries ops := by
      split at h
      · exact mem_of_get h
      · simp [IndexMap.get] at h
    obtain ⟨e, he, heq⟩ := List.mem_map.1 hm
    have he' := (List.mem_filter.1 he).1
    rw [List.mem_zipIdx_iff_getElem?] at he'
    simp only [Prod.mk.injEq] at heq
    obtain ⟨rfl, rfl⟩ := heq
    simp only [report, get_numbered, he', Option.map_some]
  · refine ⟨?_, ?_, ?_, ?_⟩
    · intro e he; obtain ⟨x, _, rfl⟩ := List.mem_map.1 he; rfl
    · intro e he; obtain ⟨x, _, rfl⟩ := List.mem_map.1 he; rfl
    · intro e he y hy
      obtain ⟨x, _, rfl⟩ := List.mem_map.1 he
      obtain ⟨z, _, rfl⟩ := List.mem_map.1 hy
      rfl
    · intro e he y hy
      rw [bT_eq] at he
      have hm : e ∈ truthEntries ops := by
        split at he
        · exact he
        · simp at he
      obtain ⟨x, _, rfl⟩ := List.mem_map.1 hm
      obtain ⟨z, _, rfl⟩ := List.mem_map.1 hy
      rfl

/-- Non-trivial case: two branches of which one has two arms, a function, a statement. -/
example : runAll (SourceCoverage.new "a.js" true)
      [.statement (.mk4 1 0 1 5), .branch .if (.mk4 2 0 9 1) false, .function none (.mk4 3 0 3 4) (.mk4 3 5 4 0),
        .branch .binaryExpr (.mk4 5 0 5 9) true, .path 1 (.mk4 5 0 5 3), .path 1 (.mk4 5 6 5 9),
        .statement (.mk4 7 0 7 4)]
    = .ok (⟨report "a.js" true none
      [.statement (.mk4 1 0 1 5), .branch .if (.mk4 2 0 9 1) false, .function none (.mk4 3 0 3 4) (.mk4 3 5 4 0),
        .branch .binaryExpr (.mk4 5 0 5 9) true, .path 1 (.mk4 5 0 5 3), .path 1 (.mk4 5 6 5 9),
        .statement (.mk4 7 0 7 4)], 2, 1, 2⟩, [0, 0, 0, 1, 0, 1, 1]) := by rfl

/-! ### C16 -/

/-- The report lists branch `k` without any arm. -/
def Armless (fc : FileCoverage) (k : Nat) : Prop := ∃ br, (k, br) ∈ fc.branchMap ∧ br.locations = []

theorem dropped_iff (fc : FileCoverage) (k : Nat) :
    SourceCoverage.dropped fc.branchMap k = true ↔ Armless fc k := by
  simp only [SourceCoverage.dropped, List.any_eq_true, Bool.and_eq_true, beq_iff_eq, Armless]
  constructor
  · rintro ⟨⟨k', br⟩, h1, rfl, h2⟩
    exact ⟨br, h1, by simpa using h2⟩
  · rintro ⟨br, h1, h2⟩
    exact ⟨(k, br), h1, rfl, by simp [h2]⟩

/-- C16: freezing keeps exactly the branches that have an arm, in order; the count and truthiness
tables lose exactly the arm-less branches and keep all other entries; nothing else changes. -/
theorem C16_freeze (c : SourceCoverage) (hb : c.inner.b.NodupKeys)
    (ht : ∀ t, c.inner.bT = some t → t.NodupKeys) :
    c.freeze.inner.branchMap = c.inner.branchMap.filter (fun e => !e.2.locations.isEmpty) ∧
    c.freeze.inner.b.NodupKeys ∧
    (∀ k, Armless c.inner k → c.freeze.inner.b.get k = none) ∧
    (∀ k, ¬ Armless c.inner k → c.freeze.inner.b.get k = c.inner.b.get k) ∧
    (c.inner.bT = none → c.freeze.inner.bT = none) ∧
    (∀ t, c.inner.bT = some t → ∃ t', c.freeze.inner.bT = some t' ∧ t'.NodupKeys ∧
      (∀ k, Armless c.inner k → t'.get k = none) ∧
      (∀ k, ¬ Armless c.inner k → t'.get k = t.get k)) ∧
    c.freeze = { c with inner := { c.inner with
      branchMap := c.freeze.inner.branchMap, b := c.freeze.inner.b, bT := c.freeze.inner.bT } } := by
  obtain ⟨h1, h2, h3, h4⟩ := SourceCoverage.freezeLoop_spec c.inner.branchMap c.inner.b c.inner.bT hb ht
  have hget : ∀ (m m' : BranchHitMap), m.NodupKeys →
      m'.Perm (List.filter (fun e => !SourceCoverage.dropped c.inner.branchMap e.1) m) →
      m'.NodupKeys ∧ (∀ k, Armless c.inner k → m'.get k = none) ∧
      (∀ k, ¬ Armless c.inner k → m'.get k = m.get k) := by
    intro m m' hm hp
    have hg : ∀ k, m'.get k = if !SourceCoverage.dropped c.inner.branchMap k then m.get k else none := by
      intro k
      rw [get_perm hp (nodupKeys_filter hm _)]
      exact get_filter hm (fun k => !SourceCoverage.dropped c.inner.branchMap k) k
    refine ⟨nodupKeys_perm hp (nodupKeys_filter hm _), ?_, ?_⟩
    · intro k hk
      rw [hg, (dropped_iff _ _).2 hk]; rfl
    · intro k hk
      have : SourceCoverage.dropped c.inner.branchMap k = false := by
        rw [← Bool.not_eq_true, dropped_iff]; exact hk
      rw [hg, this]; rfl
  refine ⟨h1, (hget _ _ hb h2).1, (hget _ _ hb h2).2.1, (hget _ _ hb h2).2.2, ?_, ?_, rfl⟩
  · exact h3
  · intro t hteq
    obtain ⟨t', h5, h6⟩ := h4 t hteq
    exact ⟨t', h5, hget t t' (ht t hteq) h6⟩

/-- C16 with C15: whatever was registered, the finished report of a file is well formed, so that it
can be merged and summarised, and its branches are the registered ones that have arms. -/
theorem C16_finished_report (path : String) (rl : Bool) (ops : List RegOp) (c : SourceCoverage)
    (ids : List Nat) (h : runAll (SourceCoverage.new path rl) ops = .ok (c, ids)) :
    c.freeze.inner.WellFormed ∧
    (∀ k br, c.freeze.inner.branchMap.get k = some br →
      br.locations = arms ops k ∧ br.locations ≠ [] ∧
      c.freeze.inner.b.get k = some (List.replicate br.locations.length 0)) ∧
    (∀ k, k ∈ c.freeze.inner.branchMap.keys ↔ k < (branches ops).length ∧ arms ops k ≠ []) := by
  by_cases hl : ¬ Legal ops
  · rw [C15_aborts_on_unknown_branch path rl ops hl] at h; cases h
  obtain ⟨c', ids', h1, h2, _⟩ := C15_registry path rl ops (Classical.not_not.1 hl)
  rw [h] at h1
  cases h1
  obtain ⟨hdense, hstep, htr, _⟩ := C15_tables_in_step path rl ops
  have hbm : c.inner.branchMap = (report path rl none ops).branchMap := by rw [h2]
  have hnb : c.inner.b.NodupKeys := by rw [h2]; simp only [report]; exact nodup_numbered _ _
  have hnm : c.inner.branchMap.NodupKeys := by rw [h2]; simp only [report]; exact nodup_numbered _ _
  have hnt : ∀ t, c.inner.bT = some t → t.NodupKeys := by
    intro t ht
    rw [h2, bT_eq] at ht
    split at ht
    · cases ht; exact nodup_truth ops
    · cases ht
  obtain ⟨g1, g2, g3, g4, g5, g6, g7⟩ := C16_freeze c hnb hnt
  have hnm' : c.freeze.inner.branchMap.NodupKeys := by rw [g1]; exact nodupKeys_filter hnm _
  have hget : ∀ k br, c.freeze.inner.branchMap.get k = some br ↔
      c.inner.branchMap.get k = some br ∧ br.locations ≠ [] := by
    intro k br
    constructor
    · intro hk
      have := mem_of_get hk
      rw [g1, List.mem_filter] at this
      exact ⟨get_of_mem hnm this.1, by simpa using this.2⟩
    · rintro ⟨hk, hne⟩
      apply get_of_mem hnm'
      rw [g1, List.mem_filter]
      exact ⟨mem_of_get hk, by simpa using hne⟩
  have hget0 : ∀ k br, c.inner.branchMap.get k = some br →
      k < (branches ops).length ∧ br.locations = arms ops k := by
    intro k br hk
    rw [hbm] at hk
    simp only [report, get_numbered] at hk
    cases hx : (branches ops)[k]? with
    | none => simp [hx] at hk
    | some x =>
      simp only [hx, Option.map_some, Option.some.injEq] at hk
      subst hk
      have := (List.getElem?_eq_some_iff.1 hx).1
      exact ⟨this, rfl⟩
  have harm : ∀ k, ¬ Armless c.inner k ∨ ∃ br, c.inner.branchMap.get k = some br ∧ br.locations = [] := by
    intro k
    by_cases hk : Armless c.inner k
    · obtain ⟨br, hm, he⟩ := hk
      exact Or.inr ⟨br, get_of_mem hnm hm, he⟩
    · exact Or.inl hk
  have hna : ∀ k br, c.inner.branchMap.get k = some br → br.locations ≠ [] → ¬ Armless c.inner k := by
    rintro k br hk hne ⟨br', hm, he⟩
    have := get_of_mem hnm hm
    rw [hk] at this
    cases this
    exact hne he
  have hbkeys : ∀ k, k ∈ c.freeze.inner.b.keys → k ∈ c.freeze.inner.branchMap.keys := by
    intro k hk
    obtain ⟨v, hv⟩ := (mem_keys_iff _ _).1 hk
    rcases harm k with ha | ⟨br, ha1, ha2⟩
    · rw [g4 k ha] at hv
      have hk' : k ∈ c.inner.b.keys := (mem_keys_iff _ _).2 ⟨v, hv⟩
      have hk'' : k ∈ c.inner.branchMap.keys := by
        rw [h2, hdense.branchMap, ← hdense.b]; rw [h2] at hk'; exact hk'
      obtain ⟨br, hbr⟩ := (mem_keys_iff _ _).1 hk''
      refine (mem_keys_iff _ _).2 ⟨br, (hget k br).2 ⟨hbr, ?_⟩⟩
      intro he
      exact ha ⟨br, mem_of_get hbr, he⟩
    · rw [g3 k ⟨br, mem_of_get ha1, ha2⟩] at hv; cases hv
  have hb2 : ∀ k br, c.freeze.inner.branchMap.get k = some br →
      c.freeze.inner.b.get k = some (List.replicate br.locations.length 0) := by
    intro k br hk
    obtain ⟨hk1, hk2⟩ := (hget k br).1 hk
    rw [g4 k (hna k br hk1 hk2), h2]
    apply hstep
    rw [← hbm]; exact hk1
  refine ⟨⟨?_, ?_, ?_, ?_, ?_, ?_⟩, ?_, ?_⟩
  · intro k hk
    rw [g7] at hk ⊢
    simp only at hk ⊢
    rw [h2] at hk ⊢
    rw [hdense.statementMap, ← hdense.s]; exact hk
  · intro k hk
    rw [g7] at hk ⊢
    simp only at hk ⊢
    rw [h2] at hk ⊢
    rw [hdense.fnMap, ← hdense.f]; exact hk
  · exact hbkeys
  · intro e he
    rw [g1, List.mem_filter] at he
    simpa using he.2
  · intro k hk
    obtain ⟨br, hbr⟩ := (mem_keys_iff _ _).1 hk
    exact (mem_keys_iff _ _).2 ⟨_, hb2 k br hbr⟩
  · intro k hk
    cases ht : c.inner.bT with
    | none => rw [g5 ht] at hk; simp [IndexMap.keys] at hk
    | some t =>
      obtain ⟨t', e1, e2, e3, e4⟩ := g6 t ht
      rw [e1] at hk
      simp only [Option.getD_some] at hk
      obtain ⟨v, hv⟩ := (mem_keys_iff _ _).1 hk
      rcases harm k with ha | ⟨br, ha1, ha2⟩
      · rw [e4 k ha] at hv
        apply hbkeys
        refine (mem_keys_iff _ _).2 ⟨v, ?_⟩
        rw [g4 k ha, h2]
        apply htr
        rw [← h2, ht]; exact hv
      · rw [e3 k ⟨br, mem_of_get ha1, ha2⟩] at hv; cases hv
  · intro k br hk
    obtain ⟨hk1, hk2⟩ := (hget k br).1 hk
    exact ⟨(hget0 k br hk1).2, hk2, hb2 k br hk⟩
  · intro k
    rw [mem_keys_iff]
    constructor
    · rintro ⟨br, hk⟩
      obtain ⟨hk1, hk2⟩ := (hget k br).1 hk
      obtain ⟨h3, h4⟩ := hget0 k br hk1
      exact ⟨h3, h4 ▸ hk2⟩
    · rintro ⟨h3, h4⟩
      have : k ∈ c.inner.branchMap.keys := by
        rw [hbm]; simp only [report, keys_numbered]; simpa using h3
      obtain ⟨br, hbr⟩ := (mem_keys_iff _ _).1 this
      refine ⟨br, (hget k br).2 ⟨hbr, ?_⟩⟩
      rw [(hget0 k br hbr).2]; exact h4

/-- C16, order: the surviving branches keep their order in the branch table, but not in the count
table: after branch 0 is dropped the counts are listed as 2, 1. -/
theorem C16_count_order_changes :
    ∃ ops c ids, Legal ops ∧ runAll (SourceCoverage.new "a.js" false) ops = .ok (c, ids) ∧
      c.freeze.inner.branchMap.keys = [1, 2] ∧ c.freeze.inner.b.keys = [2, 1] := by
  refine ⟨[.branch .if .zero false, .branch .if .zero false, .branch .if .zero false,
    .path 1 .zero, .path 2 .zero], _, _, ?_, rfl, rfl, rfl⟩
  refine legal_concat (h := [.branch .if .zero false, .branch .if .zero false,
    .branch .if .zero false, .path 1 .zero]) (legal_concat (h := [.branch .if .zero false,
    .branch .if .zero false, .branch .if .zero false]) ?_ ?_) ?_
  · intro pre k l post he
    have : path k l ∈ [branch .if .zero false, .branch .if .zero false, .branch .if .zero false] := by
      rw [he]; simp
    simp at this
  · intro k l he; cases he; decide
  · intro k l he; cases he; decide

end Verif
