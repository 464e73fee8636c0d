import Verif.Props.CoverageMap
import Verif.Lemmas.MergeLast
/-
C01-C05, C13 without provisos: what exactly a merge makes of well-formed reports, whatever locations they list twice and whatever
truthiness counts they have.
-/
namespace Verif
open FileCoverage

/-! ### C01, C04: one merge -/

/-- C01, for all well-formed reports: whenever the merge of two real reports succeeds, the count of a location is the count of
the last entry of the receiver for it plus all counts of the other report. -/
theorem C01_exact (a c m : FileCoverage) (ha : a.WellFormed) (hc : c.WellFormed) (ra : a.all = false) (rc : c.all = false)
    (hm : a.merge c = .ok m) :
    (∀ r, m.statementCount r = a.lastStatementCount r + c.statementCount r) ∧
    (∀ r, m.functionCount r = a.lastFunctionCount r + c.functionCount r) ∧
    (∀ r i, m.armCount r i = a.lastArmCount r i + c.armCount r i) :=
  merge_last ha hc ra rc hm

/-- C04, for all well-formed reports: whenever the merge of two real reports succeeds, something is covered afterwards exactly if
the last entry of the receiver for it was covered or an entry of the other report. -/
theorem C04_exact (a c m : FileCoverage) (ha : a.WellFormed) (hc : c.WellFormed) (ra : a.all = false) (rc : c.all = false)
    (hm : a.merge c = .ok m) :
    (∀ r, 0 < m.statementCount r ↔ 0 < a.lastStatementCount r ∨ 0 < c.statementCount r) ∧
    (∀ r, 0 < m.functionCount r ↔ 0 < a.lastFunctionCount r ∨ 0 < c.functionCount r) ∧
    (∀ r i, 0 < m.armCount r i ↔ 0 < a.lastArmCount r i ∨ 0 < c.armCount r i) := by
  obtain ⟨h1, h2, h3⟩ := merge_last ha hc ra rc hm
  exact ⟨fun r => by rw [h1]; omega, fun r => by rw [h2]; omega, fun r i => by rw [h3]; omega⟩

namespace MergeEx

/-- A report that lists `r1` twice. -/
def twice : FileCoverage :=
  { FileCoverage.empty "a.js" false with statementMap := [(0, r1), (1, r1)], s := [(0, 5), (1, 2)] }

theorem twice_wf : twice.WellFormed := wf_of_good (by decide)

end MergeEx

/-- Non-vacuity: of the counts 5 and 2 only the latter is kept. -/
example : ∃ m, MergeEx.twice.merge MergeEx.shardA = .ok m ∧ MergeEx.twice.statementCount MergeEx.r1 = 7 ∧
    m.statementCount MergeEx.r1 = 2 + 3 :=
  ⟨_, rfl, by decide, (C01_exact _ _ _ MergeEx.twice_wf MergeEx.shardA_wf rfl rfl rfl).1 _⟩

/-- In the argument both are counted. -/
example : ∃ m, MergeEx.shardA.merge MergeEx.twice = .ok m ∧ m.statementCount MergeEx.r1 = 3 + (5 + 2) :=
  ⟨_, rfl, (C01_exact _ _ _ MergeEx.shardA_wf MergeEx.twice_wf rfl rfl rfl).1 _⟩

/-! ### C02: any number of shards -/

namespace MergeTree

/-- The real reports that are combined. -/
def reals (t : MergeTree) : List FileCoverage := t.leaves.filter fun fc => !fc.all

/-- The reports that something is merged into before they are merged with anything else. -/
def receivers : MergeTree → List FileCoverage
  | leaf _ => []
  | node l r =>
    (match l.reals, r.reals with
      | [fc], _ :: _ => [fc]
      | _, _ => []) ++ l.receivers ++ r.receivers

/-- The same merges of the reports without their truthiness counts. -/
def truthless : MergeTree → MergeTree
  | leaf fc => leaf { fc with bT := none }
  | node l r => node l.truthless r.truthless

end MergeTree

/-- A count and the count of the last entry. -/
structure Tally (count last : FileCoverage → Nat) : Prop where
  add : ∀ a c m : FileCoverage, a.WellFormed → c.WellFormed → a.all = false → c.all = false → a.merge c = .ok m →
    count m = last a + count c
  distinct : ∀ m : FileCoverage, m.DistinctLocs → last m = count m
  truthless : ∀ m : FileCoverage, count { m with bT := none } = count m ∧ last { m with bT := none } = last m
  le : ∀ m : FileCoverage, last m ≤ count m

theorem lastOf_le {H : Type} (μ : H → Nat) (tab : List (Range × H)) (r : Range) : lastOf μ tab r ≤ sumAt μ tab r := by
  unfold lastOf sumAt
  generalize (tab.filter fun e => decide (e.1 = r)).map (fun e => μ e.2) = l
  cases h : l.getLast? with
  | none => rw [List.getLast?_eq_none_iff] at h; simp [h]
  | some x =>
    rw [List.getLastD_eq_getLast?, h]
    have hx := List.mem_of_getLast? h
    clear h
    induction l with
    | nil => cases hx
    | cons y l ih =>
      rw [List.sum_cons]
      rcases List.mem_cons.1 hx with rfl | hx
      · exact Nat.le_add_right _ _
      · exact Nat.le_trans (ih hx) (Nat.le_add_left _ _)

theorem lastOf_distinct {H : Type} (μ : H → Nat) {tab : List (Range × H)} (h : (tab.map (·.1)).Nodup) (r : Range) :
    lastOf μ tab r = sumAt μ tab r := by
  induction tab with
  | nil => rfl
  | cons e tab ih =>
    rw [List.map_cons, List.nodup_cons] at h
    rw [lastOf_cons, sumAt_cons, ih h.2]
    by_cases he : e.1 = r
    · subst he
      rw [if_neg h.1, if_pos rfl, sumAt_eq_zero μ h.1, Nat.add_zero]
    · rw [if_neg he, Nat.zero_add]
      split
      · rfl
      · next hx => exact (sumAt_eq_zero μ hx).symm

theorem tally_statements (r : Range) : Tally (·.statementCount r) (·.lastStatementCount r) :=
  ⟨fun _ _ _ ha hc ra rc hm => (merge_last ha hc ra rc hm).1 r, fun _ hd => lastOf_distinct (fun h : Nat => h) hd.statements r,
    fun _ => ⟨rfl, rfl⟩, fun m => lastOf_le (fun h : Nat => h) m.statementTable r⟩

theorem tally_functions (r : Range) : Tally (·.functionCount r) (·.lastFunctionCount r) :=
  ⟨fun _ _ _ ha hc ra rc hm => (merge_last ha hc ra rc hm).2.1 r, fun _ hd => lastOf_distinct (fun h : Nat => h) hd.functions r,
    fun _ => ⟨rfl, rfl⟩, fun m => lastOf_le (fun h : Nat => h) m.functionTable r⟩

theorem tally_arms (r : Range) (i : Nat) : Tally (·.armCount r i) (·.lastArmCount r i) :=
  ⟨fun _ _ _ ha hc ra rc hm => (merge_last ha hc ra rc hm).2.2 r i, fun _ hd => lastOf_distinct (fun v : List Nat => v.getD i 0) hd.branches r,
    fun _ => ⟨rfl, rfl⟩, fun m => lastOf_le (fun v : List Nat => v.getD i 0) m.branchTable r⟩

namespace MergeTree

theorem reals_node (l r : MergeTree) : (node l r).reals = l.reals ++ r.reals := by
  simp [reals, leaves]

/-- What is known about the result of merges of reports without truthiness counts. -/
structure Merges (count last : FileCoverage → Nat) (t : MergeTree) (m : FileCoverage) : Prop where
  wf : m.WellFormed
  all : m.all = t.reals.isEmpty
  bT : m.bT = none
  one : ∀ fc, t.reals = [fc] → m = fc
  many : 2 ≤ t.reals.length → m.DistinctLocs
  sum : m.all = false → count m + (t.receivers.map fun fc => count fc - last fc).sum = (t.reals.map count).sum
  none : t.reals = [] → t.receivers = []

theorem eval_plain {count last : FileCoverage → Nat} (T : Tally count last) (t : MergeTree)
    (h : ∀ fc ∈ t.leaves, fc.WellFormed ∧ fc.bT = none) : ∃ m, t.eval = .ok m ∧ Merges count last t m := by
  induction t with
  | leaf fc =>
    have hw := h fc (by simp [leaves])
    refine ⟨fc, rfl, hw.1, ?_, hw.2, ?_, ?_, ?_, fun _ => rfl⟩
    · cases ha : fc.all <;> simp [reals, leaves, ha]
    · intro x hx
      cases ha : fc.all <;> simp [reals, leaves, ha] at hx
      exact hx
    · cases ha : fc.all <;> simp [reals, leaves, ha]
    · intro ha
      simp [reals, leaves, ha, receivers]
  | node l r ihl ihr =>
    obtain ⟨a, ea, A⟩ := ihl fun fc hfc => h fc (by simp [leaves, hfc])
    obtain ⟨c, ec, C⟩ := ihr fun fc hfc => h fc (by simp [leaves, hfc])
    simp only [eval, ea, ec]
    cases hc : c.all with
    | true =>
      have hr : r.reals = [] := by have := C.all; rw [hc] at this; simpa using this
      have hrec : (node l r).receivers = l.receivers := by
        rw [receivers, hr, C.none hr]; simp
      have hre : (node l r).reals = l.reals := by rw [reals_node, hr, List.append_nil]
      refine ⟨a, by simp [merge, mergeWith, hc], A.wf, ?_, A.bT, ?_, ?_, ?_, ?_⟩
      · rw [hre]; exact A.all
      · rw [hre]; exact A.one
      · rw [hre]; exact A.many
      · rw [hre, hrec]; exact A.sum
      · rw [hre, hrec]; exact A.none
    | false =>
      have hr : r.reals ≠ [] := by have := C.all; rw [hc] at this; simpa using this
      cases ha : a.all with
      | true =>
        have hl : l.reals = [] := by have := A.all; rw [ha] at this; simpa using this
        have hrec : (node l r).receivers = r.receivers := by
          rw [receivers, hl, A.none hl]; simp
        have hre : (node l r).reals = r.reals := by rw [reals_node, hl, List.nil_append]
        refine ⟨c, by simp [merge, mergeWith, hc, ha], C.wf, ?_, C.bT, ?_, ?_, ?_, ?_⟩
        · rw [hre]; exact C.all
        · rw [hre]; exact C.one
        · rw [hre]; exact C.many
        · rw [hre, hrec]; exact C.sum
        · rw [hre, hrec]; exact C.none
      | false =>
        have hl : l.reals ≠ [] := by have := A.all; rw [ha] at this; simpa using this
        obtain ⟨m, hm, R⟩ := merge_real A.wf C.wf (.inl A.bT) ha hc
        have hne : (node l r).reals ≠ [] := by rw [reals_node]; simp [hl]
        have hlen : 2 ≤ (node l r).reals.length := by
          rw [reals_node, List.length_append]
          have := List.length_pos_iff.2 hl
          have := List.length_pos_iff.2 hr
          omega
        refine ⟨m, hm, R.wf, ?_, ?_, ?_, fun _ => R.distinct, fun _ => ?_, fun h => absurd h hne⟩
        · rw [R.all]; simpa using hne
        · have := R.truthSome; rw [A.bT] at this; simpa using this
        · intro fc hfc; rw [hfc] at hlen; simp at hlen
        · have e1 := T.add a c m A.wf C.wf ha hc hm
          have e2 := A.sum ha
          have e3 := C.sum hc
          rw [reals_node, receivers, List.map_append, List.map_append, List.map_append, List.sum_append, List.sum_append,
            List.sum_append, e1]
          obtain ⟨y, ys, hy⟩ := List.exists_cons_of_ne_nil hr
          match hx : l.reals with
          | [] => exact absurd hx hl
          | [fc] =>
            have e4 := A.one fc hx
            subst e4
            rw [hx] at e2
            rw [hy]
            rw [hy] at e3
            have := T.le a
            simp only [List.map_cons, List.map_nil, List.sum_cons, List.sum_nil] at *
            omega
          | x :: x' :: xs =>
            have e4 := T.distinct a (A.many (by rw [hx]; simp))
            rw [hx] at e2
            simp only [List.map_cons, List.map_nil, List.sum_cons, List.sum_nil] at *
            omega

theorem eval_truthless (t : MergeTree) (m : FileCoverage) (h : t.eval = .ok m) :
    t.truthless.eval = .ok { m with bT := none } := by
  induction t generalizing m with
  | leaf fc => cases h; rfl
  | node l r ihl ihr =>
    simp only [eval] at h
    split at h
    · cases h
    next a ea =>
      split at h
      · cases h
      next c ec =>
        simp only [truthless, eval, ihl a ea, ihr c ec]
        cases hc : c.all with
        | true =>
          simp only [merge, mergeWith, hc, if_true] at h ⊢
          cases h; rfl
        | false =>
          cases ha : a.all with
          | true =>
            simp only [merge, mergeWith, hc, ha, if_true] at h ⊢
            cases h
            simp [hc]
          | false =>
            have := merge_truthless ha hc h
            simp only [merge, mergeWith, ha, hc] at this ⊢
            exact this

theorem truthless_leaves (t : MergeTree) : t.truthless.leaves = t.leaves.map fun fc => { fc with bT := none } := by
  induction t with
  | leaf fc => rfl
  | node l r ihl ihr => simp [truthless, leaves, ihl, ihr]

theorem truthless_reals (t : MergeTree) : t.truthless.reals = t.reals.map fun fc => { fc with bT := none } := by
  simp only [reals, truthless_leaves, List.filter_map]
  rfl

theorem truthless_receivers (t : MergeTree) :
    t.truthless.receivers = t.receivers.map fun fc => { fc with bT := none } := by
  induction t with
  | leaf fc => rfl
  | node l r ihl ihr =>
    simp only [truthless, receivers, ihl, ihr, truthless_reals, List.map_append]
    congr 2
    match l.reals, r.reals with
    | [], _ => rfl
    | [_], [] => rfl
    | [_], _ :: _ => rfl
    | _ :: _ :: _, _ => rfl

theorem eval_exact {count last : FileCoverage → Nat} (T : Tally count last) (t : MergeTree)
    (h : ∀ fc ∈ t.leaves, fc.WellFormed) {m : FileCoverage} (hm : t.eval = .ok m) :
    m.all = t.reals.isEmpty ∧
      (m.all = false → count m + (t.receivers.map fun fc => count fc - last fc).sum = (t.reals.map count).sum) := by
  obtain ⟨m', hm', M⟩ := eval_plain T t.truthless (by
    intro fc hfc
    rw [truthless_leaves] at hfc
    obtain ⟨x, hx, rfl⟩ := List.mem_map.1 hfc
    have hw := h x hx
    exact ⟨⟨hw.statements, hw.functions, hw.branches, hw.arms, hw.counted, by simp [IndexMap.keys]⟩, rfl⟩)
  rw [eval_truthless t m hm] at hm'
  cases hm'
  have h1 := M.all
  have h2 := M.sum
  rw [truthless_reals] at h1 h2
  rw [truthless_receivers] at h2
  refine ⟨by simpa using h1, fun ha => ?_⟩
  have := h2 ha
  simp only [List.map_map, Function.comp_def, (T.truthless _).1, (T.truthless _).2] at this
  exact this

end MergeTree

/-- C02, for all well-formed shards, whatever locations they list twice and whatever truthiness counts they have: whenever the
merges succeed, the counts add up to those of all real shards, except for the counts of earlier entries for the same location in
the shards that others are merged into first. -/
theorem C02_exact (t : MergeTree) (h : ∀ fc ∈ t.leaves, fc.WellFormed) (m : FileCoverage) (hm : t.eval = .ok m)
    (hreal : ∃ fc ∈ t.leaves, fc.all = false) :
    (∀ r, m.statementCount r + (t.receivers.map fun fc => fc.statementCount r - fc.lastStatementCount r).sum =
      (t.leaves.map (contribution (·.statementCount r))).sum) ∧
    (∀ r, m.functionCount r + (t.receivers.map fun fc => fc.functionCount r - fc.lastFunctionCount r).sum =
      (t.leaves.map (contribution (·.functionCount r))).sum) ∧
    (∀ r i, m.armCount r i + (t.receivers.map fun fc => fc.armCount r i - fc.lastArmCount r i).sum =
      (t.leaves.map (contribution (·.armCount r i))).sum) := by
  have hne : t.reals.isEmpty = false := by
    obtain ⟨fc, h1, h2⟩ := hreal
    rw [List.isEmpty_eq_false_iff]
    exact List.ne_nil_of_mem (List.mem_filter.2 ⟨h1, by simp [h2]⟩)
  have hc : ∀ count : FileCoverage → Nat, (t.reals.map count).sum = (t.leaves.map (contribution count)).sum := by
    intro count
    unfold MergeTree.reals
    induction t.leaves with
    | nil => rfl
    | cons fc l ih =>
      cases ha : fc.all <;> simp [contribution, ha] at ih ⊢ <;> exact ih
  have key : ∀ count last : FileCoverage → Nat, Tally count last →
      count m + (t.receivers.map fun fc => count fc - last fc).sum = (t.leaves.map (contribution count)).sum := by
    intro count last T
    obtain ⟨h1, h2⟩ := MergeTree.eval_exact T t h hm
    rw [← hc]
    exact h2 (by rw [h1, hne])
  exact ⟨fun r => key _ _ (tally_statements r), fun r => key _ _ (tally_functions r), fun r i => key _ _ (tally_arms r i)⟩

/-- C02 whenever the merges succeed, for shards that list no location twice, whatever truthiness counts they have: the counts do
not depend on order and grouping. -/
theorem C02_whenever (t t' : MergeTree) (hp : t.leaves.Perm t'.leaves) (h : ∀ fc ∈ t.leaves, fc.WellFormed ∧ fc.DistinctLocs)
    (m m' : FileCoverage) (hm : t.eval = .ok m) (hm' : t'.eval = .ok m') (hreal : ∃ fc ∈ t.leaves, fc.all = false) :
    (∀ r, m.statementCount r = m'.statementCount r) ∧ (∀ r, m.functionCount r = m'.functionCount r) ∧
      (∀ r i, m.armCount r i = m'.armCount r i) := by
  have hrec : ∀ s : MergeTree, ∀ fc ∈ s.receivers, fc ∈ s.leaves := by
    intro s
    induction s with
    | leaf fc => intro x hx; cases hx
    | node l r ihl ihr =>
      intro x hx
      simp only [MergeTree.receivers, List.mem_append] at hx
      simp only [MergeTree.leaves, List.mem_append]
      rcases hx with (hx | hx) | hx
      · split at hx
        · next fc _ _ hl _ =>
          rw [List.mem_singleton.1 hx]
          have : fc ∈ l.reals := by rw [hl]; exact List.mem_singleton_self _
          exact .inl (List.mem_filter.1 this).1
        · cases hx
      · exact .inl (ihl x hx)
      · exact .inr (ihr x hx)
  have hz : ∀ (count last : FileCoverage → Nat), Tally count last → ∀ s : MergeTree, (∀ fc ∈ s.leaves, fc.DistinctLocs) →
      (s.receivers.map fun fc => count fc - last fc).sum = 0 := by
    intro count last T s hs
    have : s.receivers.map (fun fc => count fc - last fc) = s.receivers.map fun _ => 0 :=
      List.map_congr_left fun fc hfc => by rw [T.distinct fc (hs fc (hrec s fc hfc)), Nat.sub_self]
    rw [this]
    induction s.receivers with
    | nil => rfl
    | cons x l ih => rw [List.map_cons, List.sum_cons, ih]
  have e1 := C02_exact t (fun fc hfc => (h fc hfc).1) m hm hreal
  have e2 := C02_exact t' (fun fc hfc => (h fc (hp.mem_iff.2 hfc)).1) m' hm' (by
    obtain ⟨fc, h1, h2⟩ := hreal
    exact ⟨fc, hp.mem_iff.1 h1, h2⟩)
  have d1 : ∀ fc ∈ t.leaves, fc.DistinctLocs := fun fc hfc => (h fc hfc).2
  have d2 : ∀ fc ∈ t'.leaves, fc.DistinctLocs := fun fc hfc => (h fc (hp.mem_iff.2 hfc)).2
  have hs : ∀ count : FileCoverage → Nat, (t.leaves.map (contribution count)).sum = (t'.leaves.map (contribution count)).sum :=
    fun count => (hp.map (contribution count)).sum_nat
  refine ⟨fun r => ?_, fun r => ?_, fun r i => ?_⟩
  · have a1 := e1.1 r
    have a2 := e2.1 r
    rw [hz _ _ (tally_statements r) t d1] at a1
    rw [hz _ _ (tally_statements r) t' d2] at a2
    rw [hs] at a1
    omega
  · have a1 := e1.2.1 r
    have a2 := e2.2.1 r
    rw [hz _ _ (tally_functions r) t d1] at a1
    rw [hz _ _ (tally_functions r) t' d2] at a2
    rw [hs] at a1
    omega
  · have a1 := e1.2.2 r i
    have a2 := e2.2.2 r i
    rw [hz _ _ (tally_arms r i) t d1] at a1
    rw [hz _ _ (tally_arms r i) t' d2] at a2
    rw [hs] at a1
    omega

/-- Non-vacuity of C02_exact: in `(T · A) · T`, where `T` lists `r1` with counts 5 and 2, only the first `T` loses 5. -/
example : ∃ m, (MergeTree.node (.node (.leaf MergeEx.twice) (.leaf MergeEx.shardA)) (.leaf MergeEx.twice)).eval = .ok m ∧
    m.statementCount MergeEx.r1 + 5 = 7 + (3 + 7) := by
  refine ⟨_, rfl, ?_⟩
  have h := (C02_exact (MergeTree.node (.node (.leaf MergeEx.twice) (.leaf MergeEx.shardA)) (.leaf MergeEx.twice)) (by
    intro fc hfc
    simp only [MergeTree.leaves, List.cons_append, List.nil_append, List.mem_cons, List.not_mem_nil, or_false] at hfc
    rcases hfc with rfl | rfl | rfl
    · exact MergeEx.twice_wf
    · exact MergeEx.shardA_wf
    · exact MergeEx.twice_wf) _ rfl ⟨MergeEx.twice, by simp [MergeTree.leaves], rfl⟩).1 MergeEx.r1
  have h1 : (MergeTree.node (.node (.leaf MergeEx.twice) (.leaf MergeEx.shardA)) (.leaf MergeEx.twice)).receivers = [MergeEx.twice] :=
    rfl
  rw [h1] at h
  exact h

/-! ### C03, C05: the merged report -/

/-- C03: the locations of the merged report, in the order of their ids: those of the receiver, then those of the other report,
each once. -/
theorem C03_order (a c m : FileCoverage) (ha : a.WellFormed) (hc : c.WellFormed) (ra : a.all = false) (rc : c.all = false)
    (hm : a.merge c = .ok m) :
    m.statementTable.map (·.1) = (a.statementTable.map (·.1) ++ c.statementTable.map (·.1)).eraseDups ∧
    m.functionTable.map (·.1) = (a.functionTable.map (·.1) ++ c.functionTable.map (·.1)).eraseDups ∧
    m.branchTable.map (·.1) = (a.branchTable.map (·.1) ++ c.branchTable.map (·.1)).eraseDups := by
  obtain ⟨h1, h2, h3, -⟩ := merge_parts ra rc hm
  exact ⟨mergePropsWith_locs (loc := some) key_range _ ha.located_s hc.located_s h1,
    mergePropsWith_locs (loc := fun fn : Function => some fn.loc) key_fn _ ha.located_f hc.located_f h2,
    mergePropsWith_locs (loc := branchLoc) key_branch _ ha.located_b hc.located_b h3⟩

/-- C03: what the merged report says about a function or a branch besides its count is what the last entry of the receiver for
its location says, or if there is none the first entry of the other report. -/
theorem C03_items (a c m : FileCoverage) (ha : a.WellFormed) (hc : c.WellFormed) (ra : a.all = false) (rc : c.all = false)
    (hm : a.merge c = .ok m) :
    (∀ k fn, m.fnMap.get k = some fn → some fn =
      (((a.f.filterMap fun e => a.fnMap.get e.1).filter fun g => some g.loc == some fn.loc).getLast?).or
        (((c.f.filterMap fun e => c.fnMap.get e.1).filter fun g => some g.loc == some fn.loc).head?)) ∧
    (∀ k br, m.branchMap.get k = some br → ∀ r, branchLoc br = some r → some br =
      (((a.b.filterMap fun e => a.branchMap.get e.1).filter fun g => branchLoc g == some r).getLast?).or
        (((c.b.filterMap fun e => c.branchMap.get e.1).filter fun g => branchLoc g == some r).head?)) := by
  obtain ⟨h1, h2, h3, -⟩ := merge_parts ra rc hm
  exact ⟨fun k fn hk => mergePropsWith_item (loc := fun fn : Function => some fn.loc) key_fn _ ha.located_f hc.located_f h2 hk rfl,
    fun k br hk r hr => mergePropsWith_item (loc := branchLoc) key_branch _ ha.located_b hc.located_b h3 hk hr⟩

/-- Non-vacuity of C03_order: `shardA` lists `r1` and `r2`, `shardB` lists `r2` and `r3`. -/
example : ∃ m, MergeEx.shardA.merge MergeEx.shardB = .ok m ∧ m.statementTable.map (·.1) = [MergeEx.r1, MergeEx.r2, MergeEx.r3] :=
  ⟨_, rfl, (C03_order _ _ _ MergeEx.shardA_wf MergeEx.shardB_wf rfl rfl rfl).1.trans (by decide)⟩

/-- C05, what becomes of the truthiness counts in general: if one of the reports has none, the table of the receiver stays as it
is. Otherwise the ids of the table of the receiver are looked up among the renumbered branches of the merged report. The counts
found and those of the other report are added location by location. But the result for the `j`-th of the locations found is put
under the id `j`, whatever branch has this id. -/
theorem C05_exact (a c m : FileCoverage) (ha : a.WellFormed) (hc : c.WellFormed) (ra : a.all = false) (rc : c.all = false)
    (hm : a.merge c = .ok m) :
    (a.bT = none ∨ c.bT = none → m.bT = a.bT) ∧
    ∀ bt cbt, a.bT = some bt → c.bT = some cbt →
      let found := (located branchLoc bt m.branchMap).map (·.1) ++ c.truthTable.map (·.1)
      ∃ t, m.bT = some t ∧ t.keys = List.range found.eraseDups.length ∧
        ∀ j r, found.eraseDups[j]? = some r → ∃ v, t.get j = some v ∧
          ∀ i, v.getD i 0 = lastArmAt (located branchLoc bt m.branchMap) r i + c.truthCount r i := by
  obtain ⟨-, -, -, h, -⟩ := merge_parts ra rc hm
  exact ⟨h, fun bt cbt hbt hcbt => merge_truths ha hc ra rc hm hbt hcbt⟩

/-- Non-vacuity of C05_exact, with the report of C05_counts_move: branch 0 is an `if`, branch 1 the logical expression; the only
location found is that of branch 1, and its counts are put under the id 0. -/
example : ∃ m t, MergeEx.logicA.merge MergeEx.logicA = .ok m ∧ m.bT = some t ∧ t.keys = [0] ∧
    ∃ v, t.get 0 = some v ∧ v.getD 1 0 = 1 + 1 := by
  obtain ⟨t, h1, h2, h3⟩ := (C05_exact MergeEx.logicA MergeEx.logicA _ (MergeEx.wf_of_good (by decide))
    (MergeEx.wf_of_good (by decide)) rfl rfl rfl).2 _ _ rfl rfl
  refine ⟨_, t, rfl, h1, h2.trans (by decide), ?_⟩
  obtain ⟨v, h4, h5⟩ := h3 0 MergeEx.r2 (by decide)
  exact ⟨v, h4, (h5 1).trans (by decide)⟩

/-! ### C13 -/

/-- C13, for all well-formed reports: whenever a reset report is merged into a real one, the counts of the last entries stay. -/
theorem C13_exact (a c m : FileCoverage) (ha : a.WellFormed) (hc : c.WellFormed) (ra : a.all = false) (rc : c.all = false)
    (hm : a.merge c.resetHits = .ok m) :
    (∀ r, m.statementCount r = a.lastStatementCount r) ∧ (∀ r, m.functionCount r = a.lastFunctionCount r) ∧
    (∀ r i, m.armCount r i = a.lastArmCount r i) := by
  obtain ⟨h1, h2, h3, _, h5⟩ := C13_reset_counts c
  obtain ⟨e1, e2, e3⟩ := C01_exact a c.resetHits m ha (h5 hc) ra rc hm
  exact ⟨fun r => by rw [e1, h1]; rfl, fun r => by rw [e2, h2]; rfl, fun r i => by rw [e3, h3]; rfl⟩

/-- Non-vacuity of C13_exact. -/
example : ∃ m, MergeEx.twice.merge MergeEx.shardA.resetHits = .ok m ∧ m.statementCount MergeEx.r1 = 2 :=
  ⟨_, rfl, (C13_exact _ _ _ MergeEx.twice_wf MergeEx.shardA_wf rfl rfl rfl).1 _⟩

end Verif
