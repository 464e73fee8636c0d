import Verif.Props.Registry
import Verif.Lemmas.StepsInv
import Verif.Spec.Counted
import Verif.Spec.Data
/-
The finished report of a history of registrations.
-/
namespace Verif
open IndexMap RegOp

theorem get_truth (h : List RegOp) (k : Nat) :
    IndexMap.get (truthEntries h) k = ((branches h)[k]?).bind fun x =>
      if isTruth x then some ((arms h k).map fun _ => 0) else none := by
  cases hb : (branches h)[k]? with
  | none =>
    rw [(get_eq_none_iff _ _).2]
    · rfl
    · intro hk
      have := lt_of_mem_truth hk
      rw [List.getElem?_eq_none_iff] at hb
      omega
  | some x =>
    simp only [Option.bind_some]
    by_cases hx : isTruth x = true
    · rw [if_pos hx]
      apply get_of_mem (nodup_truth h)
      refine List.mem_map.2 ⟨(x, k), ?_, rfl⟩
      rw [List.mem_filter]
      exact ⟨by rw [List.mem_zipIdx_iff_getElem?]; exact hb, hx⟩
    · rw [if_neg hx, get_eq_none_iff]
      intro hk
      obtain ⟨v, hv⟩ := (mem_keys_iff _ _).1 hk
      obtain ⟨e, he, heq⟩ := List.mem_map.1 (mem_of_get hv)
      rw [List.mem_filter, List.mem_zipIdx_iff_getElem?] at he
      simp only [Prod.mk.injEq] at heq
      obtain ⟨rfl, rfl⟩ := heq
      rw [hb] at he
      cases he.1
      exact hx he.2

/-- The finished report, read through its tables. -/
structure Finished (path : String) (sm : Option SourceMap) (rl : Bool) (h : List RegOp) (r : FileCoverage) :
    Prop where
  all : r.all = false
  path : r.path = path
  statementMap : r.statementMap = numbered (fun _ l => l) (statements h)
  s : r.s = numbered (fun _ _ => 0) (statements h)
  fnMap : r.fnMap = numbered (fun i x => ⟨x.1.getD ("(anonymous_" ++ toString i ++ ")"), x.2.1, x.2.2,
    x.2.2.start.line⟩) (functions h)
  f : r.f = numbered (fun _ _ => 0) (functions h)
  branchMap : ∀ k, r.branchMap.get k = ((branches h)[k]?).bind fun x =>
    if arms h k = [] then none else some ⟨some x.2.1, x.1, arms h k, some x.2.1.start.line⟩
  branchOrder : r.branchMap.keys.Pairwise (· < ·)
  b : ∀ k, r.b.get k = if arms h k = [] then none else some ((arms h k).map fun _ => 0)
  bT : ∀ k, (r.bT.getD []).get k = ((branches h)[k]?).bind fun x =>
    if isTruth x ∧ arms h k ≠ [] then some ((arms h k).map fun _ => 0) else none
  bTSome : r.bT.isSome = (rl || (branches h).any isTruth)
  sm : r.inputSourceMap = sm
  keyed : r.Keyed

theorem RegOp.Inv.finished {path : String} {rl : Bool} {sm : Option SourceMap} {h : List RegOp}
    {c : SourceCoverage} (hi : Inv path rl sm h c) (hl : Legal h) :
    Finished path sm rl h c.freeze.inner := by
  have h2 := hi.inner
  have hnb : c.inner.b.NodupKeys := by rw [h2]; simp only [report]; exact nodup_numbered _ _
  have hnm : c.inner.branchMap.NodupKeys := by rw [h2]; simp only [report]; exact nodup_numbered _ _
  have hnt : ∀ t, c.inner.bT = some t → t.NodupKeys := by
    intro t ht
    rw [h2, bT_eq] at ht
    split at ht
    · cases ht; exact nodup_truth h
    · cases ht
  obtain ⟨g1, g2, g3, g4, g5, g6, g7⟩ := C16_freeze c hnb hnt
  have hbm : ∀ k, IndexMap.get c.inner.branchMap k = ((branches h)[k]?).map fun x =>
      ⟨some x.2.1, x.1, arms h k, some x.2.1.start.line⟩ := by
    intro k; rw [h2]; simp only [report, get_numbered]
  have harm : ∀ k, Armless c.inner k ↔ k < (branches h).length ∧ arms h k = [] := by
    intro k
    constructor
    · rintro ⟨br, hm, he⟩
      have h3 := get_of_mem hnm hm
      rw [hbm] at h3
      obtain ⟨x, hx, rfl⟩ := Option.map_eq_some_iff.1 h3
      exact ⟨(List.getElem?_eq_some_iff.1 hx).1, he⟩
    · rintro ⟨hk, he⟩
      refine ⟨⟨some ((branches h)[k]).2.1, ((branches h)[k]).1, arms h k, some ((branches h)[k]).2.1.start.line⟩,
        mem_of_get ((hbm k).trans ?_), he⟩
      simp [List.getElem?_eq_getElem hk]
  refine ⟨?_, ?_, ?_, ?_, ?_, ?_, ?_, ?_, ?_, ?_, ?_, ?_, ?_⟩
  any_goals (rw [g7]; simp only [h2]; rfl)
  · intro k
    have hget : IndexMap.get c.freeze.inner.branchMap k
        = (IndexMap.get c.inner.branchMap k).bind fun br => if br.locations = [] then none else some br := by
      rw [g1]
      have hn := nodupKeys_filter hnm (fun e => !e.2.locations.isEmpty)
      cases hk : IndexMap.get c.inner.branchMap k with
      | none =>
        simp only [Option.bind_none]
        rw [get_eq_none_iff]
        intro hm
        obtain ⟨v, hv⟩ := (mem_keys_iff _ _).1 hm
        have := (List.mem_filter.1 (mem_of_get hv)).1
        rw [get_of_mem hnm this] at hk
        cases hk
      | some br =>
        simp only [Option.bind_some]
        by_cases he : br.locations = []
        · rw [if_pos he, get_eq_none_iff]
          intro hm
          obtain ⟨v, hv⟩ := (mem_keys_iff _ _).1 hm
          have := List.mem_filter.1 (mem_of_get hv)
          rw [get_of_mem hnm this.1] at hk
          cases hk
          simp [he] at this
        · rw [if_neg he]
          exact get_of_mem hn (List.mem_filter.2 ⟨mem_of_get hk, by simpa using he⟩)
    rw [hget, hbm]
    cases (branches h)[k]? <;> rfl
  · rw [g1, h2]
    have h3 : (keys ((report path rl sm h).branchMap)).Pairwise (· < ·) := by
      simp only [report, keys_numbered]
      exact List.pairwise_lt_range
    exact h3.sublist (List.Sublist.map _ List.filter_sublist)
  · intro k
    by_cases ha : arms h k = []
    · rw [if_pos ha]
      by_cases hk : k < (branches h).length
      · exact g3 k ((harm k).2 ⟨hk, ha⟩)
      · rw [g4 k fun h => hk ((harm k).1 h).1, h2]
        simp only [report, get_numbered]
        rw [List.getElem?_eq_none (by omega)]; rfl
    · rw [if_neg ha, g4 k fun h => ha ((harm k).1 h).2, h2]
      simp only [report, get_numbered]
      have hk : k < (branches h).length := by
        refine Classical.byContradiction fun hk => ha (arms_eq_nil hl (by omega))
      simp [List.getElem?_eq_getElem hk]
  · intro k
    have h0 : IndexMap.get (c.inner.bT.getD []) k = IndexMap.get (truthEntries h) k := by
      rw [h2, bT_eq]
      split
      · rfl
      · next hf =>
        rw [truth_nil (by simp at hf; simpa using hf.2)]; rfl
    have h1 : IndexMap.get (c.freeze.inner.bT.getD []) k
        = if arms h k = [] then none else IndexMap.get (truthEntries h) k := by
      cases ht : c.inner.bT with
      | none =>
        rw [g5 ht, ← h0, ht]
        simp [IndexMap.get]
      | some t =>
        obtain ⟨t', e1, e2, e3, e4⟩ := g6 t ht
        rw [e1, ← h0, ht]
        simp only [Option.getD_some]
        by_cases ha : arms h k = []
        · rw [if_pos ha]
          by_cases hk : k < (branches h).length
          · exact e3 k ((harm k).2 ⟨hk, ha⟩)
          · rw [e4 k fun h => hk ((harm k).1 h).1]
            have := h0
            rw [ht] at this
            simp only [Option.getD_some] at this
            rw [this, get_truth, List.getElem?_eq_none (by omega)]; rfl
        · rw [if_neg ha, e4 k fun h => ha ((harm k).1 h).2]
    rw [h1, get_truth]
    cases (branches h)[k]? with
    | none => simp
    | some x => by_cases ha : arms h k = [] <;> simp [ha]
  · have h3 : c.inner.bT.isSome = (rl || (branches h).any isTruth) := by
      rw [h2, bT_eq]
      cases rl || (branches h).any isTruth <;> rfl
    rw [← h3]
    cases ht : c.inner.bT with
    | none => rw [g5 ht]
    | some t =>
      obtain ⟨t', e1, _⟩ := g6 t ht
      rw [e1]
      rfl
  · refine ⟨?_, ?_, ?_, ?_, ?_, g2, ?_⟩
    · rw [g7]; simp only [h2, report]; exact nodup_numbered _ _
    · rw [g7]; simp only [h2, report]; exact nodup_numbered _ _
    · rw [g1]; exact nodupKeys_filter hnm _
    · rw [g7]; simp only [h2, report]; exact nodup_numbered _ _
    · rw [g7]; simp only [h2, report]; exact nodup_numbered _ _
    · intro m hm
      cases ht : c.inner.bT with
      | none => rw [g5 ht] at hm; cases hm
      | some t =>
        obtain ⟨t', e1, e2, _⟩ := g6 t ht
        rw [e1] at hm
        cases hm
        exact e2

/-- Registered counters have a cell. -/
theorem Finished.cell {path : String} {rl : Bool} {sm : Option SourceMap} {h : List RegOp}
    {r : FileCoverage} (hf : Finished path sm rl h r) (c : Counter) (hc : c.isTruth = false) :
    c.cell r = if has h c then some 0 else none := by
  cases c with
  | s id =>
    simp only [Counter.cell, hf.s, get_numbered, has]
    by_cases hk : id < (statements h).length
    · simp [List.getElem?_eq_getElem hk, hk]
    · simp [List.getElem?_eq_none (Nat.le_of_not_lt hk), hk]
  | f id =>
    simp only [Counter.cell, hf.f, get_numbered, has]
    by_cases hk : id < (functions h).length
    · simp [List.getElem?_eq_getElem hk, hk]
    · simp [List.getElem?_eq_none (Nat.le_of_not_lt hk), hk]
  | b id arm =>
    simp only [Counter.cell, hf.b, has]
    by_cases ha : arms h id = []
    · simp [ha]
    · by_cases hk : arm < (arms h id).length
      · simp [ha, hk]
      · simp [ha, hk]
  | bT => cases hc

/-- Registered arms of logical branches have a truthiness cell. -/
theorem Finished.truthCell {path : String} {rl : Bool} {sm : Option SourceMap} {h : List RegOp}
    {r : FileCoverage} (hf : Finished path sm rl h r) (id arm : Nat) {l : Range}
    (hb : (branches h)[id]? = some (.binaryExpr, l, true)) (ha : has h (.b id arm) = true) :
    (Counter.bT id arm).cell r = some 0 := by
  simp only [has, decide_eq_true_eq] at ha
  have hne : arms h id ≠ [] := by intro h; rw [h] at ha; simp at ha
  have h1 := hf.bT id
  rw [hb] at h1
  rw [Option.bind_some, if_pos ⟨rfl, hne⟩] at h1
  cases ht : r.bT with
  | none => rw [ht] at h1; simp [IndexMap.get] at h1
  | some t =>
    rw [ht] at h1
    simp only [Option.getD_some] at h1
    simp [Counter.cell, ht, h1, ha]

end Verif
