import Verif.Props.Lines
import Verif.Model.Summary
/-
C10, C12, C13: coverage maps, project summaries, reset.
-/
namespace Verif

open IndexMap FileCoverage

/-! ### C12 -/

/-- The coverage maps a user can build. -/
inductive CoverageMap.Reachable : CoverageMap → Prop
  | empty : Reachable []
  | add {m m' : CoverageMap} {c : FileCoverage} : Reachable m → m.addCoverageForFile c = .ok m' →
      Reachable m'
  | fromIter {cs : List FileCoverage} {m : CoverageMap} : CoverageMap.fromIter cs = .ok m → Reachable m
  | merge {m m₂ m' : CoverageMap} : Reachable m → Reachable m₂ → m.merge m₂ = .ok m' → Reachable m'
  | filter {m : CoverageMap} (p : FileCoverage → Bool) : Reachable m → Reachable (m.filter p)

/-- One report per path, stored under its own path. -/
def CoverageMap.OnePerPath (m : CoverageMap) : Prop :=
  NodupKeys m ∧ ∀ e ∈ m, e.2.path = e.1

theorem mergeWith_path {add : Nat → Nat → Nat} {a c m : FileCoverage}
    (h : a.mergeWith add c = .ok m) (hp : a.path = c.path) : m.path = a.path := by
  unfold mergeWith at h
  split at h
  · cases h; rfl
  · split at h
    · cases h; exact hp.symm
    · split at h
      · cases h
      · split at h
        · cases h
        · split at h
          · cases h
          · split at h
            · split at h
              · cases h
              · cases h; rfl
            · cases h; rfl

theorem forall_modify {K V : Type} [DecidableEq K] {P : K → V → Prop} {m : IndexMap K V}
    (h : ∀ e ∈ m, P e.1 e.2) {k : K} {f : V → V} (hf : ∀ x, P k (f x)) :
    ∀ e ∈ IndexMap.modify m k f, P e.1 e.2 := by
  induction m with
  | nil => intro e he; cases he
  | cons e m ih =>
    obtain ⟨k₀, v₀⟩ := e
    have h₀ := h (k₀, v₀) List.mem_cons_self
    have h₁ := ih fun e he => h e (List.mem_cons_of_mem _ he)
    by_cases hk : k₀ = k
    · subst hk
      intro e he
      simp only [IndexMap.modify, if_true, List.mem_cons] at he
      rcases he with he | he
      · subst he; exact hf _
      · exact h e (List.mem_cons_of_mem _ he)
    · intro e he
      simp only [IndexMap.modify, hk, if_false, List.mem_cons] at he
      rcases he with he | he
      · subst he; exact h₀
      · exact h₁ e he

theorem onePerPath_add {m m' : CoverageMap} {c : FileCoverage} (hm : m.OnePerPath)
    (h : m.addCoverageForFile c = .ok m') : m'.OnePerPath := by
  unfold CoverageMap.addCoverageForFile at h
  split at h
  · rename_i v hv
    split at h
    · cases h
    · rename_i v' hv'
      cases h
      have hp : v.path = c.path := hm.2 _ (mem_of_get hv)
      refine ⟨nodupKeys_modify hm.1 _ _, forall_modify (P := fun k (v : FileCoverage) => v.path = k) hm.2 ?_⟩
      intro _
      exact (mergeWith_path hv' hp).trans hp
  · cases h
    exact ⟨nodupKeys_insert hm.1 _ _, forall_insert (P := fun k (v : FileCoverage) => v.path = k) hm.2 rfl⟩

theorem onePerPath_addAll {m m' : CoverageMap} {cs : List FileCoverage} (hm : m.OnePerPath)
    (h : m.addAll cs = .ok m') : m'.OnePerPath := by
  induction cs generalizing m with
  | nil => cases h; exact hm
  | cons c cs ih =>
    unfold CoverageMap.addAll at h
    split at h
    · cases h
    · rename_i m₁ h₁
      exact ih (onePerPath_add hm h₁) h

theorem filterLoop_eq (p : FileCoverage → Bool) (rest acc : CoverageMap)
    (hn : NodupKeys (acc ++ rest)) (hp : ∀ e ∈ rest, e.2.path = e.1) :
    CoverageMap.filterLoop p rest acc = acc ++ List.filter (fun e => p e.2) rest := by
  induction rest generalizing acc with
  | nil => simp [CoverageMap.filterLoop]
  | cons e rest ih =>
    obtain ⟨k, c⟩ := e
    have hk : c.path = k := hp (k, c) List.mem_cons_self
    unfold NodupKeys keys at hn
    have hnd := hn
    rw [List.map_append, List.nodup_append] at hnd
    have hnot : c.path ∉ keys acc := by
      rw [hk]; intro hmem
      exact hnd.2.2 k hmem k (by simp) rfl
    simp only [CoverageMap.filterLoop, List.filter_cons]
    split
    · rw [insert_of_not_mem hnot, ih, hk]
      · simp
      · unfold NodupKeys keys; rw [hk]; simpa using hn
      · exact fun e he => hp e (List.mem_cons_of_mem _ he)
    · rw [ih]
      · unfold NodupKeys keys
        rw [List.map_append] at hn ⊢
        exact List.Nodup.sublist (List.Sublist.append_left (List.sublist_cons_self _ _) _) hn
      · exact fun e he => hp e (List.mem_cons_of_mem _ he)

theorem filter_eq {m : CoverageMap} (hm : m.OnePerPath) (p : FileCoverage → Bool) :
    CoverageMap.filter m p = List.filter (fun e => p e.2) m := by
  unfold CoverageMap.filter
  rw [filterLoop_eq p m [] (by simpa using hm.1) hm.2]
  simp

/-- C12: every coverage map a user can build has one report per path, stored under its path. -/
theorem C12_one_per_path (m : CoverageMap) (h : m.Reachable) : m.OnePerPath := by
  induction h with
  | empty => exact ⟨by simp [NodupKeys, keys], by simp⟩
  | add _ h ih => exact onePerPath_add ih h
  | fromIter h => exact onePerPath_addAll ⟨by simp [NodupKeys, keys], by simp⟩ h
  | merge _ _ h ih _ => exact onePerPath_addAll ih h
  | filter p _ ih =>
    rw [filter_eq ih p]
    refine ⟨?_, fun e he => ih.2 e (List.mem_filter.1 he).1⟩
    exact nodup_filter_keys ih.1 _

/-- C12: adding a report changes only that path's entry, which becomes the merge (or the report
itself when the path is new), and keeps all paths; new paths go to the end. -/
theorem C12_add_is_local (m m' : CoverageMap) (c : FileCoverage)
    (h : m.addCoverageForFile c = .ok m') :
    (∀ p, p ≠ c.path → m'.getCoverageForFile p = m.getCoverageForFile p) ∧
    (∀ p ∈ m.getFiles, p ∈ m'.getFiles) ∧
    (m.getCoverageForFile c.path = none →
      m'.getCoverageForFile c.path = some c ∧ m'.getFiles = m.getFiles ++ [c.path]) ∧
    (∀ v, m.getCoverageForFile c.path = some v →
      ∃ v', v.merge c = .ok v' ∧ m'.getCoverageForFile c.path = some v' ∧ m'.getFiles = m.getFiles) := by
  unfold CoverageMap.addCoverageForFile at h
  simp only [CoverageMap.getCoverageForFile, CoverageMap.getFiles]
  split at h
  · rename_i v hv
    split at h
    · cases h
    · rename_i v' hv'
      cases h
      refine ⟨?_, ?_, ?_, ?_⟩
      · intro p hp; rw [get_modify, if_neg (Ne.symm hp)]
      · intro p hp; rw [keys_modify]; exact hp
      · intro hn; rw [hn] at hv; cases hv
      · intro w hw
        rw [hw] at hv; cases hv
        refine ⟨v', hv', ?_, keys_modify _ _ _⟩
        rw [get_modify, if_pos rfl, hw]; rfl
  · rename_i hv
    cases h
    refine ⟨?_, ?_, ?_, ?_⟩
    · intro p hp; rw [get_insert, if_neg (Ne.symm hp)]
    · intro p hp; rw [keys_insert]; split
      · exact hp
      · exact List.mem_append_left _ hp
    · intro hn
      refine ⟨by rw [get_insert, if_pos rfl], ?_⟩
      rw [keys_insert, if_neg ((get_eq_none_iff _ _).1 hn)]
    · intro w hw; rw [hw] at hv; cases hv

theorem addAll_get (cs : List FileCoverage) : ∀ (m m' : CoverageMap), m.addAll cs = .ok m' →
    (∀ p ∈ m.getFiles, p ∈ m'.getFiles) ∧
    (∀ p, p ∈ m'.getFiles ↔ p ∈ m.getFiles ∨ ∃ c ∈ cs, c.path = p) ∧
    (∀ p, (∀ c ∈ cs, c.path ≠ p) → m'.getCoverageForFile p = m.getCoverageForFile p) := by
  induction cs with
  | nil => intro m m' h; cases h; simp
  | cons c cs ih =>
    intro m m' h
    unfold CoverageMap.addAll at h
    split at h
    · cases h
    · rename_i m₁ h₁
      obtain ⟨a1, a2, a3, a4⟩ := C12_add_is_local m m₁ c h₁
      obtain ⟨b1, b2, b3⟩ := ih m₁ m' h
      have hk : ∀ p, p ∈ m₁.getFiles ↔ p ∈ m.getFiles ∨ c.path = p := by
        intro p
        cases hg : m.getCoverageForFile c.path with
        | none =>
          rw [(a3 hg).2]; simp [eq_comm]
        | some v =>
          obtain ⟨v', _, _, h3⟩ := a4 v hg
          rw [h3]
          constructor
          · exact .inl
          · rintro (h | rfl)
            · exact h
            · exact (mem_keys_iff _ _).2 ⟨v, hg⟩
      refine ⟨fun p hp => b1 p (a2 p hp), ?_, ?_⟩
      · intro p
        rw [b2, hk]
        simp only [List.mem_cons, exists_eq_or_imp, or_assoc]
      · intro p hp
        rw [b3 p fun c hc => hp c (List.mem_cons_of_mem _ hc),
          a1 p (Ne.symm (hp c List.mem_cons_self))]

/-- C12: a merge of coverage maps has the paths of both; paths of one side only keep their report. -/
theorem C12_merge_paths (m m₂ m' : CoverageMap) (hm₂ : m₂.OnePerPath) (h : m.merge m₂ = .ok m') :
    (∀ p, p ∈ m'.getFiles ↔ p ∈ m.getFiles ∨ p ∈ m₂.getFiles) ∧
    (∀ p, p ∉ m₂.getFiles → m'.getCoverageForFile p = m.getCoverageForFile p) := by
  obtain ⟨_, h2, h3⟩ := addAll_get _ m m' h
  have hv : ∀ p, (∃ c ∈ m₂.values, c.path = p) ↔ p ∈ m₂.getFiles := by
    intro p
    unfold CoverageMap.getFiles values keys
    constructor
    · rintro ⟨c, hc, rfl⟩
      obtain ⟨e, he, rfl⟩ := List.mem_map.1 hc
      exact List.mem_map.2 ⟨e, he, (hm₂.2 e he).symm⟩
    · intro hp
      obtain ⟨e, he, rfl⟩ := List.mem_map.1 hp
      exact ⟨e.2, List.mem_map.2 ⟨e, he, rfl⟩, hm₂.2 e he⟩
  refine ⟨fun p => by rw [h2, hv], fun p hp => h3 p fun c hc he => hp ((hv p).1 ⟨c, hc, he⟩)⟩

/-- C12: filtering keeps exactly the reports satisfying the predicate, unchanged and in order. -/
theorem C12_filter (m : CoverageMap) (hm : m.OnePerPath) (p : FileCoverage → Bool) :
    (∀ path, (m.filter p).getCoverageForFile path = (m.getCoverageForFile path).filter p) ∧
    (m.filter p).getFiles.Sublist m.getFiles := by
  rw [filter_eq hm p]
  refine ⟨?_, List.Sublist.map _ List.filter_sublist⟩
  intro path
  have hn := hm.1
  clear hm
  unfold CoverageMap.getCoverageForFile
  induction m with
  | nil => rfl
  | cons e m ih =>
    obtain ⟨k, c⟩ := e
    have hnd := List.nodup_cons.1 hn
    have ih := ih hnd.2
    simp only [List.filter_cons, IndexMap.get]
    by_cases hk : k = path
    · subst hk
      simp only [if_true]
      by_cases hc : p c = true
      · simp [hc, IndexMap.get, Option.filter]
      · simp only [hc, if_false, Bool.false_eq_true, Option.filter]
        rw [get_eq_none_iff]
        intro hmem
        exact hnd.1 (List.Sublist.subset (List.Sublist.map _ List.filter_sublist) hmem)
    · simp only [hk, if_false]
      rw [← ih]
      split
      · simp [IndexMap.get, hk]
      · rfl

/-- Non-vacuity of C12: two reports for one path, one for another; then a filter. -/
example : ∃ m : CoverageMap, m.Reachable ∧ m.getFiles = ["a.js", "b.js"] := by
  refine ⟨_, .fromIter (cs := [MergeEx.shardA, { MergeEx.shardA with path := "b.js" }, MergeEx.shardB])
    rfl, rfl⟩

/-! ### C10 -/

/-- What the summary loop computes. -/
theorem summaryLoop_ok : ∀ (cs : List FileCoverage) (sms : List CoverageSummary)
    (acc : CoverageSummary), List.Forall₂ (fun c s => c.toSummary = .ok s) cs sms →
    CoverageMap.summaryLoop cs acc = .ok (sms.foldl CoverageSummary.merge acc)
  | [], _, acc, h => by cases h; rfl
  | c :: cs, _, acc, h => by
    cases h with
    | cons h1 h2 =>
      simp only [CoverageMap.summaryLoop, h1]
      exact summaryLoop_ok cs _ _ h2

/-- Sum of a number over summaries. -/
def sumOver (g : CoverageSummary → Nat) (sms : List CoverageSummary) : Nat := (sms.map g).sum

/-- A group of totals with the given sums; the percentage is recomputed from the sums. -/
def TotalsOf (t : Totals) (total covered skipped : Nat) : Prop :=
  t.total = total ∧ t.covered = covered ∧ t.skipped = skipped ∧
    t.pct = .value (percent covered total)

theorem foldl_totals (get : CoverageSummary → Totals)
    (hmerge : ∀ a b, get (CoverageSummary.merge a b) = (get a).add (get b))
    (sms : List CoverageSummary) (acc : CoverageSummary) (hne : sms ≠ []) :
    TotalsOf (get (sms.foldl CoverageSummary.merge acc))
      ((get acc).total + sumOver (fun s => (get s).total) sms)
      ((get acc).covered + sumOver (fun s => (get s).covered) sms)
      ((get acc).skipped + sumOver (fun s => (get s).skipped) sms) := by
  induction sms generalizing acc with
  | nil => exact absurd rfl hne
  | cons s sms ih =>
    by_cases h : sms = []
    · subst h
      simp [sumOver, TotalsOf, hmerge, Totals.add]
    · have := ih (CoverageSummary.merge acc s) h
      rw [hmerge] at this
      simp only [Totals.add, sumOver, List.foldl_cons, List.map_cons, List.sum_cons] at this ⊢
      simpa [Nat.add_assoc] using this

theorem foldl_branchesTrue (sms : List CoverageSummary) (acc : CoverageSummary) :
    (sms.foldl CoverageSummary.merge acc).branchesTrue =
      (sms.filterMap (·.branchesTrue)).foldl (fun o t => some ((o.getD .default).add t))
        acc.branchesTrue := by
  induction sms generalizing acc with
  | nil => rfl
  | cons s sms ih =>
    rw [List.foldl_cons, ih]
    cases hs : s.branchesTrue with
    | none => simp [CoverageSummary.merge, hs]
    | some t =>
      simp only [CoverageSummary.merge, hs, List.filterMap_cons, List.foldl_cons]
      cases ha : acc.branchesTrue <;> simp

theorem foldl_option_totals (ts : List Totals) (o : Option Totals) (hne : ts ≠ []) :
    ∃ t, ts.foldl (fun o t => some ((o.getD .default).add t)) o = some t ∧
      TotalsOf t ((o.getD .default).total + (ts.map (·.total)).sum)
        ((o.getD .default).covered + (ts.map (·.covered)).sum)
        ((o.getD .default).skipped + (ts.map (·.skipped)).sum) := by
  induction ts generalizing o with
  | nil => exact absurd rfl hne
  | cons t ts ih =>
    by_cases h : ts = []
    · subst h
      exact ⟨_, rfl, by simp [TotalsOf, Totals.add]⟩
    · obtain ⟨t', h1, h2⟩ := ih (some ((o.getD .default).add t)) h
      refine ⟨t', h1, ?_⟩
      simp only [Option.getD_some, Totals.add, List.map_cons, List.sum_cons] at h2 ⊢
      simpa [Nat.add_assoc] using h2

/-- C10: the summary of a non-empty project has, for each kind, the sums of the totals of its files,
with the percentage recomputed from the sums; truthiness totals are summed over the files that have
them. `sms` are the file summaries. -/
theorem C10_project_summary (m : CoverageMap) (sms : List CoverageSummary)
    (h : List.Forall₂ (fun c s => c.toSummary = .ok s) m.values sms) (hne : m ≠ []) :
    ∃ S, m.getCoverageSummary = .ok S ∧
      (∀ get : CoverageSummary → Totals,
        get ∈ [CoverageSummary.lines, CoverageSummary.statements, CoverageSummary.functions,
          CoverageSummary.branches] →
        TotalsOf (get S) (sumOver (fun s => (get s).total) sms)
          (sumOver (fun s => (get s).covered) sms) (sumOver (fun s => (get s).skipped) sms)) ∧
      ((∀ s ∈ sms, s.branchesTrue = none) → S.branchesTrue = none) ∧
      ((∃ s ∈ sms, s.branchesTrue ≠ none) → ∃ t, S.branchesTrue = some t ∧
        TotalsOf t (sumOver (fun s => (s.branchesTrue.map (·.total)).getD 0) sms)
          (sumOver (fun s => (s.branchesTrue.map (·.covered)).getD 0) sms)
          (sumOver (fun s => (s.branchesTrue.map (·.skipped)).getD 0) sms)) := by
  have hne' : sms ≠ [] := by
    rintro rfl
    have := forall₂_length h
    simp [values] at this
    exact hne this
  refine ⟨_, summaryLoop_ok _ _ _ h, ?_, ?_, ?_⟩
  · intro get hget
    simp only [List.mem_cons, List.not_mem_nil, or_false] at hget
    rcases hget with rfl | rfl | rfl | rfl
    · simpa [CoverageSummary.derivedDefault, Totals.default] using
        foldl_totals CoverageSummary.lines (fun _ _ => rfl) sms .derivedDefault hne'
    · simpa [CoverageSummary.derivedDefault, Totals.default] using
        foldl_totals CoverageSummary.statements (fun _ _ => rfl) sms .derivedDefault hne'
    · simpa [CoverageSummary.derivedDefault, Totals.default] using
        foldl_totals CoverageSummary.functions (fun _ _ => rfl) sms .derivedDefault hne'
    · simpa [CoverageSummary.derivedDefault, Totals.default] using
        foldl_totals CoverageSummary.branches (fun _ _ => rfl) sms .derivedDefault hne'
  · intro hn
    rw [foldl_branchesTrue]
    have : sms.filterMap (·.branchesTrue) = [] := by
      rw [List.filterMap_eq_nil_iff]; exact hn
    rw [this]; rfl
  · rintro ⟨s, hs, hsn⟩
    rw [foldl_branchesTrue]
    have hne2 : sms.filterMap (·.branchesTrue) ≠ [] := by
      intro hnil
      rw [List.filterMap_eq_nil_iff] at hnil
      exact hsn (hnil s hs)
    obtain ⟨t, h1, h2⟩ := foldl_option_totals (sms.filterMap (·.branchesTrue))
      CoverageSummary.derivedDefault.branchesTrue hne2
    refine ⟨t, h1, ?_⟩
    have hsum : ∀ g : Totals → Nat, ((sms.filterMap (·.branchesTrue)).map g).sum =
        sumOver (fun s => (s.branchesTrue.map g).getD 0) sms := by
      intro g
      unfold sumOver
      clear h h1 h2 hne' hs hne2
      induction sms with
      | nil => rfl
      | cons s sms ih =>
        cases hb : s.branchesTrue with
        | none => simp [hb, ih]
        | some t => simp [hb, ih]
    rw [hsum, hsum, hsum] at h2
    simpa [CoverageSummary.derivedDefault, Totals.default] using h2

/-- C10: an empty project has empty totals and an unknown percentage. -/
theorem C10_empty_project : CoverageMap.getCoverageSummary []
      = .ok ⟨⟨0, 0, 0, .unknown⟩, ⟨0, 0, 0, .unknown⟩, ⟨0, 0, 0, .unknown⟩, ⟨0, 0, 0, .unknown⟩, none⟩ ∧
    CoverageSummary.derivedDefault.isEmpty = true := ⟨rfl, rfl⟩

/-- C10: both empty summaries may be the beginning of a sum. They give the same totals, except that the one of `CoverageSummary::default()`
always has totals of truthiness, with nothing in them if the other summary has none. -/
theorem C10_defaults (s : CoverageSummary) :
    (∀ get ∈ [CoverageSummary.lines, CoverageSummary.statements, CoverageSummary.functions, CoverageSummary.branches],
      get (CoverageSummary.inherentDefault.merge s) = get (CoverageSummary.derivedDefault.merge s)) ∧
    CoverageSummary.inherentDefault.isEmpty = true ∧
    ∃ t, (CoverageSummary.inherentDefault.merge s).branchesTrue = some t ∧
      (∀ bt, s.branchesTrue = some bt → (CoverageSummary.derivedDefault.merge s).branchesTrue = some t ∧
        t.total = bt.total ∧ t.covered = bt.covered ∧ t.skipped = bt.skipped) ∧
      (s.branchesTrue = none → (CoverageSummary.derivedDefault.merge s).branchesTrue = none ∧ t = ⟨0, 0, 0, .unknown⟩) := by
  refine ⟨by simp [CoverageSummary.merge, CoverageSummary.inherentDefault, CoverageSummary.derivedDefault], rfl, ?_⟩
  unfold CoverageSummary.merge CoverageSummary.inherentDefault CoverageSummary.derivedDefault
  cases h : s.branchesTrue with
  | none => exact ⟨_, rfl, nofun, fun _ => ⟨rfl, rfl⟩⟩
  | some bt =>
    refine ⟨_, rfl, fun b hb => ?_, nofun⟩
    cases hb
    exact ⟨rfl, Nat.zero_add _, Nat.zero_add _, Nat.zero_add _⟩

/-- The loop over statements gives no lines only if there are no statements. -/
theorem lineLoop_eq_nil {sm : StatementMap} {rest : List (Nat × Nat)} {lm lm' : LineHitMap}
    (h : FileCoverage.lineLoop sm rest lm = .ok lm') : lm' = [] ↔ rest = [] ∧ lm = [] := by
  induction rest generalizing lm with
  | nil =>
    cases h
    simp
  | cons e rest ih =>
    obtain ⟨k, c⟩ := e
    simp only [FileCoverage.lineLoop] at h
    split at h
    · cases h
    · next r _ =>
      rw [ih h]
      have hne : ∀ (m : LineHitMap) l v, m.insert l v ≠ [] := by
        intro m l v
        cases m with
        | nil => simp [IndexMap.insert]
        | cons e m => simp only [IndexMap.insert]; split <;> simp
      have : FileCoverage.lineStep lm r.start.line c ≠ [] := by
        unfold FileCoverage.lineStep
        split
        · next pre hpre =>
          split
          · exact hne _ _ _
          · rintro rfl; cases hpre
        · exact hne _ _ _
      simp [this]

/-- C10: the summary of a project is empty exactly if none of its files has a statement. -/
theorem C10_is_empty (m : CoverageMap) (S : CoverageSummary) (h : m.getCoverageSummary = .ok S) :
    S.isEmpty = true ↔ ∀ c ∈ m.values, c.s = [] := by
  have hloop : ∀ (cs : List FileCoverage) (acc : CoverageSummary), CoverageMap.summaryLoop cs acc = .ok S →
      (S.lines.total = 0 ↔ acc.lines.total = 0 ∧ ∀ c ∈ cs, c.s = []) := by
    intro cs
    induction cs with
    | nil => intro acc h; cases h; simp
    | cons c cs ih =>
      intro acc h
      simp only [CoverageMap.summaryLoop] at h
      split at h
      · cases h
      · next s hs =>
        rw [ih _ h]
        have hc : s.lines.total = 0 ↔ c.s = [] := by
          simp only [FileCoverage.toSummary] at hs
          split at hs
          · cases hs
          · next lm hl =>
            cases hs
            simp only [FileCoverage.computeSimpleTotals, List.length_eq_zero_iff]
            rw [lineLoop_eq_nil hl]
            simp
        have hm : (acc.merge s).lines.total = acc.lines.total + s.lines.total := rfl
        rw [hm, Nat.add_eq_zero_iff, hc]
        simp [and_assoc]
  have := hloop _ _ h
  simp only [CoverageSummary.isEmpty, beq_iff_eq]
  rw [this]
  simp [CoverageSummary.derivedDefault, Totals.default]

/-- C10: the order of the files does not matter. -/
theorem C10_order_independent (m m' : CoverageMap) (hp : m.values.Perm m'.values)
    (hs : ∀ c ∈ m.values, ∃ s, c.toSummary = .ok s) (hne : m ≠ []) :
    ∃ S S', m.getCoverageSummary = .ok S ∧ m'.getCoverageSummary = .ok S' ∧
      S.lines = S'.lines ∧ S.statements = S'.statements ∧ S.functions = S'.functions ∧
      S.branches = S'.branches ∧ S.branchesTrue = S'.branchesTrue := by
  -- the summary of one file, as a function
  let sumOf : FileCoverage → CoverageSummary := fun c =>
    match c.toSummary with | .ok s => s | .error _ => .derivedDefault
  have hall : ∀ L : List FileCoverage, (∀ c ∈ L, ∃ s, c.toSummary = .ok s) →
      List.Forall₂ (fun c s => c.toSummary = .ok s) L (L.map sumOf) := by
    intro L hL
    induction L with
    | nil => exact .nil
    | cons c L ih =>
      refine .cons ?_ (ih fun c hc => hL c (List.mem_cons_of_mem _ hc))
      obtain ⟨s, hs⟩ := hL c List.mem_cons_self
      simp only [sumOf, hs]
  have hs' : ∀ c ∈ m'.values, ∃ s, c.toSummary = .ok s := fun c hc => hs c (hp.mem_iff.2 hc)
  have hne' : m' ≠ [] := by
    rintro rfl
    have := hp.length_eq
    simp [values] at this
    exact hne this
  obtain ⟨S, e, h1, h2, h3⟩ := C10_project_summary m _ (hall _ hs) hne
  obtain ⟨S', e', h1', h2', h3'⟩ := C10_project_summary m' _ (hall _ hs') hne'
  have hps := hp.map sumOf
  have hsum : ∀ g : CoverageSummary → Nat, sumOver g (m.values.map sumOf) = sumOver g (m'.values.map sumOf) :=
    fun g => (hps.map g).sum_nat
  have hT : ∀ {t t' : Totals} {a b c a' b' c' : Nat}, TotalsOf t a b c → TotalsOf t' a' b' c' →
      a = a' → b = b' → c = c' → t = t' := by
    rintro ⟨⟩ ⟨⟩ a b c a' b' c' ⟨rfl, rfl, rfl, h⟩ ⟨rfl, rfl, rfl, h'⟩ h1 h2 h3
    simp only at *
    subst h1 h2 h3
    rw [h, h']
  refine ⟨S, S', e, e', ?_, ?_, ?_, ?_, ?_⟩
  · exact hT (h1 CoverageSummary.lines (by simp)) (h1' CoverageSummary.lines (by simp)) (hsum _) (hsum _) (hsum _)
  · exact hT (h1 CoverageSummary.statements (by simp)) (h1' CoverageSummary.statements (by simp)) (hsum _) (hsum _) (hsum _)
  · exact hT (h1 CoverageSummary.functions (by simp)) (h1' CoverageSummary.functions (by simp)) (hsum _) (hsum _) (hsum _)
  · exact hT (h1 CoverageSummary.branches (by simp)) (h1' CoverageSummary.branches (by simp)) (hsum _) (hsum _) (hsum _)
  · by_cases hex : ∃ s ∈ m.values.map sumOf, s.branchesTrue ≠ none
    · obtain ⟨t, a, b⟩ := h3 hex
      obtain ⟨s, hs, hn⟩ := hex
      obtain ⟨t', a', b'⟩ := h3' ⟨s, hps.mem_iff.1 hs, hn⟩
      rw [a, a', hT b b' (hsum _) (hsum _) (hsum _)]
    · have hnone : ∀ s ∈ m.values.map sumOf, s.branchesTrue = none := by
        intro s hs
        by_cases hb : s.branchesTrue = none
        · exact hb
        · exact absurd ⟨s, hs, hb⟩ hex
      rw [h2 hnone, h2' fun s hs => hnone s (hps.mem_iff.2 hs)]

/-- Non-vacuity of C10. -/
example : ∃ S, CoverageMap.getCoverageSummary [("a.js", MergeEx.shardA), ("b.js", MergeEx.shardB)] =
    .ok S ∧ S.statements.total = 4 ∧ S.statements.covered = 3 ∧ S.branches.total = 5 := by
  obtain ⟨sa, ha⟩ : ∃ s, MergeEx.shardA.toSummary = .ok s := ⟨_, rfl⟩
  obtain ⟨sb, hb⟩ : ∃ s, MergeEx.shardB.toSummary = .ok s := ⟨_, rfl⟩
  obtain ⟨S, e, h, _⟩ := C10_project_summary [("a.js", MergeEx.shardA), ("b.js", MergeEx.shardB)]
    [sa, sb] (.cons ha (.cons hb .nil)) (by simp)
  have h1 := h CoverageSummary.statements (by simp)
  have h2 := h CoverageSummary.branches (by simp)
  cases ha; cases hb
  refine ⟨S, e, ?_, ?_, ?_⟩
  · rw [h1.1]; rfl
  · rw [h1.2.1]; rfl
  · rw [h2.1]; rfl

/-! ### C13 -/

theorem located_keys_congr {H T : Type} (loc : T → Option Range) (φ : H → H) (h : IndexMap Nat H)
    (m : IndexMap Nat T) :
    located loc (h.map fun e => (e.1, φ e.2)) m = (located loc h m).map fun e => (e.1, φ e.2) :=
  located_mapVals φ loc h m

theorem sumAt_zero {H : Type} (μ : H → Nat) (tab : List (Range × H)) (r : Range)
    (h : ∀ e ∈ tab, μ e.2 = 0) : sumAt μ tab r = 0 := by
  induction tab with
  | nil => rfl
  | cons e tab ih =>
    rw [sumAt_cons, ih fun e he => h e (List.mem_cons_of_mem _ he), h e List.mem_cons_self]
    simp

/-- C13: a reset report has only zero counts; items, ids and numbers of arms are unchanged. -/
theorem C13_reset (fc : FileCoverage) :
    fc.resetHits.CountsSat (· = 0) ∧
    fc.resetHits.statementMap = fc.statementMap ∧ fc.resetHits.fnMap = fc.fnMap ∧
    fc.resetHits.branchMap = fc.branchMap ∧ fc.resetHits.path = fc.path ∧
    fc.resetHits.all = fc.all ∧ fc.resetHits.inputSourceMap = fc.inputSourceMap ∧
    fc.resetHits.s.keys = fc.s.keys ∧ fc.resetHits.f.keys = fc.f.keys ∧
    fc.resetHits.b.map (fun e => (e.1, e.2.length)) = fc.b.map (fun e => (e.1, e.2.length)) ∧
    fc.resetHits.bT.map (fun m => m.map fun e => (e.1, e.2.length)) =
      fc.bT.map (fun m => m.map fun e => (e.1, e.2.length)) := by
  refine ⟨⟨?_, ?_, ?_, ?_⟩, rfl, rfl, rfl, rfl, rfl, rfl, ?_, ?_, ?_, ?_⟩
  · intro e he
    obtain ⟨x, _, rfl⟩ := List.mem_map.1 he; rfl
  · intro e he
    obtain ⟨x, _, rfl⟩ := List.mem_map.1 he; rfl
  · intro e he x hx
    obtain ⟨y, _, rfl⟩ := List.mem_map.1 he
    obtain ⟨z, _, rfl⟩ := List.mem_map.1 hx; rfl
  · intro e he x hx
    cases hb : fc.bT with
    | none => simp [resetHits, hb] at he
    | some bt =>
      simp only [resetHits, hb, Option.map_some, Option.getD_some] at he
      obtain ⟨y, _, rfl⟩ := List.mem_map.1 he
      obtain ⟨z, _, rfl⟩ := List.mem_map.1 hx; rfl
  · simp [resetHits, keys, Function.comp_def]
  · simp [resetHits, keys, Function.comp_def]
  · simp [resetHits, Function.comp_def]
  · cases hb : fc.bT <;> simp [resetHits, hb, Function.comp_def]

/-- C13: every count of a reset report is 0 at every location, and the report stays well formed. -/
theorem C13_reset_counts (fc : FileCoverage) :
    (∀ r, fc.resetHits.statementCount r = 0) ∧ (∀ r, fc.resetHits.functionCount r = 0) ∧
    (∀ r i, fc.resetHits.armCount r i = 0) ∧ (∀ r i, fc.resetHits.truthCount r i = 0) ∧
    (fc.WellFormed → fc.resetHits.WellFormed) := by
  have hz : ∀ (h : IndexMap Nat Nat) {T : Type} (loc : T → Option Range) (m : IndexMap Nat T) (r : Range),
      countAt (located loc (h.map fun e => (e.1, 0)) m) r = 0 := by
    intro h T loc m r
    rw [countAt_eq, located_keys_congr loc (fun _ => 0)]
    apply sumAt_zero
    intro e he
    obtain ⟨x, _, rfl⟩ := List.mem_map.1 he; rfl
  have hv : ∀ (h : IndexMap Nat (List Nat)) {T : Type} (loc : T → Option Range) (m : IndexMap Nat T)
      (r : Range) (i : Nat), armAt (located loc (h.map fun e => (e.1, e.2.map fun _ => 0)) m) r i = 0 := by
    intro h T loc m r i
    rw [armAt_eq, located_keys_congr loc (fun v : List Nat => v.map fun _ => 0)]
    apply sumAt_zero
    intro e he
    obtain ⟨x, _, rfl⟩ := List.mem_map.1 he
    simp only [List.getD_eq_getElem?_getD, List.getElem?_map]
    cases x.2[i]? <;> rfl
  refine ⟨fun r => hz _ _ _ r, fun r => hz _ _ _ r, fun r i => hv _ _ _ r i, fun r i => ?_, fun h => ?_⟩
  · unfold FileCoverage.truthCount FileCoverage.truthTable
    cases hb : fc.bT with
    | none => simp [resetHits, hb, located, armAt]
    | some bt =>
      simp only [resetHits, hb, Option.map_some, Option.getD_some]
      exact hv _ _ _ r i
  · constructor
    · intro k hk; exact h.statements k (by simpa [resetHits, keys, Function.comp_def] using hk)
    · intro k hk; exact h.functions k (by simpa [resetHits, keys, Function.comp_def] using hk)
    · intro k hk; exact h.branches k (by simpa [resetHits, keys, Function.comp_def] using hk)
    · exact h.arms
    · intro k hk
      have := h.counted k hk
      simpa [resetHits, keys, Function.comp_def] using this
    · intro k hk
      apply h.truth k
      cases hb : fc.bT with
      | none => simp [resetHits, hb, keys] at hk
      | some bt => simpa [resetHits, hb, keys, Function.comp_def] using hk

/-- C13, partial: merging a reset report into another that lists no location twice leaves the other's counts unchanged. -/
theorem C13_merge_reset_partial (a c : FileCoverage) (ha : a.WellFormed) (hc : c.WellFormed)
    (hd : a.DistinctLocs) (ht : a.TruthMergeable) (ra : a.all = false) :
    ∃ m, a.merge c.resetHits = .ok m ∧ (∀ r, m.statementCount r = a.statementCount r) ∧
      (∀ r, m.functionCount r = a.functionCount r) ∧ (∀ r i, m.armCount r i = a.armCount r i) := by
  obtain ⟨h1, h2, h3, _, h5⟩ := C13_reset_counts c
  by_cases hall : c.all = true
  · have : c.resetHits.all = true := hall
    exact ⟨a, (C06_placeholders a _).1 this, fun _ => rfl, fun _ => rfl, fun _ _ => rfl⟩
  · have : c.resetHits.all = false := by simpa [resetHits] using hall
    obtain ⟨m, hm, a1, a2, a3⟩ := C01_merge_adds_counts a c.resetHits ha (h5 hc) hd ht ra this
    exact ⟨m, hm, fun r => by rw [a1, h1]; omega, fun r => by rw [a2, h2]; omega,
      fun r i => by rw [a3, h3]; omega⟩

/-- C13 fails if the receiver lists a location twice: merging a reset report, even one without items, loses a count. -/
theorem C13_duplicates_fails : ∃ a c m : FileCoverage, ∃ r, a.WellFormed ∧ c.WellFormed ∧ a.all = false ∧ a.bT = none ∧
    a.merge c.resetHits = .ok m ∧ 0 < a.statementCount r ∧ m.statementCount r = 0 :=
  ⟨{ FileCoverage.empty "a.js" false with statementMap := [(0, MergeEx.r1), (1, MergeEx.r1)], s := [(0, 5), (1, 0)] },
    FileCoverage.empty "a.js" false, _, MergeEx.r1, MergeEx.wf_of_good (by decide), MergeEx.wf_of_good (by decide), rfl, rfl, rfl,
    by decide, by decide⟩

/-- C13 fails if the receiver has truthiness counts with a gap in the ids: merging the reset report into itself aborts. -/
theorem C13_truth_fails : ∃ a : FileCoverage, a.WellFormed ∧ a.DistinctLocs ∧ a.all = false ∧
    a.merge a.resetHits = .error .missingItem :=
  ⟨MergeEx.logicB, MergeEx.wf_of_good (by decide), MergeEx.distinct_of (by decide), rfl, rfl⟩

/-- Non-vacuity of C13. -/
example : MergeEx.shardB.resetHits.s = [(0, 0), (1, 0)] ∧
    ∃ m, MergeEx.shardA.merge MergeEx.shardB.resetHits = .ok m ∧ m.statementCount MergeEx.r1 = 3 := by
  refine ⟨rfl, ?_⟩
  obtain ⟨m, hm, h, _⟩ := C13_merge_reset_partial MergeEx.shardA MergeEx.shardB MergeEx.shardA_wf
    MergeEx.shardB_wf MergeEx.shardA_distinct (.inl rfl) rfl
  exact ⟨m, hm, by rw [h]; decide⟩

end Verif
