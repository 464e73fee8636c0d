import Verif.Lemmas.Debug
import Verif.Props.Release
/-
C60: merging in debug builds of istanbul-oxide, where an addition that does not fit into 32 bits panics.
-/
namespace Verif
open Node Visitor Sem Build Runtime Js Template

theorem FileCoverage.Fits.countsFit {c : FileCoverage} (h : c.Fits) : c.CountsFit :=
  ⟨fun e he => (h.s e he).2, fun e he => (h.f e he).2, fun e he => (h.b e he).2, fun m hm e he => (h.bT m hm e he).2⟩

/-- C60. A merge in a debug build comes to an end with some report iff that is the report with the exact sums and all its counts have 32 bits;
panics other than overflows are those of exact arithmetic. -/
theorem C60_merge (a c : FileCoverage) (ha : a.CountsFit) (hc : c.CountsFit) :
    (∀ m, Debug.merge a c = .ok m ↔ a.merge c = .ok m ∧ m.CountsFit) ∧
    ∀ p, Debug.merge a c = .error (.panic p) → a.merge c = .error p :=
  ⟨fun _ => Debug.merge_ok ha hc, fun _ => Debug.merge_stops ha hc⟩

/-- C60. If there are exact sums, a debug build overflows iff one of them has more than 32 bits. -/
theorem C60_overflow (a c m : FileCoverage) (ha : a.CountsFit) (hc : c.CountsFit) (hm : a.merge c = .ok m) :
    Debug.merge a c = .error .overflow ↔ ¬m.CountsFit := by
  constructor
  · intro h hf
    rw [(Debug.merge_ok ha hc).2 ⟨hm, hf⟩] at h
    cases h
  · intro hf
    cases h : Debug.merge a c with
    | ok m' =>
      obtain ⟨h1, h2⟩ := (Debug.merge_ok ha hc).1 h
      rw [hm] at h1
      cases h1
      exact (hf h2).elim
    | error e =>
      cases e with
      | overflow => rfl
      | panic p =>
        have := Debug.merge_stops ha hc h
        rw [hm] at this
        cases this

/-- C60. The same for coverage maps: a debug build makes a map of some reports iff it is the map with the exact sums, and no sum on the way to
it has more than 32 bits. -/
theorem C60_maps (cs : List FileCoverage) (hcs : ∀ c ∈ cs, c.CountsFit) :
    (∀ M, Debug.fromIter cs = .ok M ↔ CoverageMap.fromIter cs = .ok M ∧
      ∀ cs', cs' <+: cs → ∀ M', CoverageMap.fromIter cs' = .ok M' → ∀ e ∈ M', e.2.CountsFit) ∧
    ∀ p, Debug.fromIter cs = .error (.panic p) → CoverageMap.fromIter cs = .error p :=
  ⟨Debug.addAll_ok cs nofun hcs, Debug.addAll_stops cs nofun hcs⟩

theorem FileCoverage.CountsFit.wrapped {c : FileCoverage} (h : c.CountsFit) : c.mapCounts wrap32 = c := by
  apply mapCounts_id_of
  refine ⟨fun e he => Nat.mod_eq_of_lt (h.s e he), fun e he => Nat.mod_eq_of_lt (h.f e he),
    fun e he x hx => Nat.mod_eq_of_lt (h.b e he x hx), fun e he x hx => ?_⟩
  cases hb : c.bT with
  | none => rw [hb] at he; cases he
  | some m =>
    rw [hb] at he
    exact Nat.mod_eq_of_lt (h.bT m hb e he x hx)

/-- C60. If a debug build makes a map, a release build makes the same. -/
theorem C60_release (cs : List FileCoverage) (hcs : ∀ c ∈ cs, c.Fits) (M : CoverageMap) (h : Debug.fromIter cs = .ok M) :
    CoverageMap.fromIterRelease cs = .ok M := by
  obtain ⟨h1, h2⟩ := ((C60_maps cs fun c hc => (hcs c hc).countsFit).1 M).1 h
  have h3 := h2 cs (List.prefix_refl cs) M h1
  rw [fromIterRelease_eq cs hcs, h1]
  simp only [Except.map, Except.ok.injEq]
  unfold mapVals
  conv => rhs; rw [← List.map_id M]
  exact List.map_congr_left fun e he => by rw [(h3 e he).wrapped]; rfl

section
variable {cx : Ctx} {fuel : Nat} {path : String} {sm : Option SourceMap} {p p' : Node} {cov : SourceCoverage}

/-- C60. What a debug build says about some runs is right, without a bound on the number of executions: if it makes a map of the reports, the
counts are those of all executions in all runs; the only other way to end is an overflow. -/
theorem C60_runs_partial (hr : instrument cx fuel path sm p = .ok (p', cov)) (hf : cov.inner.Fits) (hT : cov.inner.TruthInRange)
    (hd : cov.inner.DistinctLocs) {V A : Type} {solid : V → Bool} (runs : List (List (List (Ev V A)) × FileCoverage)) (hne : runs ≠ [])
    (hruns : ∀ x ∈ runs, Obtained solid path p' cov.inner x.1 x.2) (cs : List FileCoverage)
    (hcs : cs.filter (fun c => decide (c.path = path)) = runs.map (·.2)) (hother : ∀ c ∈ cs, c.path ≠ path → c.Shard ∧ c.Fits) :
    Debug.fromIter cs = .error .overflow ∨ ∃ M m n, Debug.fromIter cs = .ok M ∧ M.getCoverageForFile path = some m ∧ m.CountsFit ∧
      cov.inner.Recounts n m ∧ Executed p' cov.inner (runs.map (·.1)).flatten n := by
  obtain ⟨M, m, n, h1, h2, h3, h4, h5, h6⟩ := merging_both hr hf (counted_additive hr hT hd (solid := solid)) runs hne hruns cs hcs
    fun c hc hq => (hother c hc hq).1
  have hfit : ∀ c ∈ cs, c.CountsFit := by
    intro c hc
    by_cases hq : c.path = path
    · have : c ∈ runs.map (·.2) := hcs ▸ List.mem_filter.2 ⟨hc, by simpa using hq⟩
      obtain ⟨y, hy, rfl⟩ := List.mem_map.1 this
      obtain ⟨w, covFn, gcv, st, rm, pre, es, ps, a, d, -, -, -, -, -, -, -, -, -, h10⟩ := (hruns y hy).realm
      exact (Serde.coverage_some h10).2.countsFit
    · exact (hother c hc hq).2.countsFit
  obtain ⟨k1, k2⟩ := C60_maps cs hfit
  cases h : Debug.fromIter cs with
  | ok M' =>
    obtain ⟨l1, l2⟩ := (k1 M').1 h
    rw [h1] at l1
    cases l1
    exact .inr ⟨M, m, n, rfl, h2, l2 cs (List.prefix_refl cs) M h1 _ (IndexMap.mem_of_get h2), h3.toRecounts, h4⟩
  | error e =>
    cases e with
    | overflow => exact .inl rfl
    | panic p =>
      have := k2 p h
      rw [h1] at this
      cases this

end

/-- Sixteen runs with 2^28 executions each, of which a release build says that there was none (`C50_wraps_fails`): a debug build panics. -/
theorem C60_panics : ∃ p p' cov, Clean p ∧ run plain p = .ok (p', cov) ∧ cov.inner.Fits ∧ cov.inner.DistinctLocs ∧
    ∃ (x : List (List (Ev Nat Unit)) × FileCoverage), Obtained (fun v => v != 0) "/f.js" p' cov.inner x.1 x.2 ∧
      Debug.fromIter (List.replicate 16 x.2) = .error .overflow := by
  have h : yields (run plain bothCalls) (fun _ c => c = bothCallsReport) = true := by decide +kernel
  obtain ⟨p', cov, h1, h2⟩ := of_yields h
  have h2 : cov.inner = bothCallsReport := of_decide_eq_true h2
  obtain ⟨N, hN⟩ : ∃ N, N = 2 ^ 28 := ⟨_, rfl⟩
  have hd : cov.inner.DistinctLocs := by rw [h2]; exact MergeEx.distinct_of (by decide +kernel)
  have hf : cov.inner.Fits := h2 ▸ bothCallsReport_fits
  have hc : Clean bothCalls := by unfold Clean; decide +kernel
  obtain ⟨x, x1, x2⟩ := manyCalls h1 h2 N (by omega)
  have hx : x.2.path = "/f.js" := (x2.tells h1 hf).path.trans (by rw [h2]; rfl)
  refine ⟨bothCalls, p', cov, hc, h1, hf, hd, x, x2, ?_⟩
  rcases C60_runs_partial h1 hf (inRange_of_plain h1 rfl) hd (List.replicate 16 x) (by simp [List.replicate_succ])
    (fun y hy => by rw [List.eq_of_mem_replicate hy]; exact x2) (List.replicate 16 x.2)
    (by rw [filter_replicate (by simp [hx]), List.map_replicate])
    (fun c hc hq => by rw [List.eq_of_mem_replicate hc] at hq; exact (hq hx).elim) with hov | ⟨M, m, n, m1, m2, mf, m3, m4⟩
  · exact hov
  exfalso
  obtain ⟨id, s1, s2⟩ := C22_items_partial hc (by decide +kernel) (.inl rfl) h1
    (expr 1 (bin 2 .and (call 3 (ident 4 "f") []) (call 5 (ident 6 "g") [])))
    (List.mem_filter.2 ⟨List.mem_cons_self .., by decide +kernel⟩) (by decide +kernel) (at' 1) (by decide +kernel)
  obtain ⟨id', h5, h6⟩ := m3.statement id _ s1.1
  have h7 := mf.s _ (IndexMap.mem_of_get h6)
  rw [m4.begun _ _ s2 (C22_start_partial.1 _ _ s1), List.map_replicate, sum_copies,
    show (x.1.map fun tr => began (tag (expr 1 (bin 2 .and (call 3 (ident 4 "f") []) (call 5 (ident 6 "g") [])))) (visible tr)) =
      (x.1.map visible).map (began (tag (expr 1 (bin 2 .and (call 3 (ident 4 "f") []) (call 5 (ident 6 "g") []))))) by
      rw [List.map_map]; rfl, x1, List.map_replicate, List.sum_replicate_nat,
    show began (tag (expr 1 (bin 2 .and (call 3 (ident 4 "f") []) (call 5 (ident 6 "g") [])))) oneCallTrace = 1 by decide +kernel] at h7
  omega

namespace DebugEx

/-- A report with one statement that was executed `n` times, and a branch with two arms. -/
def counts (n : Nat) (arms : List Nat) : FileCoverage :=
  { FileCoverage.empty "/f.js" false with
    statementMap := [(0, ⟨⟨1, 0⟩, ⟨1, 4⟩⟩)], s := [(0, n)],
    branchMap := [(0, { line := some 2, branchType := .if, loc := some ⟨⟨2, 0⟩, ⟨2, 9⟩⟩, locations := [⟨⟨2, 0⟩, ⟨2, 9⟩⟩, ⟨⟨2, 0⟩, ⟨2, 9⟩⟩] })]
    b := [(0, arms)] }

/-- Sums that fit. -/
example : Debug.merge (counts 3 [1, 2]) (counts 4 [5, 0]) = .ok (counts 7 [6, 2]) := by decide +kernel

/-- The largest sum that fits, and the smallest that does not. -/
example : Debug.merge (counts 4294967294 []) (counts 1 []) = .ok (counts 4294967295 []) ∧
    Debug.merge (counts 4294967295 []) (counts 1 []) = .error .overflow ∧
    Debug.merge (counts 1 [0, 4294967295]) (counts 1 [7, 1]) = .error .overflow := by decide +kernel

/-- A panic that release builds have as well. -/
example : Debug.merge (counts 1 []) { counts 1 [] with statementMap := [] } = .error (.panic .missingItem) := by decide +kernel

end DebugEx
end Verif
