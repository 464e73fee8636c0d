import Verif.Props.Runs
/-
C50 in release builds of istanbul-oxide, where counts wrap around.
-/
namespace Verif
open Node Visitor Sem Build Runtime Js Template

section
variable {cx : Ctx} {fuel : Nat} {path : String} {sm : Option SourceMap} {p p' : Node} {cov : SourceCoverage}

/-- C50 for release builds, without a bound on the number of executions: the counts are right modulo 2^32. -/
theorem C50_modulo (hr : instrument cx fuel path sm p = .ok (p', cov)) (hf : cov.inner.Fits) (hT : cov.inner.TruthInRange)
    (hd : cov.inner.DistinctLocs) {V A : Type} {solid : V → Bool} (runs : List (List (List (Ev V A)) × FileCoverage)) (hne : runs ≠ [])
    (hruns : ∀ x ∈ runs, Obtained solid path p' cov.inner x.1 x.2) (cs : List FileCoverage)
    (hcs : cs.filter (fun c => decide (c.path = path)) = runs.map (·.2)) (hother : ∀ c ∈ cs, c.path ≠ path → c.Shard ∧ c.Fits) :
    ∃ M m n, CoverageMap.fromIterRelease cs = .ok M ∧ M.getCoverageForFile path = some m ∧
      cov.inner.Recounts (fun k => n k % 2 ^ 32) m ∧ Executed p' cov.inner (runs.map (·.1)).flatten n := by
  obtain ⟨M, m, n, h1, h2, h3, h4, h5, h6⟩ := merging_both hr hf (counted_additive hr hT hd (solid := solid)) runs hne hruns cs hcs
    fun c hc hq => (hother c hc hq).1
  obtain ⟨M', h7, h8⟩ := h6 fun c hc hq => (hother c hc hq).2
  exact ⟨M', _, n, h7, h8, (h3.mapCounts wrap32).toRecounts, h4⟩

end

theorem filter_replicate {α : Type} {q : α → Bool} {a : α} (h : q a = true) (n : Nat) :
    (List.replicate n a).filter q = List.replicate n a := by
  rw [List.filter_eq_self]
  intro x hx
  rw [List.eq_of_mem_replicate hx]
  exact h

theorem sum_copies {α : Type} (l : List α) (f : α → Nat) : ∀ n, ((List.replicate n l).flatten.map f).sum = n * (l.map f).sum
  | 0 => by simp
  | n + 1 => by
    rw [List.replicate_succ, List.flatten_cons, List.map_append, List.sum_append, sum_copies l f n, Nat.succ_mul]
    omega

/-- The reports of sixteen runs of `f() && g()` with `N` executions each, where `f` returns 0. -/
theorem manyCalls {p' : Node} {cov : SourceCoverage} (h1 : run plain bothCalls = .ok (p', cov)) (h2 : cov.inner = bothCallsReport)
    (N : Nat) (hN : 15 * N < 2 ^ 32) : ∃ x : List (List (Ev Nat Unit)) × FileCoverage, x.1.map visible = List.replicate N oneCallTrace ∧
      Obtained (fun v => v != 0) "/f.js" p' cov.inner x.1 x.2 := by
  obtain ⟨trs', c, k1, k2⟩ := C50_obtained_partial noWorld (p := bothCalls) (by unfold Clean; decide +kernel) (by decide +kernel)
    (by decide +kernel) h1 (h2 ▸ bothCallsReport_fits) (.inl rfl) freshRealm_pristine
    (covFn := "cov_1") (by decide) (by decide) rfl rfl rfl rfl (List.replicate N oneCallTrace) (solid := fun v => v != 0)
    (fun x hx => by rw [List.eq_of_mem_replicate hx]; exact ⟨_, _, oneCall_exec, nofun, nofun⟩)
    (by
      rw [List.map_replicate, List.sum_replicate_nat, show oneCallTrace.length = 14 from rfl]
      omega)
  exact ⟨(trs', c), k1, k2⟩

theorem manyCalls_counts {p' : Node} {cov : SourceCoverage} (h1 : run plain bothCalls = .ok (p', cov)) (h2 : cov.inner = bothCallsReport)
    (N : Nat) (hN : 15 * N < 2 ^ 32) (n : Nat) (hn : n ≠ 0) : ∃ x : List (List (Ev Nat Unit)) × FileCoverage,
      x.1.map visible = List.replicate N oneCallTrace ∧ Obtained (fun v => v != 0) "/f.js" p' cov.inner x.1 x.2 ∧
      ∃ M m id, CoverageMap.fromIterRelease (List.replicate n x.2) = .ok M ∧ M.getCoverageForFile "/f.js" = some m ∧
        m.statementMap.get id = some (plain.range (at' 1)) ∧ m.s.get id = some (n * N % 2 ^ 32) := by
  obtain ⟨x, x1, x2⟩ := manyCalls h1 h2 N hN
  have hc : Clean bothCalls := by unfold Clean; decide +kernel
  have hf : cov.inner.Fits := h2 ▸ bothCallsReport_fits
  have hd : cov.inner.DistinctLocs := by rw [h2]; exact MergeEx.distinct_of (by decide +kernel)
  have hx : x.2.path = "/f.js" := (x2.tells h1 hf).path.trans (by rw [h2]; rfl)
  refine ⟨x, x1, x2, ?_⟩
  obtain ⟨M, m, e, m1, m2, m3, m4⟩ := C50_modulo h1 hf (inRange_of_plain h1 rfl) hd (List.replicate n x) (by cases n <;> simp_all [List.replicate_succ])
    (fun y hy => by rw [List.eq_of_mem_replicate hy]; exact x2) (List.replicate n x.2)
    (by rw [filter_replicate (by simp [hx]), List.map_replicate])
    (fun c hc hq => by rw [List.eq_of_mem_replicate hc] at hq; exact (hq hx).elim)
  obtain ⟨id, s1, s2⟩ := C22_items_partial hc (by decide +kernel) (.inl rfl) h1
    (expr 1 (bin 2 .and (call 3 (ident 4 "f") []) (call 5 (ident 6 "g") [])))
    (List.mem_filter.2 ⟨List.mem_cons_self .., by decide +kernel⟩) (by decide +kernel) (at' 1) (by decide +kernel)
  obtain ⟨id', h5, h6⟩ := m3.statement id _ s1.1
  refine ⟨M, m, id', m1, m2, h5, ?_⟩
  rw [h6, m4.begun _ _ s2 (C22_start_partial.1 _ _ s1), List.map_replicate, sum_copies,
    show (x.1.map fun tr => began (tag (expr 1 (bin 2 .and (call 3 (ident 4 "f") []) (call 5 (ident 6 "g") [])))) (visible tr)) =
      (x.1.map visible).map (began (tag (expr 1 (bin 2 .and (call 3 (ident 4 "f") []) (call 5 (ident 6 "g") []))))) by
      rw [List.map_map]; rfl, x1, List.map_replicate, List.sum_replicate_nat,
    show began (tag (expr 1 (bin 2 .and (call 3 (ident 4 "f") []) (call 5 (ident 6 "g") [])))) oneCallTrace = 1 by decide +kernel, Nat.mul_one]

/-- Three runs with 1000 executions each: a release build reports 3000. -/
example : ∃ p' cov, run plain bothCalls = .ok (p', cov) ∧ ∃ x : List (List (Ev Nat Unit)) × FileCoverage,
      x.1.map visible = List.replicate 1000 oneCallTrace ∧ Obtained (fun v => v != 0) "/f.js" p' cov.inner x.1 x.2 ∧
      ∃ M m id, CoverageMap.fromIterRelease (List.replicate 3 x.2) = .ok M ∧ M.getCoverageForFile "/f.js" = some m ∧
        m.statementMap.get id = some (plain.range (at' 1)) ∧ m.s.get id = some 3000 := by
  have h : yields (run plain bothCalls) (fun _ c => c = bothCallsReport) = true := by decide +kernel
  obtain ⟨p', cov, h1, h2⟩ := of_yields h
  have h2 : cov.inner = bothCallsReport := of_decide_eq_true h2
  exact ⟨p', cov, h1, manyCalls_counts h1 h2 1000 (by omega) 3 (by omega)⟩

/-- C50, why release builds need a bound on all runs together: in sixteen runs the statement was executed 2^28 times each, and the report of
each run says so, but the merged report says that it was never executed. -/
theorem C50_wraps_fails : ∃ p p' cov, Clean p ∧ run plain p = .ok (p', cov) ∧ cov.inner.Fits ∧ cov.inner.DistinctLocs ∧
    ∃ (N : Nat) (tr : List (Ev Nat Unit)) (x : List (List (Ev Nat Unit)) × FileCoverage) (s : Node), s ∈ ownStmts plain p.children ∧
      0 < N ∧ began (tag s) tr = 1 ∧ x.1.map visible = List.replicate N tr ∧ Obtained (fun v => v != 0) "/f.js" p' cov.inner x.1 x.2 ∧
      ∃ M m id, CoverageMap.fromIterRelease (List.replicate 16 x.2) = .ok M ∧ M.getCoverageForFile "/f.js" = some m ∧
        m.statementMap.get id = some (plain.range s.span) ∧ m.s.get id = some 0 := by
  have h : yields (run plain bothCalls) (fun _ c => c = bothCallsReport) = true := by decide +kernel
  obtain ⟨p', cov, h1, h2⟩ := of_yields h
  have h2 : cov.inner = bothCallsReport := of_decide_eq_true h2
  obtain ⟨N, hN⟩ : ∃ N, N = 2 ^ 28 := ⟨_, rfl⟩
  obtain ⟨x, x1, x2, M, m, id, m1, m2, m3, m4⟩ := manyCalls_counts h1 h2 N (by omega) 16 (by omega)
  refine ⟨bothCalls, p', cov, by unfold Clean; decide +kernel, h1, h2 ▸ bothCallsReport_fits,
    by rw [h2]; exact MergeEx.distinct_of (by decide +kernel), N, oneCallTrace, x,
    expr 1 (bin 2 .and (call 3 (ident 4 "f") []) (call 5 (ident 6 "g") [])),
    List.mem_filter.2 ⟨List.mem_cons_self .., by decide +kernel⟩, by omega, by decide +kernel, x1, x2, M, m, id, m1, m2, m3, ?_⟩
  rw [m4, show 16 * N % 2 ^ 32 = 0 by omega]

end Verif
