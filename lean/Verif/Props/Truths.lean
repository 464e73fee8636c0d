import Verif.Spec.Truths
import Verif.Lemmas.Truths
import Verif.Props.Runs
/-
C54: truthiness counts of several runs, merged.
-/
namespace Verif
open Node Visitor Sem Build Runtime Js Template

section
variable {cx : Ctx} {fuel : Nat} {path : String} {sm : Option SourceMap} {p p' : Node} {cov : SourceCoverage}

theorem truths_some (hr : instrument cx fuel path sm p = .ok (p', cov)) (hl : cx.reportLogic = true) : cov.inner.bT.isSome = true := by
  obtain ⟨n, h, o⟩ := outcome hr
  rw [o.bT_isSome, hl]

/-- C54, when merging is possible at all: two reports of runs of the file can be merged if and only if the branches with truthiness counts
have ids below the number of branches. (They have not if a branch without arms precedes them: its id stays unused.) -/
theorem C54_aborts_iff (hr : instrument cx fuel path sm p = .ok (p', cov)) (hf : cov.inner.Fits) (hd : cov.inner.DistinctLocs)
    {V A : Type} {solid : V → Bool} {x y : List (List (Ev V A)) × FileCoverage}
    (hx : Obtained solid path p' cov.inner x.1 x.2) (hy : Obtained solid path p' cov.inner y.1 y.2) :
    (∃ m, x.2.merge y.2 = .ok m) ↔ cov.inner.TruthInRange := by
  obtain ⟨hp, hk, hall⟩ := tables_of hr
  have tx := hx.tells hr hf
  have ty := hy.tells hr hf
  have wx := tx.wellFormed hp
  have hlen : (x.2.branchTable.map (·.1)).length = x.2.b.length := by
    rw [List.length_map]
    exact located_length wx.located_b
  rw [← tx.inRange hk, merge_ok_iff wx (ty.wellFormed hp) (tx.all.trans hall) (ty.all.trans hall)
    (ls := x.2.branchTable.map (·.1)) (tx.distinct hk hd).branches ?_, hlen]
  · constructor
    · rintro (h | h | h)
      · intro k hk
        rw [h] at hk
        cases hk
      · have : x.2.bT = none := by
          have h1 := ty.bT
          rw [h, ← tx.bT] at h1
          exact Option.not_isSome_iff_eq_none.1 (by rw [← h1]; simp)
        intro k hk
        rw [this] at hk
        cases hk
      · exact h
    · exact fun h => .inr (.inr h)
  · intro l
    refine ⟨.inl, ?_⟩
    rintro (h | h)
    · exact h
    · unfold FileCoverage.branchTable at h ⊢
      rw [located_fst, List.mem_filterMap] at h ⊢
      obtain ⟨k, h1, h2⟩ := h
      refine ⟨k, ((tx.branchIds hk).trans (ty.branchIds hk).symm).mem_iff.2 h1, ?_⟩
      rw [tx.branchMap k, ← ty.branchMap k]
      exact h2

/-- C54: otherwise no coverage map can be built from reports that include two of the file. -/
theorem C54_aborts (hr : instrument cx fuel path sm p = .ok (p', cov)) (hf : cov.inner.Fits) (hd : cov.inner.DistinctLocs)
    (hT : ¬ cov.inner.TruthInRange) {V A : Type} {solid : V → Bool} (runs : List (List (List (Ev V A)) × FileCoverage))
    (hruns : ∀ x ∈ runs, Obtained solid path p' cov.inner x.1 x.2) (hlen : 2 ≤ runs.length) (cs : List FileCoverage)
    (hcs : cs.filter (fun c => decide (c.path = path)) = runs.map (·.2)) (M : CoverageMap) : CoverageMap.fromIter cs ≠ .ok M := by
  intro hM
  have htree := addAll_tree path cs [] M hM
  rw [hcs] at htree
  match runs, hlen with
  | x :: y :: runs, _ =>
    obtain ⟨v, h1, -⟩ := htree
    refine hT ((C54_aborts_iff hr hf hd (hruns x List.mem_cons_self) (hruns y (by simp))).1 ?_)
    have fails : ∀ (l : List FileCoverage) (t : MergeTree), (∃ v, (t.leftFold l).eval = .ok v) → ∃ v, t.eval = .ok v := by
      intro l
      induction l with
      | nil => exact fun t h => h
      | cons c l ih =>
        intro t h
        obtain ⟨v, hv⟩ := ih _ h
        simp only [MergeTree.eval] at hv
        cases ht : t.eval with
        | error e => rw [ht] at hv; cases hv
        | ok a => exact ⟨a, rfl⟩
    exact fails _ (.node (.leaf x.2) (.leaf y.2)) ⟨v, h1⟩

theorem truthful_additive (hr : instrument cx fuel path sm p = .ok (p', cov)) (hl : cx.reportLogic = true) {K : Nat}
    (hT : ∀ k, k ∈ IndexMap.keys (cov.inner.bT.getD []) ↔ k < K) (hd : cov.inner.DistinctLocs) {V A : Type} {solid : V → Bool} :
    Additive (A := A) solid p' cov.inner (Truthful cov.inner K) := by
  obtain ⟨hp, hk, hall⟩ := tables_of hr
  exact ⟨fun _ _ ht => ht.truthful hp hk hd hall (truths_some hr hl) hT, fun _ _ _ _ ha hc => ha.merge (hp.apart hd) hc,
    fun _ _ h => h.mapCounts wrap32⟩

/-- C54. A coverage map that is built from the reports of some runs, and reports on other files, has for the file a report with the
truthiness counts of all runs together, for the operands that the instrumenter listed, if the logical expressions are the first branches
of the file. (Otherwise it has not, see `C54_first_iff` and `C54_moved_fails`.) -/
theorem C54_partial (hr : instrument cx fuel path sm p = .ok (p', cov)) (hf : cov.inner.Fits) (hl : cx.reportLogic = true)
    (hT : cov.inner.TruthFirst) (hd : cov.inner.DistinctLocs) : Merged path p' cov.inner fun _ _ solid trs m =>
      ∃ n, cov.inner.Retruths n m ∧ Executed p' cov.inner trs n ∧ Gave solid p' cov.inner trs n := by
  obtain ⟨K, hT⟩ := hT
  obtain ⟨hp, -, -⟩ := tables_of hr
  exact (merging_of hr hf fun _ _ _ => truthful_additive hr hl hT hd).mono fun _ _ _ _ _ ⟨n, h1, h2⟩ => ⟨n, h1.retruths hp hT, h2⟩

/-- C54 for an operand: its counts are the number of times its evaluation began, and the number of times it ended with a value
that is truthy, not an empty array and not an empty plain object, in all runs. -/
theorem C54_operands_partial (hp : Clean p) (hig : Hint.shouldIgnoreFile cx.cc cx.comments p.span = false)
    (hk : p.kind = .module ∨ p.kind = .script) (hr : instrument cx fuel path sm p = .ok (p', cov)) (hf : cov.inner.Fits)
    (hl : cx.reportLogic = true) (hT : cov.inner.TruthFirst) (hd : cov.inner.DistinctLocs)
    (op : BinOp) (sp : Span) (left right : Node) (hop : op = .and ∨ op = .or ∨ op = .nullish)
    (hx : InProgram cx p (mk (.bin op) sp [left, right])) (hi : cx.ignores (mk (.bin op) sp [left, right]) = false)
    (e : Node) (he : e ∈ operands cx [left, right]) (ho : Only p (tag e)) :
    ∃ i, Merged path p' cov.inner fun _ _ solid trs m => ∃ b, m.HasArm b i .binaryExpr (cx.range sp) (cx.range e.span) ∧
        m.count (.b b i) = some (trs.map fun tr => began (tag e) (visible tr)).sum ∧
        m.count (.bT b i) = some (trs.map fun tr => gave solid (tag e) [] (visible tr)).sum := by
  obtain ⟨b, h1, h2⟩ := C22_truths_partial hp hig hk hr op sp left right hop hx hi hl
  obtain ⟨i, h4, h5, h6⟩ := h2 e he ho
  refine ⟨i, (C54_partial hr hf hl hT hd).mono fun _ _ _ _ m ⟨n, k1, k2, k3⟩ => ?_⟩
  have h0 := C22_start_partial.2.2 _ _ _ _ h1 h4
  obtain ⟨br, h7, h8⟩ := h4
  have h9 := h1 br h7
  obtain ⟨b', k4, k5⟩ := k1.counts b _ br (h9.2.2 rfl (by rw [hl]; rfl)) h7
  obtain ⟨k6, k7⟩ := k5 i (List.getElem?_eq_some_iff.1 h8).1
  refine ⟨b', ⟨br, k4, by rw [h9.1], by rw [h9.1], h8⟩, ?_, ?_⟩
  · rw [k6, k2.begun _ _ h5 h0.1]
  · rw [k7, k3 _ _ h6 (h0.2 rfl (by rw [hl]; rfl))]

/-- C54 for summaries: the totals of the truthiness counts are the number of operands and the number of those that gave a truthy value in
some run. -/
theorem C54_summary_partial (hr : instrument cx fuel path sm p = .ok (p', cov)) (hf : cov.inner.Fits) (hl : cx.reportLogic = true)
    (hT : cov.inner.TruthFirst) (hd : cov.inner.DistinctLocs) : Merged path p' cov.inner fun _ _ solid trs m =>
      ∃ sum t n, m.toSummary = .ok sum ∧ sum.branchesTrue = some t ∧ t.Truths cov.inner n ∧ Gave solid p' cov.inner trs n := by
  obtain ⟨K, hT⟩ := hT
  obtain ⟨hp, hk, -⟩ := tables_of hr
  refine (merging_of hr hf fun _ _ _ => truthful_additive hr hl hT hd).mono fun _ _ _ _ m ⟨n, h1, h2, h3⟩ => ?_
  obtain ⟨bt, h4, h5⟩ := h1.totals hp hk hT
  obtain ⟨sum, h6, -⟩ := h1.toCounted.sums hp hk hd
  refine ⟨sum, _, n, h6, ?_, h5, h3⟩
  unfold FileCoverage.toSummary at h6
  split at h6
  · cases h6
  · have h6 := Except.ok.inj h6
    rw [← h6, h4]
    rfl

/-- C54, why the logical expressions have to come first: if no branch without arms was dropped, the merged report of two runs has the branches
with the ids of the instrumenter, but the truthiness counts have the ids `0, 1, …`. -/
theorem C54_renumbered (hr : instrument cx fuel path sm p = .ok (p', cov)) (hf : cov.inner.Fits) (hl : cx.reportLogic = true)
    (hb : ∀ k, k ∈ cov.inner.b.keys ↔ k < cov.inner.b.length) (hd : cov.inner.DistinctLocs)
    {V A : Type} {solid : V → Bool} {x y : List (List (Ev V A)) × FileCoverage}
    (hx : Obtained solid path p' cov.inner x.1 x.2) (hy : Obtained solid path p' cov.inner y.1 y.2) :
    ∃ m, x.2.merge y.2 = .ok m ∧ (∀ k, k < cov.inner.b.length → m.branchMap.get k = cov.inner.branchMap.get k) ∧
      ∀ k, k ∈ IndexMap.keys (m.bT.getD []) ↔ k < (cov.inner.bT.getD []).length := by
  obtain ⟨hp, hk, hall⟩ := tables_of hr
  have tx := hx.tells hr hf
  have ty := hy.tells hr hf
  have hrange : ∀ k ∈ IndexMap.keys (cov.inner.bT.getD []), k < cov.inner.b.length := by
    intro k hk
    obtain ⟨v, hv⟩ := IndexMap.get_isSome_of_mem hk
    exact (hb k).1 (IndexMap.mem_keys_of_mem (IndexMap.mem_of_get (hp.truths k v hv)))
  obtain ⟨m, hm⟩ := (C54_aborts_iff hr hf hd hx hy).2 hrange
  obtain ⟨bt, hbt⟩ := Option.isSome_iff_exists.1 (tx.bT.trans (truths_some hr hl))
  obtain ⟨cbt, hcbt⟩ := Option.isSome_iff_exists.1 (ty.bT.trans (truths_some hr hl))
  have ids : ∀ {z : List (List (Ev V A)) × FileCoverage} {t}, Tells solid p' cov.inner z.1 z.2 → z.2.bT = some t →
      ∀ k, k ∈ IndexMap.keys t ↔ k ∈ IndexMap.keys (cov.inner.bT.getD []) := by
    intro z t hz ht k
    have h1 := congrArg Option.isSome (hz.truths k)
    simp only [Option.isSome_map, ht, Option.getD_some] at h1
    rw [isSome_keys, isSome_keys, h1]
  have hfirst : List.range cov.inner.b.length <+: x.2.b.keys := by
    refine range_prefix tx.ordered.b fun k hk' => (tx.branchIds hk).mem_iff.2 ((hb k).2 hk')
  obtain ⟨t, tm, e1, e2, e3, -⟩ := merge_dense (tx.wellFormed hp) (ty.wellFormed hp) (tx.all.trans hall) (ty.all.trans hall)
    (tx.distinct hk hd).branches hfirst hbt hcbt (fun k hk => hrange k ((ids tx hbt k).1 hk)) hm
  refine ⟨m, hm, fun k hk => (e3 k hk).trans (tx.branchMap k), fun k => ?_⟩
  have hla : Located FileCoverage.branchLoc bt x.2.branchMap := by
    have := (tx.wellFormed hp).located_bT; rwa [hbt] at this
  have hlc : Located FileCoverage.branchLoc cbt y.2.branchMap := by
    have := (ty.wellFormed hp).located_bT; rwa [hcbt] at this
  obtain ⟨t', tm', et, kt, -, -, ndt, lent, -, memt, -⟩ :=
    mergePropsWith_ok (loc := FileCoverage.branchLoc) (key := branchKey) key_branch (vecAdd (· + ·)) hla hlc
  rw [et] at e2
  cases e2
  rw [e1, Option.getD_some, kt, List.mem_range]
  have nda : ((located FileCoverage.branchLoc bt x.2.branchMap).map (·.1)).Nodup :=
    located_nodup_of (h' := x.2.b) (tx.keyed.bT _ hbt) tx.keyed.b (fun k hk' =>
      hfirst.subset (List.mem_range.2 (hrange k ((ids tx hbt k).1 hk')))) (tx.distinct hk hd).branches
  have hsame : ((located FileCoverage.branchLoc t tm).map (·.1)).Perm ((located FileCoverage.branchLoc bt x.2.branchMap).map (·.1)) := by
    refine (List.perm_ext_iff_of_nodup ndt nda).2 fun l => (memt l).trans ⟨?_, .inl⟩
    rintro (h | h)
    · exact h
    · rw [located_fst, List.mem_filterMap] at h ⊢
      obtain ⟨j, h1, h2⟩ := h
      refine ⟨j, (ids tx hbt j).2 ((ids ty hcbt j).1 h1), ?_⟩
      rw [tx.branchMap j, ← ty.branchMap j]
      exact h2
  have h1 := hsame.length_eq
  rw [List.length_map, List.length_map, located_length hla, ← lent] at h1
  have h2 : bt.length = (cov.inner.bT.getD []).length := by
    have hnd : IndexMap.NodupKeys (cov.inner.bT.getD []) := by
      obtain ⟨q, hq⟩ := Option.isSome_iff_exists.1 (truths_some hr hl)
      rw [hq]
      exact hk.bT q hq
    have := ((List.perm_ext_iff_of_nodup (tx.keyed.bT _ hbt) hnd).2 (ids tx hbt)).length_eq
    unfold IndexMap.keys at this
    simpa using this
  rw [h1, h2]

/-- C54: if no branch was dropped, the merged report of two runs has truthiness counts for the right branches if and only if the logical
expressions are the first branches of the file. -/
theorem C54_first_iff (hr : instrument cx fuel path sm p = .ok (p', cov)) (hf : cov.inner.Fits) (hl : cx.reportLogic = true)
    (hb : ∀ k, k ∈ cov.inner.b.keys ↔ k < cov.inner.b.length) (hd : cov.inner.DistinctLocs)
    {V A : Type} {solid : V → Bool} {x y : List (List (Ev V A)) × FileCoverage}
    (hx : Obtained solid path p' cov.inner x.1 x.2) (hy : Obtained solid path p' cov.inner y.1 y.2) :
    ∃ m, x.2.merge y.2 = .ok m ∧ (cov.inner.TruthFirst ↔ ∀ k, k ∈ IndexMap.keys (m.bT.getD []) ↔
      k ∈ IndexMap.keys (cov.inner.bT.getD [])) := by
  obtain ⟨m, h1, h2, h3⟩ := C54_renumbered hr hf hl hb hd hx hy
  refine ⟨m, h1, fun ⟨K, hK⟩ k => ?_, fun h => ⟨_, fun k => (h k).symm.trans (h3 k)⟩⟩
  obtain ⟨-, hk, -⟩ := tables_of hr
  have hnd : IndexMap.NodupKeys (cov.inner.bT.getD []) := by
    obtain ⟨q, hq⟩ := Option.isSome_iff_exists.1 (truths_some hr hl)
    rw [hq]
    exact hk.bT q hq
  have hperm := (List.perm_ext_iff_of_nodup hnd List.nodup_range).2 fun k => (hK k).trans List.mem_range.symm
  have hlen := hperm.length_eq
  unfold IndexMap.keys at hlen
  rw [List.length_map, List.length_range] at hlen
  rw [h3, hK, hlen]

end

/-! ### Concrete cases -/

theorem logic_obtained {p p' : Node} {cov : SourceCoverage} (hc : Clean p) (hU : UnnamedFields p) (hF : FewDirectives p)
    (hr : run logic p = .ok (p', cov)) (hf : cov.inner.Fits) (hl : p.any (· = .assignPat) = false) (tr : List (Ev Nat Unit))
    (htr : Complete (fun v => v != 0) p tr) (hlen : tr.length < 100) :
    ∃ x : List (List (Ev Nat Unit)) × FileCoverage, x.1.map visible = [tr] ∧ Obtained (fun v => v != 0) "/f.js" p' cov.inner x.1 x.2 := by
  obtain ⟨trs', c, k1, k2⟩ := C50_obtained_partial noWorld hc hU hF hr hf (.inr hl) freshRealm_pristine
    (covFn := "cov_1") (by decide) (by decide) rfl rfl rfl rfl [tr] (solid := fun v => v != 0)
    (fun x hx => by rw [List.mem_singleton.1 hx]; exact htr) (by simp; omega)
  exact ⟨(trs', c), k1, k2⟩

theorem sum_of_visible {x : List (List (Ev Nat Unit))} {tr : List (Ev Nat Unit)} (h : x.map visible = [tr]) (f : List (Ev Nat Unit) → Nat) :
    (x.map fun tr => f (visible tr)).sum = f tr := by
  have : x.map (fun tr => f (visible tr)) = (x.map visible).map f := by rw [List.map_map]; rfl
  rw [this, h]
  simp

/-- The report of `f() && g()` with truthiness counts. -/
def bothCallsLogic : FileCoverage := { bothCallsReport with bT := some [(0, [0, 0])] }

/-- `f() && g()` with `reportLogic`, in two runs: `f` returns 7 in the first and 0 in the second, `g` returns 0. In the merged report the
first operand was evaluated twice and truthy once, the second was evaluated once and never truthy; of two operands one was truthy. -/
example : ∃ p' cov, run logic bothCalls = .ok (p', cov) ∧ ∃ (x y : List (List (Ev Nat Unit)) × FileCoverage),
    Obtained (fun v => v != 0) "/f.js" p' cov.inner x.1 x.2 ∧ Obtained (fun v => v != 0) "/f.js" p' cov.inner y.1 y.2 ∧
    x.1.map visible = [bothCallsTrace] ∧ y.1.map visible = [oneCallTrace] ∧
    ∃ M m, CoverageMap.fromIter [x.2, y.2] = .ok M ∧ M.getCoverageForFile "/f.js" = some m ∧
      (∃ b i, m.HasArm b i .binaryExpr (logic.range (at' 2)) (logic.range (at' 3)) ∧ m.count (.b b i) = some 2 ∧
        m.count (.bT b i) = some 1) ∧
      (∃ b i, m.HasArm b i .binaryExpr (logic.range (at' 2)) (logic.range (at' 5)) ∧ m.count (.b b i) = some 1 ∧
        m.count (.bT b i) = some 0) ∧
      ∃ sum t, m.toSummary = .ok sum ∧ sum.branchesTrue = some t ∧ t.total = 2 := by
  have h : yields (run logic bothCalls) (fun _ c => c = bothCallsLogic) = true := by decide +kernel
  obtain ⟨p', cov, h1, h2⟩ := of_yields h
  have h2 : cov.inner = bothCallsLogic := of_decide_eq_true h2
  have hc : Clean bothCalls := by unfold Clean; decide +kernel
  have hf : cov.inner.Fits := by
    rw [h2]
    refine ⟨?_, ?_, ?_, ?_, ?_, ?_, ?_, ?_⟩ <;>
      simp [bothCallsLogic, bothCallsReport, FileCoverage.empty, IndexMap.Fits, Range.Fits, Location.Fits, Branch.Fits, Ctx.range, plain, at']
  have hd : cov.inner.DistinctLocs := by rw [h2]; exact MergeEx.distinct_of (by decide +kernel)
  have hT : cov.inner.TruthFirst := by
    rw [h2]
    exact ⟨1, fun k => by simp [bothCallsLogic, IndexMap.keys]⟩
  obtain ⟨x, x1, x2⟩ := logic_obtained hc (by decide +kernel) (by decide +kernel) h1 hf (by decide +kernel) bothCallsTrace
    ⟨_, _, bothCalls_exec, nofun, nofun⟩ (by decide +kernel)
  obtain ⟨y, y1, y2⟩ := logic_obtained hc (by decide +kernel) (by decide +kernel) h1 hf (by decide +kernel) oneCallTrace
    ⟨_, _, oneCall_exec, nofun, nofun⟩ (by decide +kernel)
  refine ⟨p', cov, h1, x, y, x2, y2, x1, y1, ?_⟩
  have hx : x.2.path = "/f.js" := (x2.tells h1 hf).path.trans (by rw [h2]; rfl)
  have hy : y.2.path = "/f.js" := (y2.tells h1 hf).path.trans (by rw [h2]; rfl)
  have sums : ∀ f : List (Ev Nat Unit) → Nat, (([x, y].map (·.1)).flatten.map fun tr => f (visible tr)).sum =
      f bothCallsTrace + f oneCallTrace := by
    intro f
    have : ([x, y].map (·.1)).flatten.map (fun tr => f (visible tr)) = (x.1.map visible ++ y.1.map visible).map f := by
      simp [List.map_append, Function.comp_def]
    rw [this, x1, y1]
    simp
  have merged : ∀ {P}, Merged "/f.js" p' cov.inner P → ∃ M m, CoverageMap.fromIter [x.2, y.2] = .ok M ∧
      M.getCoverageForFile "/f.js" = some m ∧ P Nat Unit (fun v => v != 0) ([x, y].map (·.1)).flatten m := by
    intro P h
    refine (h Nat Unit _ [x, y] (by simp) ?_ [x.2, y.2] ?_ ?_).1
    · intro z hz
      simp only [List.mem_cons, List.not_mem_nil, or_false] at hz
      rcases hz with rfl | rfl
      · exact x2
      · exact y2
    · rw [List.filter_cons_of_pos (by simp [hx]), List.filter_cons_of_pos (by simp [hy])]
      rfl
    · intro z hz hne
      simp only [List.mem_cons, List.not_mem_nil, or_false] at hz
      rcases hz with rfl | rfl
      · exact (hne hx).elim
      · exact (hne hy).elim
  obtain ⟨z, hz, hz'⟩ := inProgram_find (cx := logic) (p := bothCalls) (i := 0) (is := [0])
    (f := fun x => x = bin 2 .and (call 3 (ident 4 "f") []) (call 5 (ident 6 "g") [])) (by decide +kernel)
  cases of_decide_eq_true hz'
  obtain ⟨i, hi⟩ := C54_operands_partial hc (by decide +kernel) (.inl rfl) h1 hf rfl hT hd .and (at' 2) _ _ (.inl rfl) hz
    (by decide +kernel) (call 3 (ident 4 "f") []) (by decide +kernel) (by decide +kernel)
  obtain ⟨j, hj⟩ := C54_operands_partial hc (by decide +kernel) (.inl rfl) h1 hf rfl hT hd .and (at' 2) _ _ (.inl rfl) hz
    (by decide +kernel) (call 5 (ident 6 "g") []) (by decide +kernel) (by decide +kernel)
  obtain ⟨M, m, e1, e2, b, e3, e4, e5⟩ := merged hi
  obtain ⟨M', m', f1, f2, b', f3, f4, f5⟩ := merged hj
  obtain ⟨M'', m'', g1, g2, sum, t, n, g3, g4, g5, -⟩ := merged (C54_summary_partial h1 hf rfl hT hd)
  rw [e1] at f1 g1
  cases f1
  cases g1
  rw [e2] at f2 g2
  cases f2
  cases g2
  refine ⟨M, m, e1, e2, ⟨b, i, e3, ?_, ?_⟩, ⟨b', j, f3, ?_, ?_⟩, sum, t, g3, g4, ?_⟩
  · rw [e4, sums]
    decide +kernel
  · rw [e5, sums (fun tr => gave (fun v => v != 0) (tag (call 3 (ident 4 "f") [])) [] tr)]
    decide +kernel
  · rw [f4, sums]
    decide +kernel
  · rw [f5, sums (fun tr => gave (fun v => v != 0) (tag (call 5 (ident 6 "g") [])) [] tr)]
    decide +kernel
  · rw [g5.total, h2]
    rfl

/-! ### Failures -/

/-- `f() && g()` as the last statement -/
def lastBoth : Node := expr 6 (bin 7 .and (call 8 (ident 9 "f") []) (call 10 (ident 11 "g") []))

/-- `a ? b : c; f() && g()` -/
def condThenBoth : Node := Build.module [expr 1 (cond 2 (ident 3 "a") (ident 4 "b") (ident 5 "c")), lastBoth]

/-- `switch (x) {} f() && g()` -/
def switchThenBoth : Node := Build.module [mk .switchStmt (at' 1) [ident 2 "x"], lastBoth]

/-- `f() && g()`, when `h` nodes were presented before, if both return 7. -/
def lastBothTrace (h : Nat) : List (Ev Nat Unit) :=
  let f := call 8 (ident 9 "f") []
  let g := call 10 (ident 11 "g") []
  let b := bin 7 .and f g
  [.present (face lastBoth), .pick h 0 (face lastBoth), .present (face b), .pick (h + 1) 0 (face b), .present (face f),
    .answer (.normal (some 7)), .got (.normal (some 7)), .pick (h + 1) 1 (face b), .present (face g), .answer (.normal (some 7)),
    .got (.normal (some 7)), .answer (.normal (some 7)), .got (.normal (some 7)), .answer (.normal none), .got (.normal none),
    .answer (.normal none)]

/-- All names have the value 7, and `f` and `g` return it. -/
def condThenBothTrace : List (Ev Nat Unit) :=
  let a := ident 3 "a"
  let b := ident 4 "b"
  let c := cond 2 a b (ident 5 "c")
  let s := expr 1 c
  [.present (face condThenBoth), .present (face s), .pick 1 0 (face s), .present (face c), .pick 2 0 (face c), .present (face a),
    .answer (.normal (some 7)), .got (.normal (some 7)), .pick 2 1 (face c), .present (face b), .answer (.normal (some 7)),
    .got (.normal (some 7)), .answer (.normal (some 7)), .got (.normal (some 7)), .answer (.normal none)] ++ lastBothTrace 5 ++
    [.answer (.normal none)]

/-- The same. -/
def switchThenBothTrace : List (Ev Nat Unit) :=
  let x := ident 2 "x"
  let s := mk .switchStmt (at' 1) [x]
  [.present (face switchThenBoth), .present (face s), .pick 1 0 (face s), .present (face x), .answer (.normal (some 7)),
    .got (.normal (some 7)), .answer (.normal none)] ++ lastBothTrace 3 ++ [.answer (.normal none)]

theorem condThenBoth_exec : Exec (fun v => v != 0) condThenBoth condThenBothTrace (.normal none) (.normal none) := by
  refine ⟨_, _, _, _, rfl, .block rfl (.next rfl (.node rfl (.pick rfl rfl (.node rfl (.pick rfl rfl (.node rfl (.answer ?_)) ?_
    (.pick rfl rfl (.node rfl (.answer ?_)) ?_ (.answer ?_)))) ?_ (.answer ?_)))
    (.next rfl (.node rfl (.pick rfl rfl (.node rfl (.pick rfl rfl (.node rfl (.answer ?_)) ?_
    (.pick rfl rfl (.node rfl (.answer ?_)) ?_ (.answer ?_)))) ?_ (.answer ?_))) .nil)) ?_ (.answer ?_), .answer ?_⟩ <;> nofun

theorem switchThenBoth_exec : Exec (fun v => v != 0) switchThenBoth switchThenBothTrace (.normal none) (.normal none) := by
  refine ⟨_, _, _, _, rfl, .block rfl (.next rfl (.node rfl (.pick rfl rfl (.node rfl (.answer ?_)) ?_ (.answer ?_)))
    (.next rfl (.node rfl (.pick rfl rfl (.node rfl (.pick rfl rfl (.node rfl (.answer ?_)) ?_
    (.pick rfl rfl (.node rfl (.answer ?_)) ?_ (.answer ?_)))) ?_ (.answer ?_))) .nil)) ?_ (.answer ?_), .answer ?_⟩ <;> nofun

/-- The report of `a ? b : c; f() && g()`. -/
def condThenBothReport : FileCoverage := { FileCoverage.empty "/f.js" true with
  statementMap := [(0, plain.range (at' 1)), (1, plain.range (at' 6))]
  s := [(0, 0), (1, 0)]
  branchMap := [(0, ⟨some (plain.range (at' 2)), .condExpr, [plain.range (at' 4), plain.range (at' 5)], some 2⟩),
    (1, ⟨some (plain.range (at' 7)), .binaryExpr, [plain.range (at' 8), plain.range (at' 10)], some 7⟩)]
  b := [(0, [0, 0]), (1, [0, 0])]
  bT := some [(1, [0, 0])] }

/-- The report of `switch (x) {} f() && g()`: the `switch` had the id 0, but has no arms. -/
def switchThenBothReport : FileCoverage := { FileCoverage.empty "/f.js" true with
  statementMap := [(0, plain.range (at' 1)), (1, plain.range (at' 6))]
  s := [(0, 0), (1, 0)]
  branchMap := [(1, ⟨some (plain.range (at' 7)), .binaryExpr, [plain.range (at' 8), plain.range (at' 10)], some 7⟩)]
  b := [(1, [0, 0])]
  bT := some [(1, [0, 0])] }

/-- C54 fails if another branch precedes a logical expression: `f` returned a truthy value in both runs, but the merged report has no
truthiness counts for it. It has some for the conditional expression. -/
theorem C54_moved_fails : ∃ p p' cov, Clean p ∧ run logic p = .ok (p', cov) ∧ cov.inner.Fits ∧ cov.inner.DistinctLocs ∧
    ∃ (x y : List (List (Ev Nat Unit)) × FileCoverage), Obtained (fun v => v != 0) "/f.js" p' cov.inner x.1 x.2 ∧
      Obtained (fun v => v != 0) "/f.js" p' cov.inner y.1 y.2 ∧
      (∀ z ∈ [x, y], (z.1.map fun tr => gave (fun v => v != 0) (tag (call 8 (ident 9 "f") [])) [] (visible tr)).sum = 1 ∧
        z.2.HasArm 1 0 .binaryExpr (logic.range (at' 7)) (logic.range (at' 8)) ∧ (IndexMap.get (z.2.bT.getD []) 1).isSome) ∧
      ∃ m, x.2.merge y.2 = .ok m ∧ m.HasArm 1 0 .binaryExpr (logic.range (at' 7)) (logic.range (at' 8)) ∧
        m.count (.bT 1 0) = none ∧ m.HasArm 0 0 .condExpr (logic.range (at' 2)) (logic.range (at' 4)) ∧
        (IndexMap.get (m.bT.getD []) 0).isSome := by
  have h : yields (run logic condThenBoth) (fun _ c => c = condThenBothReport) = true := by decide +kernel
  obtain ⟨p', cov, h1, h2⟩ := of_yields h
  have h2 : cov.inner = condThenBothReport := of_decide_eq_true h2
  have hc : Clean condThenBoth := by unfold Clean; decide +kernel
  have hf : cov.inner.Fits := by
    rw [h2]
    refine ⟨?_, ?_, ?_, ?_, ?_, ?_, ?_, ?_⟩ <;>
      simp [condThenBothReport, FileCoverage.empty, IndexMap.Fits, Range.Fits, Location.Fits, Branch.Fits, Ctx.range, plain, at']
  have hd : cov.inner.DistinctLocs := by rw [h2]; exact MergeEx.distinct_of (by decide +kernel)
  obtain ⟨x, x1, x2⟩ := logic_obtained hc (by decide +kernel) (by decide +kernel) h1 hf (by decide +kernel) condThenBothTrace
    ⟨_, _, condThenBoth_exec, nofun, nofun⟩ (by decide +kernel)
  obtain ⟨m, k1, k2, k3⟩ := C54_renumbered h1 hf rfl (by
    rw [h2]
    intro k
    simp [condThenBothReport, IndexMap.keys]
    omega) hd x2 x2
  have tx := x2.tells h1 hf
  have b1 : cov.inner.branchMap.get 1 = some ⟨some (plain.range (at' 7)), .binaryExpr, [plain.range (at' 8), plain.range (at' 10)], some 7⟩ := by
    rw [h2]; rfl
  have hlen : (cov.inner.bT.getD []).length = 1 := by rw [h2]; rfl
  have hlb : cov.inner.b.length = 2 := by rw [h2]; rfl
  refine ⟨condThenBoth, p', cov, hc, h1, hf, hd, x, x, x2, x2, ?_, m, k1, ⟨_, (k2 1 (by omega)).trans b1, rfl, rfl, rfl⟩, ?_,
    ⟨_, (k2 0 (by omega)).trans (by rw [h2]; rfl), rfl, rfl, rfl⟩, ?_⟩
  · intro z hz
    simp only [List.mem_cons, List.not_mem_nil, or_false, or_self] at hz
    subst hz
    refine ⟨?_, ⟨_, (tx.branchMap 1).trans b1, rfl, rfl, rfl⟩, ?_⟩
    · rw [sum_of_visible x1 (fun tr => gave (fun v => v != 0) (tag (call 8 (ident 9 "f") [])) [] tr)]
      decide +kernel
    · have := congrArg Option.isSome (tx.truths 1)
      simp only [Option.isSome_map] at this
      rw [this, h2]
      rfl
  · have : IndexMap.get (m.bT.getD []) 1 = none := by
      rw [IndexMap.get_eq_none_iff, k3, hlen]
      omega
    cases hm : m.bT with
    | none => simp [FileCoverage.count, hm]
    | some bt =>
      rw [hm, Option.getD_some] at this
      simp [FileCoverage.count, hm, this]
  · obtain ⟨v, hv⟩ := IndexMap.get_isSome_of_mem ((k3 0).2 (by omega))
    rw [hv]
    rfl

/-- C54 fails if a branch without arms precedes a logical expression: the reports of two runs cannot be merged at all. -/
theorem C54_abort_fails : ∃ p p' cov, Clean p ∧ run logic p = .ok (p', cov) ∧ cov.inner.Fits ∧ cov.inner.DistinctLocs ∧
    ∃ (x y : List (List (Ev Nat Unit)) × FileCoverage), Obtained (fun v => v != 0) "/f.js" p' cov.inner x.1 x.2 ∧
      Obtained (fun v => v != 0) "/f.js" p' cov.inner y.1 y.2 ∧
      (∀ z ∈ [x, y], z.2.HasArm 1 0 .binaryExpr (logic.range (at' 7)) (logic.range (at' 8)) ∧ z.2.path = "/f.js") ∧
      ∀ M, CoverageMap.fromIter [x.2, y.2] ≠ .ok M := by
  have h : yields (run logic switchThenBoth) (fun _ c => c = switchThenBothReport) = true := by decide +kernel
  obtain ⟨p', cov, h1, h2⟩ := of_yields h
  have h2 : cov.inner = switchThenBothReport := of_decide_eq_true h2
  have hc : Clean switchThenBoth := by unfold Clean; decide +kernel
  have hf : cov.inner.Fits := by
    rw [h2]
    refine ⟨?_, ?_, ?_, ?_, ?_, ?_, ?_, ?_⟩ <;>
      simp [switchThenBothReport, FileCoverage.empty, IndexMap.Fits, Range.Fits, Location.Fits, Branch.Fits, Ctx.range, plain, at']
  have hd : cov.inner.DistinctLocs := by rw [h2]; exact MergeEx.distinct_of (by decide +kernel)
  obtain ⟨x, x1, x2⟩ := logic_obtained hc (by decide +kernel) (by decide +kernel) h1 hf (by decide +kernel) switchThenBothTrace
    ⟨_, _, switchThenBoth_exec, nofun, nofun⟩ (by decide +kernel)
  have tx := x2.tells h1 hf
  have hx : x.2.path = "/f.js" := tx.path.trans (by rw [h2]; rfl)
  refine ⟨switchThenBoth, p', cov, hc, h1, hf, hd, x, x, x2, x2, ?_, fun M => C54_aborts (solid := fun v => v != 0) h1 hf hd ?_ [x, x] ?_ (Nat.le_refl _) _ ?_ M⟩
  · intro z hz
    simp only [List.mem_cons, List.not_mem_nil, or_false, or_self] at hz
    subst hz
    exact ⟨⟨_, (tx.branchMap 1).trans (by rw [h2]; rfl), rfl, rfl, rfl⟩, hx⟩
  · rw [h2]
    intro hT
    exact absurd (hT 1 (by decide)) (by decide)
  · intro z hz
    simp only [List.mem_cons, List.not_mem_nil, or_false, or_self] at hz
    subst hz
    exact x2
  · rw [List.filter_cons_of_pos (by simp [hx]), List.filter_cons_of_pos (by simp [hx])]
    rfl

end Verif
