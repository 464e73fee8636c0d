import Verif.Spec.Runs
import Verif.Lemmas.Runs
import Verif.Lemmas.Release
import Verif.Props.EndToEnd
/-
C50: reports of several runs, merged. The counts of the merged report are the execution counts of all runs together.
-/
namespace Verif
open Node Visitor Sem Build Runtime Js Template

section
variable {cx : Ctx} {fuel : Nat} {path : String} {sm : Option SourceMap} {p p' : Node} {cov : SourceCoverage}

theorem Obtained.tells {V A : Type} {solid : V → Bool} {trs : List (List (Ev V A))} {c : FileCoverage}
    (hr : instrument cx fuel path sm p = .ok (p', cov)) (hf : cov.inner.Fits) (h : Obtained solid path p' cov.inner trs c) :
    Tells solid p' cov.inner trs c := by
  obtain ⟨w, covFn, gcv, st, rm, pre, es, ps, a, d, h1, h2, h3, h4, h5, h6, h7, h8, h9, h10⟩ := h.realm
  obtain ⟨ps', a', k1, k2, k3⟩ := C45_partial w hr hf covFn gcv st h1 V A solid trs h.complete h.few rm pre es h2 h3 h4 h5 h6
  rw [h7] at k1
  cases k1
  have k2 : ps.get path = some (.data (.ref a')) := k2
  rw [h8] at k2
  cases k2
  obtain ⟨d', c', k4, k5, _, k6⟩ := k3 _ h9
  cases k4
  rw [h10] at k5
  cases k5
  exact k6

theorem tables_of (hr : instrument cx fuel path sm p = .ok (p', cov)) :
    Paired cov.inner ∧ cov.inner.Keyed ∧ cov.inner.all = false := by
  obtain ⟨n, h, o⟩ := outcome hr
  refine ⟨o.finished.paired fun k hk => ?_, o.finished.keyed, o.finished.all⟩
  rcases Nat.lt_or_ge k (RegOp.branches h).length with h1 | h1
  · exact h1
  · exact (hk (RegOp.arms_eq_nil o.legal h1)).elim

/-- Without `reportLogic` there are no truthiness counts. -/
theorem inRange_of_plain (hr : instrument cx fuel path sm p = .ok (p', cov)) (hl : cx.reportLogic = false) :
    cov.inner.TruthInRange := by
  obtain ⟨n, h, o⟩ := outcome hr
  have h3 := o.bT_isSome
  rw [hl] at h3
  intro k hk
  rw [Option.not_isSome_iff_eq_none.1 (show ¬ cov.inner.bT.isSome by rw [h3]; simp)] at hk
  cases hk

/-- A property of reports, and of counts, that reports of runs have and that merging keeps, adding up the counts; and that the wrap-around of
counts keeps. -/
structure Additive {V A : Type} (solid : V → Bool) (p' : Node) (r : FileCoverage) (Q : (Counter → Nat) → FileCoverage → Prop) : Prop where
  leaf : ∀ (trs : List (List (Ev V A))) c, Tells solid p' r trs c → Q (fun k => (c.count k).getD 0) c
  merge : ∀ n n' a c, Q n a → Q n' c → ∃ m, a.merge c = .ok m ∧ Q (fun k => n k + n' k) m
  wrap : ∀ n m, Q n m → Q (fun k => wrap32 (n k)) (m.mapCounts wrap32)

theorem counted_additive (hr : instrument cx fuel path sm p = .ok (p', cov)) (hT : cov.inner.TruthInRange)
    (hd : cov.inner.DistinctLocs) {V A : Type} {solid : V → Bool} : Additive (A := A) solid p' cov.inner (Counted cov.inner) := by
  obtain ⟨hp, hk, hall⟩ := tables_of hr
  exact ⟨fun _ _ ht => ht.counted hp hk hd hall hT, fun _ _ _ _ ha hc => ha.merge (hp.apart hd) hc,
    fun _ _ h => h.mapCounts wrap32⟩

theorem grouping_of (hr : instrument cx fuel path sm p = .ok (p', cov)) (hf : cov.inner.Fits)
    {V A : Type} {solid : V → Bool} {Q : (Counter → Nat) → FileCoverage → Prop} (hQ : Additive (A := A) solid p' cov.inner Q)
    (runs : List (List (List (Ev V A)) × FileCoverage))
    (hruns : ∀ x ∈ runs, Obtained solid path p' cov.inner x.1 x.2) (t : MergeTree) (ht : t.leaves.Perm (runs.map (·.2))) :
    ∃ m n, t.eval = .ok m ∧ Q n m ∧ Executed p' cov.inner (runs.map (·.1)).flatten n ∧
      Gave solid p' cov.inner (runs.map (·.1)).flatten n := by
  have htell : ∀ x ∈ runs, Tells solid p' cov.inner x.1 x.2 := fun x hx => (hruns x hx).tells hr hf
  obtain ⟨m, h1, h2⟩ := tree_of hQ.merge (fun c k => (c.count k).getD 0) t (by
    intro c hc
    obtain ⟨x, hx, rfl⟩ := List.mem_map.1 (ht.mem_iff.1 hc)
    exact hQ.leaf _ _ (htell x hx))
  have sums : ∀ (f : List (Ev V A) → Nat) k, (∀ x ∈ runs, x.2.count k = some (x.1.map f).sum) →
      (t.leaves.map fun c => (c.count k).getD 0).sum = ((runs.map (·.1)).flatten.map f).sum := by
    intro f k hk
    rw [(ht.map _).sum_nat, List.map_map]
    clear ht hruns htell
    induction runs with
    | nil => rfl
    | cons x runs ih =>
      rw [List.map_cons, List.sum_cons, ih fun y hy => hk y (List.mem_cons_of_mem _ hy)]
      simp [hk x List.mem_cons_self]
  exact ⟨m, _, h1, h2, ⟨fun k t' hk h0 => sums _ k fun x hx => (htell x hx).begun k t' hk h0,
    fun k t' j hk h0 => sums _ k fun x hx => (htell x hx).entered k t' j hk h0⟩,
    fun k t' hk h0 => sums _ k fun x hx => (htell x hx).gave k t' hk h0⟩

/-- C50 for any grouping: however the reports of some runs are merged, the result tells about all executions. Missing: programs with
truthiness counts out of range, whose reports cannot be merged at all (`C54_aborts`), and programs whose report lists a location twice
(`C50_twice_fails`). -/
theorem C50_grouping_partial (hr : instrument cx fuel path sm p = .ok (p', cov)) (hf : cov.inner.Fits) (hT : cov.inner.TruthInRange)
    (hd : cov.inner.DistinctLocs) {V A : Type} {solid : V → Bool} (runs : List (List (List (Ev V A)) × FileCoverage))
    (hruns : ∀ x ∈ runs, Obtained solid path p' cov.inner x.1 x.2) (t : MergeTree) (ht : t.leaves.Perm (runs.map (·.2))) :
    ∃ m, t.eval = .ok m ∧ TellsAll p' cov.inner (runs.map (·.1)).flatten m := by
  obtain ⟨m, n, h1, h2, h3, -⟩ := grouping_of hr hf (counted_additive hr hT hd) runs hruns t ht
  exact ⟨m, h1, n, h2.toRecounts, h3⟩

theorem merging_both (hr : instrument cx fuel path sm p = .ok (p', cov)) (hf : cov.inner.Fits)
    {V A : Type} {solid : V → Bool} {Q : (Counter → Nat) → FileCoverage → Prop} (hQ : Additive (A := A) solid p' cov.inner Q)
    (runs : List (List (List (Ev V A)) × FileCoverage)) (hne : runs ≠ [])
    (hruns : ∀ x ∈ runs, Obtained solid path p' cov.inner x.1 x.2) (cs : List FileCoverage)
    (hcs : cs.filter (fun c => decide (c.path = path)) = runs.map (·.2)) (hother : ∀ c ∈ cs, c.path ≠ path → c.Shard) :
    ∃ M m n, CoverageMap.fromIter cs = .ok M ∧ M.getCoverageForFile path = some m ∧
      Q n m ∧ Executed p' cov.inner (runs.map (·.1)).flatten n ∧ Gave solid p' cov.inner (runs.map (·.1)).flatten n ∧
      ((∀ c ∈ cs, c.path ≠ path → c.Fits) → ∃ M', CoverageMap.fromIterRelease cs = .ok M' ∧
        M'.getCoverageForFile path = some (m.mapCounts wrap32)) := by
  obtain ⟨M, hM⟩ : ∃ M, CoverageMap.fromIter cs = .ok M := by
    refine addAll_ok (Q := fun q c => if q = path then ∃ n, Q n c else GoodShard c) ?_ cs [] nofun ?_
    · intro q a c ha hc
      by_cases hq : q = path
      · simp only [if_pos hq] at ha hc ⊢
        obtain ⟨n, ha⟩ := ha
        obtain ⟨n', hc⟩ := hc
        obtain ⟨m, h1, h2⟩ := hQ.merge _ _ _ _ ha hc
        exact ⟨m, h1, _, h2⟩
      · simp only [if_neg hq] at ha hc ⊢
        exact ha.merge hc
    · intro c hc
      by_cases hq : c.path = path
      · rw [if_pos hq]
        have : c ∈ runs.map (·.2) := hcs ▸ List.mem_filter.2 ⟨hc, by simpa using hq⟩
        obtain ⟨x, hx, rfl⟩ := List.mem_map.1 this
        exact ⟨_, hQ.leaf _ _ ((hruns x hx).tells hr hf)⟩
      · rw [if_neg hq]
        have := hother c hc hq
        exact ⟨this.wf, this.distinct, this.truth⟩
  have htree := addAll_tree path cs [] M hM
  rw [hcs] at htree
  obtain ⟨x, runs, rfl⟩ := List.exists_cons_of_ne_nil hne
  obtain ⟨m, h1, h2⟩ := htree
  obtain ⟨m', n, h3, h4, h5, h6⟩ := grouping_of hr hf hQ (x :: runs) hruns _
    (by rw [MergeTree.leaves_leftFold]; exact .refl _ : ((MergeTree.leaf x.2).leftFold (runs.map (·.2))).leaves.Perm _)
  rw [h1] at h3
  cases h3
  refine ⟨M, m, n, hM, h2, h4, h5, h6, fun hfits => ?_⟩
  have hrel := fromIterRelease_eq cs fun c hc => by
    by_cases hq : c.path = path
    · have : c ∈ (x :: runs).map (·.2) := hcs ▸ List.mem_filter.2 ⟨hc, by simpa using hq⟩
      obtain ⟨y, hy, rfl⟩ := List.mem_map.1 this
      obtain ⟨w, covFn, gcv, st, rm, pre, es, ps, a, d, -, -, -, -, -, -, -, -, -, h10⟩ := (hruns y hy).realm
      exact (Serde.coverage_some h10).2
    · exact hfits c hc hq
  rw [hM] at hrel
  refine ⟨_, hrel, ?_⟩
  have := get_mapVals (FileCoverage.mapCounts wrap32) M path
  rw [show IndexMap.get M path = some m from h2] at this
  exact this

theorem merging_of (hr : instrument cx fuel path sm p = .ok (p', cov)) (hf : cov.inner.Fits)
    {Q : (Counter → Nat) → FileCoverage → Prop}
    (hQ : ∀ (V A : Type) (solid : V → Bool), Additive (A := A) solid p' cov.inner Q) :
    Merged path p' cov.inner fun _ _ solid trs m =>
      ∃ n, Q n m ∧ Executed p' cov.inner trs n ∧ Gave solid p' cov.inner trs n := by
  intro V A solid runs hne hruns cs hcs hother
  obtain ⟨M, m, n, h1, h2, h3, h4, h5, h6⟩ := merging_both hr hf (hQ V A solid) runs hne hruns cs hcs hother
  refine ⟨⟨M, m, h1, h2, n, h3, h4, h5⟩, fun hfew hfits => ?_⟩
  obtain ⟨M', h7, h8⟩ := h6 hfits
  have hcomplete : ∀ tr ∈ (runs.map (·.1)).flatten, Complete solid p' tr := by
    intro tr htr
    obtain ⟨l, hl, htr⟩ := List.mem_flatten.1 htr
    obtain ⟨y, hy, rfl⟩ := List.mem_map.1 hl
    exact (hruns y hy).complete tr htr
  refine ⟨M', _, h7, h8, fun k => wrap32 (n k), (hQ V A solid).wrap _ _ h3, ⟨?_, ?_⟩, ?_⟩
  · intro k t hk h0
    rw [h4.begun k t hk h0, wrap32, Nat.mod_eq_of_lt]
    refine Nat.lt_of_le_of_lt (Nat.le_of_eq (sum_congr fun tr htr => ?_)) (hfew k)
    obtain ⟨o, o', k1, k2, k3⟩ := hcomplete tr htr
    obtain ⟨ε, k4, k5⟩ := hk V A solid tr o o' k1
    rw [slack_ne k2, slack_ne k3] at k4
    omega
  · intro k t j hk h0
    rw [h4.entered k t j hk h0, wrap32, Nat.mod_eq_of_lt]
    refine Nat.lt_of_le_of_lt (Nat.le_of_eq (sum_congr fun tr htr => ?_)) (hfew k)
    obtain ⟨o, o', k1, k2, k3⟩ := hcomplete tr htr
    obtain ⟨ε, k4, k5⟩ := hk V A solid tr o o' k1
    rw [slack_ne k2, slack_ne k3] at k4
    omega
  · intro k t hk h0
    beta_reduce
    rw [h5 k t hk h0, wrap32, Nat.mod_eq_of_lt]
    refine Nat.lt_of_le_of_lt (Nat.le_of_eq (sum_congr fun tr htr => ?_)) (hfew k)
    obtain ⟨o, o', k1, k2, k3⟩ := hcomplete tr htr
    obtain ⟨ε, k4, k5⟩ := hk V A solid tr o o' k1
    rw [slack_ne k2] at k4
    omega

theorem Merged.mono {r : FileCoverage} {P P' : (V A : Type) → (V → Bool) → List (List (Ev V A)) → FileCoverage → Prop}
    (h : Merged path p' r P) (hP : ∀ V A solid trs c, P V A solid trs c → P' V A solid trs c) : Merged path p' r P' := by
  intro V A solid runs h1 h2 cs h3 h4
  obtain ⟨⟨M, m, k1, k2, k3⟩, k4⟩ := h V A solid runs h1 h2 cs h3 h4
  refine ⟨⟨M, m, k1, k2, hP _ _ _ _ _ k3⟩, fun h5 h6 => ?_⟩
  obtain ⟨M', m', l1, l2, l3⟩ := k4 h5 h6
  exact ⟨M', m', l1, l2, hP _ _ _ _ _ l3⟩

theorem merging (hr : instrument cx fuel path sm p = .ok (p', cov)) (hf : cov.inner.Fits) (hT : cov.inner.TruthInRange)
    (hd : cov.inner.DistinctLocs) : Merged path p' cov.inner fun _ _ _ trs m =>
      ∃ n, Counted cov.inner n m ∧ Executed p' cov.inner trs n :=
  (merging_of hr hf fun _ _ _ => counted_additive hr hT hd).mono fun _ _ _ _ _ ⟨n, h1, h2, _⟩ => ⟨n, h1, h2⟩

/-- C50. A coverage map that is built from the reports of some runs, and reports on other files, has for the file a report that
lists what the instrumenter listed, with the execution counts of all runs together. -/
theorem C50_partial (hr : instrument cx fuel path sm p = .ok (p', cov)) (hf : cov.inner.Fits) (hT : cov.inner.TruthInRange)
    (hd : cov.inner.DistinctLocs) : Merged path p' cov.inner fun _ _ _ trs => TellsAll p' cov.inner trs :=
  (merging hr hf hT hd).mono fun _ _ _ _ _ ⟨n, h1, h2⟩ => ⟨n, h1.toRecounts, h2⟩

theorem Sem.TellsAll.statement {V A : Type} {r m : FileCoverage} {trs : List (List (Ev V A))}
    (h : TellsAll p' r trs m) {id : Nat} {l : Range} {t : Sem.Tag} (hs : (Tables.report r).statement id l)
    (hc : CountsBegun p' (.s id) t) :
    ∃ id', m.statementMap.get id' = some l ∧ m.s.get id' = some (trs.map fun tr => began t (visible tr)).sum := by
  obtain ⟨n, h1, ⟨h2, -⟩⟩ := h
  obtain ⟨id', h3, h4⟩ := h1.statement id l hs.1
  exact ⟨id', h3, h4.trans (congrArg some (h2 _ _ hc (C22_start_partial.1 _ _ hs)))⟩

theorem Sem.TellsAll.arm {V A : Type} {r m : FileCoverage} {trs : List (List (Ev V A))}
    (h : TellsAll p' r trs m) {b i : Nat} {t : BranchType} {sp asp : Span} (hb : HasBranch cx (.report r) b t sp)
    (ha : HasArm cx (.report r) b i asp) :
    ∃ b', m.HasArm b' i t (cx.range sp) (cx.range asp) ∧
      (∀ tg, CountsBegun p' (.b b i) tg → m.count (.b b' i) = some (trs.map fun tr => began tg (visible tr)).sum) ∧
      ∀ tg j, CountsEntered p' (.b b i) tg j → m.count (.b b' i) = some (trs.map fun tr => entered tg j (visible tr)).sum := by
  obtain ⟨n, h1, h2, h3⟩ := h
  have h0 := (C22_start_partial.2.2 _ _ _ _ hb ha).1
  obtain ⟨br, h4, h5⟩ := ha
  have h6 := (hb br h4).1
  obtain ⟨b', h7, h8⟩ := h1.branch b br h4
  have h9 := h8 i (List.getElem?_eq_some_iff.1 h5).1
  refine ⟨b', ⟨br, h7, by rw [h6], by rw [h6], h5⟩, fun tg ht => ?_, fun tg j ht => ?_⟩
  · rw [h9, h2 _ _ ht h0]
  · rw [h9, h3 _ _ _ ht h0]

/-- C50 for statements: in the merged report the statement has its range and, as its count, the number of times it began in all runs. -/
theorem C50_statements_partial (hp : Clean p) (hig : Hint.shouldIgnoreFile cx.cc cx.comments p.span = false)
    (hk : p.kind = .module ∨ p.kind = .script) (hr : instrument cx fuel path sm p = .ok (p', cov)) (hf : cov.inner.Fits)
    (hT : cov.inner.TruthInRange) (hd : cov.inner.DistinctLocs)
    (x : Node) (hx : InProgram cx p x) (hi : cx.ignores x = false) (l : List Node) (hl : l ∈ lists cx x) (s : Node)
    (hs : s ∈ ownStmts cx l) (ho : Only p (tag s)) (sp : Span) (hsp : sp ∈ dues cx s) :
    Merged path p' cov.inner fun _ _ _ trs m => ∃ id, m.statementMap.get id = some (cx.range sp) ∧
      m.s.get id = some (trs.map fun tr => began (tag s) (visible tr)).sum := by
  obtain ⟨id, h1, h2⟩ := C22_statements_partial hp hig hk hr x hx hi l hl s hs ho sp hsp
  exact (C50_partial hr hf hT hd).mono fun _ _ _ _ c hc => hc.statement h1 h2

/-- C50 for the statements of the program itself. -/
theorem C50_items_partial (hp : Clean p) (hig : Hint.shouldIgnoreFile cx.cc cx.comments p.span = false)
    (hk : p.kind = .module ∨ p.kind = .script) (hr : instrument cx fuel path sm p = .ok (p', cov)) (hf : cov.inner.Fits)
    (hT : cov.inner.TruthInRange) (hd : cov.inner.DistinctLocs)
    (s : Node) (hs : s ∈ ownStmts cx p.children) (ho : Only p (tag s)) (sp : Span) (hsp : sp ∈ itemDues cx p.kind s) :
    Merged path p' cov.inner fun _ _ _ trs m => ∃ id, m.statementMap.get id = some (cx.range sp) ∧
      m.s.get id = some (trs.map fun tr => began (tag s) (visible tr)).sum := by
  obtain ⟨id, h1, h2⟩ := C22_items_partial hp hig hk hr s hs ho sp hsp
  exact (C50_partial hr hf hT hd).mono fun _ _ _ _ c hc => hc.statement h1 h2

/-- C50 for initialisers. -/
theorem C50_initialisers_partial (hp : Clean p) (hig : Hint.shouldIgnoreFile cx.cc cx.comments p.span = false)
    (hk : p.kind = .module ∨ p.kind = .script) (hr : instrument cx fuel path sm p = .ok (p', cov)) (hf : cov.inner.Fits)
    (hT : cov.inner.TruthInRange) (hd : cov.inner.DistinctLocs)
    (x : Node) (hx : InProgram cx p x) (hi : cx.ignores x = false) (init : Node) (hn : initOf x = some init)
    (hw : wrappable x init = true) (ho : Only p (tag init)) :
    Merged path p' cov.inner fun _ _ _ trs m => ∃ id, m.statementMap.get id = some (cx.range init.span) ∧
      m.s.get id = some (trs.map fun tr => began (tag init) (visible tr)).sum := by
  obtain ⟨id, h1, h2⟩ := C22_initialisers_partial hp hig hk hr x hx hi init hn hw ho
  exact (C50_partial hr hf hT hd).mono fun _ _ _ _ c hc => hc.statement h1 h2

/-- C50 for functions: the count is the number of times the function was entered in all runs. (The name of an unnamed function has the
number that the instrumenter gave it.) -/
theorem C50_functions_partial (hp : Clean p) (hig : Hint.shouldIgnoreFile cx.cc cx.comments p.span = false)
    (hk : p.kind = .module ∨ p.kind = .script) (hr : instrument cx fuel path sm p = .ok (p', cov)) (hf : cov.inner.Fits)
    (hT : cov.inner.TruthInRange) (hd : cov.inner.DistinctLocs)
    (x : Node) (hx : InProgram cx p x) (hi : cx.ignores x = false) (name : Option String) (decl : Span) (body : Node)
    (hh : fnHead cx x = some (name, decl)) (hb : bodyOf x = some body)
    (hbk : body.kind = .block ∨ ∃ a, x.kind = .arrow a) (t : Sem.Tag) (j : Nat) (ht : bodyPart x = some (t, j)) (ho : Only p t) :
    ∃ id : Nat, Merged path p' cov.inner fun _ _ _ trs m => ∃ id',
      m.fnMap.get id' = some ⟨name.getD ("(anonymous_" ++ toString id ++ ")"), cx.range decl, cx.range body.span,
        (cx.range body.span).start.line⟩ ∧
      m.f.get id' = some (trs.map fun tr => entered t j (visible tr)).sum := by
  obtain ⟨id, h1, h2⟩ := C22_functions_partial hp hig hk hr x hx hi name decl body hh hb hbk t j ht ho
  refine ⟨id, (C50_partial hr hf hT hd).mono fun _ _ _ _ c hc => ?_⟩
  obtain ⟨n, h3, -, h4⟩ := hc
  obtain ⟨id', h5, h6⟩ := h3.function id _ h1.1
  exact ⟨id', h5, h6.trans (congrArg some (h4 _ _ _ h2 (C22_start_partial.2.1 _ _ h1)))⟩

/-- C50 for `if`. -/
theorem C50_if_partial (hp : Clean p) (hig : Hint.shouldIgnoreFile cx.cc cx.comments p.span = false)
    (hk : p.kind = .module ∨ p.kind = .script) (hr : instrument cx fuel path sm p = .ok (p', cov)) (hf : cov.inner.Fits)
    (hT : cov.inner.TruthInRange) (hd : cov.inner.DistinctLocs)
    (sp : Span) (test cons alt : Node) (hx : InProgram cx p (mk .ifStmt sp [test, cons, alt]))
    (hi : cx.ignores (mk .ifStmt sp [test, cons, alt]) = false) (ho : Only p (.ifStmt, sp)) :
    (cx.hint sp ≠ some .if → ∃ i, Merged path p' cov.inner fun _ _ _ trs m => ∃ b,
        m.HasArm b i .if (cx.range sp) (cx.range sp) ∧
        m.count (.b b i) = some (trs.map fun tr => entered (.ifStmt, sp) 1 (visible tr)).sum) ∧
      (cx.hint sp ≠ some .else → ∃ i, Merged path p' cov.inner fun _ _ _ trs m => ∃ b,
        m.HasArm b i .if (cx.range sp) (cx.range sp) ∧
        m.count (.b b i) = some (trs.map fun tr => entered (.ifStmt, sp) 2 (visible tr)).sum) := by
  obtain ⟨b, h1, h2, h3⟩ := C22_if_partial hp hig hk hr sp test cons alt hx hi ho
  refine ⟨fun h => ?_, fun h => ?_⟩
  · obtain ⟨i, h4, h5⟩ := h2 h
    refine ⟨i, (C50_partial hr hf hT hd).mono fun _ _ _ _ c hc => ?_⟩
    obtain ⟨b', k1, k2, k3⟩ := hc.arm h1 h4
    exact ⟨b', k1, k3 _ _ h5⟩
  · obtain ⟨i, h4, h5⟩ := h3 h
    refine ⟨i, (C50_partial hr hf hT hd).mono fun _ _ _ _ c hc => ?_⟩
    obtain ⟨b', k1, k2, k3⟩ := hc.arm h1 h4
    exact ⟨b', k1, k3 _ _ h5⟩

/-- C50 for `switch`. -/
theorem C50_cases_partial (hp : Clean p) (hig : Hint.shouldIgnoreFile cx.cc cx.comments p.span = false)
    (hk : p.kind = .module ∨ p.kind = .script) (hr : instrument cx fuel path sm p = .ok (p', cov)) (hf : cov.inner.Fits)
    (hT : cov.inner.TruthInRange) (hd : cov.inner.DistinctLocs)
    (sp : Span) (cs : List Node) (hx : InProgram cx p (mk .switchStmt sp cs)) (hi : cx.ignores (mk .switchStmt sp cs) = false)
    (csp : Span) (test : Node) (ss : List Node) (hm : mk .switchCase csp (test :: ss) ∈ cs) (hh : cx.hint csp ≠ some .next)
    (ho : Only p (.switchCase, csp)) :
    ∃ i, Merged path p' cov.inner fun _ _ _ trs m => ∃ b, m.HasArm b i .switch (cx.range sp) (cx.range csp) ∧
        m.count (.b b i) = some (trs.map fun tr => entered (.switchCase, csp) 1 (visible tr)).sum := by
  obtain ⟨b, h1, h2⟩ := C22_cases_partial hp hig hk hr sp cs hx hi
  obtain ⟨i, h4, h5⟩ := h2 csp test ss hm hh ho
  refine ⟨i, (C50_partial hr hf hT hd).mono fun _ _ _ _ c hc => ?_⟩
  obtain ⟨b', k1, k2, k3⟩ := hc.arm h1 h4
  exact ⟨b', k1, k3 _ _ h5⟩

/-- C50 for conditional expressions. -/
theorem C50_conditional_partial (hp : Clean p) (hig : Hint.shouldIgnoreFile cx.cc cx.comments p.span = false)
    (hk : p.kind = .module ∨ p.kind = .script) (hr : instrument cx fuel path sm p = .ok (p', cov)) (hf : cov.inner.Fits)
    (hT : cov.inner.TruthInRange) (hd : cov.inner.DistinctLocs)
    (sp : Span) (test cons alt : Node) (hx : InProgram cx p (mk .cond sp [test, cons, alt]))
    (hi : cx.ignores (mk .cond sp [test, cons, alt]) = false) (e : Node) (he : e ∈ [cons, alt]) (hh : cx.hinted e = false)
    (ho : Only p (tag e)) :
    ∃ i, Merged path p' cov.inner fun _ _ _ trs m => ∃ b, m.HasArm b i .condExpr (cx.range sp) (cx.range e.span) ∧
        m.count (.b b i) = some (trs.map fun tr => began (tag e) (visible tr)).sum := by
  obtain ⟨b, h1, h2⟩ := C22_conditional_partial hp hig hk hr sp test cons alt hx hi
  obtain ⟨i, h4, h5⟩ := h2 e he hh ho
  refine ⟨i, (C50_partial hr hf hT hd).mono fun _ _ _ _ c hc => ?_⟩
  obtain ⟨b', k1, k2, k3⟩ := hc.arm h1 h4
  exact ⟨b', k1, k2 _ h5⟩

/-- C50 for logical operators. -/
theorem C50_operands_partial (hp : Clean p) (hig : Hint.shouldIgnoreFile cx.cc cx.comments p.span = false)
    (hk : p.kind = .module ∨ p.kind = .script) (hr : instrument cx fuel path sm p = .ok (p', cov)) (hf : cov.inner.Fits)
    (hT : cov.inner.TruthInRange) (hd : cov.inner.DistinctLocs)
    (op : BinOp) (sp : Span) (left right : Node) (hop : op = .and ∨ op = .or ∨ op = .nullish)
    (hx : InProgram cx p (mk (.bin op) sp [left, right])) (hi : cx.ignores (mk (.bin op) sp [left, right]) = false)
    (e : Node) (he : e ∈ operands cx [left, right]) (ho : Only p (tag e)) :
    ∃ i, Merged path p' cov.inner fun _ _ _ trs m => ∃ b, m.HasArm b i .binaryExpr (cx.range sp) (cx.range e.span) ∧
        m.count (.b b i) = some (trs.map fun tr => began (tag e) (visible tr)).sum := by
  obtain ⟨b, h1, h2⟩ := C22_operands_partial hp hig hk hr op sp left right hop hx hi
  obtain ⟨i, h4, h5⟩ := h2 e he ho
  refine ⟨i, (C50_partial hr hf hT hd).mono fun _ _ _ _ c hc => ?_⟩
  obtain ⟨b', k1, k2, k3⟩ := hc.arm h1 h4
  exact ⟨b', k1, k2 _ h5⟩

/-- C50 for default values. -/
theorem C50_defaults_partial (hp : Clean p) (hig : Hint.shouldIgnoreFile cx.cc cx.comments p.span = false)
    (hk : p.kind = .module ∨ p.kind = .script) (hr : instrument cx fuel path sm p = .ok (p', cov)) (hf : cov.inner.Fits)
    (hT : cov.inner.TruthInRange) (hd : cov.inner.DistinctLocs)
    (sp : Span) (left right : Node) (hx : InProgram cx p (mk .assignPat sp [left, right]))
    (hi : cx.ignores (mk .assignPat sp [left, right]) = false) (e : Node) (he : e ∈ operands cx [right]) (ho : Only p (tag e)) :
    ∃ i, Merged path p' cov.inner fun _ _ _ trs m => ∃ b, m.HasArm b i .defaultArg (cx.range sp) (cx.range e.span) ∧
        m.count (.b b i) = some (trs.map fun tr => began (tag e) (visible tr)).sum := by
  obtain ⟨b, h1, h2⟩ := C22_defaults_partial hp hig hk hr sp left right hx hi
  obtain ⟨i, h4, h5⟩ := h2 e he ho
  refine ⟨i, (C50_partial hr hf hT hd).mono fun _ _ _ _ c hc => ?_⟩
  obtain ⟨b', k1, k2, k3⟩ := hc.arm h1 h4
  exact ⟨b', k1, k2 _ h5⟩

/-! ### C51: summaries -/

/-- C51. The totals of the summary of the merged report are the numbers of statements, functions, arms and lines that the
instrumenter listed, and of those that were executed in some run. -/
theorem C51_partial (hr : instrument cx fuel path sm p = .ok (p', cov)) (hf : cov.inner.Fits) (hT : cov.inner.TruthInRange)
    (hd : cov.inner.DistinctLocs) : Merged path p' cov.inner fun _ _ _ trs m =>
      ∃ sum n, m.toSummary = .ok sum ∧ Executed p' cov.inner trs n ∧ sum.Sums cov.inner n := by
  refine (merging hr hf hT hd).mono fun _ _ _ _ m ⟨n, h1, h2⟩ => ?_
  obtain ⟨hp, hk, -⟩ := tables_of hr
  obtain ⟨sum, h3, h4⟩ := h1.sums hp hk hd
  exact ⟨sum, n, h3, h2, h4⟩

/-- C51, the consequence for coverage of all statements: it is reported if and only if all were executed. -/
theorem C51_complete_partial (hr : instrument cx fuel path sm p = .ok (p', cov)) (hf : cov.inner.Fits) (hT : cov.inner.TruthInRange)
    (hd : cov.inner.DistinctLocs) : Merged path p' cov.inner fun _ _ _ trs m =>
      ∃ sum n, m.toSummary = .ok sum ∧ Executed p' cov.inner trs n ∧
        (sum.statements.covered = sum.statements.total ↔ ∀ id l, cov.inner.statementMap.get id = some l → 0 < n (.s id)) ∧
        (sum.functions.covered = sum.functions.total ↔ ∀ id x, cov.inner.fnMap.get id = some x → 0 < n (.f id)) ∧
        (sum.branches.covered = sum.branches.total ↔
          ∀ id x i, cov.inner.branchMap.get id = some x → i < x.locations.length → 0 < n (.b id i)) := by
  refine (C51_partial hr hf hT hd).mono fun _ _ _ _ m ⟨sum, n, h1, h2, h3⟩ => ⟨sum, n, h1, h2, ?_, ?_, ?_⟩
  · obtain ⟨hp, hk, -⟩ := tables_of hr
    rw [h3.statements, h3.statementsCovered, List.countP_eq_length]
    exact ⟨fun h id l hid => of_decide_eq_true (h (id, l) (IndexMap.mem_of_get hid)),
      fun h e he => decide_eq_true (h e.1 e.2 (IndexMap.get_of_mem hk.statementMap he))⟩
  · obtain ⟨hp, hk, -⟩ := tables_of hr
    rw [h3.functions, h3.functionsCovered, List.countP_eq_length]
    exact ⟨fun h id l hid => of_decide_eq_true (h (id, l) (IndexMap.mem_of_get hid)),
      fun h e he => decide_eq_true (h e.1 e.2 (IndexMap.get_of_mem hk.fnMap he))⟩
  · obtain ⟨hp, hk, -⟩ := tables_of hr
    have hle : ∀ e ∈ cov.inner.branchMap, ((List.range e.2.locations.length).countP fun i => decide (0 < n (.b e.1 i))) ≤
        e.2.locations.length := fun e _ => Nat.le_trans List.countP_le_length (Nat.le_of_eq List.length_range)
    rw [h3.branches, h3.branchesCovered, sum_eq_iff hle]
    have hall : ∀ (k len : Nat), (List.range len).countP (fun i => decide (0 < n (.b k i))) = len ↔ ∀ i, i < len → 0 < n (.b k i) := by
      intro k len
      have := List.countP_eq_length (p := fun i => decide (0 < n (.b k i))) (l := List.range len)
      rw [List.length_range] at this
      rw [this]
      simp
    exact ⟨fun h id x i hid hi => (hall id _).1 (h (id, x) (IndexMap.mem_of_get hid)) i hi,
      fun h e he => (hall e.1 _).2 fun i hi => h e.1 e.2 i (IndexMap.get_of_mem hk.branchMap he) hi⟩

/-! ### C53: lines -/

theorem lines_of (hr : instrument cx fuel path sm p = .ok (p', cov)) : ∀ e ∈ cov.inner.branchMap, e.2.line.isSome := by
  obtain ⟨n, h, o⟩ := outcome hr
  intro e he
  have h1 := o.finished.branchMap e.1
  rw [IndexMap.get_of_mem o.finished.keyed.branchMap he] at h1
  obtain ⟨x, -, h2⟩ := Option.bind_eq_some_iff.1 h1.symm
  split at h2
  · cases h2
  · rw [← Option.some.inj h2]
    rfl

/-- C53. The lines of the merged report: the count of a line is the largest number of executions of a statement that starts there;
the lines called uncovered are those with statements none of which was executed in any run; and the arms of a line are those of the
branches that start there, covered if they were taken in some run. -/
theorem C53_partial (hr : instrument cx fuel path sm p = .ok (p', cov)) (hf : cov.inner.Fits) (hT : cov.inner.TruthInRange)
    (hd : cov.inner.DistinctLocs) : Merged path p' cov.inner fun _ _ _ trs m =>
      ∃ n, Executed p' cov.inner trs n ∧ m.LinesOf cov.inner n := by
  refine (merging hr hf hT hd).mono fun _ _ _ _ m ⟨n, h1, h2⟩ => ⟨n, h2, ?_⟩
  obtain ⟨hp, hk, -⟩ := tables_of hr
  exact h1.lines hp hk hd (lines_of hr)

/-- For any executions of the source program there is a run from which a report on them is obtained. -/
theorem C50_obtained_partial (w : World) (hc : Clean p) (hU : UnnamedFields p) (hF : FewDirectives p)
    (hr : instrument cx fuel path sm p = .ok (p', cov)) (hf : cov.inner.Fits)
    (hl : cx.reportLogic = false ∨ p.any (· = .assignPat) = false)
    {covFn gcv : String} {st : State} (hp : Pristine gcv st)
    (hfn : covFn ∉ ["path", "hash", "global", "gcv", "coverageData", "coverage", "actualCoverage"]) (hpath : path ≠ "__proto__")
    {p0 p2 : IndexMap String Cell} {c0 c2 : Cls} (h0 : st.heap[objectProto]? = some ⟨c0, none, p0⟩)
    (h2 : st.heap[arrayProto]? = some ⟨c2, some objectProto, p2⟩) (t0 : p0.get "toJSON" = none)
    (t2 : p2.get "toJSON" = none) {V A : Type} {solid : V → Bool} (trs : List (List (Ev V A)))
    (hx : ∀ tr ∈ trs, Complete solid p tr) (hlen : (trs.map fun tr => tr.length + 1).sum < 2 ^ 32) :
    ∃ (trs' : List (List (Ev V A))) (c : FileCoverage), trs'.map visible = trs ∧ Obtained solid path p' cov.inner trs' c := by
  obtain ⟨trs', k1, k2, r, es, ps, a, d, c, k3, k4, k5, k6, k7, k8, k9, k10, k11⟩ :=
    C45_source_partial w hc hU hF hr hf hl hp hfn hpath h0 h2 t0 t2 trs hx hlen
  have hn : ∀ k, (trs'.map fun tr => Sem.counted k tr).sum < 2 ^ 32 := by
    intro k
    refine Nat.lt_of_le_of_lt ?_ hlen
    rw [← k1, List.map_map]
    refine sum_le fun tr htr => ?_
    obtain ⟨o, o', h5, _⟩ := k2 tr htr
    have h6 := exec_few (c := k) h5
    have h7 : cc k p' * ((visible tr).length + 1) ≤ 1 * ((visible tr).length + 1) :=
      Nat.mul_le_mul_right _ ((followed hc hr).once k)
    simp only [Function.comp]
    omega
  obtain ⟨ps', a', m1, m2, m3⟩ := C45_partial w hr hf covFn gcv st hp V A solid trs' k2 hn r [] es nofun k4 k3 k5 k6
  rw [k7] at m1
  cases m1
  have m2 : ps.get path = some (.data (.ref a')) := m2
  rw [k8] at m2
  cases m2
  obtain ⟨d', c', m4, m5, _, _⟩ := m3 _ ((k9 _).2 rfl)
  cases m4
  exact ⟨trs', c', k1, k2, hn, w, covFn, gcv, st, r, [], es, ps, a, d, hp, nofun, k4, k3, k5, k6, k7, k8, (k9 _).2 rfl, m5⟩

end

/-! ### Concrete cases -/

theorem bothCallsReport_fits : bothCallsReport.Fits := by
  refine ⟨?_, ?_, ?_, ?_, ?_, ?_, ?_, ?_⟩ <;>
    simp [bothCallsReport, FileCoverage.empty, IndexMap.Fits, Range.Fits, Location.Fits, Branch.Fits, Ctx.range, plain, at']

/-- `f() && g()` in two runs: `f` returns 7 in the first and 0 in the second. Whatever reports are obtained from them (and there
are some), merged after a report on another file the statement and the first operand have the count 2 and the second
operand has the count 1. -/
example : ∃ p' cov, run plain bothCalls = .ok (p', cov) ∧ ∃ (x y : List (List (Ev Nat Unit)) × FileCoverage),
    Obtained (fun v => v != 0) "/f.js" p' cov.inner x.1 x.2 ∧ Obtained (fun v => v != 0) "/f.js" p' cov.inner y.1 y.2 ∧
    x.1.map visible = [bothCallsTrace] ∧ y.1.map visible = [oneCallTrace] ∧
    ∃ M m, CoverageMap.fromIter [MergeEx.shardA, x.2, y.2] = .ok M ∧ M.getCoverageForFile "/f.js" = some m ∧
      (∃ id, m.statementMap.get id = some (plain.range (at' 1)) ∧ m.s.get id = some 2) ∧
      (∃ b i, m.HasArm b i .binaryExpr (plain.range (at' 2)) (plain.range (at' 3)) ∧ m.count (.b b i) = some 2) ∧
      ∃ b i, m.HasArm b i .binaryExpr (plain.range (at' 2)) (plain.range (at' 5)) ∧ m.count (.b b i) = some 1 := by
  have h : yields (run plain bothCalls) (fun _ c => c = bothCallsReport) = true := by decide +kernel
  obtain ⟨p', cov, h1, h2⟩ := of_yields h
  have h2 : cov.inner = bothCallsReport := of_decide_eq_true h2
  have hc : Clean bothCalls := by unfold Clean; decide +kernel
  have hf : cov.inner.Fits := h2 ▸ bothCallsReport_fits
  have hd : cov.inner.DistinctLocs := by rw [h2]; exact MergeEx.distinct_of (by decide +kernel)
  have get : ∀ tr : List (Ev Nat Unit), Complete (fun v => v != 0) bothCalls tr → tr.length < 100 →
      ∃ x : List (List (Ev Nat Unit)) × FileCoverage, x.1.map visible = [tr] ∧
        Obtained (fun v => v != 0) "/f.js" p' cov.inner x.1 x.2 := by
    intro tr htr hlen
    obtain ⟨trs', c, k1, k2⟩ := C50_obtained_partial noWorld hc (by decide +kernel) (by decide +kernel) h1 hf (.inl rfl) freshRealm_pristine
      (covFn := "cov_1") (by decide) (by decide) rfl rfl rfl rfl [tr] (solid := fun v => v != 0)
      (fun x hx => by rw [List.mem_singleton.1 hx]; exact htr) (by simp; omega)
    exact ⟨(trs', c), k1, k2⟩
  obtain ⟨x, x1, x2⟩ := get bothCallsTrace ⟨_, _, bothCalls_exec, nofun, nofun⟩ (by decide +kernel)
  obtain ⟨y, y1, y2⟩ := get oneCallTrace ⟨_, _, oneCall_exec, nofun, nofun⟩ (by decide +kernel)
  refine ⟨p', cov, h1, x, y, x2, y2, x1, y1, ?_⟩
  have hx : x.2.path = "/f.js" := (x2.tells h1 hf).path.trans (by rw [h2]; rfl)
  have hy : y.2.path = "/f.js" := (y2.tells h1 hf).path.trans (by rw [h2]; rfl)
  have sums : ∀ f : List (Ev Nat Unit) → Nat, (([x, y].map (·.1)).flatten.map fun tr => f (visible tr)).sum =
      f bothCallsTrace + f oneCallTrace := by
    intro f
    have : ([x, y].map (·.1)).flatten.map (fun tr => f (visible tr)) = (x.1.map visible ++ y.1.map visible).map f := by
      simp [List.map_append, Function.comp_def]
    rw [this, x1, y1]
    simp
  have merged : ∀ {P}, Merged "/f.js" p' cov.inner P → ∃ M m, CoverageMap.fromIter [MergeEx.shardA, x.2, y.2] = .ok M ∧
      M.getCoverageForFile "/f.js" = some m ∧ P Nat Unit (fun v => v != 0) ([x, y].map (·.1)).flatten m := by
    intro P h
    refine (h Nat Unit _ [x, y] (by simp) ?_ [MergeEx.shardA, x.2, y.2] ?_ ?_).1
    · intro z hz
      simp only [List.mem_cons, List.not_mem_nil, or_false] at hz
      rcases hz with rfl | rfl
      · exact x2
      · exact y2
    · rw [List.filter_cons_of_neg (by decide), List.filter_cons_of_pos (by simp [hx]), List.filter_cons_of_pos (by simp [hy])]
      rfl
    · intro z hz hne
      simp only [List.mem_cons, List.not_mem_nil, or_false] at hz
      rcases hz with rfl | rfl | rfl
      · exact ⟨MergeEx.shardA_wf, MergeEx.shardA_distinct, .inl rfl⟩
      · exact (hne hx).elim
      · exact (hne hy).elim
  obtain ⟨z, hz, hz'⟩ := inProgram_find (cx := plain) (p := bothCalls) (i := 0) (is := [0])
    (f := fun x => x = bin 2 .and (call 3 (ident 4 "f") []) (call 5 (ident 6 "g") [])) (by decide +kernel)
  cases of_decide_eq_true hz'
  obtain ⟨M, m, e1, e2, id, e3, e4⟩ := merged (C50_items_partial hc (by decide +kernel) (.inl rfl) h1 hf (inRange_of_plain h1 rfl) hd
    (expr 1 (bin 2 .and (call 3 (ident 4 "f") []) (call 5 (ident 6 "g") [])))
    (List.mem_filter.2 ⟨List.mem_cons_self .., by decide +kernel⟩) (by decide +kernel) (at' 1) (by decide +kernel))
  obtain ⟨i, hi⟩ := C50_operands_partial hc (by decide +kernel) (.inl rfl) h1 hf (inRange_of_plain h1 rfl) hd .and (at' 2) _ _ (.inl rfl) hz
    (by decide +kernel) (call 3 (ident 4 "f") []) (by decide +kernel) (by decide +kernel)
  obtain ⟨j, hj⟩ := C50_operands_partial hc (by decide +kernel) (.inl rfl) h1 hf (inRange_of_plain h1 rfl) hd .and (at' 2) _ _ (.inl rfl) hz
    (by decide +kernel) (call 5 (ident 6 "g") []) (by decide +kernel) (by decide +kernel)
  obtain ⟨M', m', f1, f2, b, f3, f4⟩ := merged hi
  obtain ⟨M'', m'', g1, g2, b', g3, g4⟩ := merged hj
  rw [e1] at f1 g1
  cases f1
  cases g1
  rw [e2] at f2 g2
  cases f2
  cases g2
  refine ⟨M, m, e1, e2, ⟨id, e3, ?_⟩, ⟨b, i, f3, ?_⟩, b', j, g3, ?_⟩
  · rw [e4, sums]
    decide +kernel
  · rw [f4, sums]
    decide +kernel
  · rw [g4, sums]
    decide +kernel

theorem lines_bothCalls {m : FileCoverage} {n : Counter → Nat} (h : m.LinesOf bothCallsReport n) (n0 : n (.s 0) = 1)
    (n1 : n (.b 0 0) = 1) (n2 : n (.b 0 1) = 0) :
    m.getUncoveredLines = .ok [] ∧ ∃ bl, m.getBranchCoverageByLine = .ok bl ∧ bl.get 2 = some (1, 2) := by
  constructor
  · obtain ⟨ls, l1, -, l2⟩ := h.uncovered
    have : ls = [] := by
      refine List.eq_nil_iff_forall_not_mem.2 fun l hl => ?_
      obtain ⟨⟨e, he, h1⟩, h3⟩ := (l2 l).1 hl
      have h4 := h3 e he h1
      have he : e ∈ [((0 : Nat), plain.range (at' 1))] := he
      rw [List.mem_singleton.1 he, n0] at h4
      cases h4
    rw [l1, this]
  · obtain ⟨bl, l1, l2⟩ := h.arms
    exact ⟨bl, l1, (l2 2 1 2).2 (by simp [bothCallsReport, n1, n2, List.range_succ])⟩

/-- `f() && g()` in one run in which `f` returns 0: one statement, on one line, covered; one of two arms covered. -/
example : ∃ p' cov, run plain bothCalls = .ok (p', cov) ∧ ∃ y : List (List (Ev Nat Unit)) × FileCoverage,
    Obtained (fun v => v != 0) "/f.js" p' cov.inner y.1 y.2 ∧ y.1.map visible = [oneCallTrace] ∧
    ∃ M m sum, CoverageMap.fromIter [y.2] = .ok M ∧ M.getCoverageForFile "/f.js" = some m ∧ m.toSummary = .ok sum ∧
      sum.statements.total = 1 ∧ sum.statements.covered = 1 ∧ sum.lines.total = 1 ∧ sum.lines.covered = 1 ∧
      sum.branches.total = 2 ∧ sum.branches.covered = 1 ∧
      m.getUncoveredLines = .ok [] ∧ ∃ bl, m.getBranchCoverageByLine = .ok bl ∧ bl.get 2 = some (1, 2) := by
  have h : yields (run plain bothCalls) (fun _ c => c = bothCallsReport) = true := by decide +kernel
  obtain ⟨p', cov, h1, h2⟩ := of_yields h
  have h2 : cov.inner = bothCallsReport := of_decide_eq_true h2
  have hc : Clean bothCalls := by unfold Clean; decide +kernel
  have hf : cov.inner.Fits := h2 ▸ bothCallsReport_fits
  have hd : cov.inner.DistinctLocs := by rw [h2]; exact MergeEx.distinct_of (by decide +kernel)
  obtain ⟨trs', c, y1, y2⟩ := C50_obtained_partial noWorld hc (by decide +kernel) (by decide +kernel) h1 hf (.inl rfl) freshRealm_pristine
      (covFn := "cov_1") (by decide) (by decide) rfl rfl rfl rfl [oneCallTrace] (solid := fun v => v != 0)
      (fun x hx => by rw [List.mem_singleton.1 hx]; exact ⟨_, _, oneCall_exec, nofun, nofun⟩) (by decide +kernel)
  refine ⟨p', cov, h1, (trs', c), y2, y1, ?_⟩
  have hy : c.path = "/f.js" := (y2.tells h1 hf).path.trans (by rw [h2]; rfl)
  obtain ⟨⟨M, m, k1, k2, n, kc, k4⟩, -⟩ := merging h1 hf (inRange_of_plain h1 rfl) hd Nat Unit (fun v => v != 0) [(trs', c)] (by simp)
    (fun x hx => by rw [List.mem_singleton.1 hx]; exact y2) [c] (by simp [hy])
    (fun x hx hne => by rw [List.mem_singleton.1 hx] at hne; exact (hne hy).elim)
  have sums : ∀ f : List (Ev Nat Unit) → Nat, (([(trs', c)].map (·.1)).flatten.map fun tr => f (visible tr)).sum = f oneCallTrace := by
    intro f
    have : ([(trs', c)].map (·.1)).flatten.map (fun tr => f (visible tr)) = (trs'.map visible).map f := by
      simp [Function.comp_def]
    rw [this, y1]
    simp
  obtain ⟨id, s1, s2⟩ := C22_items_partial hc (by decide +kernel) (.inl rfl) h1
    (expr 1 (bin 2 .and (call 3 (ident 4 "f") []) (call 5 (ident 6 "g") [])))
    (List.mem_filter.2 ⟨List.mem_cons_self .., by decide +kernel⟩) (by decide +kernel) (at' 1) (by decide +kernel)
  have hid : id = 0 := by
    have := s1.1
    rw [h2] at this
    rcases List.mem_singleton.1 (IndexMap.mem_of_get this)
    rfl
  subst hid
  obtain ⟨x, hx, hx'⟩ := inProgram_find (cx := plain) (p := bothCalls) (i := 0) (is := [0])
    (f := fun x => x = bin 2 .and (call 3 (ident 4 "f") []) (call 5 (ident 6 "g") [])) (by decide +kernel)
  cases of_decide_eq_true hx'
  obtain ⟨b, b1, b2⟩ := C22_operands_partial hc (by decide +kernel) (.inl rfl) h1 .and (at' 2) _ _ (.inl rfl) hx (by decide +kernel)
  obtain ⟨i, i1, i2⟩ := b2 (call 3 (ident 4 "f") []) (by decide +kernel) (by decide +kernel)
  obtain ⟨j, j1, j2⟩ := b2 (call 5 (ident 6 "g") []) (by decide +kernel) (by decide +kernel)
  have hb : b = 0 := by
    obtain ⟨br, h3, _⟩ := i1
    rw [h2] at h3
    rcases List.mem_singleton.1 (IndexMap.mem_of_get h3)
    rfl
  subst hb
  have hloc : ∀ {n : Nat} {l : Range}, (Tables.report cov.inner).arm 0 n l →
      [plain.range (at' 3), plain.range (at' 5)][n]? = some l := by
    rintro n l ⟨br, h3, h4⟩
    rw [h2] at h3
    cases Option.some.inj h3
    exact h4
  have hi : i = 0 := by
    have := hloc i1
    rcases i with _ | _ | _
    · rfl
    · revert this; decide +kernel
    · cases this
  have hj : j = 1 := by
    have := hloc j1
    rcases j with _ | _ | _
    · revert this; decide +kernel
    · rfl
    · cases this
  subst hi hj
  have n0 : n (.s 0) = 1 := by
    rw [k4.begun _ _ s2 (C22_start_partial.1 _ _ s1), sums]
    decide +kernel
  have n1 : n (.b 0 0) = 1 := by
    rw [k4.begun _ _ i2 (C22_start_partial.2.2 _ _ _ _ b1 i1).1, sums]
    decide +kernel
  have n2 : n (.b 0 1) = 0 := by
    rw [k4.begun _ _ j2 (C22_start_partial.2.2 _ _ _ _ b1 j1).1, sums]
    decide +kernel
  obtain ⟨hp, hk, -⟩ := tables_of h1
  obtain ⟨sum, k3, k5⟩ := kc.sums hp hk hd
  have k6 := kc.lines hp hk hd (lines_of h1)
  rw [h2] at k5 k6
  refine ⟨M, m, sum, k1, k2, k3, k5.statements, ?_, ?_, ?_, k5.branches, ?_, ?_, ?_⟩
  · rw [k5.statementsCovered]
    simp [bothCallsReport, n0]
  · exact k5.lines [1] (by decide) (by simp [bothCallsReport, plain, Ctx.range, at', eq_comm])
  · exact k5.linesCovered [1] (by decide) (by simp [bothCallsReport, plain, Ctx.range, at', n0, eq_comm])
  · rw [k5.branchesCovered]
    simp [bothCallsReport, n1, n2, List.range_succ]
  · exact (lines_bothCalls k6 n0 n1 n2).1
  · exact (lines_bothCalls k6 n0 n1 n2).2

/-! ### Failures -/

/-- `f(); tag``` -/
def callThenTag : Node := Build.module [expr 1 (call 1 (ident 1 "f") []), expr 2 (tagged 2 (ident 2 "tag") [])]

/-- What happens if `f` throws. -/
def callThrows : List (Ev Unit Unit) :=
  let f := call 1 (ident 1 "f") []
  let s := expr 1 f
  [.present (face callThenTag), .present (face s), .pick 1 0 (face s), .present (face f), .answer (.abrupt ()), .got (.abrupt ()),
    .answer (.abrupt ()), .got (.abrupt ()), .answer (.abrupt ())] ++ [.answer (.normal none)]

/-- What happens if it does not. -/
def callReturns : List (Ev Unit Unit) :=
  let f := call 1 (ident 1 "f") []
  let s := expr 1 f
  let g := tagged 2 (ident 2 "tag") []
  let t := expr 2 g
  [.present (face callThenTag), .present (face s), .pick 1 0 (face s), .present (face f), .answer (.normal none), .got (.normal none),
    .answer (.normal none), .present (face t), .pick 3 0 (face t), .present (face g), .answer (.normal none), .got (.normal none),
    .answer (.normal none), .got (.normal none), .answer (.normal none)] ++ [.answer (.normal none)]

theorem callThrows_exec : Exec (fun _ => true) callThenTag callThrows (.abrupt ()) (.normal none) := by
  refine ⟨_, _, _, _, rfl, .block rfl (.stop rfl (.node rfl (.pick rfl rfl (.node rfl (.answer ?_)) ?_ (.answer ?_))) rfl) ?_
    (.answer ?_), .answer ?_⟩ <;> nofun

theorem callReturns_exec : Exec (fun _ => true) callThenTag callReturns (.normal none) (.normal none) := by
  refine ⟨_, _, _, _, rfl, .block rfl (.next rfl (.node rfl (.pick rfl rfl (.node rfl (.answer ?_)) ?_ (.answer ?_)))
    (.next rfl (.node rfl (.pick rfl rfl (.node rfl (.answer ?_)) ?_ (.answer ?_))) .nil)) ?_
    (.answer ?_), .answer ?_⟩ <;> nofun

/-- C50 fails if a location is listed twice (C34): the statement is not executed in the first run, as `f` throws, and once in the
second run, but the merged report says that it was executed at least twice. -/
theorem C50_twice_fails : ∃ p p' cov, Clean p ∧ run plain p = .ok (p', cov) ∧ cov.inner.Fits ∧
    ∃ (x y : List (List (Ev Unit Unit)) × FileCoverage), Obtained (fun _ => true) "/f.js" p' cov.inner x.1 x.2 ∧
      Obtained (fun _ => true) "/f.js" p' cov.inner y.1 y.2 ∧
      (x.1.map fun tr => began (.exprStmt, at' 2) (visible tr)).sum = 0 ∧
      (y.1.map fun tr => began (.exprStmt, at' 2) (visible tr)).sum = 1 ∧
      ∃ m, x.2.merge y.2 = .ok m ∧ 2 ≤ m.statementCount (plain.range (at' 2)) := by
  let r : FileCoverage := { FileCoverage.empty "/f.js" false with
    statementMap := [(0, plain.range (at' 1)), (1, plain.range (at' 2)), (2, plain.range (at' 2))]
    s := [(0, 0), (1, 0), (2, 0)] }
  let items : List Node := [counterStmt (.s 0), mk .covDecl Span.dummy [], mk .covCall Span.dummy [],
    expr 1 (call 1 (ident 1 "f") [])]
  have h : yields (run plain callThenTag) (fun p' c => c = r ∧ p' = mk .module callThenTag.span
      (items ++ ([counterStmt (.s 1), counterStmt (.s 2)] ++ [expr 2 (tagged 2 (ident 2 "tag") [])]))) = true := by decide +kernel
  obtain ⟨p', cov, h1, h2⟩ := of_yields h
  obtain ⟨h2, h3⟩ := of_decide_eq_true h2
  have hc : Clean callThenTag := by unfold Clean; decide +kernel
  have hf : cov.inner.Fits := by
    rw [h2]
    refine ⟨?_, ?_, ?_, ?_, ?_, ?_, ?_, ?_⟩ <;>
      simp [r, FileCoverage.empty, IndexMap.Fits, Range.Fits, Location.Fits, Ctx.range, plain, at']
  have get : ∀ tr : List (Ev Unit Unit), Complete (fun _ => true) callThenTag tr → tr.length < 100 →
      ∃ x : List (List (Ev Unit Unit)) × FileCoverage, x.1.map visible = [tr] ∧
        Obtained (fun _ => true) "/f.js" p' cov.inner x.1 x.2 := by
    intro tr htr hlen
    obtain ⟨trs', c, k1, k2⟩ := C50_obtained_partial noWorld hc (by decide +kernel) (by decide +kernel) h1 hf (.inl rfl) freshRealm_pristine
      (covFn := "cov_1") (by decide) (by decide) rfl rfl rfl rfl [tr] (solid := fun _ => true)
      (fun x hx => by rw [List.mem_singleton.1 hx]; exact htr) (by simp; omega)
    exact ⟨(trs', c), k1, k2⟩
  obtain ⟨x, x1, x2⟩ := get callThrows ⟨_, _, callThrows_exec, nofun, nofun⟩ (by decide +kernel)
  obtain ⟨y, y1, y2⟩ := get callReturns ⟨_, _, callReturns_exec, nofun, nofun⟩ (by decide +kernel)
  have one : ∀ {x : List (List (Ev Unit Unit)) × FileCoverage} {tr}, x.1.map visible = [tr] →
      (x.1.map fun tr => began (.exprStmt, at' 2) (visible tr)).sum = began (.exprStmt, at' 2) tr := by
    intro x tr h
    have : (x.1.map fun tr => began (.exprStmt, at' 2) (visible tr)) = (x.1.map visible).map (began (.exprStmt, at' 2)) := by
      rw [List.map_map]
      rfl
    rw [this, h]
    simp
  obtain ⟨hp, hk, hall⟩ := tables_of h1
  have tx := x2.tells h1 hf
  have ty := y2.tells h1 hf
  have hbT : x.2.bT = none := by
    have h3 := tx.bT
    rw [h2] at h3
    exact Option.not_isSome_iff_eq_none.1 (by rw [h3]; simp [r, FileCoverage.empty])
  obtain ⟨m, hm, R⟩ := merge_real (tx.wellFormed hp) (ty.wellFormed hp) (.inl hbT) (tx.all.trans hall) (ty.all.trans hall)
  refine ⟨callThenTag, p', cov, hc, h1, hf, x, y, x2, y2, by rw [one x1]; decide +kernel, by rw [one y1]; decide +kernel, m, hm, ?_⟩
  refine Nat.le_trans ?_ (R.statementGe _)
  have count : ∀ i, i = 1 ∨ i = 2 → y.2.s.get i = some 1 := by
    intro i hi
    have hcb : CountsBegun p' (.s i) (tag (expr 2 (tagged 2 (ident 2 "tag") []))) := by
      subst h3
      refine (followed hc h1).listed (s' := expr 2 (tagged 2 (ident 2 "tag") []))
        (pre := items ++ [counterStmt (.s 1), counterStmt (.s 2)]) (post := []) (by decide +kernel) ?_ rfl (.here _) (by
          simp [look]) ⟨items, _, rfl, ?_, ?_⟩
      · unfold Clean; decide +kernel
      · intro z hz
        simp only [List.mem_cons, List.not_mem_nil, or_false] at hz
        rcases hz with rfl | rfl <;> rfl
      · rcases hi with rfl | rfl <;> simp
    have := ty.begun _ _ hcb (by rw [h2]; rcases hi with rfl | rfl <;> rfl)
    refine Eq.trans this ?_
    rw [show tag (expr 2 (tagged 2 (ident 2 "tag") [])) = (.exprStmt, at' 2) from rfl, one y1]
    decide +kernel
  have at2 : ∀ i, i = 1 ∨ i = 2 → y.2.statementMap.get i = some (plain.range (at' 2)) := by
    intro i hi
    rw [ty.statementMap, h2]
    rcases hi with rfl | rfl <;> rfl
  exact two_le_countAt (i := 1) (j := 2) (by decide) (IndexMap.mem_of_get (count 1 (.inl rfl))) (IndexMap.mem_of_get (count 2 (.inr rfl)))
    (at2 1 (.inl rfl)) (at2 2 (.inr rfl))

end Verif
