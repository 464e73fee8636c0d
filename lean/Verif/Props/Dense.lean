import Verif.Lemmas.DenseProgram
import Verif.Props.Bits
import Verif.Props.Debug
/-
C67: the ids of a report have no gaps.
-/
namespace Verif
open Node Visitor Build Sem

section
variable {cx : Ctx} {fuel : Nat} {path : String} {sm : Option SourceMap} {p p' : Node} {cov : SourceCoverage}

/-- C67 for statements and functions: their ids are `0, 1, …`, in this order. -/
theorem C67_items (hr : instrument cx fuel path sm p = .ok (p', cov)) :
    cov.inner.s.keys = List.range cov.inner.s.length ∧ cov.inner.statementMap.keys = List.range cov.inner.s.length ∧
    cov.inner.f.keys = List.range cov.inner.f.length ∧ cov.inner.fnMap.keys = List.range cov.inner.f.length := by
  obtain ⟨n, h, o⟩ := outcome hr
  have := report_dense path cx.reportLogic sm h
  have e1 : cov.inner.s = (RegOp.report path cx.reportLogic sm h).s := o.finished.s
  have e2 : cov.inner.statementMap = (RegOp.report path cx.reportLogic sm h).statementMap := o.finished.statementMap
  have e3 : cov.inner.f = (RegOp.report path cx.reportLogic sm h).f := o.finished.f
  have e4 : cov.inner.fnMap = (RegOp.report path cx.reportLogic sm h).fnMap := o.finished.fnMap
  rw [e1, e2, e3, e4]
  exact ⟨this.s, this.statementMap, this.f, this.fnMap⟩

/-- C67. The ids of the statements, functions and branches of a report are `0, 1, …`, in this order, in all tables, if every branch of
the program gets an arm. Missing: branches without arms, whose ids stay unused (`C67_switch_fails`, `C67_default_fails`). -/
theorem C67_partial (hd : cx.quiet Span.dummy) (hp : cx.Armed p) (hr : instrument cx fuel path sm p = .ok (p', cov)) : cov.inner.Dense :=
  instrument_dense hd hp hr

/-- C67 for programs without hints: every branch gets an arm, except for a switch without cases. -/
theorem C67_plain_partial (hh : ∀ sp, cx.hint sp ≠ some .next) (hp : ∀ x ∈ p.each, x.hasArms = true)
    (hr : instrument cx fuel path sm p = .ok (p', cov)) : cov.inner.Dense := by
  refine C67_partial (hh _) (fun x hx => ?_) hr
  have hcalm : ∀ n, cx.calm n := fun n y _ => hh _
  have h := hp x hx
  obtain ⟨k, sp, cs⟩ := x
  by_cases hk : Dense.branching k = false
  · exact Dense.armed_of hk
  cases k <;> first | exact absurd rfl hk | skip
  case bin op =>
    intro ho
    have hl : op.isLogical = true := by rcases ho with rfl | rfl | rfl <;> rfl
    simp only [Node.hasArms, hl, Bool.not_true, Bool.false_or, beq_iff_eq] at h
    obtain ⟨a, b, rfl⟩ := List.length_eq_two.1 h
    exact ⟨rfl, a, List.mem_cons_self, hcalm a⟩
  case cond => exact fun _ _ _ _ => .inl (hh _)
  case assignPat => exact fun _ r _ => hcalm r
  case switchStmt =>
    obtain ⟨c, hc, h1⟩ := List.any_eq_true.1 h
    rw [Bool.and_eq_true] at h1
    exact ⟨c, hc, of_decide_eq_true h1.1, by simpa using h1.2, hh _⟩

/-! ### What follows for reports of several runs -/

theorem inRange_of_dense (hr : instrument cx fuel path sm p = .ok (p', cov)) (h : cov.inner.Dense) : cov.inner.TruthInRange := by
  intro k hk
  obtain ⟨hp, -, -⟩ := tables_of hr
  obtain ⟨v, hv⟩ := IndexMap.get_isSome_of_mem hk
  have := IndexMap.mem_keys_of_mem (IndexMap.mem_of_get (hp.truths k v hv))
  rw [h.b] at this
  exact List.mem_range.1 this

/-- C50, with conditions on the program only, whether there are truthiness counts or not. -/
theorem C50_armed_partial (hs : FitsInSource cx sm p) (ha : ApartInSource cx p) (hd : cx.quiet Span.dummy) (hp : cx.Armed p)
    (hr : instrument cx fuel path sm p = .ok (p', cov)) : Merged path p' cov.inner fun _ _ _ trs => TellsAll p' cov.inner trs :=
  C50_partial hr (C57_partial hs hr) (inRange_of_dense hr (C67_partial hd hp hr)) (C34_locations_partial ha hr)

/-- C51, with conditions on the program only. -/
theorem C51_armed_partial (hs : FitsInSource cx sm p) (ha : ApartInSource cx p) (hd : cx.quiet Span.dummy) (hp : cx.Armed p)
    (hr : instrument cx fuel path sm p = .ok (p', cov)) : Merged path p' cov.inner fun _ _ _ trs m =>
      ∃ sum n, m.toSummary = .ok sum ∧ Executed p' cov.inner trs n ∧ sum.Sums cov.inner n :=
  C51_partial hr (C57_partial hs hr) (inRange_of_dense hr (C67_partial hd hp hr)) (C34_locations_partial ha hr)

/-- C53, with conditions on the program only. -/
theorem C53_armed_partial (hs : FitsInSource cx sm p) (ha : ApartInSource cx p) (hd : cx.quiet Span.dummy) (hp : cx.Armed p)
    (hr : instrument cx fuel path sm p = .ok (p', cov)) : Merged path p' cov.inner fun _ _ _ trs m =>
      ∃ n, Executed p' cov.inner trs n ∧ m.LinesOf cov.inner n :=
  C53_partial hr (C57_partial hs hr) (inRange_of_dense hr (C67_partial hd hp hr)) (C34_locations_partial ha hr)

theorem branchSpans_type {x : Node} (hx : x.kind ≠ .ifStmt ∧ x.kind ≠ .cond ∧ x.kind ≠ .switchStmt ∧ x.kind ≠ .assignPat)
    {b : BranchType × Span} (hb : b ∈ x.branchSpans) : b.1 = .binaryExpr := by
  unfold Node.branchSpans at hb
  split at hb
  · exact (hx.1 rfl).elim
  · exact (hx.2.1 rfl).elim
  · exact (hx.2.2.1 rfl).elim
  · exact (hx.2.2.2 rfl).elim
  · split at hb
    · rw [List.mem_singleton.1 hb]
    · cases hb
  · cases hb

/-- In programs in which nothing but logical expressions branches, these are the first branches. -/
theorem first_of_logical (ha : p.PlainInits) (hd : cx.quiet Span.dummy) (hp : cx.Armed p) (hl : cx.reportLogic = true)
    (ho : ∀ x ∈ p.each, x.kind ≠ .ifStmt ∧ x.kind ≠ .cond ∧ x.kind ≠ .switchStmt ∧ x.kind ≠ .assignPat)
    (hr : instrument cx fuel path sm p = .ok (p', cov)) : cov.inner.TruthFirst := by
  refine ⟨cov.inner.b.length, fun k => ?_⟩
  have hden := C67_partial hd hp hr
  refine ⟨fun hk => inRange_of_dense hr hden k hk, fun hk => ?_⟩
  obtain ⟨n, h, o⟩ := outcome hr
  have hm : k ∈ cov.inner.branchMap.keys := by rw [hden.branchMap]; exact List.mem_range.2 hk
  obtain ⟨br, hbr⟩ := IndexMap.get_isSome_of_mem hm
  have h1 := o.finished.branchMap k
  rw [hbr] at h1
  obtain ⟨x, h2, h3⟩ := Option.bind_eq_some_iff.1 h1.symm
  split at h3
  · cases h3
  · next hne =>
    cases h3
    have ht : x.1 = .binaryExpr := by
      have := C34_branches_partial ha hr x.1 x.2.1
      have hpos : 0 < (cov.inner.branchMap.map fun e => (e.2.branchType, e.2.loc)).count (x.1, some x.2.1) :=
        List.count_pos_iff.2 (List.mem_map.2 ⟨_, IndexMap.mem_of_get hbr, rfl⟩)
      have hmem := List.count_pos_iff.1 (Nat.lt_of_lt_of_le hpos this)
      obtain ⟨y, hy, he⟩ := List.mem_map.1 hmem
      obtain ⟨z, hz, hyz⟩ := List.mem_flatMap.1 hy
      have := branchSpans_type (ho z hz) hyz
      rw [← this, ← congrArg Prod.fst he]
    have hg := o.steps.truths (by intro x hx; cases hx) x (List.mem_of_getElem? h2) ht
    have hT := o.finished.bT k
    rw [h2, Option.bind_some, if_pos ⟨by unfold RegOp.isTruth; rw [ht, hg, hl]; rfl, hne⟩] at hT
    exact IndexMap.mem_keys_of_mem (IndexMap.mem_of_get hT)

/-- C54, with conditions on the program only: nothing but logical expressions branches. -/
theorem C54_logical_partial (hs : FitsInSource cx sm p) (ha : ApartInSource cx p) (hd : cx.quiet Span.dummy) (hp : cx.Armed p)
    (hl : cx.reportLogic = true)
    (ho : ∀ x ∈ p.each, x.kind ≠ .ifStmt ∧ x.kind ≠ .cond ∧ x.kind ≠ .switchStmt ∧ x.kind ≠ .assignPat)
    (hr : instrument cx fuel path sm p = .ok (p', cov)) : Merged path p' cov.inner fun _ _ solid trs m =>
      ∃ n, cov.inner.Retruths n m ∧ Executed p' cov.inner trs n ∧ Gave solid p' cov.inner trs n :=
  C54_partial hr (C57_partial hs hr) hl (first_of_logical ha.plain hd hp hl ho hr) (C34_locations_partial ha hr)

/-- C54: two reports of runs of a program whose branches all get arms can be merged, and the truthiness counts are those of the right
branches if and only if the logical expressions are the first branches. -/
theorem C54_armed_iff (hs : FitsInSource cx sm p) (ha : ApartInSource cx p) (hd : cx.quiet Span.dummy) (hp : cx.Armed p)
    (hl : cx.reportLogic = true) (hr : instrument cx fuel path sm p = .ok (p', cov))
    {V A : Type} {solid : V → Bool} {x y : List (List (Ev V A)) × FileCoverage}
    (hx : Obtained solid path p' cov.inner x.1 x.2) (hy : Obtained solid path p' cov.inner y.1 y.2) :
    ∃ m, x.2.merge y.2 = .ok m ∧ (cov.inner.TruthFirst ↔ ∀ k, k ∈ IndexMap.keys (m.bT.getD []) ↔
      k ∈ IndexMap.keys (cov.inner.bT.getD [])) :=
  C54_first_iff hr (C57_partial hs hr) hl (fun k => by rw [(C67_partial hd hp hr).b]; exact List.mem_range) (C34_locations_partial ha hr) hx hy

end

/-! ### Concrete cases -/

theorem plain_quiet (sp : Span) : plain.hint sp ≠ some .next := nofun

/-- `handful` has no hints and no empty switch; its three branches have the ids 0, 1, 2. -/
example : (∀ x ∈ handful.each, x.hasArms = true) ∧ ∃ p' cov, run plain handful = .ok (p', cov) ∧ cov.inner.b.length = 3 ∧
    cov.inner.Dense := by
  have hh : ∀ x ∈ handful.each, x.hasArms = true := by decide +kernel
  have h : yields (run plain handful) (fun _ c => decide (c.b.length = 3)) = true := by decide +kernel
  obtain ⟨q, c, h1, h2⟩ := of_yields h
  exact ⟨hh, q, c, h1, of_decide_eq_true h2, C67_plain_partial plain_quiet hh h1⟩

/-- `a ? /* istanbul ignore next */ b : c`: a hint that leaves an arm leaves no gap. -/
example : ∃ p' cov, run (hinted 9 " istanbul ignore next ") (Build.module [expr 1 (cond 3 (ident 5 "a") (ident 9 "b") (ident 7 "c"))]) =
    .ok (p', cov) ∧ cov.inner.b = [(0, [0])] ∧ cov.inner.Dense := by
  have h : yields (run (hinted 9 " istanbul ignore next ") (Build.module [expr 1 (cond 3 (ident 5 "a") (ident 9 "b") (ident 7 "c"))]))
    (fun _ c => decide (c.b = [(0, [0])])) = true := by decide +kernel
  obtain ⟨q, c, h1, h2⟩ := of_yields h
  refine ⟨q, c, h1, of_decide_eq_true h2, C67_partial (by unfold Ctx.quiet; decide +kernel) ?_ h1⟩
  have hleaf : ∀ n s, (hinted 9 " istanbul ignore next ").Armed (ident n s) := fun n s => Dense.armed_mk.2 ⟨Dense.armed_of rfl, nofun⟩
  refine Dense.armed_mk.2 ⟨Dense.armed_of rfl, List.forall_mem_singleton.2 (Dense.armed_mk.2 ⟨Dense.armed_of rfl,
    List.forall_mem_singleton.2 (Dense.armed_mk.2 ⟨?_, by simp [hleaf]⟩)⟩)⟩
  rintro _ _ _ ⟨⟩
  right
  unfold Ctx.quiet
  decide +kernel

/-- C67 fails: `switch (x) {} f() && g()`. The switch has the id 0, which the report does not have. -/
theorem C67_switch_fails : ∃ p p' cov, Clean p ∧ run logic p = .ok (p', cov) ∧ cov.inner.b.keys = [1] ∧ ¬ cov.inner.Dense := by
  have h : yields (run logic switchThenBoth) (fun _ c => c = switchThenBothReport) = true := by decide +kernel
  obtain ⟨p', cov, h1, h2⟩ := of_yields h
  have h2 : cov.inner = switchThenBothReport := of_decide_eq_true h2
  refine ⟨switchThenBoth, p', cov, by unfold Clean; decide +kernel, h1, by rw [h2]; rfl, fun hd => ?_⟩
  have := hd.b
  rw [h2] at this
  exact absurd this (by decide)

/-- `function f(a = 1) { return a && b }` -/
def defaulted : Node := Build.module [fnDecl 1 "f" [mk .assignPat (at' 2) [ident 2 "a", num 9 "1"]]
  [mk .returnStmt (at' 4) [bin 5 .and (ident 6 "a") (ident 7 "b")]]]

/-- C67 fails with a hint as well: `function f(a = /* istanbul ignore next */ 1) { return a && b }`. -/
theorem C67_default_fails : ∃ p' cov, Clean defaulted ∧ run (hinted 9 " istanbul ignore next ") defaulted = .ok (p', cov) ∧
    cov.inner.b.keys = [1] ∧ ¬ cov.inner.Dense := by
  have h : yields (run (hinted 9 " istanbul ignore next ") defaulted) (fun _ c => decide (c.b.keys = [1])) = true := by decide +kernel
  obtain ⟨p', cov, h1, h2⟩ := of_yields h
  have h2 : cov.inner.b.keys = [1] := of_decide_eq_true h2
  refine ⟨p', cov, by unfold Clean; decide +kernel, h1, h2, fun hd => ?_⟩
  have := hd.b
  rw [h2] at this
  have hl : cov.inner.b.length = 1 := by
    have := congrArg List.length h2
    simpa [IndexMap.keys] using this
  rw [hl] at this
  exact absurd this (by decide)

end Verif
