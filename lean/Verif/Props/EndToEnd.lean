import Verif.Lemmas.EndToEnd
import Verif.Props.Counts
import Verif.Props.Stringify
import Verif.Props.Serde
/-
C45: from the source to the report. A program is instrumented, its instances run in a realm, the coverage object is
written by `JSON.stringify` and loaded by istanbul-oxide: the loaded report has the ranges of the source and, as counts, how
often they were executed.
-/
namespace Verif
open Node Visitor Sem Build Runtime Js Template

section
variable {cx : Ctx} {fuel : Nat} {path : String} {sm : Option SourceMap} {p p' : Node} {cov : SourceCoverage}

theorem Delivers.mono {w : World} {gcv : String} {st : State} {i : Input} {Q : List Counter → Prop}
    {P P' : FileCoverage → Prop} (h : Delivers w gcv st i Q P) (hP : ∀ c, P c → P' c) : Delivers w gcv st i Q P' := by
  intro r pre es h1 h2 h3 h4 h5
  obtain ⟨ps, a, k1, k2, k3⟩ := h r pre es h1 h2 h3 h4 h5
  refine ⟨ps, a, k1, k2, fun o ho => ?_⟩
  obtain ⟨d, c, k4, k5, k6, k7⟩ := k3 o ho
  exact ⟨d, c, k4, k5, k6, hP c k7⟩

/-- C45. If the counters hit by the instances of a file are those of some complete executions of the instrumented program, what
`JSON.stringify` writes for the file is loaded as a report that tells about these executions. -/
theorem C45_partial (w : World) (hr : instrument cx fuel path sm p = .ok (p', cov)) (hf : cov.inner.Fits) :
    Reported w path p' cov.inner fun _ _ solid trs => Tells solid p' cov.inner trs := by
  intro covFn gcv st hp V A solid trs hx hn r pre es h1 h2 h3 h4 h5
  obtain ⟨n, h, o⟩ := outcome hr
  have hl : ∀ k, (hitsOf path [] (pre ++ .load (emit covFn gcv path cov.inner) :: es)).count k < 2 ^ 32 := fun k =>
    Nat.lt_of_le_of_lt (Nat.le_of_eq (mixed_count h5 k)) (hn k)
  have hfit := FileCoverage.hits_fits o.finished.keyed hf o.finished.zero hl
  obtain ⟨ps, a, k1, k2, k3⟩ := C43_instrumented_partial w hr hp pre es h1 h2 h3 h4 hfit
  refine ⟨ps, a, k1, k2, fun o' ho => ?_⟩
  obtain ⟨d, k4, c, k5, k6, k6', k7⟩ := k3 o' ho
  exact ⟨d, c, k4, k5, k7, tells hx h5 (fun k => Nat.le_trans (Nat.le_of_lt (hl k)) (by decide)) k6 (Serde.coverage_some k5).1 k6'⟩

theorem Reported.mono {w : World} {r : FileCoverage}
    {P P' : (V A : Type) → (V → Bool) → List (List (Ev V A)) → FileCoverage → Prop} (h : Reported w path p' r P)
    (hP : ∀ V A solid trs c, P V A solid trs c → P' V A solid trs c) : Reported w path p' r P' :=
  fun covFn gcv st hp V A solid trs hx hn => (h covFn gcv st hp V A solid trs hx hn).mono (hP V A solid trs)

/-- C45 for statements: in the loaded report the statement has its range and, as its count, the number of times it began. -/
theorem C45_statements_partial (w : World) (hp : Clean p) (hig : Hint.shouldIgnoreFile cx.cc cx.comments p.span = false)
    (hk : p.kind = .module ∨ p.kind = .script) (hr : instrument cx fuel path sm p = .ok (p', cov)) (hf : cov.inner.Fits)
    (x : Node) (hx : InProgram cx p x) (hi : cx.ignores x = false) (l : List Node) (hl : l ∈ lists cx x) (s : Node)
    (hs : s ∈ ownStmts cx l) (ho : Only p (tag s)) (sp : Span) (hsp : sp ∈ dues cx s) :
    ∃ id, Reported w path p' cov.inner fun _ _ _ trs c => c.statementMap.get id = some (cx.range sp) ∧
      c.s.get id = some (trs.map fun tr => began (tag s) (visible tr)).sum := by
  obtain ⟨id, h1, h2⟩ := C22_statements_partial hp hig hk hr x hx hi l hl s hs ho sp hsp
  exact ⟨id, (C45_partial w hr hf).mono fun _ _ _ _ c hc => ⟨(hc.statementMap id).trans h1.1,
    hc.begun _ _ h2 (C22_start_partial.1 _ _ h1)⟩⟩

/-- C45 for the statements of the program itself. -/
theorem C45_items_partial (w : World) (hp : Clean p) (hig : Hint.shouldIgnoreFile cx.cc cx.comments p.span = false)
    (hk : p.kind = .module ∨ p.kind = .script) (hr : instrument cx fuel path sm p = .ok (p', cov)) (hf : cov.inner.Fits)
    (s : Node) (hs : s ∈ ownStmts cx p.children) (ho : Only p (tag s)) (sp : Span) (hsp : sp ∈ itemDues cx p.kind s) :
    ∃ id, Reported w path p' cov.inner fun _ _ _ trs c => c.statementMap.get id = some (cx.range sp) ∧
      c.s.get id = some (trs.map fun tr => began (tag s) (visible tr)).sum := by
  obtain ⟨id, h1, h2⟩ := C22_items_partial hp hig hk hr s hs ho sp hsp
  exact ⟨id, (C45_partial w hr hf).mono fun _ _ _ _ c hc => ⟨(hc.statementMap id).trans h1.1,
    hc.begun _ _ h2 (C22_start_partial.1 _ _ h1)⟩⟩

/-- C45 for initialisers: they are reported as statements, with the number of times their evaluation began. -/
theorem C45_initialisers_partial (w : World) (hp : Clean p) (hig : Hint.shouldIgnoreFile cx.cc cx.comments p.span = false)
    (hk : p.kind = .module ∨ p.kind = .script) (hr : instrument cx fuel path sm p = .ok (p', cov)) (hf : cov.inner.Fits)
    (x : Node) (hx : InProgram cx p x) (hi : cx.ignores x = false) (init : Node) (hn : initOf x = some init)
    (hw : wrappable x init = true) (ho : Only p (tag init)) :
    ∃ id, Reported w path p' cov.inner fun _ _ _ trs c => c.statementMap.get id = some (cx.range init.span) ∧
      c.s.get id = some (trs.map fun tr => began (tag init) (visible tr)).sum := by
  obtain ⟨id, h1, h2⟩ := C22_initialisers_partial hp hig hk hr x hx hi init hn hw ho
  exact ⟨id, (C45_partial w hr hf).mono fun _ _ _ _ c hc => ⟨(hc.statementMap id).trans h1.1,
    hc.begun _ _ h2 (C22_start_partial.1 _ _ h1)⟩⟩

/-- C45 for functions: in the loaded report the function has its name and ranges and, as its count, the number of times its
body was entered. -/
theorem C45_functions_partial (w : World) (hp : Clean p) (hig : Hint.shouldIgnoreFile cx.cc cx.comments p.span = false)
    (hk : p.kind = .module ∨ p.kind = .script) (hr : instrument cx fuel path sm p = .ok (p', cov)) (hf : cov.inner.Fits)
    (x : Node) (hx : InProgram cx p x) (hi : cx.ignores x = false) (name : Option String) (decl : Span) (body : Node)
    (hh : fnHead cx x = some (name, decl)) (hb : bodyOf x = some body)
    (hbk : body.kind = .block ∨ ∃ a, x.kind = .arrow a) (t : Sem.Tag) (j : Nat) (ht : bodyPart x = some (t, j)) (ho : Only p t) :
    ∃ id, Reported w path p' cov.inner fun _ _ _ trs c =>
      c.fnMap.get id = some ⟨name.getD ("(anonymous_" ++ toString id ++ ")"), cx.range decl, cx.range body.span,
        (cx.range body.span).start.line⟩ ∧
      c.f.get id = some (trs.map fun tr => entered t j (visible tr)).sum := by
  obtain ⟨id, h1, h2⟩ := C22_functions_partial hp hig hk hr x hx hi name decl body hh hb hbk t j ht ho
  exact ⟨id, (C45_partial w hr hf).mono fun _ _ _ _ c hc => ⟨(hc.fnMap id).trans h1.1,
    hc.entered _ _ _ h2 (C22_start_partial.2.1 _ _ h1)⟩⟩

theorem Sem.Tells.arm {V A : Type} {solid : V → Bool} {r c : FileCoverage} {trs : List (List (Ev V A))}
    (h : Tells solid p' r trs c) {b i : Nat} {t : BranchType} {sp asp : Span} (hb : HasBranch cx (.report r) b t sp)
    (ha : HasArm cx (.report r) b i asp) : c.HasArm b i t (cx.range sp) (cx.range asp) := by
  obtain ⟨br, h1, h2⟩ := ha
  have h3 := (hb br h1).1
  refine ⟨br, (h.branchMap b).trans h1, ?_, ?_, h2⟩ <;> rw [h3]

/-- C45 for `if`: both arms have the range of the statement and, as counts, the numbers of times they were taken. -/
theorem C45_if_partial (w : World) (hp : Clean p) (hig : Hint.shouldIgnoreFile cx.cc cx.comments p.span = false)
    (hk : p.kind = .module ∨ p.kind = .script) (hr : instrument cx fuel path sm p = .ok (p', cov)) (hf : cov.inner.Fits)
    (sp : Span) (test cons alt : Node) (hx : InProgram cx p (mk .ifStmt sp [test, cons, alt]))
    (hi : cx.ignores (mk .ifStmt sp [test, cons, alt]) = false) (ho : Only p (.ifStmt, sp)) :
    ∃ b, (cx.hint sp ≠ some .if → ∃ i, Reported w path p' cov.inner fun _ _ _ trs c =>
        c.HasArm b i .if (cx.range sp) (cx.range sp) ∧
        c.count (.b b i) = some (trs.map fun tr => entered (.ifStmt, sp) 1 (visible tr)).sum) ∧
      (cx.hint sp ≠ some .else → ∃ i, Reported w path p' cov.inner fun _ _ _ trs c =>
        c.HasArm b i .if (cx.range sp) (cx.range sp) ∧
        c.count (.b b i) = some (trs.map fun tr => entered (.ifStmt, sp) 2 (visible tr)).sum) := by
  obtain ⟨b, h1, h2, h3⟩ := C22_if_partial hp hig hk hr sp test cons alt hx hi ho
  refine ⟨b, fun h => ?_, fun h => ?_⟩
  · obtain ⟨i, h4, h5⟩ := h2 h
    exact ⟨i, (C45_partial w hr hf).mono fun _ _ _ _ c hc => ⟨hc.arm h1 h4,
      hc.entered _ _ _ h5 (C22_start_partial.2.2 _ _ _ _ h1 h4).1⟩⟩
  · obtain ⟨i, h4, h5⟩ := h3 h
    exact ⟨i, (C45_partial w hr hf).mono fun _ _ _ _ c hc => ⟨hc.arm h1 h4,
      hc.entered _ _ _ h5 (C22_start_partial.2.2 _ _ _ _ h1 h4).1⟩⟩

/-- C45 for `switch`: the count of a case is the number of times its statements were entered. -/
theorem C45_cases_partial (w : World) (hp : Clean p) (hig : Hint.shouldIgnoreFile cx.cc cx.comments p.span = false)
    (hk : p.kind = .module ∨ p.kind = .script) (hr : instrument cx fuel path sm p = .ok (p', cov)) (hf : cov.inner.Fits)
    (sp : Span) (cs : List Node) (hx : InProgram cx p (mk .switchStmt sp cs)) (hi : cx.ignores (mk .switchStmt sp cs) = false) :
    ∃ b, ∀ csp test ss, mk .switchCase csp (test :: ss) ∈ cs → cx.hint csp ≠ some .next → Only p (.switchCase, csp) →
      ∃ i, Reported w path p' cov.inner fun _ _ _ trs c => c.HasArm b i .switch (cx.range sp) (cx.range csp) ∧
        c.count (.b b i) = some (trs.map fun tr => entered (.switchCase, csp) 1 (visible tr)).sum := by
  obtain ⟨b, h1, h2⟩ := C22_cases_partial hp hig hk hr sp cs hx hi
  refine ⟨b, fun csp test ss hm hh ho => ?_⟩
  obtain ⟨i, h4, h5⟩ := h2 csp test ss hm hh ho
  exact ⟨i, (C45_partial w hr hf).mono fun _ _ _ _ c hc => ⟨hc.arm h1 h4,
    hc.entered _ _ _ h5 (C22_start_partial.2.2 _ _ _ _ h1 h4).1⟩⟩

/-- C45 for conditional expressions: the count of an arm is the number of times its evaluation began. -/
theorem C45_conditional_partial (w : World) (hp : Clean p) (hig : Hint.shouldIgnoreFile cx.cc cx.comments p.span = false)
    (hk : p.kind = .module ∨ p.kind = .script) (hr : instrument cx fuel path sm p = .ok (p', cov)) (hf : cov.inner.Fits)
    (sp : Span) (test cons alt : Node) (hx : InProgram cx p (mk .cond sp [test, cons, alt]))
    (hi : cx.ignores (mk .cond sp [test, cons, alt]) = false) :
    ∃ b, ∀ e ∈ [cons, alt], cx.hinted e = false → Only p (tag e) →
      ∃ i, Reported w path p' cov.inner fun _ _ _ trs c => c.HasArm b i .condExpr (cx.range sp) (cx.range e.span) ∧
        c.count (.b b i) = some (trs.map fun tr => began (tag e) (visible tr)).sum := by
  obtain ⟨b, h1, h2⟩ := C22_conditional_partial hp hig hk hr sp test cons alt hx hi
  refine ⟨b, fun e he hh ho => ?_⟩
  obtain ⟨i, h4, h5⟩ := h2 e he hh ho
  exact ⟨i, (C45_partial w hr hf).mono fun _ _ _ _ c hc => ⟨hc.arm h1 h4,
    hc.begun _ _ h5 (C22_start_partial.2.2 _ _ _ _ h1 h4).1⟩⟩

/-- C45 for logical operators: the count of an operand is the number of times its evaluation began. -/
theorem C45_operands_partial (w : World) (hp : Clean p) (hig : Hint.shouldIgnoreFile cx.cc cx.comments p.span = false)
    (hk : p.kind = .module ∨ p.kind = .script) (hr : instrument cx fuel path sm p = .ok (p', cov)) (hf : cov.inner.Fits)
    (op : BinOp) (sp : Span) (left right : Node) (hop : op = .and ∨ op = .or ∨ op = .nullish)
    (hx : InProgram cx p (mk (.bin op) sp [left, right])) (hi : cx.ignores (mk (.bin op) sp [left, right]) = false) :
    ∃ b, ∀ e ∈ operands cx [left, right], Only p (tag e) →
      ∃ i, Reported w path p' cov.inner fun _ _ _ trs c => c.HasArm b i .binaryExpr (cx.range sp) (cx.range e.span) ∧
        c.count (.b b i) = some (trs.map fun tr => began (tag e) (visible tr)).sum := by
  obtain ⟨b, h1, h2⟩ := C22_operands_partial hp hig hk hr op sp left right hop hx hi
  refine ⟨b, fun e he ho => ?_⟩
  obtain ⟨i, h4, h5⟩ := h2 e he ho
  exact ⟨i, (C45_partial w hr hf).mono fun _ _ _ _ c hc => ⟨hc.arm h1 h4,
    hc.begun _ _ h5 (C22_start_partial.2.2 _ _ _ _ h1 h4).1⟩⟩

/-- C45 for truthiness: with `reportLogic` the second count of an operand is the number of times its evaluation ended with a
value that is truthy, not an empty array and not an empty plain object. -/
theorem C45_truths_partial (w : World) (hp : Clean p) (hig : Hint.shouldIgnoreFile cx.cc cx.comments p.span = false)
    (hk : p.kind = .module ∨ p.kind = .script) (hr : instrument cx fuel path sm p = .ok (p', cov)) (hf : cov.inner.Fits)
    (op : BinOp) (sp : Span) (left right : Node) (hop : op = .and ∨ op = .or ∨ op = .nullish)
    (hx : InProgram cx p (mk (.bin op) sp [left, right])) (hi : cx.ignores (mk (.bin op) sp [left, right]) = false)
    (hl : cx.reportLogic = true) :
    ∃ b, ∀ e ∈ operands cx [left, right], Only p (tag e) →
      ∃ i, Reported w path p' cov.inner fun _ _ solid trs c => c.HasArm b i .binaryExpr (cx.range sp) (cx.range e.span) ∧
        c.count (.b b i) = some (trs.map fun tr => began (tag e) (visible tr)).sum ∧
        c.count (.bT b i) = some (trs.map fun tr => gave solid (tag e) [] (visible tr)).sum := by
  obtain ⟨b, h1, h2⟩ := C22_truths_partial hp hig hk hr op sp left right hop hx hi hl
  refine ⟨b, fun e he ho => ?_⟩
  obtain ⟨i, h4, h5, h6⟩ := h2 e he ho
  exact ⟨i, (C45_partial w hr hf).mono fun _ _ _ _ c hc => ⟨hc.arm h1 h4,
    hc.begun _ _ h5 (C22_start_partial.2.2 _ _ _ _ h1 h4).1,
    hc.gave _ _ h6 ((C22_start_partial.2.2 _ _ _ _ h1 h4).2 rfl (by rw [hl]; rfl))⟩⟩

/-- C45 for default values: the count is the number of times the evaluation of the default value began. -/
theorem C45_defaults_partial (w : World) (hp : Clean p) (hig : Hint.shouldIgnoreFile cx.cc cx.comments p.span = false)
    (hk : p.kind = .module ∨ p.kind = .script) (hr : instrument cx fuel path sm p = .ok (p', cov)) (hf : cov.inner.Fits)
    (sp : Span) (left right : Node) (hx : InProgram cx p (mk .assignPat sp [left, right]))
    (hi : cx.ignores (mk .assignPat sp [left, right]) = false) :
    ∃ b, ∀ e ∈ operands cx [right], Only p (tag e) →
      ∃ i, Reported w path p' cov.inner fun _ _ _ trs c => c.HasArm b i .defaultArg (cx.range sp) (cx.range e.span) ∧
        c.count (.b b i) = some (trs.map fun tr => began (tag e) (visible tr)).sum := by
  obtain ⟨b, h1, h2⟩ := C22_defaults_partial hp hig hk hr sp left right hx hi
  refine ⟨b, fun e he ho => ?_⟩
  obtain ⟨i, h4, h5⟩ := h2 e he ho
  exact ⟨i, (C45_partial w hr hf).mono fun _ _ _ _ c hc => ⟨hc.arm h1 h4,
    hc.begun _ _ h5 (C22_start_partial.2.2 _ _ _ _ h1 h4).1⟩⟩

/-! ### All executions can be reported -/

/-- Whatever executions of the instrumented program there are, there is a realm in which the counters hit are theirs: nothing
in the emitted code keeps them from being counted. -/
theorem C45_counted_partial (w : World) (hc : Clean p) (hr : instrument cx fuel path sm p = .ok (p', cov))
    (hd : cx.reportLogic = false ∨ p.any (· = .assignPat) = false) {covFn gcv : String} {st : State} (hp : Pristine gcv st)
    (hfn : covFn ∉ ["path", "hash", "global", "gcv", "coverageData", "coverage", "actualCoverage"]) (hpath : path ≠ "__proto__")
    {V A : Type} {solid : V → Bool} (trs : List (List (Ev V A))) (hx : ∀ tr ∈ trs, ∃ o o', Exec solid p' tr o o') :
    ∃ r es, Lives w gcv (.new st) .empty r (.load (emit covFn gcv path cov.inner) :: es) ∧
      SameHash path (dataHash cov.inner) es ∧
      hitsOf path [] (.load (emit covFn gcv path cov.inner) :: es) = (trs.map increments).flatten ∧
      (∀ a, a < st.heap.length → a ≠ globalObj → r.st.heap[a]? = st.heap[a]?) ∧
      ∃ boxes, Runtime.Kept gcv r (Books.empty.after (.load (emit covFn gcv path cov.inner) :: es)) boxes ∧
        ∀ x ∈ boxes, Spare r.st.heap x := by
  obtain ⟨n, h, o⟩ := outcome hr
  have hproper : Proper gcv (emit covFn gcv path cov.inner) := ⟨rfl, hfn, hpath, o.finished.keyed⟩
  obtain ⟨st', f, boxes, k1, _, k2, _, k3, -, k5⟩ := (Kept.start hp).load (w := w) hp.proto hproper
  have k6 : Lives w gcv (.new st) .empty ((Realm.new st).loaded st' (f, covFn)) ([] ++ [.load (emit covFn gcv path cov.inner)]) :=
    .load (.stay _ _) hproper k1
  have hcells : ∀ c ∈ (trs.map increments).flatten, (cov.inner.count c).isSome := by
    intro c hc'
    obtain ⟨l, hl, hcl⟩ := List.mem_flatten.1 hc'
    obtain ⟨tr, htr, rfl⟩ := List.mem_map.1 hl
    obtain ⟨o1, o2, hex⟩ := hx tr htr
    have h1 := C17_no_dangling_partial hc hr hd c (exec_sites hex c hcl)
    have h2 : cov.inner.count c = some 0 := by
      cases c with
      | bT id arm =>
        rw [← h1]
        show (cov.inner.bT.bind _).bind _ = cov.inner.bT.bind _
        cases cov.inner.bT <;> rfl
      | _ => exact h1
    rw [h2]
    rfl
  obtain ⟨r, h1, h2, h3, h4, h5⟩ := Lives.hits (n := 0) (m := 0) hp k6 rfl rfl rfl _ hcells k2
  refine ⟨r, (trs.map increments).flatten.map (.hit 0), h1, ?_, ?_, ?_, boxes, h4, ?_⟩
  · intro j hj
    obtain ⟨c, _, hc'⟩ := List.mem_map.1 hj
    cases hc'
  · rw [hitsOf]
    exact hitsOf_hits _ _ _ rfl _
  · intro a ha hg
    refine (h3 a ?_).trans (k3.rest a ha hg fun hr => (Kept.start hp).owned.reg a hr)
    · rintro (h | h)
      · exact h
      · have : st.heap.length ≤ a := h.1
        omega
  · have hlen : boxes.length = 1 := k2.inv.len
    intro x hx
    obtain ⟨i, hi, rfl⟩ := List.getElem_of_mem hx
    have hi0 : i = 0 := by omega
    subst hi0
    rcases k5 _ hx with h | h
    · cases h
    · intro ps hps
      rw [h5 _ (List.getElem?_eq_getElem hi)] at hps
      exact h ps hps

/-- Executions of the source program are executions of the instrumented program, without the increments. -/
theorem source_runs (hc : Clean p) (hU : UnnamedFields p) (hF : FewDirectives p) (hr : instrument cx fuel path sm p = .ok (p', cov))
    {V A : Type} {solid : V → Bool} (trs : List (List (Ev V A))) (hx : ∀ tr ∈ trs, Complete solid p tr)
    (hlen : (trs.map fun tr => tr.length + 1).sum < 2 ^ 32) :
    ∃ trs' : List (List (Ev V A)), trs'.map visible = trs ∧ (∀ tr ∈ trs', Complete solid p' tr) ∧
      ∀ k, (trs'.map fun tr => Sem.counted k tr).sum < 2 ^ 32 := by
  have hrun : ∃ trs' : List (List (Ev V A)), trs'.map visible = trs ∧ ∀ tr ∈ trs', Complete solid p' tr := by
    clear hlen
    induction trs with
    | nil => exact ⟨[], rfl, fun tr htr => by cases htr⟩
    | cons tr trs ih =>
      obtain ⟨l, h3, h4⟩ := ih fun x hx' => hx x (List.mem_cons_of_mem _ hx')
      obtain ⟨o, o', h5, h6, h7⟩ := hx tr List.mem_cons_self
      obtain ⟨tr', h8, h9⟩ := (C21_partial hc hU hF hr tr o o').1 h5
      refine ⟨tr' :: l, by rw [List.map_cons, h3, h8], fun x hx' => ?_⟩
      rcases List.mem_cons.1 hx' with rfl | hx'
      · exact ⟨o, o', h9, h6, h7⟩
      · exact h4 x hx'
  obtain ⟨trs', hv, hx'⟩ := hrun
  refine ⟨trs', hv, hx', fun k => ?_⟩
  refine Nat.lt_of_le_of_lt ?_ hlen
  rw [← hv, List.map_map]
  refine sum_le fun tr htr => ?_
  obtain ⟨o, o', h5, _⟩ := hx' tr htr
  have h6 := exec_few (c := k) h5
  have h7 : cc k p' * ((visible tr).length + 1) ≤ 1 * ((visible tr).length + 1) :=
    Nat.mul_le_mul_right _ ((followed hc hr).once k)
  simp only [Function.comp]
  omega

/-- C45 forwards. For any executions of the source program, observed until their end and with less than 2^32 events, there is
a realm in which the instrumented program executes in the same way, `JSON.stringify` writes the text of its coverage data, and
istanbul-oxide loads it as a report that tells about these executions. -/
theorem C45_source_partial (w : World) (hc : Clean p) (hU : UnnamedFields p) (hF : FewDirectives p)
    (hr : instrument cx fuel path sm p = .ok (p', cov)) (hf : cov.inner.Fits)
    (hl : cx.reportLogic = false ∨ p.any (· = .assignPat) = false)
    {covFn gcv : String} {st : State} (hp : Pristine gcv st)
    (hfn : covFn ∉ ["path", "hash", "global", "gcv", "coverageData", "coverage", "actualCoverage"]) (hpath : path ≠ "__proto__")
    {p0 p2 : IndexMap String Cell} {c0 c2 : Cls} (h0 : st.heap[objectProto]? = some ⟨c0, none, p0⟩)
    (h2 : st.heap[arrayProto]? = some ⟨c2, some objectProto, p2⟩) (t0 : p0.get "toJSON" = none)
    (t2 : p2.get "toJSON" = none) {V A : Type} {solid : V → Bool} (trs : List (List (Ev V A)))
    (hx : ∀ tr ∈ trs, Complete solid p tr) (hlen : (trs.map fun tr => tr.length + 1).sum < 2 ^ 32) :
    ∃ trs' : List (List (Ev V A)), trs'.map visible = trs ∧ (∀ tr ∈ trs', Complete solid p' tr) ∧
      ∃ r es ps a d c, Lives w gcv (.new st) .empty r (.load (emit covFn gcv path cov.inner) :: es) ∧
        SameHash path (dataHash cov.inner) es ∧ NoHooks r.st.heap ∧
        Mixed trs' (hitsOf path [] (.load (emit covFn gcv path cov.inner) :: es)) ∧
        registry gcv r.st = some ps ∧ ps.get path = some (.data (.ref a)) ∧ (∀ o, Writes r.st.heap [] (.ref a) o ↔ o = some d) ∧
        Serde.load (Json.text d) = some c ∧ Tells solid p' cov.inner trs' c := by
  obtain ⟨trs', hv, hx', hn⟩ := source_runs hc hU hF hr trs hx hlen
  refine ⟨trs', hv, hx', ?_⟩
  obtain ⟨r, es, k1, k2, k3, k4, boxes, k5, k6⟩ := C45_counted_partial w hc hr hl hp hfn hpath trs' fun tr htr => by
    obtain ⟨o, o', h5, _⟩ := hx' tr htr
    exact ⟨o, o', h5⟩
  have hno : NoHooks r.st.heap := by
    refine noHooks_of (c0 := c0) (c2 := c2) ?_ ?_ t0 t2
    · rw [k4 objectProto (List.getElem?_eq_some_iff.1 h0).1 (by decide)]
      exact h0
    · rw [k4 arrayProto (List.getElem?_eq_some_iff.1 h2).1 (by decide)]
      exact h2
  have hfirst : ∀ j, Event.load j ∈ ([] : List Event) → j.path ≠ (emit covFn gcv path cov.inner).path := fun j hj => by cases hj
  have hat := at_accumulated [] es (emit covFn gcv path cov.inner) hfirst k2
  obtain ⟨n, g, o⟩ := outcome hr
  have hit : hitsOf path [] ([] ++ .load (emit covFn gcv path cov.inner) :: es) = (trs'.map increments).flatten := k3
  have hmix : Mixed trs' (hitsOf path [] ([] ++ .load (emit covFn gcv path cov.inner) :: es)) := by
    rw [hit]
    exact List.Perm.refl _
  have hcnt : ∀ k, (hitsOf path [] ([] ++ .load (emit covFn gcv path cov.inner) :: es)).count k < 2 ^ 32 := fun k =>
    Nat.lt_of_le_of_lt (Nat.le_of_eq (mixed_count hmix k)) (hn k)
  obtain ⟨ps, a, d, c, m1, m2, m3, m4, m5, m6⟩ := text_of k5 k1.proper hno hat
    (FileCoverage.hits_fits o.finished.keyed hf o.finished.zero hcnt) (.inr k6)
    (fun b hb => o.finished.armed hb)
  exact ⟨r, es, ps, a, d, c, k1, k2, hno, hmix, m1, m2, m3, m4,
    tells hx' hmix (fun k => Nat.le_trans (Nat.le_of_lt (hcnt k)) (by decide)) m5 (C41_loaded m4).1 m6⟩

end

/-! ### Concrete cases -/

/-- `f() && g()` if `f` returns 0: `g()` is not evaluated. -/
def oneCallTrace : List (Ev Nat Unit) :=
  let f := call 3 (ident 4 "f") []
  let g := call 5 (ident 6 "g") []
  let b := bin 2 .and f g
  let s := expr 1 b
  [.present (face bothCalls), .present (face s), .pick 1 0 (face s), .present (face b), .pick 2 0 (face b), .present (face f),
    .answer (.normal (some 0)), .got (.normal (some 0)), .answer (.normal (some 0)), .got (.normal (some 0)), .answer (.normal none),
    .got (.normal none), .answer (.normal none)] ++ [.answer (.normal none)]

theorem oneCall_exec : Exec (fun v => v != 0) bothCalls oneCallTrace (.normal none) (.normal none) := by
  refine ⟨_, _, _, _, rfl, .block rfl (.next rfl (.node rfl (.pick rfl rfl (.node rfl (.pick rfl rfl (.node rfl (.answer ?_)) ?_
    (.answer ?_))) ?_ (.answer ?_))) .nil) ?_ (.answer ?_), .answer ?_⟩ <;> nofun

/-- The report of `f() && g()`. -/
def bothCallsReport : FileCoverage := { FileCoverage.empty "/f.js" false with
  statementMap := [(0, plain.range (at' 1))]
  s := [(0, 0)]
  branchMap := [(0, ⟨some (plain.range (at' 2)), .binaryExpr, [plain.range (at' 3), plain.range (at' 5)], some 2⟩)]
  b := [(0, [0, 0])] }

/-- The file with `f() && g()` is executed twice, and in the second execution `f` returns 0. In the report that is loaded in the
end the statement has the count 2 and the operands have the counts 2 and 1. -/
theorem bothCalls_reported : ∃ p' cov, run plain bothCalls = .ok (p', cov) ∧ ∃ r es ps a d c,
    Lives noWorld "__coverage__" (.new freshRealm) .empty r (.load (emit "cov_1" "__coverage__" "/f.js" cov.inner) :: es) ∧
    registry "__coverage__" r.st = some ps ∧ ps.get "/f.js" = some (.data (.ref a)) ∧ Writes r.st.heap [] (.ref a) (some d) ∧
    Serde.load (Json.text d) = some c ∧ c.statementMap.get 0 = some (plain.range (at' 1)) ∧ c.s.get 0 = some 2 ∧
    c.HasArm 0 0 .binaryExpr (plain.range (at' 2)) (plain.range (at' 3)) ∧ c.count (.b 0 0) = some 2 ∧
    c.HasArm 0 1 .binaryExpr (plain.range (at' 2)) (plain.range (at' 5)) ∧ c.count (.b 0 1) = some 1 := by
  have h : yields (run plain bothCalls) (fun _ c => c = bothCallsReport) = true := by decide +kernel
  obtain ⟨p', cov, h1, h2⟩ := of_yields h
  have h2 : cov.inner = bothCallsReport := of_decide_eq_true h2
  have hc : Clean bothCalls := by unfold Clean; decide +kernel
  have hf : cov.inner.Fits := by
    rw [h2]
    refine ⟨?_, ?_, ?_, ?_, ?_, ?_, ?_, ?_⟩ <;>
      simp [bothCallsReport, FileCoverage.empty, IndexMap.Fits, Range.Fits, Location.Fits, Branch.Fits, Ctx.range, plain, at']
  obtain ⟨trs', k1, k2, r, es, ps, a, d, c, k3, -, -, -, k4, k5, k6, k7, k8⟩ := C45_source_partial noWorld hc (by decide +kernel)
    (by decide +kernel) h1 hf (.inl rfl) freshRealm_pristine (covFn := "cov_1") (by decide) (by decide) rfl rfl rfl rfl
    [bothCallsTrace, oneCallTrace] (solid := fun v => v != 0) (by
      intro tr htr
      simp only [List.mem_cons, List.not_mem_nil, or_false] at htr
      rcases htr with rfl | rfl
      · exact ⟨_, _, bothCalls_exec, nofun, nofun⟩
      · exact ⟨_, _, oneCall_exec, nofun, nofun⟩) (by decide +kernel)
  have sums : ∀ f : List (Ev Nat Unit) → Nat, (trs'.map fun tr => f (visible tr)).sum = f bothCallsTrace + f oneCallTrace := by
    intro f
    rw [show (trs'.map fun tr => f (visible tr)) = (trs'.map visible).map f by rw [List.map_map]; rfl, k1]
    simp
  obtain ⟨id, s1, s2⟩ := C22_items_partial hc (by decide +kernel) (.inl rfl) h1
    (expr 1 (bin 2 .and (call 3 (ident 4 "f") []) (call 5 (ident 6 "g") [])))
    (List.mem_filter.2 ⟨List.mem_cons_self .., by decide +kernel⟩) (by decide +kernel) (at' 1) (by decide +kernel)
  have hid : id = 0 := by
    have := s1.1
    rw [h2] at this
    rcases List.mem_singleton.1 (IndexMap.mem_of_get this)
    rfl
  subst hid
  obtain ⟨x, hx, hx'⟩ := inProgram_find (cx := plain) (p := bothCalls) (i := 0) (is := [0])
    (f := fun x => x = bin 2 .and (call 3 (ident 4 "f") []) (call 5 (ident 6 "g") [])) (by decide +kernel)
  cases of_decide_eq_true hx'
  obtain ⟨b, b1, b2⟩ := C22_operands_partial hc (by decide +kernel) (.inl rfl) h1 .and (at' 2) _ _ (.inl rfl) hx (by decide +kernel)
  obtain ⟨i, i1, i2⟩ := b2 (call 3 (ident 4 "f") []) (by decide +kernel) (by decide +kernel)
  obtain ⟨j, j1, j2⟩ := b2 (call 5 (ident 6 "g") []) (by decide +kernel) (by decide +kernel)
  have hb : b = 0 := by
    obtain ⟨br, h3, _⟩ := i1
    rw [h2] at h3
    rcases List.mem_singleton.1 (IndexMap.mem_of_get h3)
    rfl
  subst hb
  have hloc : ∀ {n : Nat} {l : Range}, (Tables.report cov.inner).arm 0 n l →
      [plain.range (at' 3), plain.range (at' 5)][n]? = some l := by
    rintro n l ⟨br, h3, h4⟩
    rw [h2] at h3
    cases Option.some.inj h3
    exact h4
  have hi : i = 0 := by
    have := hloc i1
    rcases i with _ | _ | _
    · rfl
    · revert this; decide +kernel
    · cases this
  have hj : j = 1 := by
    have := hloc j1
    rcases j with _ | _ | _
    · revert this; decide +kernel
    · rfl
    · cases this
  subst hi hj
  refine ⟨p', cov, h1, r, es, ps, a, d, c, k3, k4, k5, (k6 _).2 rfl, k7, (k8.statementMap 0).trans s1.1, ?_, k8.arm b1 i1, ?_,
    k8.arm b1 j1, ?_⟩
  · refine (k8.begun _ _ s2 (C22_start_partial.1 _ _ s1)).trans ?_
    rw [sums]
    decide +kernel
  · refine (k8.begun _ _ i2 (C22_start_partial.2.2 _ _ _ _ b1 i1).1).trans ?_
    rw [sums]
    decide +kernel
  · refine (k8.begun _ _ j2 (C22_start_partial.2.2 _ _ _ _ b1 j1).1).trans ?_
    rw [sums]
    decide +kernel

end Verif
