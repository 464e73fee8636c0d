import Verif.Lemmas.Emitted
import Verif.Props.Instrument
/-
C21, C28, C29: what instrumented programs do, their directives and the names of their functions.
-/
namespace Verif
open Node RegOp Visitor Build
open Sem hiding Outcome

section
variable {cx : Ctx} {fuel : Nat} {path : String} {sm : Option SourceMap} {p p' : Node} {cov : SourceCoverage}

/-! ### C21 -/

/-- C21, partial: the instrumented program can do exactly what the source can do. For every interpretation of
everything instrumentation does not touch (`Spec/Sem.lean`), a sequence of events is an execution of the source if
and only if it is what remains of an execution of the instrumented program when the counter increments are left out, and
both end in the same way. Missing: programs with anonymous functions as default values or, without a block in them, as class fields, and
programs with directives other than one at the start of a module; for these it is false (`C21_refuted_names`,
`C21_refuted_directives`). -/
theorem C21_partial {V A : Type} {solid : V → Bool} (hp : Clean p) (hU : UnnamedFields p) (hF : FewDirectives p)
    (hr : instrument cx fuel path sm p = .ok (p', cov)) (tr : List (Ev V A)) (o o' : Sem.Outcome V A) :
    Exec solid p tr o o' ↔ ∃ tr', visible tr' = tr ∧ Exec solid p' tr' o o' := by
  obtain ⟨n, h, oc⟩ := outcome hr
  have hs := oc.strip_eq
  have h1 := clean_faithful hp
  have h2 := emitted_faithful hp hU hF hr
  constructor
  · intro he
    obtain ⟨tr', e1, e2⟩ := exec_same hs.symm h1 h2 he
    exact ⟨tr', by rw [e1, clean_exec hp he], e2⟩
  · rintro ⟨tr', rfl, he⟩
    obtain ⟨tr, e1, e2⟩ := exec_same hs h2 h1 he
    rw [← e1, clean_exec hp e2]
    exact e2

/-- The hypotheses of `C21_partial` hold for the sample. -/
example : Clean sample ∧ UnnamedFields sample ∧ FewDirectives sample :=
  ⟨sample_clean, by decide +kernel, by decide +kernel⟩

/-- `"use strict"; f();` as a script. -/
def strictScript : Node :=
  script [expr 1 (mk (.strLit "use strict") (at' 1) []), expr 2 (call 2 (ident 2 "f") [])]

/-- `(() => { "use strict"; x; });` -/
def strictArrow : Node :=
  Build.module [expr 1 (arrow 2 (block 2 [expr 3 (mk (.strLit "use strict") (at' 3) []), expr 4 (ident 4 "x")]))]

/-- `(class { p = () => 1; });` -/
def arrowField : Node :=
  Build.module [expr 1 (mk .classExpr (at' 2) [absent, mk (.other .misc "Class") (at' 2)
    [mk .classProp (at' 3) [mk (.propIdent "p") (at' 3) [], arrow 4 (num 4 "1"), mk .list Span.dummy []]]])]

/-- `(function (a = () => {}) {});` -/
def arrowDefault : Node :=
  Build.module [expr 1 (mk .fnExpr (at' 2) [absent,
    function 2 [mk .assignPat (at' 3) [ident 3 "a", arrow 4 (block 4 [])]] (block 5 [])])]

/-- A program does something that its instrumented version never does. -/
def Lost (p p' : Node) : Prop :=
  ∃ tr : List (Ev Unit Unit), Exec (fun _ => true) p tr .cut .cut ∧
    ¬ ∃ tr', visible tr' = visible tr ∧ Exec (fun _ => true) p' tr' .cut .cut

/-- A presented node that is not in the instrumented program. -/
theorem Lost.of_face {p p' : Node} {tr : List (Ev Unit Unit)} {f : Face} (h : Exec (fun _ => true) p tr .cut .cut)
    (hf : .present f ∈ tr) (hn : f ∉ (each p').map face) (hb : f.kind ≠ .block) (hs : f.kind ≠ .returnStmt) :
    Lost p p' := by
  refine ⟨tr, h, ?_⟩
  rintro ⟨tr', e1, e2⟩
  have h1 : .present f ∈ visible tr := List.mem_filter.2 ⟨hf, rfl⟩
  rw [← e1] at h1
  rcases exec_presented e2 (List.mem_filter.1 h1).1 with h | h | h
  · exact hn h
  · exact hb h
  · exact hs h

/-- C21 fails for directives: after instrumentation a script is no longer strict, and a function with its own
`"use strict"` is no longer strict. -/
theorem C21_refuted_directives :
    (Clean strictScript ∧ ∃ p' cov, run plain strictScript = .ok (p', cov) ∧ Lost strictScript p') ∧
    (Clean strictArrow ∧ ∃ p' cov, run plain strictArrow = .ok (p', cov) ∧ Lost strictArrow p') := by
  constructor
  · refine ⟨by unfold Clean; decide +kernel, ?_⟩
    have h : yields (run plain strictScript) (fun p' _ => decide (face strictScript ∉ (each p').map face)) = true := by
      decide +kernel
    obtain ⟨p', cov, h1, h2⟩ := of_yields h
    refine ⟨p', cov, h1, .of_face (tr := [.present (face strictScript)]) (f := face strictScript) ?_ (by simp)
      (of_decide_eq_true h2) (by decide) (by decide)⟩
    exact ⟨[_], [], _, _, rfl, .blockCut rfl (.cut _ _), .cut _ _⟩
  · refine ⟨by unfold Clean; decide +kernel, ?_⟩
    let a := arrow 2 (block 2 [expr 3 (mk (.strLit "use strict") (at' 3) []), expr 4 (ident 4 "x")])
    have h : yields (run plain strictArrow) (fun p' _ => decide (face a ∉ (each p').map face)) = true := by
      decide +kernel
    obtain ⟨p', cov, h1, h2⟩ := of_yields h
    refine ⟨p', cov, h1, .of_face
      (tr := [.present (face strictArrow), .present (face (expr 1 a)), .pick 1 0 (face (expr 1 a)), .present (face a)]) (f := face a)
      ?_ (by simp) (of_decide_eq_true h2) (by decide) (by decide)⟩
    refine ⟨_, [], _, _, by rw [List.append_nil], .blockCut rfl (.stop rfl (.node rfl
      (.pickCut (n := expr 1 a) (c := a) rfl rfl (.node rfl (.cut _ _)))) rfl), .cut _ _⟩

/-- C21 fails for names: a function that is the value of a class field or a default value no longer gets a name. -/
theorem C21_refuted_names :
    (Clean arrowField ∧ ∃ p' cov, run plain arrowField = .ok (p', cov) ∧ Lost arrowField p') ∧
    (Clean arrowDefault ∧ ∃ p' cov, run plain arrowDefault = .ok (p', cov) ∧ Lost arrowDefault p') := by
  constructor
  · refine ⟨by unfold Clean; decide +kernel, ?_⟩
    let f := mk .classProp (at' 3) [mk (.propIdent "p") (at' 3) [], arrow 4 (num 4 "1"), mk .list Span.dummy []]
    let c := mk (.other .misc "Class") (at' 2) [f]
    let e := mk .classExpr (at' 2) [absent, c]
    have h : yields (run plain arrowField) (fun p' _ => decide (face f ∉ (each p').map face)) = true := by
      decide +kernel
    obtain ⟨p', cov, h1, h2⟩ := of_yields h
    refine ⟨p', cov, h1, .of_face (tr := [.present (face arrowField), .present (face (expr 1 e)), .pick 1 0 (face (expr 1 e)),
      .present (face e), .pick 2 1 (face e), .present (face c), .pick 3 0 (face c), .present (face f)]) (f := face f)
      ?_ (by simp) (of_decide_eq_true h2) (by decide) (by decide)⟩
    refine ⟨_, [], _, _, by rw [List.append_nil], .blockCut rfl (.stop rfl (.node rfl
      (.pickCut (n := expr 1 e) (c := e) rfl rfl (.node rfl (.pickCut (n := e) (c := c) rfl rfl (.node rfl
      (.pickCut (n := c) (c := f) rfl rfl (.node rfl (.cut _ _)))))))) rfl), .cut _ _⟩
  · refine ⟨by unfold Clean; decide +kernel, ?_⟩
    let d := mk .assignPat (at' 3) [ident 3 "a", arrow 4 (block 4 [])]
    let l := mk .list Span.dummy [d]
    let f := function 2 [d] (block 5 [])
    let e := mk .fnExpr (at' 2) [absent, f]
    have h : yields (run plain arrowDefault) (fun p' _ => decide (face d ∉ (each p').map face)) = true := by
      decide +kernel
    obtain ⟨p', cov, h1, h2⟩ := of_yields h
    refine ⟨p', cov, h1, .of_face (tr := [.present (face arrowDefault), .present (face (expr 1 e)), .pick 1 0 (face (expr 1 e)),
      .present (face e), .pick 2 1 (face e), .present (face f), .pick 3 0 (face f), .present (face l), .pick 4 0 (face l),
      .present (face d)])
      (f := face d) ?_ (by simp) (of_decide_eq_true h2) (by decide) (by decide)⟩
    refine ⟨_, [], _, _, by rw [List.append_nil], .blockCut rfl (.stop rfl (.node rfl
      (.pickCut (n := expr 1 e) (c := e) rfl rfl (.node rfl (.pickCut (n := e) (c := f) rfl rfl (.node rfl
      (.pickCut (n := f) (c := l) rfl rfl (.node rfl (.pickCut (n := l) (c := d) rfl rfl
      (.node rfl (.cut _ _)))))))))) rfl), .cut _ _⟩

/-! ### C28 -/

/-- C28, partial: if no function has directives and the program has at most one, at the start of a module,
then instrumentation keeps all directive prologues. Missing: all other directives (`C28_refuted`); the exact
effect on the program's own prologue is `C28_module` and `C28_script`. -/
theorem C28_partial (hp : Clean p) (hU : UnnamedFields p) (hF : FewDirectives p)
    (hr : instrument cx fuel path sm p = .ok (p', cov)) : prologues p' = prologues p := by
  obtain ⟨n, h, oc⟩ := outcome hr
  rw [prologues_eq (clean_faithful hp), prologues_eq (emitted_faithful hp hU hF hr)]
  refine oc.collect_eq ?_ ?_ rfl rfl
  · intro a b hs
    unfold bareDirectives
    rw [hs, ← strip_kind a, ← strip_kind b, ← strip_span a, ← strip_span b, hs]
  · intro n hn
    unfold bareDirectives
    rw [isCode_added hn]
    rfl

/-- The sample has a directive, which is kept. -/
example : ∃ p' cov, run plain sample = .ok (p', cov) ∧
    (prologues p').head? = some (.module, ⟨1, 1000⟩, ["use strict"]) := by
  have h : yields (run plain sample) (fun p' _ => decide ((prologues p').head? =
    some (.module, ⟨1, 1000⟩, ["use strict"]))) = true := by decide +kernel
  obtain ⟨p', cov, h1, h2⟩ := of_yields h
  exact ⟨p', cov, h1, of_decide_eq_true h2⟩

/-- C28 for the prologue of modules: the first directive is kept, all others are lost. -/
theorem C28_module (hp : Clean p) (hk : p.kind = .module)
    (hf : Hint.shouldIgnoreFile cx.cc cx.comments p.span = false)
    (hr : instrument cx fuel path sm p = .ok (p', cov)) :
    directivesOf (codeOf p') = (directivesOf (codeOf p)).take 1 := by
  obtain ⟨k, sp, items⟩ := p
  cases hk
  exact instrument_module_directives hf hp hr

/-- C28 for the prologue of scripts: all directives are lost. -/
theorem C28_script (hk : p.kind = .script)
    (hf : Hint.shouldIgnoreFile cx.cc cx.comments p.span = false)
    (hr : instrument cx fuel path sm p = .ok (p', cov)) : directivesOf (codeOf p') = [] := by
  obtain ⟨k, sp, items⟩ := p
  cases hk
  exact instrument_script_directives hf hr

/-- Two directives at the start of a module. -/
def twoDirectives : Node :=
  Build.module [expr 1 (mk (.strLit "use client") (at' 1) []), expr 2 (mk (.strLit "use strict") (at' 2) [])]

/-- C28: a directive in any statement list is left as it is and gets no statement entry. -/
theorem C28_uncounted {v : String} (hv : v ∈ ["use strict", "use asm", "use strong"]) {m : Mode}
    (hm : m = .coverage ∨ m = .stmt ∨ ∃ b, m = .switchCase b) (sp lsp : Span) (st : St) :
    visit cx (fuel + 1) m (mk .exprStmt sp [mk (.strLit v) lsp []]) st
      = .ok (mk .exprStmt sp [mk (.strLit v) lsp []], st) := by
  have hd : isDirectiveLit (mk (.strLit v) lsp []) = true := by
    simp only [List.mem_cons, List.not_mem_nil, or_false] at hv
    rcases hv with rfl | rfl | rfl <;> simp [isDirectiveLit, directives]
  have h1 : visit cx (fuel + 1) m (mk .exprStmt sp [mk (.strLit v) lsp []]) st =
      frame cx .exprStmt sp (fun cur => if isDirectiveLit (mk (.strLit v) lsp []) then
        pure (mk .exprStmt sp [mk (.strLit v) lsp []]) else do
          keepIf (cur = some .next ∨ isInjectedExpr (mk (.strLit v) lsp [])) () (mark cx sp)
          Visitor.visitChildren cx (visit cx fuel) m (mk .exprStmt sp [mk (.strLit v) lsp []])) st := by
    rcases hm with rfl | rfl | ⟨b, rfl⟩ <;> rfl
  rw [h1]
  simp only [hd, if_true]
  simp only [frame, enter, push, enterSpan, exit, pop, Bind.bind, M.bind, Pure.pure]
  by_cases hi : st.ignore = some .next
  · rw [if_pos hi]; rfl
  · rw [if_neg hi]; rfl

/-- In a function only the statement after the directive is counted. -/
example : ∃ p' cov, run plain (Build.module [fnDecl 1 "f" [] [expr 2 (mk (.strLit "use strict") (at' 2) []), expr 3 (ident 3 "x")]])
    = .ok (p', cov) ∧ cov.inner.statementMap = [(0, plain.range (at' 3))] := by
  have h : yields (run plain (Build.module [fnDecl 1 "f" [] [expr 2 (mk (.strLit "use strict") (at' 2) []), expr 3 (ident 3 "x")]]))
      (fun _ r => decide (r.statementMap = [(0, plain.range (at' 3))])) = true := by decide +kernel
  obtain ⟨p', cov, h1, h2⟩ := of_yields h
  exact ⟨p', cov, h1, of_decide_eq_true h2⟩

/-- C28 fails: `"use strict"` is lost at the start of a script, at the start of a function and as second directive
of a module. -/
theorem C28_refuted : ∀ p ∈ [strictScript, strictArrow, twoDirectives],
    Clean p ∧ ∃ p' cov, run plain p = .ok (p', cov) ∧ "use strict" ∈ (prologues p).flatMap (·.2.2) ∧
      "use strict" ∉ (prologues p').flatMap (·.2.2) := by
  have h : ∀ p ∈ [strictScript, strictArrow, twoDirectives], Node.any Kind.injected p = false ∧
      "use strict" ∈ (prologues p).flatMap (·.2.2) ∧
      yields (run plain p) (fun p' _ => decide ("use strict" ∉ (prologues p').flatMap (·.2.2))) = true := by
    decide +kernel
  intro p hp
  obtain ⟨h1, h2, h3⟩ := h p hp
  obtain ⟨p', cov, h4, h5⟩ := of_yields h3
  exact ⟨h1, p', cov, h4, h2, of_decide_eq_true h5⟩

/-! ### C29 -/

/-- C29 for variables: every anonymous function or class that initialises a variable still does so, directly. -/
theorem C29_declarators (hp : Clean p) (hr : instrument cx fuel path sm p = .ok (p', cov)) :
    namings [.varDeclarator] p' = namings [.varDeclarator] p := by
  obtain ⟨n, h, oc⟩ := outcome hr
  refine namings_same oc (by simp [Kind.wraps]) (by simp [Kind.added]) (fun m hm _ => clean_isFnDef hp m hm) ?_
  intro m hm hk c hc
  have hk : m.kind = .varDeclarator := by simpa using hk
  cases hh : c.any Kind.isHoisting with
  | true => rw [oc.directInits hp m hm hk c hc hh]
  | false =>
    have h1 : isFnDef c = false := by
      cases hd : isFnDef c with
      | false => rfl
      | true => rw [hoisting_of_isFnDef hd] at hh; cases hh
    have h2 : isFnDef (unwrap c) = false := by
      cases hd : isFnDef (unwrap c) with
      | false => rfl
      | true => exact absurd (hoisting_of_isFnDef hd) (by rw [unwrap_not_hoisting hh]; simp)
    rw [h1, h2]

/-- The sample has such a variable. -/
example : (Kind.varDeclarator, at' 14, [false, true]) ∈ namings [.varDeclarator] sample := by decide +kernel

/-- C29, partial, for class fields and default values: if no default value is an anonymous function or class, and no class
field is one without a block in it, then every class field that is an anonymous function or class still is one.
Missing: the excluded ones lose their names (`C29_refuted`). -/
theorem C29_fields_partial (hp : Clean p) (hU : UnnamedFields p) (hF : FewDirectives p)
    (hr : instrument cx fuel path sm p = .ok (p', cov)) : namings fieldKinds p' = namings fieldKinds p := by
  obtain ⟨n, h, oc⟩ := outcome hr
  refine namings_same oc (by simp [fieldKinds, Kind.wraps]) (by simp [fieldKinds, Kind.added])
    (fun m hm _ => clean_isFnDef hp m hm) ?_
  intro m hm hk c hc
  have h1 := faithful_iff.1 (emitted_faithful hp hU hF hr) m hm
  unfold faithfulAt at h1
  rw [Bool.and_eq_true] at h1
  have h2 : (names m.kind && m.kind.wraps) = true := by
    generalize m.kind = k at hk
    cases k <;> first | rfl | cases hk
  rw [h2] at h1
  simp only [Bool.not_true, Bool.false_or, List.all_eq_true, beq_iff_eq] at h1
  exact h1.1 c hc

/-- The sample has a class field and a default value. -/
example : (namings fieldKinds sample).length = 2 ∧ UnnamedFields sample ∧ FewDirectives sample := by decide +kernel

/-- `(class { p = () => {}; });` -/
def blockField : Node :=
  Build.module [expr 1 (mk .classExpr (at' 2) [absent, mk (.other .misc "Class") (at' 2)
    [mk .classProp (at' 3) [mk (.propIdent "p") (at' 3) [], arrow 4 (block 4 []), mk .list Span.dummy []]]])]

/-- Another program with the hypotheses, with a class field that gives a name. -/
example : (Kind.classProp, at' 3, [false, true, false]) ∈ namings fieldKinds blockField ∧ UnnamedFields blockField ∧
    FewDirectives blockField := by decide +kernel

/-- C29 fails: the arrow functions lose their names `p` and `a`. -/
theorem C29_refuted : ∀ p ∈ [arrowField, arrowDefault],
    Clean p ∧ ∃ p' cov, run plain p = .ok (p', cov) ∧ (namings fieldKinds p).any (·.2.2.contains true) = true ∧
      (namings fieldKinds p').any (·.2.2.contains true) = false := by
  have h : ∀ p ∈ [arrowField, arrowDefault], Node.any Kind.injected p = false ∧
      (namings fieldKinds p).any (·.2.2.contains true) = true ∧
      yields (run plain p) (fun p' _ => !(namings fieldKinds p').any (·.2.2.contains true)) = true := by
    decide +kernel
  intro p hp
  obtain ⟨h1, h2, h3⟩ := h p hp
  obtain ⟨p', cov, h4, h5⟩ := of_yields h3
  exact ⟨h1, p', cov, h4, h2, by simpa using h5⟩

end
end Verif
