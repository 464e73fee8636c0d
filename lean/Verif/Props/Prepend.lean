import Verif.Lemmas.SlideProgram
import Verif.Spec.Build
/-
C63: code put before other code only moves the ids of what follows.
-/
namespace Verif
open Node Visitor RegOp

/-- C63 for modules, if no logical expression of the first part is exposed: if a module of the items `a` followed by `b` is
instrumented without a panic, so are the modules of `a` and of `b`. Its report is that of `a` followed by that of `b`, with ids moved up by the
number of entries that `a` has. Its items are those of `a` followed by those of `b` with the ids in the counters moved. -/
theorem C63_module_partial {cx : Ctx} {fuel : Nat} {path : String} {sm : Option SourceMap} {sp sp₁ sp₂ : Span} {a b : List Node} {p : Node}
    {cov : SourceCoverage} (ha : a ≠ []) (he : ∀ i ∈ a, i.exposes (Kind.disturbs cx.reportLogic) = false)
    (hb : ∀ i ∈ b, i.any Kind.injected = false)
    (hf : Hint.shouldIgnoreFile cx.cc cx.comments sp = false) (hf₁ : Hint.shouldIgnoreFile cx.cc cx.comments sp₁ = false)
    (hf₂ : Hint.shouldIgnoreFile cx.cc cx.comments sp₂ = false)
    (h : instrument cx fuel path sm (mk .module sp (a ++ b)) = .ok (p, cov)) :
    ∃ p₁ cov₁ p₂ cov₂ d items, instrument cx fuel path sm (mk .module sp₁ a) = .ok (p₁, cov₁) ∧
      instrument cx fuel path sm (mk .module sp₂ b) = .ok (p₂, cov₂) ∧
      d = (⟨cov₁.inner.statementMap.length, cov₁.inner.fnMap.length, cov₁.lastB⟩ : Offset) ∧ Joined d cov₁.inner cov₂.inner cov.inner ∧
      p₂.children = insertModuleTemplates declItem callItem items ∧ p.children = p₁.children ++ items.map (Node.slide d) := by
  have h0 := h
  rw [instrument_module _ _ _ _ _ _ hf] at h
  split at h
  · cases h
  · next out st hv =>
    cases h
    obtain ⟨oa, ob, st1, h1, h2, rfl⟩ := (visitItems_append a b).1 hv
    obtain ⟨t, -, g1, b1⟩ := Sound.visitItems (fi := ⟨path, cx.reportLogic, sm⟩) (sp := sp) (l := []) (good_start cx path sm) rfl h1
    obtain ⟨n1, n2⟩ := (Steady.visitItems he _ _ _ h1).1 trivial
    have hin : ∀ i ∈ b, Slid (offset t) i i := fun i hi => .clean (hb i hi)
    obtain ⟨ob', s', h3, h4, h5⟩ := Slide.Sim.visitItems (L := ⟨cx, ⟨path, cx.reportLogic, sm⟩, t, g1.2⟩) hin st1 (start cx path sm)
      ⟨by rw [b1]; exact .nil, n1, n2, [], legal_nil, by simpa using g1.1, (good_start cx path sm).1⟩ _ _ h2
    have e1 : instrument cx fuel path sm (mk .module sp₁ a) =
        .ok (mk .module sp₁ (insertModuleTemplates declItem callItem oa), st1.cov.freeze) := by
      rw [instrument_module _ _ _ _ _ _ hf₁, h1]
    have e2 : instrument cx fuel path sm (mk .module sp₂ b) =
        .ok (mk .module sp₂ (insertModuleTemplates declItem callItem ob'), s'.cov.freeze) := by
      rw [instrument_module _ _ _ _ _ _ hf₂, h3]
    obtain ⟨t2, l2, i1, i2⟩ := h5.cov
    obtain ⟨_, _, o0⟩ := outcome h0
    obtain ⟨_, _, o1⟩ := outcome e1
    obtain ⟨_, _, o2⟩ := outcome e2
    have f1 := g1.1.finished g1.2
    refine ⟨_, _, _, _, offset t, ob', e1, e2, ?_, joined_of g1.2 l2 f1 (i2.finished l2)
      (i1.finished (legal_slide _ _ _ g1.2 rfl l2)) o1.bT_isSome.symm o2.bT_isSome.symm o0.bT_isSome.symm, rfl, ?_⟩
    · rw [f1.statementMap, f1.fnMap]
      unfold numbered offset
      rw [List.length_map, List.length_map, List.length_zipIdx, List.length_zipIdx]
      congr 1
      exact g1.1.lastB.symm
    · rw [Slid.eqs h4]
      cases oa with
      | nil => exact absurd rfl (visitItems_ne ha h1)
      | cons i l => rfl

/-- C63 for scripts, with the same condition. -/
theorem C63_script_partial {cx : Ctx} {fuel : Nat} {path : String} {sm : Option SourceMap} {sp sp₁ sp₂ : Span} {a b : List Node} {p : Node}
    {cov : SourceCoverage} (he : ∀ i ∈ a, i.exposes (Kind.disturbs cx.reportLogic) = false)
    (hb : ∀ i ∈ b, i.any Kind.injected = false)
    (hf : Hint.shouldIgnoreFile cx.cc cx.comments sp = false) (hf₁ : Hint.shouldIgnoreFile cx.cc cx.comments sp₁ = false)
    (hf₂ : Hint.shouldIgnoreFile cx.cc cx.comments sp₂ = false)
    (h : instrument cx fuel path sm (mk .script sp (a ++ b)) = .ok (p, cov)) :
    ∃ p₁ cov₁ p₂ cov₂ d items, instrument cx fuel path sm (mk .script sp₁ a) = .ok (p₁, cov₁) ∧
      instrument cx fuel path sm (mk .script sp₂ b) = .ok (p₂, cov₂) ∧
      d = (⟨cov₁.inner.statementMap.length, cov₁.inner.fnMap.length, cov₁.lastB⟩ : Offset) ∧ Joined d cov₁.inner cov₂.inner cov.inner ∧
      p₂.children = declItem :: callItem :: items ∧ p.children = p₁.children ++ items.map (Node.slide d) := by
  have h0 := h
  rw [instrument_script _ _ _ _ _ _ hf] at h
  split at h
  · cases h
  · next out st hv =>
    cases h
    obtain ⟨oa, st1, ob, h1, h2, rfl⟩ := visitScriptItems_append hv
    obtain ⟨t, -, g1, b1⟩ := Sound.visitScriptItems (fi := ⟨path, cx.reportLogic, sm⟩) (sp := sp) (l := []) (good_start cx path sm) rfl h1
    obtain ⟨n1, n2⟩ := (Steady.visitScriptItems he _ _ _ h1).1 trivial
    have hin : ∀ i ∈ b, Slid (offset t) i i := fun i hi => .clean (hb i hi)
    obtain ⟨ob', s', h3, h4, h5⟩ := Slide.Sim.visitScriptItems (L := ⟨cx, ⟨path, cx.reportLogic, sm⟩, t, g1.2⟩) hin st1 (start cx path sm)
      ⟨by rw [b1]; exact .nil, n1, n2, [], legal_nil, by simpa using g1.1, (good_start cx path sm).1⟩ _ _ h2
    have e1 : instrument cx fuel path sm (mk .script sp₁ a) =
        .ok (mk .script sp₁ (declItem :: callItem :: oa), st1.cov.freeze) := by
      rw [instrument_script _ _ _ _ _ _ hf₁, h1]
    have e2 : instrument cx fuel path sm (mk .script sp₂ b) =
        .ok (mk .script sp₂ (declItem :: callItem :: ob'), s'.cov.freeze) := by
      rw [instrument_script _ _ _ _ _ _ hf₂, h3]
    obtain ⟨t2, l2, i1, i2⟩ := h5.cov
    obtain ⟨_, _, o0⟩ := outcome h0
    obtain ⟨_, _, o1⟩ := outcome e1
    obtain ⟨_, _, o2⟩ := outcome e2
    have f1 := g1.1.finished g1.2
    refine ⟨_, _, _, _, offset t, ob', e1, e2, ?_, joined_of g1.2 l2 f1 (i2.finished l2)
      (i1.finished (legal_slide _ _ _ g1.2 rfl l2)) o1.bT_isSome.symm o2.bT_isSome.symm o0.bT_isSome.symm, rfl, ?_⟩
    · rw [f1.statementMap, f1.fnMap]
      unfold numbered offset
      rw [List.length_map, List.length_map, List.length_zipIdx, List.length_zipIdx]
      congr 1
      exact g1.1.lastB.symm
    · rw [Slid.eqs h4]
      rfl

open Build in
/-- Without the condition C63 fails: in the module `a || b; const f = () => 1;` the initialiser of `f` has no entry. It has one in
`const f = () => 1;`. -/
theorem C63_module_fails : ∃ (a b : List Node) (p₁ p₂ p : Node) (cov₁ cov₂ cov : SourceCoverage), (∀ i ∈ a ++ b, i.any Kind.injected = false) ∧
    run plain (Build.module a) = .ok (p₁, cov₁) ∧ run plain (Build.module b) = .ok (p₂, cov₂) ∧
    run plain (Build.module (a ++ b)) = .ok (p, cov) ∧ cov₁.inner.statementMap.length = 1 ∧ cov₂.inner.statementMap.length = 2 ∧
    cov.inner.statementMap.length = 2 ∧ ∀ d, ¬ Joined d cov₁.inner cov₂.inner cov.inner := by
  have h1 : yields (run plain (Build.module [expr 1 (bin 2 .or (ident 3 "a") (ident 4 "b"))])) (fun _ r => decide (r.statementMap.length = 1)) = true := by
    decide +kernel
  have h2 : yields (run plain (Build.module [decl 5 .const "f" (arrow 6 (num 7 "1"))])) (fun _ r => decide (r.statementMap.length = 2)) = true := by
    decide +kernel
  have h3 : yields (run plain (Build.module ([expr 1 (bin 2 .or (ident 3 "a") (ident 4 "b"))] ++ [decl 5 .const "f" (arrow 6 (num 7 "1"))])))
      (fun _ r => decide (r.statementMap.length = 2)) = true := by decide +kernel
  obtain ⟨p₁, c₁, e1, g1⟩ := of_yields h1
  obtain ⟨p₂, c₂, e2, g2⟩ := of_yields h2
  obtain ⟨p, c, e3, g3⟩ := of_yields h3
  have g1 := of_decide_eq_true g1
  have g2 := of_decide_eq_true g2
  have g3 := of_decide_eq_true g3
  refine ⟨[expr 1 (bin 2 .or (ident 3 "a") (ident 4 "b"))],
    [decl 5 .const "f" (arrow 6 (num 7 "1"))], p₁, p₂, p, c₁, c₂, c, ?_, e1, e2, e3, g1, g2, g3, fun d hd => ?_⟩
  · decide +kernel
  have := congrArg List.length hd.statementMap
  rw [List.length_append, List.length_map] at this
  omega

open Build in
/-- The same in the script `a || b; a || b; const f = () => 1;`. -/
theorem C63_script_fails : ∃ (a b : List Node) (p₁ p₂ p : Node) (cov₁ cov₂ cov : SourceCoverage), (∀ i ∈ a ++ b, i.any Kind.injected = false) ∧
    run plain (Build.script a) = .ok (p₁, cov₁) ∧ run plain (Build.script b) = .ok (p₂, cov₂) ∧
    run plain (Build.script (a ++ b)) = .ok (p, cov) ∧ cov₁.inner.statementMap.length = 2 ∧ cov₂.inner.statementMap.length = 2 ∧
    cov.inner.statementMap.length = 3 ∧ ∀ d, ¬ Joined d cov₁.inner cov₂.inner cov.inner := by
  have h1 : yields (run plain (Build.script [expr 1 (bin 2 .or (ident 3 "a") (ident 4 "b")), expr 1 (bin 2 .or (ident 3 "a") (ident 4 "b"))]))
      (fun _ r => decide (r.statementMap.length = 2)) = true := by decide +kernel
  have h2 : yields (run plain (Build.script [decl 5 .const "f" (arrow 6 (num 7 "1"))])) (fun _ r => decide (r.statementMap.length = 2)) = true := by
    decide +kernel
  have h3 : yields (run plain (Build.script ([expr 1 (bin 2 .or (ident 3 "a") (ident 4 "b")), expr 1 (bin 2 .or (ident 3 "a") (ident 4 "b"))] ++
      [decl 5 .const "f" (arrow 6 (num 7 "1"))]))) (fun _ r => decide (r.statementMap.length = 3)) = true := by decide +kernel
  obtain ⟨p₁, c₁, e1, g1⟩ := of_yields h1
  obtain ⟨p₂, c₂, e2, g2⟩ := of_yields h2
  obtain ⟨p, c, e3, g3⟩ := of_yields h3
  have g1 := of_decide_eq_true g1
  have g2 := of_decide_eq_true g2
  have g3 := of_decide_eq_true g3
  refine ⟨[expr 1 (bin 2 .or (ident 3 "a") (ident 4 "b")), expr 1 (bin 2 .or (ident 3 "a") (ident 4 "b"))],
    [decl 5 .const "f" (arrow 6 (num 7 "1"))], p₁, p₂, p, c₁, c₂, c, ?_, e1, e2, e3, g1, g2, g3, fun d hd => ?_⟩
  · decide +kernel
  have := congrArg List.length hd.statementMap
  rw [List.length_append, List.length_map] at this
  omega

open Build in
/-- `function f() { x || y; }  function () …` before code with a branch and an anonymous function: the logical expression is in the
body of a function and does no harm; ids move up by 2, 1 and 1, and the function without a name is named after its new id. -/
example : ∃ p₁ cov₁ p₂ cov₂ p cov, run plain (Build.module [fnDecl 1 "f" [] [expr 2 (bin 3 .or (ident 4 "x") (ident 5 "y"))], expr 6 (num 7 "1")]) = .ok (p₁, cov₁) ∧
    run plain (Build.module [expr 10 (cond 11 (ident 12 "c") (ident 13 "d") (ident 14 "e")), expr 20 (arrow 21 (num 22 "1"))]) = .ok (p₂, cov₂) ∧
    run plain (Build.module ([fnDecl 1 "f" [] [expr 2 (bin 3 .or (ident 4 "x") (ident 5 "y"))], expr 6 (num 7 "1")] ++
      [expr 10 (cond 11 (ident 12 "c") (ident 13 "d") (ident 14 "e")), expr 20 (arrow 21 (num 22 "1"))])) = .ok (p, cov) ∧
    Joined ⟨2, 1, 1⟩ cov₁.inner cov₂.inner cov.inner ∧
    cov₂.inner.fnMap.map (·.2.name) = ["(anonymous_0)"] ∧ cov.inner.fnMap.map (·.2.name) = ["f", "(anonymous_1)"] ∧
    cov₂.inner.branchMap.keys = [0] ∧ cov.inner.branchMap.keys = [0, 1] := by
  have h1 : yields (run plain (Build.module [fnDecl 1 "f" [] [expr 2 (bin 3 .or (ident 4 "x") (ident 5 "y"))], expr 6 (num 7 "1")]))
      (fun _ r => decide (r.statementMap.length = 2 ∧ r.fnMap.length = 1)) = true := by decide +kernel
  have h1b : (match run plain (Build.module [fnDecl 1 "f" [] [expr 2 (bin 3 .or (ident 4 "x") (ident 5 "y"))], expr 6 (num 7 "1")]) with
      | .ok (_, c) => decide (c.lastB = 1) | .error _ => false) = true := by decide +kernel
  have h2 : yields (run plain (Build.module [expr 10 (cond 11 (ident 12 "c") (ident 13 "d") (ident 14 "e")), expr 20 (arrow 21 (num 22 "1"))]))
      (fun _ r => decide (r.fnMap.map (·.2.name) = ["(anonymous_0)"] ∧ r.branchMap.keys = [0])) = true := by decide +kernel
  have h3 : yields (run plain (Build.module ([fnDecl 1 "f" [] [expr 2 (bin 3 .or (ident 4 "x") (ident 5 "y"))], expr 6 (num 7 "1")] ++
      [expr 10 (cond 11 (ident 12 "c") (ident 13 "d") (ident 14 "e")), expr 20 (arrow 21 (num 22 "1"))])))
      (fun _ r => decide (r.fnMap.map (·.2.name) = ["f", "(anonymous_1)"] ∧ r.branchMap.keys = [0, 1])) = true := by decide +kernel
  obtain ⟨p₁, c₁, e1, g1⟩ := of_yields h1
  obtain ⟨p₂, c₂, e2, g2⟩ := of_yields h2
  obtain ⟨p, c, e3, g3⟩ := of_yields h3
  have g1 := of_decide_eq_true g1
  have g2 := of_decide_eq_true g2
  have g3 := of_decide_eq_true g3
  rw [e1] at h1b
  have he : ∀ i ∈ [fnDecl 1 "f" [] [expr 2 (bin 3 .or (ident 4 "x") (ident 5 "y"))], expr 6 (num 7 "1")],
      i.exposes (Kind.disturbs plain.reportLogic) = false := by decide +kernel
  have hb : ∀ i ∈ [expr 10 (cond 11 (ident 12 "c") (ident 13 "d") (ident 14 "e")), expr 20 (arrow 21 (num 22 "1"))],
      i.any Kind.injected = false := by decide +kernel
  obtain ⟨_, _, _, _, d, items, f1, f2, rfl, f3, -⟩ := C63_module_partial (sp₁ := ⟨1, 1000⟩) (sp₂ := ⟨1, 1000⟩) (by simp)
    he hb rfl rfl rfl e3
  cases e1.symm.trans f1
  cases e2.symm.trans f2
  refine ⟨_, _, _, _, _, _, e1, e2, e3, ?_, g2.1, g3.1, g2.2, g3.2⟩
  rw [g1.1, g1.2, of_decide_eq_true h1b] at f3
  exact f3

end Verif
