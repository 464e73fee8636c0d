import Verif.Lemmas.Wrapper
import Verif.Props.Outline
import Verif.Spec.Build
/-
C78: whether a file without imports and exports is parsed as a script or as a module makes no difference to what is reported.
-/
namespace Verif
open Visitor Node Build

section
variable {cx : Ctx} {fuel fuel' : Nat} {path path' : String} {sm sm' : Option SourceMap} {items : List Node} {sp sp' : Span}
  {p1 p2 : Node} {cov cov' : SourceCoverage}

/-- The entries of an item are the same in a module and in a script. -/
theorem itemOutline_eq {s : Node} (hs : s.IsScript) (hh : cx.hinted s = true → s.hintable = true ∨ s.traceless = true)
    (hd : isString s = true → ∃ sp sp' v cs, s = mk .exprStmt sp [mk (.strLit v) sp' cs] ∧ v ∈ ["use strict", "use asm", "use strong"]) :
    itemOutline cx s = outline cx .outer s := by
  unfold itemOutline
  split
  · next h =>
    obtain ⟨sp, sp', v, cs, rfl, hv⟩ := hd h
    rw [outline_step (.inl rfl)]
    split
    · rfl
    · show [] = ((if v ∈ ["use strict", "use asm", "use strong"] then [] else [Entry.statement (cx.range sp) true]) ++ []) ++
        (outline cx (if v ∈ ["use strict", "use asm", "use strong"] then .skip else .outer) (mk (.strLit v) sp' cs) ++ [])
      rw [if_pos hv, if_pos hv, outline, if_pos rfl]
      rfl
  · have hc : isConst s = false := by
      have := (hs s (each_self s)).1
      obtain ⟨k, sp, cs⟩ := s
      cases k <;> first | rfl | exact absurd rfl this
    rw [hc, if_neg Bool.false_ne_true, List.nil_append]
    split
    · next hx =>
      obtain ⟨k, sp, cs⟩ := s
      rcases hh hx with hh | hh
      · rw [outline_step (.inl rfl), show excluded cx .outer (mk k sp cs) = true by unfold excluded; rw [hx, hh]; rfl, if_pos rfl, outline, if_pos rfl]
      · rw [traceless_outline hh, traceless_outline hh]
    · rfl

/-- The entries of a program are the same as a module and as a script. -/
theorem programOutline_goal (hs : (mk .script sp items).IsScript) (hh : cx.HintsApply items) (hd : StringsDirect items)
    (hf : Hint.shouldIgnoreFile cx.cc cx.comments sp' = Hint.shouldIgnoreFile cx.cc cx.comments sp) :
    programOutline cx (mk .module sp' items) = programOutline cx (mk .script sp items) := by
  show (if Hint.shouldIgnoreFile cx.cc cx.comments sp' then [] else items.flatMap (itemOutline cx)) =
    if Hint.shouldIgnoreFile cx.cc cx.comments sp then [] else items.flatMap (outline cx .outer)
  rw [hf, List.flatMap_congr fun s h => itemOutline_eq (isScript_mk hs h) (hh s h) (hd s h)]

theorem goal_untagged (h : (mk .script sp items).NoTaggedInits) : (mk .module sp' items).NoTaggedInits := by
  intro m hm
  rcases mem_each_mk.1 hm with rfl | ⟨c, hc, hm⟩
  · exact fun i hi => absurd hi (by simp [initOf])
  · exact h m (mem_each_mk.2 (.inr ⟨c, hc, hm⟩))

theorem goal_casesInSwitch (h : (mk .script sp items).CasesInSwitch) : (mk .module sp' items).CasesInSwitch := by
  intro m hm
  rcases mem_each_mk.1 hm with rfl | ⟨c, hc, hm⟩
  · exact fun _ => h (mk .script sp items) (mem_each_mk.2 (.inl rfl)) (by simp [kind])
  · exact h m (mem_each_mk.2 (.inr ⟨c, hc, hm⟩))

/-- C78 for functions: as a module a script has the same functions under the same numbers. -/
theorem C78_functions_partial (hp : (mk .script sp items).NoTaggedInits) (hc : (mk .script sp items).CasesInSwitch) (hs : (mk .script sp items).IsScript)
    (hh : cx.HintsApply items) (hd : StringsDirect items)
    (hf : Hint.shouldIgnoreFile cx.cc cx.comments sp' = Hint.shouldIgnoreFile cx.cc cx.comments sp)
    (hr : instrument cx fuel path sm (mk .script sp items) = .ok (p1, cov)) (hr' : instrument cx fuel' path' sm' (mk .module sp' items) = .ok (p2, cov'))
    (id : Nat) : cov'.inner.fnMap.get id = cov.inner.fnMap.get id := by
  rw [C72_functions_partial (goal_untagged hp) (goal_casesInSwitch hc) hr', C72_functions_partial hp hc hr, programOutline_goal hs hh hd hf]

/-- C78 for branches: they are the same with the same arms under the same numbers. -/
theorem C78_branches_partial (hp : (mk .script sp items).NoTaggedInits) (hc : (mk .script sp items).CasesInSwitch) (hs : (mk .script sp items).IsScript)
    (hh : cx.HintsApply items) (hd : StringsDirect items)
    (hf : Hint.shouldIgnoreFile cx.cc cx.comments sp' = Hint.shouldIgnoreFile cx.cc cx.comments sp)
    (hr : instrument cx fuel path sm (mk .script sp items) = .ok (p1, cov)) (hr' : instrument cx fuel' path' sm' (mk .module sp' items) = .ok (p2, cov'))
    (id : Nat) : cov'.inner.branchMap.get id = cov.inner.branchMap.get id := by
  rw [C72_branches_partial (goal_untagged hp) (goal_casesInSwitch hc) hr', C72_branches_partial hp hc hr, programOutline_goal hs hh hd hf]

/-- C78 for statements, if no initialiser has functions but no block in it. -/
theorem C78_statements_partial (hp : (mk .script sp items).NoTaggedInits) (hc : (mk .script sp items).CasesInSwitch)
    (hs : (mk .script sp items).IsScript) (hh : cx.HintsApply items) (hd : StringsDirect items)
    (hf : Hint.shouldIgnoreFile cx.cc cx.comments sp' = Hint.shouldIgnoreFile cx.cc cx.comments sp)
    (hu : ∀ e ∈ Entry.statements (programOutline cx (mk .script sp items)), e.2 = true)
    (hr : instrument cx fuel path sm (mk .script sp items) = .ok (p1, cov)) (hr' : instrument cx fuel' path' sm' (mk .module sp' items) = .ok (p2, cov'))
    (id : Nat) : cov'.inner.statementMap.get id = cov.inner.statementMap.get id := by
  rw [C72_sure_partial (goal_untagged hp) (goal_casesInSwitch hc) (by rw [programOutline_goal hs hh hd hf]; exact hu) hr', C72_sure_partial hp hc hu hr,
    programOutline_goal hs hh hd hf]

end

/-- `"use strict"; a || b; function f() { return c; }` -/
private def goalItems : List Node := [mk .exprStmt (at' 1) [mk (.strLit "use strict") (at' 1) []],
  expr 2 (bin 3 .or (ident 4 "a") (ident 5 "b")), fnDecl 6 "f" [] [mk .returnStmt (at' 7) [ident 8 "c"]]]

/-- Both as a module and as a script there are two statements, a function and a branch. -/
example : (Build.script goalItems).NoTaggedInits ∧ (Build.script goalItems).CasesInSwitch ∧ (Build.script goalItems).IsScript ∧
    plain.HintsApply goalItems ∧ StringsDirect goalItems ∧ (∀ e ∈ Entry.statements (programOutline plain (Build.script goalItems)), e.2 = true) ∧
    yields (run plain (Build.script goalItems)) (fun _ r => decide (r.statementMap.length = 2) && decide (r.fnMap.length = 1) &&
      decide (r.branchMap.length = 1)) = true ∧
    yields (run plain (Build.module goalItems)) (fun _ r => decide (r.statementMap.length = 2) && decide (r.fnMap.length = 1) &&
      decide (r.branchMap.length = 1)) = true := by
  refine ⟨by unfold NoTaggedInits; decide +kernel, by unfold CasesInSwitch; decide +kernel, by unfold IsScript; decide +kernel,
    by unfold Ctx.HintsApply; decide +kernel, fun s h hs => ?_, by decide +kernel, by decide +kernel, by decide +kernel⟩
  simp only [goalItems, List.mem_cons, List.not_mem_nil, or_false] at h
  rcases h with rfl | rfl | rfl
  · exact ⟨_, _, _, _, rfl, by simp⟩
  · exact absurd hs (by decide +kernel)
  · exact absurd hs (by decide +kernel)

/-- C78 fails for strings that are statements: the second statement of `a; "b"` is counted in a script, but not in a module. -/
theorem C78_string_fails : ∃ (items : List Node) (p1 p2 : Node) (cov cov' : SourceCoverage), Clean (Build.script items) ∧
    run plain (Build.script items) = .ok (p1, cov) ∧ run plain (Build.module items) = .ok (p2, cov') ∧
    cov.inner.statementMap.length = 2 ∧ cov'.inner.statementMap.length = 1 := by
  have h1 : yields (run plain (Build.script [expr 1 (ident 2 "a"), expr 3 (mk (.strLit "b") (at' 3) [])]))
      (fun _ r => decide (r.statementMap.length = 2)) = true := by decide +kernel
  have h2 : yields (run plain (Build.module [expr 1 (ident 2 "a"), expr 3 (mk (.strLit "b") (at' 3) [])]))
      (fun _ r => decide (r.statementMap.length = 1)) = true := by decide +kernel
  obtain ⟨p1, cov, e1, h1⟩ := of_yields h1
  obtain ⟨p2, cov', e2, h2⟩ := of_yields h2
  exact ⟨_, p1, p2, cov, cov', by unfold Clean; decide +kernel, e1, e2, of_decide_eq_true h1, of_decide_eq_true h2⟩

/-- `if (a) var f = () => 1;` -/
private def goalInit : Node := mk .ifStmt (at' 1) [ident 2 "a", decl 3 .var "f" (arrow 4 (num 5 "1")), mk .none Span.dummy []]

/-- C78 fails for statements: the initialiser of `if (a) var f = () => 1;` is a statement of the report of a script, but not of that of a module. -/
theorem C78_initialiser_fails : ∃ (items : List Node) (r : Range) (p1 p2 : Node) (cov cov' : SourceCoverage), Clean (Build.script items) ∧
    run plain (Build.script items) = .ok (p1, cov) ∧ run plain (Build.module items) = .ok (p2, cov') ∧
    r ∈ cov.inner.statementMap.values ∧ r ∉ cov'.inner.statementMap.values := by
  have h1 : yields (run plain (Build.script [goalInit])) (fun _ r => decide (plain.range (at' 4) ∈ r.statementMap.values)) = true := by decide +kernel
  have h2 : yields (run plain (Build.module [goalInit])) (fun _ r => decide (plain.range (at' 4) ∉ r.statementMap.values)) = true := by decide +kernel
  obtain ⟨p1, cov, e1, h1⟩ := of_yields h1
  obtain ⟨p2, cov', e2, h2⟩ := of_yields h2
  exact ⟨[goalInit], plain.range (at' 4), p1, p2, cov, cov', by unfold Clean; decide +kernel, e1, e2, of_decide_eq_true h1, of_decide_eq_true h2⟩

end Verif
