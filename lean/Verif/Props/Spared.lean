import Verif.Props.Veil
/-
C66: ignored statements and statements that are not there.
-/
namespace Verif
open Node Visitor Build

theorem Veil.module {cx : Ctx} {fuel fuel' : Nat} {path : String} {sm : Option SourceMap} {sp sp' : Span} {is is' : List Node} {p' q' : Node}
    {cov cov' : SourceCoverage} (hi : Items cx is is') (hf : Hint.shouldIgnoreFile cx.cc cx.comments sp = false)
    (hf' : Hint.shouldIgnoreFile cx.cc cx.comments sp' = false) (h : Visitor.instrument cx fuel path sm (mk .module sp is) = .ok (p', cov))
    (h' : Visitor.instrument cx fuel' path sm (mk .module sp' is') = .ok (q', cov')) :
    cov' = cov ∧ ∃ os os', p' = mk .module sp (insertModuleTemplates declItem callItem os) ∧
      q' = mk .module sp' (insertModuleTemplates declItem callItem os') ∧ Items cx os os' := by
  rw [instrument_module cx fuel path sm sp is hf] at h
  rw [instrument_module cx fuel' path sm sp' is' hf'] at h'
  cases hv : Visitor.visitItems cx fuel is (start cx path sm) with
  | error e => rw [hv] at h; cases h
  | ok r =>
    cases hv' : Visitor.visitItems cx fuel' is' (start cx path sm) with
    | error e => rw [hv'] at h'; cases h'
    | ok r' =>
      obtain ⟨o, s⟩ := r
      obtain ⟨o', s'⟩ := r'
      rw [hv] at h
      rw [hv'] at h'
      obtain ⟨rfl, h1⟩ := Veil.thinItems hi rfl hv hv'
      cases h
      cases h'
      exact ⟨rfl, _, _, rfl, rfl, h1⟩

theorem Veil.script {cx : Ctx} {fuel fuel' : Nat} {path : String} {sm : Option SourceMap} {sp sp' : Span} {is is' : List Node} {p' q' : Node}
    {cov cov' : SourceCoverage} (hi : Items cx is is') (hf : Hint.shouldIgnoreFile cx.cc cx.comments sp = false)
    (hf' : Hint.shouldIgnoreFile cx.cc cx.comments sp' = false) (h : Visitor.instrument cx fuel path sm (mk .script sp is) = .ok (p', cov))
    (h' : Visitor.instrument cx fuel' path sm (mk .script sp' is') = .ok (q', cov')) :
    cov' = cov ∧ ∃ os os', p' = mk .script sp (declItem :: callItem :: os) ∧ q' = mk .script sp' (declItem :: callItem :: os') ∧ Items cx os os' := by
  rw [instrument_script cx fuel path sm sp is hf] at h
  rw [instrument_script cx fuel' path sm sp' is' hf'] at h'
  cases hv : Visitor.visitScriptItems cx fuel is (start cx path sm) with
  | error e => rw [hv] at h; cases h
  | ok r =>
    cases hv' : Visitor.visitScriptItems cx fuel' is' (start cx path sm) with
    | error e => rw [hv'] at h'; cases h'
    | ok r' =>
      obtain ⟨o, s⟩ := r
      obtain ⟨o', s'⟩ := r'
      rw [hv] at h
      rw [hv'] at h'
      obtain ⟨rfl, h1⟩ := Veil.thinScriptItems hi rfl hv hv'
      cases h
      cases h'
      exact ⟨rfl, _, _, rfl, rfl, h1⟩

/-- C66 for modules, partial: two modules that are the same except for ignored code, and except for ignored statements that are in one of
them only, as items or in blocks and cases at any depth, have the same coverage data. They are instrumented alike, to modules of which the same can be
said, apart from the place of the coverage function, which comes after the first item whatever that is. Missing: ignored `export const`
items, which are counted (`C66_export_fails`), and statements with logical expressions inside of operands (`C66_operand_fails`). -/
theorem C66_module_partial {cx : Ctx} {fuel fuel' : Nat} {path : String} {sm : Option SourceMap} {sp sp' : Span} {is is' : List Node} {p' q' : Node}
    {cov cov' : SourceCoverage} (hi : Items cx is is') (hf : Hint.shouldIgnoreFile cx.cc cx.comments sp = false)
    (hf' : Hint.shouldIgnoreFile cx.cc cx.comments sp' = false) (h : instrument cx fuel path sm (mk .module sp is) = .ok (p', cov))
    (h' : instrument cx fuel' path sm (mk .module sp' is') = .ok (q', cov')) :
    cov' = cov ∧ ∃ os os', p' = mk .module sp (insertModuleTemplates declItem callItem os) ∧
      q' = mk .module sp' (insertModuleTemplates declItem callItem os') ∧ Items cx os os' := Veil.module hi hf hf' h h'

/-- C66 for scripts, partial. Missing: as for modules. -/
theorem C66_script_partial {cx : Ctx} {fuel fuel' : Nat} {path : String} {sm : Option SourceMap} {sp sp' : Span} {is is' : List Node} {p' q' : Node}
    {cov cov' : SourceCoverage} (hi : Items cx is is') (hf : Hint.shouldIgnoreFile cx.cc cx.comments sp = false)
    (hf' : Hint.shouldIgnoreFile cx.cc cx.comments sp' = false) (h : instrument cx fuel path sm (mk .script sp is) = .ok (p', cov))
    (h' : instrument cx fuel' path sm (mk .script sp' is') = .ok (q', cov')) :
    cov' = cov ∧ ∃ os os', p' = mk .script sp (declItem :: callItem :: os) ∧ q' = mk .script sp' (declItem :: callItem :: os') ∧ Items cx os os' :=
  Veil.script hi hf hf' h h'

/-- C66, partial: a module remains one that can be instrumented, with the same coverage data, when ignored statements are deleted or added, if
all functions have bodies. Missing: as before. -/
theorem C66_same_partial {cx : Ctx} {fuel : Nat} {path : String} {sm : Option SourceMap} {sp sp' : Span} {is is' : List Node} {p' : Node}
    {cov : SourceCoverage} (hi : Items cx is is') (hb : (mk .module sp' is').bodied = true) (hf : Hint.shouldIgnoreFile cx.cc cx.comments sp = false)
    (hf' : Hint.shouldIgnoreFile cx.cc cx.comments sp' = false) (h : instrument cx fuel path sm (mk .module sp is) = .ok (p', cov)) :
    ∃ F q', ∀ fuel', F ≤ fuel' → instrument cx fuel' path sm (mk .module sp' is') = .ok (q', cov) := by
  obtain ⟨F, q', cov', h1⟩ := C36_ends cx path sm _ hb
  obtain ⟨rfl, -⟩ := C66_module_partial hi hf hf' h (h1 F (Nat.le_refl F))
  exact ⟨F, q', h1⟩

namespace SparedEx

/-- The comment of the examples leads position 7. -/
def cx : Ctx := hinted 7 " istanbul ignore next "

/-- `a && b;` with the hint. -/
def ignored : Node := expr 7 (bin 7 .and (ident 7 "a") (ident 8 "b"))

/-- `function f() { if (x) { … } return y; }` -/
def outside (ss : List Node) : List Node :=
  [fnDecl 1 "f" [] [mk .ifStmt (at' 2) [ident 3 "x", block 4 ss, absent], mk .returnStmt (at' 10) [ident 10 "y"]]]

theorem ignored_hint : cx.hint ignored.span = some .next := by decide +kernel

theorem items : Items cx (outside [ignored]) (outside []) := by
  refine .keep (.mk' (.cons (Veil.refl _ _ _) (.cons (.mk' (.cons (Veil.refl _ _ _) (.cons (Veil.refl _ _ _) (.cons ?_ .nil)))) .nil))) .nil
  refine .mk' (.cons (.mk' (.cons (Veil.refl _ _ _) (.cons (Veil.block' (.left ⟨ignored_hint, nofun⟩ .nil)) (.cons (Veil.refl _ _ _) .nil)))) ?_)
  exact .cons (Veil.refl _ _ _) .nil

-- An ignored statement two blocks down: with it and without it the module has the same statements, branches and functions.
example : ∃ p' q' cov, run cx (Build.module (outside [ignored])) = .ok (p', cov) ∧ run cx (Build.module (outside [])) = .ok (q', cov) ∧
    counters p' = [.f 0, .s 0, .b 0 0, .b 0 1, .s 1] ∧ counters q' = counters p' ∧ outside [ignored] ≠ outside [] := by
  have h : yields (run cx (Build.module (outside [ignored]))) (fun p' _ => decide (counters p' = [.f 0, .s 0, .b 0 0, .b 0 1, .s 1])) = true := by
    decide +kernel
  have h' : yields (run cx (Build.module (outside []))) (fun p' _ => decide (counters p' = [.f 0, .s 0, .b 0 0, .b 0 1, .s 1])) = true := by
    decide +kernel
  obtain ⟨p', cov, h1, h2⟩ := of_yields h
  obtain ⟨q', cov', h3, h4⟩ := of_yields h'
  obtain ⟨rfl, -⟩ := C66_module_partial items (by decide +kernel) (by decide +kernel) h1 h3
  refine ⟨p', q', _, h1, h3, of_decide_eq_true h2, (of_decide_eq_true h4).trans (of_decide_eq_true h2).symm, ?_⟩
  intro e
  simp [outside, fnDecl, block, function] at e

/-- `switch (x) { case y: … f(); }` -/
def cases (ss : List Node) : List Node :=
  [mk .switchStmt (at' 2) [ident 2 "x", mk .switchCase (at' 3) (ident 3 "y" :: ss ++ [expr 9 (call 9 (ident 9 "f") [])])]]

-- The same in a case.
example : ∃ p' q' cov, run cx (Build.module (cases [ignored])) = .ok (p', cov) ∧ run cx (Build.module (cases [])) = .ok (q', cov) ∧
    counters p' = [.s 0, .b 0 0, .s 1] := by
  have h : yields (run cx (Build.module (cases [ignored]))) (fun p' _ => decide (counters p' = [.s 0, .b 0 0, .s 1])) = true := by
    decide +kernel
  have h' : yields (run cx (Build.module (cases []))) (fun _ _ => true) = true := by decide +kernel
  obtain ⟨p', cov, h1, h2⟩ := of_yields h
  obtain ⟨q', cov', h3, -⟩ := of_yields h'
  have hi : Items cx (cases [ignored]) (cases []) := .keep (.mk' (.cons (Veil.refl _ _ _) (.cons
    (Veil.case' (Veil.refl _ _ _) (.left ⟨ignored_hint, nofun⟩ (.keep (Veil.refl _ _ _) .nil))) .nil))) .nil
  obtain ⟨rfl, -⟩ := C66_module_partial hi (by decide +kernel) (by decide +kernel) h1 h3
  exact ⟨p', q', _, h1, h3, of_decide_eq_true h2⟩

/-- `a || function () { … };` -/
def operand (ss : List Node) : Node :=
  Build.module [expr 1 (bin 2 .or (ident 3 "a") (mk .fnExpr (at' 4) [absent, function 5 [] (block 5 ss)]))]

/-- `export const x = 1;` with the hint. -/
def exported : Node := mk .exportDecl (at' 7) [decl 7 .const "x" (num 8 "1")]

end SparedEx

/-- C66 fails for exported constants: `/* istanbul ignore next */ export const x = 1;` is a statement of the report. -/
theorem C66_export_fails : ∃ cx i p' q' cov cov', cx.hint i.span = some .next ∧ run cx (Build.module [i]) = .ok (p', cov) ∧
    run cx (Build.module []) = .ok (q', cov') ∧ cov.inner.statementMap = [(0, cx.range i.span)] ∧ cov'.inner.statementMap = [] := by
  have h : yields (run SparedEx.cx (Build.module [SparedEx.exported])) (fun _ r =>
      decide (r.statementMap = [(0, SparedEx.cx.range SparedEx.exported.span)])) = true := by decide +kernel
  have h' : yields (run SparedEx.cx (Build.module [])) (fun _ r => decide (r.statementMap = [])) = true := by decide +kernel
  obtain ⟨p', cov, h1, h2⟩ := of_yields h
  obtain ⟨q', cov', h3, h4⟩ := of_yields h'
  exact ⟨SparedEx.cx, SparedEx.exported, p', q', cov, cov', by decide +kernel, h1, h3, of_decide_eq_true h2, of_decide_eq_true h4⟩

/-- C66 fails in operands: `a || function () { /* istanbul ignore next */ a && b; }` has no arm for the function. Without the ignored
statement it has one. -/
theorem C66_operand_fails : ∃ cx s p' q' cov cov', cx.hint s.span = some .next ∧ run cx (SparedEx.operand [s]) = .ok (p', cov) ∧
    run cx (SparedEx.operand []) = .ok (q', cov') ∧ cov.inner.branchMap.map (fun x => x.2.locations.length) = [1] ∧
    cov'.inner.branchMap.map (fun x => x.2.locations.length) = [2] := by
  have h : yields (run SparedEx.cx (SparedEx.operand [SparedEx.ignored])) (fun _ r =>
      decide (r.branchMap.map (fun x => x.2.locations.length) = [1])) = true := by decide +kernel
  have h' : yields (run SparedEx.cx (SparedEx.operand [])) (fun _ r =>
      decide (r.branchMap.map (fun x => x.2.locations.length) = [2])) = true := by decide +kernel
  obtain ⟨p', cov, h1, h2⟩ := of_yields h
  obtain ⟨q', cov', h3, h4⟩ := of_yields h'
  exact ⟨SparedEx.cx, SparedEx.ignored, p', q', cov, cov', by decide +kernel, h1, h3, of_decide_eq_true h2, of_decide_eq_true h4⟩

end Verif
