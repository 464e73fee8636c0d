import Verif.Lemmas.Append
import Verif.Spec.Build
/-
C62: code appended to a file changes nothing about the code before it.
-/
namespace Verif
open Node Visitor

/-- C62 for modules: if a module, whose items begin with `a`, is instrumented without a panic, so is the module of the items `a`. Its
instrumented items are those the longer module begins with, and the report of the longer module has all entries of its report,
unchanged and with the same ids. The program spans may differ, as long as both or none are ignored as a whole. -/
theorem C62_module {cx : Ctx} {fuel : Nat} {path : String} {sm : Option SourceMap} {sp sp' : Span} {a b : List Node} {p' : Node}
    {cov' : SourceCoverage} (ha : a ≠ [])
    (hf : Hint.shouldIgnoreFile cx.cc cx.comments sp = Hint.shouldIgnoreFile cx.cc cx.comments sp')
    (h : instrument cx fuel path sm (mk .module sp' (a ++ b)) = .ok (p', cov')) :
    ∃ p cov, instrument cx fuel path sm (mk .module sp a) = .ok (p, cov) ∧ p.children <+: p'.children ∧
      Extends cov.inner cov'.inner := by
  cases hi : Hint.shouldIgnoreFile cx.cc cx.comments sp with
  | true =>
    rw [instrument_ignored (p := mk .module sp' (a ++ b)) (hf ▸ hi)] at h
    cases h
    exact ⟨_, _, instrument_ignored hi, List.prefix_append .., .refl _⟩
  | false =>
    have h0 := h
    rw [instrument_module _ _ _ _ _ _ (hf ▸ hi)] at h
    split at h
    · cases h
    · next out st hv =>
      cases h
      obtain ⟨oa, ob, st1, h1, h2, rfl⟩ := (visitItems_append a b).1 hv
      have h3 : instrument cx fuel path sm (mk .module sp a) =
          .ok (mk .module sp (insertModuleTemplates declItem callItem oa), st1.cov.freeze) := by
        rw [instrument_module _ _ _ _ _ _ hi, h1]
      refine ⟨_, _, h3, ?_, ?_⟩
      · cases oa with
        | nil => exact absurd rfl (visitItems_ne ha h1)
        | cons i l => exact ⟨ob, rfl⟩
      · obtain ⟨ha, -, g1, b1⟩ := Sound.visitItems (fi := ⟨path, cx.reportLogic, sm⟩) (sp := sp) (l := []) (good_start cx path sm) rfl h1
        obtain ⟨hb, s2, g2, -⟩ := Sound.visitItems (sp := sp) (l := []) g1 b1 h2
        obtain ⟨n1, k1, o1⟩ := outcome h3
        obtain ⟨n2, k2, o2⟩ := outcome h0
        exact extends_visits (Over.visitItems cx fuel b) h2 s2.pre g1 g2 o1.bT_isSome.symm o2.bT_isSome.symm

/-- C62 for scripts. -/
theorem C62_script {cx : Ctx} {fuel : Nat} {path : String} {sm : Option SourceMap} {sp sp' : Span} {a b : List Node} {p' : Node}
    {cov' : SourceCoverage}
    (hf : Hint.shouldIgnoreFile cx.cc cx.comments sp = Hint.shouldIgnoreFile cx.cc cx.comments sp')
    (h : instrument cx fuel path sm (mk .script sp' (a ++ b)) = .ok (p', cov')) :
    ∃ p cov, instrument cx fuel path sm (mk .script sp a) = .ok (p, cov) ∧ p.children <+: p'.children ∧
      Extends cov.inner cov'.inner := by
  cases hi : Hint.shouldIgnoreFile cx.cc cx.comments sp with
  | true =>
    rw [instrument_ignored (p := mk .script sp' (a ++ b)) (hf ▸ hi)] at h
    cases h
    exact ⟨_, _, instrument_ignored hi, List.prefix_append .., .refl _⟩
  | false =>
    have h0 := h
    rw [instrument_script _ _ _ _ _ _ (hf ▸ hi)] at h
    split at h
    · cases h
    · next out st hv =>
      cases h
      obtain ⟨oa, st1, ob, h1, h2, rfl⟩ := visitScriptItems_append hv
      have h3 : instrument cx fuel path sm (mk .script sp a) = .ok (mk .script sp (declItem :: callItem :: oa), st1.cov.freeze) := by
        rw [instrument_script _ _ _ _ _ _ hi, h1]
      refine ⟨_, _, h3, ⟨ob, rfl⟩, ?_⟩
      obtain ⟨ha, -, g1, b1⟩ := Sound.visitScriptItems (fi := ⟨path, cx.reportLogic, sm⟩) (sp := sp) (l := []) (good_start cx path sm) rfl h1
      obtain ⟨hb, s2, g2, -⟩ := Sound.visitScriptItems (sp := sp) (l := []) g1 b1 h2
      obtain ⟨n1, k1, o1⟩ := outcome h3
      obtain ⟨n2, k2, o2⟩ := outcome h0
      exact extends_visits (Over.visitScriptItems cx fuel b) h2 s2.pre g1 g2 o1.bT_isSome.symm o2.bT_isSome.symm

open Build in
/-- A module with a branch and a function, to which a statement with a branch is appended: the entries of the first report come first. -/
example : ∃ p cov p' cov', run plain (Build.module [expr 1 (bin 2 .or (ident 3 "a") (ident 4 "b")), fnDecl 5 "f" [] [expr 6 (num 7 "1")]]) = .ok (p, cov) ∧
    run plain (Build.module ([expr 1 (bin 2 .or (ident 3 "a") (ident 4 "b")), fnDecl 5 "f" [] [expr 6 (num 7 "1")]] ++
      [expr 10 (cond 11 (ident 12 "c") (ident 13 "d") (ident 14 "e"))])) = .ok (p', cov') ∧
    p.children <+: p'.children ∧ p.children.length < p'.children.length ∧ Extends cov.inner cov'.inner ∧
    cov.inner.statementMap.length = 2 ∧ cov'.inner.statementMap.length = 3 ∧ cov.inner.branchMap.keys = [0] ∧ cov'.inner.branchMap.keys = [0, 1] := by
  have h1 : yields (run plain (Build.module [expr 1 (bin 2 .or (ident 3 "a") (ident 4 "b")), fnDecl 5 "f" [] [expr 6 (num 7 "1")]]))
      (fun p r => decide (p.children.length = 5 ∧ r.statementMap.length = 2 ∧ r.branchMap.keys = [0])) = true := by decide +kernel
  have h2 : yields (run plain (Build.module ([expr 1 (bin 2 .or (ident 3 "a") (ident 4 "b")), fnDecl 5 "f" [] [expr 6 (num 7 "1")]] ++
      [expr 10 (cond 11 (ident 12 "c") (ident 13 "d") (ident 14 "e"))])))
      (fun p r => decide (p.children.length = 7 ∧ r.statementMap.length = 3 ∧ r.branchMap.keys = [0, 1])) = true := by decide +kernel
  obtain ⟨p, cov, e1, g1⟩ := of_yields h1
  obtain ⟨p', cov', e2, g2⟩ := of_yields h2
  have g1 := of_decide_eq_true g1
  have g2 := of_decide_eq_true g2
  obtain ⟨q, c, e3, g3, g4⟩ := C62_module (by simp) rfl e2
  cases e1.symm.trans e3
  exact ⟨_, _, _, _, e1, e2, g3, by omega, g4, g1.2.1, g2.2.1, g1.2.2, g2.2.2⟩

open Build in
/-- An empty module is the exception: the coverage function comes after the first item. -/
example : ∃ p cov p' cov', run plain (Build.module []) = .ok (p, cov) ∧ run plain (Build.module [expr 1 (ident 2 "a")]) = .ok (p', cov') ∧
    ¬ p.children <+: p'.children := by
  have h1 : yields (run plain (Build.module [])) (fun p _ => decide (p.children = [declItem, callItem])) = true := by decide +kernel
  have h2 : yields (run plain (Build.module [expr 1 (ident 2 "a")])) (fun p _ => decide (p.children[0]? ≠ some declItem)) = true := by decide +kernel
  obtain ⟨p, cov, e1, g1⟩ := of_yields h1
  obtain ⟨p', cov', e2, g2⟩ := of_yields h2
  refine ⟨p, cov, p', cov', e1, e2, fun ⟨t, ht⟩ => of_decide_eq_true g2 ?_⟩
  rw [← ht, of_decide_eq_true g1]
  rfl

end Verif
