import Verif.Lemmas.SoundProgram
import Verif.Lemmas.StepsFrom
import Verif.Lemmas.StepsCount
import Verif.Lemmas.Clean
import Verif.Lemmas.Frozen
/-
The result of instrumentation in terms of steps and the finished report.
-/
namespace Verif
open Node RegOp Visitor

/-- How a result of instrumentation came about. -/
structure Outcome (cx : Ctx) (path : String) (sm : Option SourceMap) (p p' : Node) (r : FileCoverage)
    (n : Node) (h : List RegOp) : Prop where
  steps : Steps cx p [] [] n [] h []
  result : (p' = n ∧ n = p ∧ h = [] ∧ (Hint.shouldIgnoreFile cx.cc cx.comments p.span = true ∨
      (p.kind ≠ .module ∧ p.kind ≠ .script))) ∨
    (Sound.Templated n p' ∧ Hint.shouldIgnoreFile cx.cc cx.comments p.span = false)
  finished : Finished path sm cx.reportLogic h r
  legal : Legal h

theorem outcome {cx : Ctx} {fuel : Nat} {path : String} {sm : Option SourceMap} {p p' : Node}
    {cov : SourceCoverage} (hr : instrument cx fuel path sm p = .ok (p', cov)) :
    ∃ n h, Outcome cx path sm p p' cov.inner n h := by
  rcases Sound.instrument hr with ⟨rfl, rfl, h3⟩ | ⟨h1, n, h, cov0, h2, h3, h4, h5, rfl⟩
  · refine ⟨p', [], .refl _ _ _, .inl ⟨rfl, rfl, rfl, h3⟩, ?_, legal_nil⟩
    have hi : Inv path cx.reportLogic sm [] (initial cx path sm).cov := inv_setInputSourceMap inv_new sm
    exact hi.finished legal_nil
  · exact ⟨n, h, h2, .inr ⟨h3, h1⟩, h4.finished h5, h5⟩

namespace Outcome
variable {cx : Ctx} {path : String} {sm : Option SourceMap} {p p' : Node} {r : FileCoverage} {n : Node}
  {h : List RegOp}

/-- A report has truthiness counts if and only if they were asked for. -/
theorem bT_isSome (o : Outcome cx path sm p p' r n h) : r.bT.isSome = cx.reportLogic := by
  rw [o.finished.bTSome]
  cases hr : cx.reportLogic with
  | true => rfl
  | false =>
    rw [Bool.false_or, List.any_eq_false]
    intro x hx ht
    have := o.steps.flags (fun x hx => by cases hx) x hx ht
    rw [hr] at this
    cases this

/-- The templates contain no counters. -/
theorem sites_eq (o : Outcome cx path sm p p' r n h) (c : Counter) : p'.sites.count c = n.sites.count c := by
  rcases o.result with ⟨rfl, -⟩ | ⟨ht, -⟩
  · rfl
  · cases ht with
    | module sp items =>
      cases items with
      | nil => simp [insertModuleTemplates, sites_mk, sitesList, Kind.own]
      | cons i items => simp [insertModuleTemplates, sites_mk, sitesList, Kind.own]
    | script sp items => simp [sites_mk, sitesList, Kind.own]

theorem strip_eq (o : Outcome cx path sm p p' r n h) : p'.strip = p.strip := by
  have h1 : p'.strip = n.strip := by
    rcases o.result with ⟨rfl, -⟩ | ⟨ht, -⟩
    · rfl
    · have hd : isInjectedItem (strip (Node.mk .covDecl Span.dummy [])) = true := rfl
      have hc : isInjectedItem (strip (Node.mk .covCall Span.dummy [])) = true := rfl
      cases ht with
      | module sp items =>
        cases items with
        | nil => simp [insertModuleTemplates, strip_mk, tidy, List.filter_cons, ← strip_mk, hd, hc]; rfl
        | cons i items =>
          rw [strip_mk, strip_mk]
          simp only [insertModuleTemplates, List.map_cons, tidy, List.filter_cons, hd, hc]
          rfl
      | script sp items =>
        rw [strip_mk, strip_mk]
        simp only [List.map_cons, tidy, List.filter_cons, hd, hc]
        rfl
  rw [h1, o.steps.strip_eq]

/-- How often a counter occurs at most. -/
theorem count_le (o : Outcome cx path sm p p' r n h) (hc : Clean p) (c : Counter) (ht : c.isTruth = false) :
    p'.sites.count c ≤ total h c := by
  have h1 := o.steps.sites_le c (by intro i a h; subst h; cases ht)
  rw [clean_sites hc] at h1
  simp only [sitesList_nil, List.count_nil] at h1
  have h2 : total [] c = 0 := by cases c <;> rfl
  rw [o.sites_eq]
  omega

/-- How often a truthiness counter occurs at most. -/
theorem count_truth_le (o : Outcome cx path sm p p' r n h) (hc : Clean p) (i a : Nat) :
    p'.sites.count (.bT i a) ≤ total h (.b i a) := by
  have h1 := o.steps.truth_le i a
  rw [clean_sites hc] at h1
  simp only [sitesList_nil, List.count_nil] at h1
  rw [o.sites_eq]
  omega

theorem total_le_one (h : List RegOp) (c : Counter) : total h c ≤ 1 := by
  unfold total; split <;> omega

end Outcome
end Verif
