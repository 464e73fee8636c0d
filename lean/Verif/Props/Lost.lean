import Verif.Lemmas.Lost
import Verif.Props.Instrument
/-
C19: which statement counters are lost.
-/
namespace Verif
open Visitor Node RegOp Build

variable {cx : Ctx} {fuel : Nat} {path : String} {sm : Option SourceMap} {p p' : Node} {cov : SourceCoverage}

/-- C19: a statement listed in the coverage data is counted at exactly one place of the emitted program, or it is
counted nowhere and what it lists is a tagged template, a class field or another construct that asks for a counter
in the discriminant or in a case test of a switch statement, outside of nested statement lists. -/
theorem C19_lost (hp : Clean p) (hr : instrument cx fuel path sm p = .ok (p', cov)) (i : Nat) (r : Range)
    (hi : cov.inner.statementMap.get i = some r) :
    p'.sites.count (.s i) = 1 ∨
      (p'.sites.count (.s i) = 0 ∧ p.quietSwitches = false ∧
        ∃ sp, r = cx.range sp ∧ (sp = Span.dummy ∨ sp ∈ p.lostSpans)) := by
  obtain ⟨n, h, o⟩ := outcome hr
  rw [o.finished.statementMap, get_numbered] at hi
  obtain ⟨r', hr', rfl⟩ := Option.map_eq_some_iff.1 hi
  have ht : total h (.s i) = 1 := by
    obtain ⟨hl, -⟩ := List.getElem?_eq_some_iff.1 hr'
    simp [total, RegOp.has, hl]
  obtain ⟨k, h1, h2⟩ := o.steps.sites_lost i
  rw [clean_sites hp, ht] at h1
  have h0 : total [] (.s i) = 0 := rfl
  simp only [sitesList_nil, List.count_nil] at h1
  rw [o.sites_eq]
  by_cases hk : 0 < k
  · obtain ⟨x, sp, e1, e2, e3⟩ := h2 hk
    rw [hr'] at e1
    cases e1
    refine .inr ⟨by omega, ?_, sp, e2, e3⟩
    cases hq : p.quietSwitches with
    | false => rfl
    | true =>
      have h3 := o.steps.sites_eq (.s i) (.inl hq) nofun
      rw [clean_sites hp, ht] at h3
      simp only [sitesList_nil, List.count_nil] at h3
      omega
  · exact .inl (by omega)

/-- Beside it: in ``switch (f``) { }`` statement 1 is lost, and it is the tagged template. -/
example : ∃ p' cov, instrument plain 60 "/f.js" none
      (Build.module [mk .switchStmt (at' 2) [tagged 3 (ident 3 "f") []]]) = .ok (p', cov) ∧
    cov.inner.statementMap.get 1 = some (plain.range (at' 3)) ∧ p'.sites.count (.s 1) = 0 ∧
    p'.sites.count (.s 0) = 1 ∧
    (Build.module [mk .switchStmt (at' 2) [tagged 3 (ident 3 "f") []]]).lostSpans = [at' 3] := by
  have h : yields (run plain (Build.module [mk .switchStmt (at' 2) [tagged 3 (ident 3 "f") []]]))
      (fun p' r => decide (r.statementMap.get 1 = some (plain.range (at' 3)) ∧ p'.sites.count (.s 1) = 0 ∧
        p'.sites.count (.s 0) = 1)) = true := by
    decide +kernel
  obtain ⟨p', cov, h1, h2⟩ := of_yields h
  have h2 := of_decide_eq_true h2
  exact ⟨p', cov, h1, h2.1, h2.2.1, h2.2.2, by decide +kernel⟩

/-- C19: nothing can be lost iff the heads of all switch statements ask for nothing. -/
theorem C19_lost_none (p : Node) : p.lostSpans = [] ↔ p.quietSwitches = true := lostSpans_eq_nil p

end Verif
