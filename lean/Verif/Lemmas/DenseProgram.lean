import Verif.Lemmas.DenseVisit
import Verif.Lemmas.Outcome
import Verif.Lemmas.Append
import Verif.Props.Registry
/-
Programs all of whose branches get arms.
-/
namespace Verif
open Node RegOp

/-- Without branches without arms nothing is dropped. -/
theorem freezeLoop_full (m : List (Nat × Branch)) (hm : ∀ e ∈ m, e.2.locations ≠ []) (b : BranchHitMap) (bT : Option BranchHitMap) :
    SourceCoverage.freezeLoop m b bT = (m, b, bT) := by
  induction m with
  | nil => rfl
  | cons e m ih =>
    obtain ⟨k, br⟩ := e
    simp only [SourceCoverage.freezeLoop]
    rw [if_neg (mt List.length_eq_zero_iff.1 (hm (k, br) (by simp))), ih fun e he => hm e (by simp [he])]

theorem report_dense (path : String) (rl : Bool) (sm : Option SourceMap) (h : List RegOp) : (report path rl sm h).Dense := by
  obtain ⟨⟨h1, h2, h3, h4, h5, h6⟩, -⟩ := C15_tables_in_step path rl h
  exact ⟨h1, h2, h3, h4, h5, h6⟩

theorem dense_of_full {path : String} {rl : Bool} {sm : Option SourceMap} {h : List RegOp} {c : SourceCoverage} (hi : Inv path rl sm h c)
    (hb : ∀ k, ¬ Bare c k) : c.freeze.inner.Dense := by
  have hn : c.inner.branchMap.NodupKeys := by rw [hi.inner]; simp only [report]; exact nodup_numbered _ _
  have hm : ∀ e ∈ c.inner.branchMap, e.2.locations ≠ [] := fun e he h0 => hb e.1 ⟨e.2, IndexMap.get_of_mem hn he, h0⟩
  have : c.freeze = c := by
    unfold SourceCoverage.freeze
    rw [freezeLoop_full _ hm]
  rw [this, hi.inner]
  exact report_dense path rl sm h

namespace Visitor

theorem instrument_dense {cx : Ctx} {fuel : Nat} {path : String} {sm : Option SourceMap} {p p' : Node} {cov : SourceCoverage}
    (hd : cx.quiet Span.dummy) (hp : cx.Armed p) (h : instrument cx fuel path sm p = .ok (p', cov)) : cov.inner.Dense := by
  have hgood := good_start cx path sm
  have hbare : ∀ k, ¬ Bare (start cx path sm).cov k := by
    rintro k ⟨br, h1, -⟩
    rw [hgood.1.inner] at h1
    cases h1
  have hig : (start cx path sm).ignore ≠ some .next ↔ true = true := by simp [show (start cx path sm).ignore = none from rfl]
  rcases Sound.instrument h with ⟨-, rfl, -⟩ | ⟨hf, n, h0, cov0, hst, ht, -⟩
  · have hi : Inv path cx.reportLogic sm [] (initial cx path sm).cov := inv_setInputSourceMap inv_new sm
    rw [hi.inner]
    exact report_dense _ _ _ _
  · obtain ⟨kk, sp, cs⟩ := p
    have hk : kk = .module ∨ kk = .script := by
      have h1 := hst.root.1
      cases ht <;> simp_all [Node.kind]
    rcases hk with rfl | rfl
    · rw [instrument_module _ _ _ _ sp cs hf] at h
      cases hv : visitItems cx fuel cs (start cx path sm) with
      | error e => rw [hv] at h; cases h
      | ok r =>
        obtain ⟨out, st⟩ := r
        rw [hv] at h
        cases h
        obtain ⟨h', -, g, -⟩ := Sound.visitItems (sp := sp) (l := []) hgood rfl hv
        obtain ⟨-, -, -, e⟩ := Feeds.visitItems hd (fun c hc => Feeds.child hp hc) _ _ _ hig (by intro c hc; cases hc) hv
        exact dense_of_full g.1 fun k hk => hbare k (e k hk).1
    · rw [instrument_script _ _ _ _ sp cs hf] at h
      cases hv : visitScriptItems cx fuel cs (start cx path sm) with
      | error e => rw [hv] at h; cases h
      | ok r =>
        obtain ⟨out, st⟩ := r
        rw [hv] at h
        cases h
        obtain ⟨h', -, g, -⟩ := Sound.visitScriptItems (sp := sp) (l := []) hgood rfl hv
        obtain ⟨-, -, -, e⟩ := Feeds.visitScriptItems hd (fun c hc => Feeds.child hp hc) _ _ _ hig (by intro c hc; cases hc) hv
        exact dense_of_full g.1 fun k hk => hbare k (e k hk).1

end Visitor

/-- The branches of logical expressions are registered with truthiness counts if these are asked for. -/
theorem Steps.truths {cx : Ctx} {n q h n' q' h' o} (s : Steps cx n q h n' q' h' o)
    (hb : ∀ x ∈ branches h, x.1 = .binaryExpr → x.2.2 = cx.reportLogic) :
    ∀ x ∈ branches h', x.1 = .binaryExpr → x.2.2 = cx.reportLogic := by
  induction s with
  | trans _ _ ih1 ih2 => exact ih2 (ih1 hb)
  | child _ _ _ _ _ _ ih => exact ih hb
  | insert _ _ _ _ _ _ ih => exact ih hb
  | lose _ _ _ _ ih => exact ih hb
  | register n q h op hs =>
    intro x hx ht
    rw [branches_concat] at hx
    rcases List.mem_append.1 hx with hx | hx
    · exact hb x hx ht
    · cases op with
      | branch t l g =>
        simp only [List.mem_singleton] at hx
        subst hx
        simp only at ht
        subst ht
        rw [hs.2.2]
        rfl
      | _ => cases hx
  | _ => exact hb

end Verif
