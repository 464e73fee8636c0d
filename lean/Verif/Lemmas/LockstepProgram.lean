import Verif.Lemmas.LockstepStep
/-
Programs in lockstep.
-/
namespace Verif
open Node Visitor

namespace Lock
variable {L : Lock}

namespace Sim

theorem drain : L.Sim drain Visitor.drain (List.Forall₂ L.Out) := by
  intro st st' hn a s h
  cases h
  exact ⟨_, _, rfl, hn.before, ⟨.nil, hn.nodes, hn.ignore, hn.cov⟩⟩

theorem withBefore {x y : M Node} (h : L.Sim x y L.Out) : L.Sim (withBefore x) (Visitor.withBefore y) (List.Forall₂ L.Out) :=
  bind h fun _ _ h1 => bind drain fun _ _ h2 => pure (List.rel_append h2 (.cons h1 .nil))

theorem visitItem {fuel : Nat} {i i' : Node} (hi : L.In i i') :
    L.Sim (visitItem L.cx fuel i) (Visitor.visitItem L.cx' fuel i') (List.Forall₂ L.Out) := by
  unfold Visitor.visitItem
  refine ite (by rw [hi.1.isDirectiveStmt]) (fun _ => pure (.cons hi.out .nil)) fun _ => ?_
  rw [hi.1.kind.isModuleDecl]
  refine frame hi.1.span fun _ => withBefore ?_
  exact bind (P := fun _ _ => True) (keepIf (by rw [hi.1.isExportConst]) trivial fun _ => mark hi.1.span) fun _ _ _ =>
    visit L fuel _ _ _ hi

theorem visitItems {fuel : Nat} {is is' : List Node} (hi : List.Forall₂ L.In is is') :
    L.Sim (visitItems L.cx fuel is) (Visitor.visitItems L.cx' fuel is') (List.Forall₂ L.Out) := by
  induction hi with
  | nil => exact pure .nil
  | cons h1 h2 ih => exact bind (visitItem h1) fun _ _ ha => bind ih fun _ _ hb => pure (List.rel_append ha hb)

theorem visitScriptItems {fuel : Nat} {is is' : List Node} (hi : List.Forall₂ L.In is is') :
    L.Sim (visitScriptItems L.cx fuel is) (Visitor.visitScriptItems L.cx' fuel is') (List.Forall₂ L.Out) := by
  induction hi with
  | nil => exact pure .nil
  | cons h1 h2 ih => exact bind (withBefore (visit L fuel _ _ _ h1)) fun _ _ ha => bind ih fun _ _ hb => pure (List.rel_append ha hb)

/-- The entries of two branch maps that `freeze` keeps. -/
theorem freezeLoop {R : Range → Range → Prop} {t : Bool} {m m' : BranchMap} {b b' : BranchHitMap} {bT bT' : Option BranchHitMap}
    (hm : List.Forall₂ (fun (x y : Nat × Branch) => x.1 = y.1 ∧ x.2.branchType = y.2.branchType ∧
    (∃ r r', x.2.loc = some r ∧ y.2.loc = some r' ∧ R r r' ∧ x.2.line = some r.start.line ∧ y.2.line = some r'.start.line) ∧
    List.Forall₂ R x.2.locations y.2.locations) m m') (hb : b = b')
    (ht : t = false → bT = bT') :
    List.Forall₂ (fun (x y : Nat × Branch) => x.1 = y.1 ∧ x.2.branchType = y.2.branchType ∧
    (∃ r r', x.2.loc = some r ∧ y.2.loc = some r' ∧ R r r' ∧ x.2.line = some r.start.line ∧ y.2.line = some r'.start.line) ∧
    List.Forall₂ R x.2.locations y.2.locations) (SourceCoverage.freezeLoop m b bT).1 (SourceCoverage.freezeLoop m' b' bT').1 ∧
    (SourceCoverage.freezeLoop m b bT).2.1 = (SourceCoverage.freezeLoop m' b' bT').2.1 ∧
    (t = false → (SourceCoverage.freezeLoop m b bT).2.2 = (SourceCoverage.freezeLoop m' b' bT').2.2) := by
  induction hm generalizing b b' bT bT' with
  | nil => exact ⟨.nil, hb, ht⟩
  | @cons x y l l' h1 h2 ih =>
    obtain ⟨k, br⟩ := x
    obtain ⟨k', br'⟩ := y
    obtain ⟨rfl, h3, h4, h5⟩ := h1
    dsimp only at h3 h4 h5
    unfold SourceCoverage.freezeLoop
    rw [← h5.length_eq]
    split
    · exact ih (by rw [hb]) fun h => by rw [ht h]
    · obtain ⟨g1, g2, g3⟩ := ih hb ht
      exact ⟨.cons ⟨rfl, h3, h4, h5⟩ g1, g2, g3⟩

theorem coverageTemplates : L.Sim coverageTemplates Visitor.coverageTemplates (fun x y => L.Out x.1 y.1 ∧ L.Out x.2 y.2) := by
  intro st st' hn a s h
  cases h
  refine ⟨_, _, rfl, ⟨.node (.refl _) L.dummy .nil, .node (.refl _) L.dummy .nil⟩, ⟨hn.before, hn.nodes, hn.ignore, ?_⟩⟩
  have hc := hn.cov
  have hi := hc.inner
  obtain ⟨g1, g2, g3⟩ := freezeLoop (t := L.t) hi.branchMap hi.b hi.bT
  refine ⟨hc.lastS, hc.lastF, hc.lastB, ?_⟩
  exact { hi with branchMap := g1, b := g2, bT := g3 }

theorem ensureRoot : L.Sim ensureRoot Visitor.ensureRoot (· = ·) := by
  intro st st' hn a s h
  unfold Visitor.ensureRoot at h ⊢
  rw [← hn.nodes]
  split at h
  · next e => cases h; rw [if_pos e]; exact ⟨_, _, rfl, rfl, hn⟩
  · next e => cases h; rw [if_neg e]; exact ⟨_, _, rfl, rfl, ⟨hn.before, rfl, hn.ignore, hn.cov⟩⟩

theorem programBody {fuel : Nat} {p p' : Node} (hp : L.In p p') :
    L.Sim (programBody L.cx fuel p) (Visitor.programBody L.cx' fuel p') L.Out := by
  unfold Visitor.programBody
  split
  · obtain ⟨k', sp', cs', rfl, hk, hs, hc⟩ := hp.inv
    cases hk
    refine bind (P := List.Forall₂ L.Out) ?_ fun _ _ h => pure (.node (.refl _) hs h)
    unfold Visitor.moduleItems
    refine bind ensureRoot ?_
    rintro r _ rfl
    refine bind (visitItems hc) fun is is' hi => bind coverageTemplates ?_
    rintro ⟨a, b⟩ ⟨a', b'⟩ ⟨h1, h2⟩
    refine bind (P := fun _ _ => True) (keepIf Iff.rfl trivial fun _ => pop) fun _ _ _ => pure ?_
    cases hi with
    | nil => exact .cons h1 (.cons h2 .nil)
    | cons h3 h4 => exact .cons h3 (.cons h1 (.cons h2 h4))
  · obtain ⟨k', sp', cs', rfl, hk, hs, hc⟩ := hp.inv
    cases hk
    refine bind (P := List.Forall₂ L.Out) ?_ fun _ _ h => pure (.node (.refl _) hs h)
    unfold Visitor.scriptBody
    refine bind (visitScriptItems hc) fun is is' hi => bind coverageTemplates ?_
    rintro ⟨a, b⟩ ⟨a', b'⟩ ⟨h1, h2⟩
    exact pure (.cons h1 (.cons h2 hi))
  · next g1 g2 =>
    cases p with
    | mk k sp cs =>
      obtain ⟨k', sp', cs', rfl, hk, hs, hc⟩ := hp.inv
      split
      · next h => cases h; cases hk; exact absurd rfl (g1 _ _)
      · next h => cases h; cases hk; exact absurd rfl (g2 _ _)
      · exact pure hp.out

theorem visitProgram {fuel : Nat} {p p' : Node} (hp : L.In p p')
    (hf : Hint.shouldIgnoreFile L.cx.cc L.cx.comments p.span = Hint.shouldIgnoreFile L.cx'.cc L.cx'.comments p'.span) :
    L.Sim (visitProgram L.cx fuel p) (Visitor.visitProgram L.cx' fuel p') L.Out := by
  unfold Visitor.visitProgram
  exact bind (push _) fun _ _ _ => ite (by rw [hf]) (fun _ => pure hp.out) fun _ =>
    bind (programBody hp) fun _ _ h => bind pop fun _ _ _ => pure h

end Sim

/-- Two programs that differ by `L.d` are instrumented alike. -/
theorem instrument {fuel : Nat} {path : String} {sm : Option SourceMap} {p p' q : Node} {c : SourceCoverage} (hp : L.In p p')
    (hf : Hint.shouldIgnoreFile L.cx.cc L.cx.comments p.span = Hint.shouldIgnoreFile L.cx'.cc L.cx'.comments p'.span)
    (h : instrument L.cx fuel path sm p = .ok (q, c)) :
    ∃ q' c', Visitor.instrument L.cx' fuel path sm p' = .ok (q', c') ∧ L.Out q q' ∧ L.Regs c c' := by
  unfold Visitor.instrument at h ⊢
  split at h
  · cases h
  · next n st hv =>
    cases h
    obtain ⟨q', s', h1, h2, h3⟩ := Sim.visitProgram hp hf (initial L.cx path sm) (initial L.cx' path sm) ⟨.nil, rfl, rfl,
      ⟨rfl, rfl, rfl, ⟨rfl, rfl, rfl, rfl, rfl, rfl, fun ht => (by
        show (if L.cx.reportLogic then _ else _) = (if L.cx'.reportLogic then _ else _)
        rw [L.same ht]), .nil, .nil, .nil⟩⟩⟩ _ _ hv
    rw [h1]
    exact ⟨_, _, rfl, h2, h3.cov⟩

end Lock
end Verif
