import Verif.Lemmas.VeilVisit
/-
Programs that are the same except inside constructs with an ignore-next hint.
-/
namespace Verif
open Node Visitor

namespace Veil
variable {cx : Ctx} {w l : Bool}

/-- What is done inside a frame for a hint. -/
theorem frame_hinted {α : Type} {t : Tag} {sp : Span} {body : Option IgnoreScope → M α} (hh : cx.hint sp = some .next) {st s : St} {a : α}
    (h : frame cx t sp body st = .ok (a, s)) :
    ∃ s1, body (some .next) { st with nodes := t :: st.nodes, ignore := some .next } = .ok (a, s1) ∧
      s = { s1 with ignore := st.ignore, nodes := s1.nodes.tail } := by
  obtain ⟨⟨old, cur⟩, s1, h1, h2⟩ := M.bind_ok h
  obtain ⟨_, s2, h3, h4⟩ := M.bind_ok h1
  cases h3
  unfold Visitor.enterSpan at h4
  split at h4
  · next hi =>
    cases h4
    dsimp only at h2 hi
    obtain ⟨b, s3, h5, h6⟩ := M.bind_ok h2
    cases h6
    rw [hi] at h5
    exact ⟨s3, h5, rfl⟩
  · cases h4
    dsimp only at h2
    obtain ⟨b, s3, h5, h6⟩ := M.bind_ok h2
    cases h6
    rw [hh] at h5
    exact ⟨s3, h5, rfl⟩

/-- A module item with a hint stays as it is. -/
theorem visitItem_hinted {fuel : Nat} {i : Node} (hh : cx.hint i.span = some .next) (hi : i.hintable = true) {st s : St} {out : List Node}
    (hb : st.before = []) (h : visitItem cx fuel i st = .ok (out, s)) : out = [i] ∧ s = st := by
  unfold visitItem at h
  split at h
  · cases h
    exact ⟨rfl, rfl⟩
  · obtain ⟨s1, h1, rfl⟩ := frame_hinted hh h
    obtain ⟨n, s2, h2, h3⟩ := M.bind_ok h1
    cases h3
    unfold itemBody at h2
    obtain ⟨_, s3, h4, h5⟩ := M.bind_ok h2
    have he : isExportConst i = false := by
      obtain ⟨k, sp, cs⟩ := i
      cases k <;> first | rfl | cases hi
    unfold keepIf at h4
    rw [if_pos he] at h4
    cases h4
    obtain ⟨rfl, rfl⟩ := visit_hinted hi rfl hh h5
    dsimp only
    rw [hb]
    refine ⟨rfl, ?_⟩
    rw [← hb]
    rfl

/-- Nothing is left over between module items. -/
theorem visitItem_before {fuel : Nat} {i : Node} {st s : St} {out : List Node} (hb : st.before = [])
    (h : visitItem cx fuel i st = .ok (out, s)) : s.before = [] := by
  unfold visitItem at h
  split at h
  · cases h
    exact hb
  · obtain ⟨⟨old, cur⟩, s1, h1, h2⟩ := M.bind_ok h
    obtain ⟨b, s3, h5, h6⟩ := M.bind_ok h2
    cases h6
    obtain ⟨n, s2, h2, h3⟩ := M.bind_ok h5
    cases h3
    rfl

theorem withBefore {x y : M Node} (h : Sim x y (Veil cx w l)) :
    Sim (withBefore x) (Visitor.withBefore y) (List.Forall₂ (Veil cx w l)) :=
  .bind h fun _ _ h1 => .bind .same fun _ _ h2 => by
    cases h2
    exact .pure (List.rel_append (refls _) (.cons h1 .nil))

theorem visitItem {fuel fuel' : Nat} {i i' : Node} (hi : Veil cx w l i i') {st s s' : St} {out out' : List Node} (hb : st.before = [])
    (h : visitItem cx fuel i st = .ok (out, s)) (h' : Visitor.visitItem cx fuel' i' st = .ok (out', s')) :
    s = s' ∧ List.Forall₂ (Veil cx w l) out out' := by
  obtain ⟨k, sp, cs⟩ := i
  obtain ⟨cs', rfl, hc | hh | ⟨rfl, hs⟩ | ⟨rfl, rfl, t, t', ss, ss', rfl, rfl, ht, hs⟩⟩ := hi.mk_inv
  · have h1 : isDirectiveStmt (mk k sp cs) = isDirectiveStmt (mk k sp cs') := by
      cases hc with
      | nil => rfl
      | @cons c c' ds ds' g1 g2 =>
        obtain ⟨kc, spc, csc⟩ := c
        obtain ⟨csc', rfl, -⟩ := g1.mk_inv
        cases g2 <;> cases k <;> first | rfl | (cases kc <;> rfl)
    have h2 : isExportConst (mk k sp cs) = isExportConst (mk k sp cs') := by
      cases hc with
      | nil => rfl
      | @cons c c' ds ds' g1 g2 =>
        obtain ⟨kc, spc, csc⟩ := c
        obtain ⟨csc', rfl, -⟩ := g1.mk_inv
        cases g2 <;> cases k <;> first | rfl | (cases kc <;> first | rfl | (rename_i v; cases v <;> rfl))
    have : Sim (Visitor.visitItem cx fuel (mk k sp cs)) (Visitor.visitItem cx fuel' (mk k sp cs')) (List.Forall₂ (Veil cx w l)) := by
      unfold Visitor.visitItem
      refine .ite (by rw [h1]) (fun _ => .pure (.cons hi .nil)) fun _ => .frame fun _ => withBefore ?_
      exact .bind (P := fun _ _ => True) (.keepIf (by rw [h2]) trivial fun _ => Sim.same.imp fun _ _ _ => trivial) fun _ _ _ =>
        visit cx fuel fuel' _ _ _ _ _ (.inl rfl) hi
    exact this _ _ _ _ _ h h'
  · obtain ⟨g1, -, -, -, g3, g4, -, -⟩ := hh
    obtain ⟨rfl, rfl⟩ := visitItem_hinted g1 g3 hb h
    obtain ⟨rfl, rfl⟩ := visitItem_hinted (i := mk k sp cs') g1 g4 hb h'
    exact ⟨rfl, .cons hi .nil⟩
  · have : Sim (Visitor.visitItem cx fuel (mk .block sp cs)) (Visitor.visitItem cx fuel' (mk .block sp cs')) (List.Forall₂ (Veil cx w l)) := by
      unfold Visitor.visitItem
      exact .ite Iff.rfl (fun _ => .pure (.cons hi .nil)) fun _ => .frame fun _ => withBefore
        (.bind (P := fun _ _ => True) (.keepIf Iff.rfl trivial fun _ => Sim.same.imp fun _ _ _ => trivial) fun _ _ _ =>
          visit cx fuel fuel' _ _ _ _ _ (.inl rfl) hi)
    exact this _ _ _ _ _ h h'
  · have : Sim (Visitor.visitItem cx fuel (mk .switchCase sp (t :: ss))) (Visitor.visitItem cx fuel' (mk .switchCase sp (t' :: ss'))) (List.Forall₂ (Veil cx false l)) := by
      unfold Visitor.visitItem
      exact .ite Iff.rfl (fun _ => .pure (.cons hi .nil)) fun _ => .frame fun _ => withBefore
        (.bind (P := fun _ _ => True) (.keepIf Iff.rfl trivial fun _ => Sim.same.imp fun _ _ _ => trivial) fun _ _ _ =>
          visit cx fuel fuel' _ _ _ _ _ (.inl rfl) hi)
    exact this _ _ _ _ _ h h'

theorem visitItems {fuel fuel' : Nat} {is is' : List Node} (hi : List.Forall₂ (Veil cx w l) is is') :
    ∀ {st s s' : St} {out out' : List Node}, st.before = [] → visitItems cx fuel is st = .ok (out, s) →
    Visitor.visitItems cx fuel' is' st = .ok (out', s') → s = s' ∧ List.Forall₂ (Veil cx w l) out out' := by
  induction hi with
  | nil =>
    intro st s s' out out' _ h h'
    cases h
    cases h'
    exact ⟨rfl, .nil⟩
  | cons h1 h2 ih =>
    intro st s s' out out' hb h h'
    obtain ⟨a, s1, g1, g2⟩ := M.bind_ok h
    obtain ⟨b, s1', g3, g4⟩ := M.bind_ok h'
    obtain ⟨c, s2, g5, g6⟩ := M.bind_ok g2
    obtain ⟨d, s2', g7, g8⟩ := M.bind_ok g4
    cases g6
    cases g8
    obtain ⟨rfl, h3⟩ := visitItem h1 hb g1 g3
    obtain ⟨rfl, h4⟩ := ih (visitItem_before hb g1) g5 g7
    exact ⟨rfl, List.rel_append h3 h4⟩

theorem visitScriptItems {fuel fuel' : Nat} {is is' : List Node} (hi : List.Forall₂ (Veil cx w l) is is') :
    Sim (visitScriptItems cx fuel is) (Visitor.visitScriptItems cx fuel' is') (List.Forall₂ (Veil cx w l)) := by
  induction hi with
  | nil => exact .pure .nil
  | cons h1 h2 ih => exact .bind (withBefore (visit cx fuel fuel' _ _ _ _ _ (.inl rfl) h1)) fun _ _ ha => .bind ih fun _ _ hb => .pure (List.rel_append ha hb)

theorem moduleItems {fuel fuel' : Nat} {is is' : List Node} (hi : List.Forall₂ (Veil cx w l) is is') {st s s' : St} {out out' : List Node}
    (hb : st.before = []) (h : moduleItems cx fuel is st = .ok (out, s)) (h' : Visitor.moduleItems cx fuel' is' st = .ok (out', s')) :
    s = s' ∧ List.Forall₂ (Veil cx w l) out out' := by
  obtain ⟨r, s1, h1, h2⟩ := M.bind_ok h
  obtain ⟨r', s1', h1', h2'⟩ := M.bind_ok h'
  rw [h1] at h1'
  cases h1'
  have hb1 : s1.before = [] := by
    unfold Visitor.ensureRoot at h1
    split at h1 <;> cases h1 <;> exact hb
  obtain ⟨os, s2, h3, h4⟩ := M.bind_ok h2
  obtain ⟨os', s2', h3', h4'⟩ := M.bind_ok h2'
  obtain ⟨rfl, h5⟩ := visitItems hi hb1 h3 h3'
  refine Sim.bind Sim.same (fun a b hab => ?_) s2 out s out' s' h4 h4'
  cases hab
  obtain ⟨d, c⟩ := a
  refine Sim.bind Sim.same fun _ _ _ => .pure ?_
  cases h5 with
  | nil => exact .cons (refl _ _ _) (.cons (refl _ _ _) .nil)
  | cons g1 g2 => exact .cons g1 (.cons (refl _ _ _) (.cons (refl _ _ _) g2))

theorem scriptBody {fuel fuel' : Nat} {is is' : List Node} (hi : List.Forall₂ (Veil cx w l) is is') :
    Sim (scriptBody cx fuel is) (Visitor.scriptBody cx fuel' is') (List.Forall₂ (Veil cx w l)) :=
  .bind (visitScriptItems hi) fun _ _ h => .bind .same fun a b hab => by
    cases hab
    exact .pure (.cons (refl _ _ _) (.cons (refl _ _ _) h))

theorem programBody {fuel fuel' : Nat} {p p' : Node} (hp : Veil cx w l p p') {st s s' : St} {q q' : Node} (hb : st.before = [])
    (h : programBody cx fuel p st = .ok (q, s)) (h' : Visitor.programBody cx fuel' p' st = .ok (q', s')) : s = s' ∧ Veil cx w l q q' := by
  obtain ⟨k, sp, cs⟩ := p
  obtain ⟨cs', rfl, hc⟩ := hp.mk_inv
  by_cases hm : k = .module
  · subst hm
    replace hc := hc.resolve_right fun hh => hh.elim (fun hh => absurd hh.2.2.2.2.1 nofun) fun hh => hh.elim (fun hh => absurd hh.1 nofun) fun hh => absurd hh.1 nofun
    obtain ⟨a, s1, g1, g2⟩ := M.bind_ok h
    obtain ⟨b, s1', g3, g4⟩ := M.bind_ok h'
    cases g2
    cases g4
    obtain ⟨rfl, h1⟩ := moduleItems hc hb g1 g3
    exact ⟨rfl, .mk' h1⟩
  by_cases hs : k = .script
  · subst hs
    replace hc := hc.resolve_right fun hh => hh.elim (fun hh => absurd hh.2.2.2.2.1 nofun) fun hh => hh.elim (fun hh => absurd hh.1 nofun) fun hh => absurd hh.1 nofun
    exact Sim.bind (scriptBody hc) (fun _ _ h => .pure (.mk' h)) _ _ _ _ _ h h'
  · cases k <;> first
      | exact absurd rfl hm
      | exact absurd rfl hs
      | (cases h; cases h'; exact ⟨rfl, hp⟩)

/-- Programs that are the same except inside constructs with a hint have the same coverage data. -/
theorem instrument {fuel fuel' : Nat} {path : String} {sm : Option SourceMap} {p p' q q' : Node} {c c' : SourceCoverage} (hp : Veil cx w l p p')
    (h : instrument cx fuel path sm p = .ok (q, c)) (h' : Visitor.instrument cx fuel' path sm p' = .ok (q', c')) :
    c = c' ∧ Veil cx w l q q' := by
  unfold Visitor.instrument at h h'
  split at h
  · cases h
  · next n st hv =>
    split at h'
    · cases h'
    · next n' st' hv' =>
      cases h
      cases h'
      have : st = st' ∧ Veil cx w l q q' := by
        obtain ⟨_, s1, h1, h2⟩ := M.bind_ok hv
        obtain ⟨_, s2, h3, h4⟩ := M.bind_ok hv'
        cases h1
        cases h3
        rw [← hp.span] at h4
        split at h2
        · next hi =>
          rw [if_pos hi] at h4
          cases h2
          cases h4
          exact ⟨rfl, hp⟩
        · next hi =>
          rw [if_neg hi] at h4
          obtain ⟨a, s3, g1, g2⟩ := M.bind_ok h2
          obtain ⟨b, s4, g3, g4⟩ := M.bind_ok h4
          cases g2
          cases g4
          obtain ⟨rfl, h5⟩ := programBody hp rfl g1 g3
          exact ⟨rfl, h5⟩
      exact ⟨by rw [this.1], this.2⟩

/-! ### Items that are in one program only -/

theorem thinItems {fuel fuel' : Nat} {is is' : List Node} (hi : Items cx is is') :
    ∀ {st s s' : St} {out out' : List Node}, st.before = [] → Visitor.visitItems cx fuel is st = .ok (out, s) →
    Visitor.visitItems cx fuel' is' st = .ok (out', s') → s = s' ∧ Items cx out out' := by
  induction hi with
  | nil =>
    intro st s s' out out' _ h h'
    cases h
    cases h'
    exact ⟨rfl, .nil⟩
  | keep h1 h2 ih =>
    intro st s s' out out' hb h h'
    obtain ⟨a, s1, g1, g2⟩ := M.bind_ok h
    obtain ⟨b, s1', g3, g4⟩ := M.bind_ok h'
    obtain ⟨c, s2, g5, g6⟩ := M.bind_ok g2
    obtain ⟨d, s2', g7, g8⟩ := M.bind_ok g4
    cases g6
    cases g8
    obtain ⟨rfl, h3⟩ := visitItem h1 hb g1 g3
    obtain ⟨rfl, h4⟩ := ih (visitItem_before hb g1) g5 g7
    exact ⟨rfl, thin_append (thin_forall₂ h3) h4⟩
  | left h1 h2 ih =>
    intro st s s' out out' hb h h'
    obtain ⟨a, s1, g1, g2⟩ := M.bind_ok h
    obtain ⟨c, s2, g5, g6⟩ := M.bind_ok g2
    cases g6
    obtain ⟨rfl, rfl⟩ := visitItem_hinted h1.1 h1.2 hb g1
    obtain ⟨rfl, h4⟩ := ih hb g5 h'
    exact ⟨rfl, .left h1 h4⟩
  | right h1 h2 ih =>
    intro st s s' out out' hb h h'
    obtain ⟨a, s1, g1, g2⟩ := M.bind_ok h'
    obtain ⟨c, s2, g5, g6⟩ := M.bind_ok g2
    cases g6
    obtain ⟨rfl, rfl⟩ := visitItem_hinted h1.1 h1.2 hb g1
    obtain ⟨rfl, h4⟩ := ih hb h g5
    exact ⟨rfl, .right h1 h4⟩

theorem withBefore_hinted {fuel : Nat} {i : Node} (hi : Spared cx i) {st s : St} {out : List Node} (hb : st.before = [])
    (h : Visitor.withBefore (Visitor.visit cx fuel .coverage i) st = .ok (out, s)) : out = [i] ∧ s = st := by
  obtain ⟨n, s1, h1, h2⟩ := M.bind_ok h
  cases h2
  obtain ⟨rfl, rfl⟩ := visit_hinted hi.2 rfl hi.1 h1
  rw [hb]
  refine ⟨rfl, ?_⟩
  rw [← hb]

theorem thinScriptItems {fuel fuel' : Nat} {is is' : List Node} (hi : Items cx is is') :
    ∀ {st s s' : St} {out out' : List Node}, st.before = [] → Visitor.visitScriptItems cx fuel is st = .ok (out, s) →
    Visitor.visitScriptItems cx fuel' is' st = .ok (out', s') → s = s' ∧ Items cx out out' := by
  induction hi with
  | nil =>
    intro st s s' out out' _ h h'
    cases h
    cases h'
    exact ⟨rfl, .nil⟩
  | keep h1 h2 ih =>
    intro st s s' out out' hb h h'
    obtain ⟨a, s1, g1, g2⟩ := M.bind_ok h
    obtain ⟨b, s1', g3, g4⟩ := M.bind_ok h'
    obtain ⟨c, s2, g5, g6⟩ := M.bind_ok g2
    obtain ⟨d, s2', g7, g8⟩ := M.bind_ok g4
    cases g6
    cases g8
    obtain ⟨rfl, h3⟩ := withBefore (visit cx fuel fuel' _ _ _ _ _ (.inl rfl) h1) _ _ _ _ _ g1 g3
    have hb1 : s1.before = [] := by
      obtain ⟨n, s3, h5, h6⟩ := M.bind_ok g1
      cases h6
      rfl
    obtain ⟨rfl, h4⟩ := ih hb1 g5 g7
    exact ⟨rfl, thin_append (thin_forall₂ h3) h4⟩
  | left h1 h2 ih =>
    intro st s s' out out' hb h h'
    obtain ⟨a, s1, g1, g2⟩ := M.bind_ok h
    obtain ⟨c, s2, g5, g6⟩ := M.bind_ok g2
    cases g6
    obtain ⟨rfl, rfl⟩ := withBefore_hinted h1 hb g1
    obtain ⟨rfl, h4⟩ := ih hb g5 h'
    exact ⟨rfl, .left h1 h4⟩
  | right h1 h2 ih =>
    intro st s s' out out' hb h h'
    obtain ⟨a, s1, g1, g2⟩ := M.bind_ok h'
    obtain ⟨c, s2, g5, g6⟩ := M.bind_ok g2
    cases g6
    obtain ⟨rfl, rfl⟩ := withBefore_hinted h1 hb g1
    obtain ⟨rfl, h4⟩ := ih hb h g5
    exact ⟨rfl, .right h1 h4⟩

end Veil
end Verif
