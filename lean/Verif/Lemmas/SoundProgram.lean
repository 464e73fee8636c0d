import Verif.Lemmas.Sound
import Verif.Model.Program
/-
Programs: the module and script visits perform steps, then add the coverage function and its call.
-/
namespace Verif
open Node RegOp

/-- Running two computations in sequence. -/
theorem M.bind_ok {x : M α} {f : α → M β} {st st' : St} {b : β} (h : (x >>= f) st = .ok (b, st')) :
    ∃ a st1, x st = .ok (a, st1) ∧ f a st1 = .ok (b, st') := by
  simp only [Bind.bind, M.bind] at h
  cases hx : x st with
  | error er => rw [hx] at h; cases h
  | ok r =>
    obtain ⟨a, st1⟩ := r
    rw [hx] at h
    exact ⟨a, st1, rfl, h⟩

namespace Sound
open Visitor
variable {cx : Ctx} {fi : File}

/-- What a frame leaves alone. -/
theorem frame_ok {t : Tag} {sp : Span} {body : Option IgnoreScope → M α} {st st' : St} {a : α}
    (h : Visitor.frame cx t sp body st = .ok (a, st')) :
    ∃ cur st1 st2, st1.before = st.before ∧ st1.cov = st.cov ∧ body cur st1 = .ok (a, st2) ∧
      st'.before = st2.before ∧ st'.cov = st2.cov := by
  unfold Visitor.frame at h
  obtain ⟨⟨old, cur⟩, st1, h1, h2⟩ := M.bind_ok h
  obtain ⟨r, st2, h3, h4⟩ := M.bind_ok h2
  refine ⟨cur, st1, st2, ?_, ?_, ?_, ?_, ?_⟩
  · unfold Visitor.enter at h1
    obtain ⟨_, st3, h5, h6⟩ := M.bind_ok h1
    cases h5
    simp only [Visitor.enterSpan] at h6
    split at h6 <;> cases h6 <;> rfl
  · unfold Visitor.enter at h1
    obtain ⟨_, st3, h5, h6⟩ := M.bind_ok h1
    cases h5
    simp only [Visitor.enterSpan] at h6
    split at h6 <;> cases h6 <;> rfl
  · obtain ⟨_, st3, h5, h6⟩ := M.bind_ok h4
    cases h6
    exact h3
  · obtain ⟨_, st3, h5, h6⟩ := M.bind_ok h4
    cases h6
    cases h5
    rfl
  · obtain ⟨_, st3, h5, h6⟩ := M.bind_ok h4
    cases h6
    cases h5
    rfl

theorem isExportConst_kind {n : Node} (h : isExportConst n = true) : n.kind = .exportDecl := by
  unfold isExportConst at h
  split at h
  · rfl
  · cases h

/-- Visit one item and put what it asks for before it. -/
theorem withBefore {x : M Node} {k : Kind} {sp : Span} {l r : List Node} {s : Node}
    {q : List Counter} {h : List RegOp} (hk : k.listPos l = true)
    (hx : Does cx fi .any x s q h id (fun _ => q) anyH) {st st' : St} {a : List Node}
    (hg : fi.good h st) (hb : st.before = []) (hs : withBefore x st = .ok (a, st')) :
    ∃ h', Steps cx (mk k sp (l ++ s :: r)) q h (mk k sp (l ++ a ++ r)) q h' [] ∧ fi.good h' st' ∧
      st'.before = [] := by
  unfold Visitor.withBefore at hs
  obtain ⟨s', st1, h1, h2⟩ := M.bind_ok hs
  obtain ⟨bef, st2, h3, h4⟩ := M.bind_ok h2
  cases h3
  cases h4
  obtain ⟨h', o, s1, g, f, _⟩ := hx st s' st1 hg h1
  simp only [Emit.fits, hb, List.nil_append] at f
  refine ⟨h', ?_, g, rfl⟩
  have := Steps.insert k sp l r hk s1
  simpa [f] using this

theorem itemBody (fuel : Nat) (item : Node) (h : List RegOp) :
    Does cx fi .any (itemBody cx fuel item) item [] h id (fun _ => []) anyH := by
  unfold Visitor.itemBody
  refine .bind (F := fun _ => item) (Q := fun _ => []) (P := anyH) ?_ ?_
  · unfold Visitor.keepIf
    split
    · exact .pure rfl rfl trivial
    · next he =>
      have hk := isExportConst_kind (by simpa using he)
      obtain ⟨k, isp, cs⟩ := item
      simp only [Node.kind] at hk
      subst hk
      exact .mark _ (quiet_of_marks rfl _ _) (.inl ⟨rfl, rfl⟩)
  · intro _ h1 _ _
    exact visit cx fi fuel .coverage item [] h1 trivial

theorem visitItem {fuel : Nat} {sp : Span} {l : List Node} {item : Node} {r : List Node}
    {h : List RegOp} {st st' : St} {a : List Node} (hg : fi.good h st) (hb : st.before = [])
    (hs : visitItem cx fuel item st = .ok (a, st')) :
    ∃ h', Steps cx (mk .module sp (l ++ item :: r)) [] h (mk .module sp (l ++ a ++ r)) [] h' [] ∧
      fi.good h' st' ∧ st'.before = [] := by
  unfold Visitor.visitItem at hs
  split at hs
  · cases hs
    exact ⟨h, by simpa using Steps.refl _ _ _, hg, hb⟩
  · obtain ⟨cur, st1, st2, b1, c1, hx, b2, c2⟩ := frame_ok hs
    have hg1 : fi.good h st1 := by unfold File.good at hg ⊢; rw [c1]; exact hg
    obtain ⟨h', s, g, b⟩ := withBefore (k := .module) (sp := sp) (l := l) (r := r) rfl
      (itemBody fuel item h) hg1 (b1.trans hb) hx
    refine ⟨h', s, ?_, b2.trans b⟩
    unfold File.good at g ⊢; rw [c2]; exact g

theorem visitItems {fuel : Nat} {sp : Span} {l items : List Node} {h : List RegOp}
    {st st' : St} {a : List Node} (hg : fi.good h st) (hb : st.before = [])
    (hs : visitItems cx fuel items st = .ok (a, st')) :
    ∃ h', Steps cx (mk .module sp (l ++ items)) [] h (mk .module sp (l ++ a)) [] h' [] ∧
      fi.good h' st' ∧ st'.before = [] := by
  induction items generalizing l h st a with
  | nil =>
    cases hs
    exact ⟨h, .refl _ _ _, hg, hb⟩
  | cons item items ih =>
    unfold Visitor.visitItems at hs
    obtain ⟨out, st1, h1, h2⟩ := M.bind_ok hs
    obtain ⟨rest, st2, h3, h4⟩ := M.bind_ok h2
    cases h4
    obtain ⟨h', s1, g1, b1⟩ := visitItem (sp := sp) (l := l) (r := items) hg hb h1
    obtain ⟨h'', s2, g2, b2⟩ := ih (l := l ++ out) g1 b1 h3
    refine ⟨h'', ?_, g2, b2⟩
    have := s1.trans s2
    simpa using this

theorem visitScriptItems {fuel : Nat} {sp : Span} {l items : List Node} {h : List RegOp}
    {st st' : St} {a : List Node} (hg : fi.good h st) (hb : st.before = [])
    (hs : visitScriptItems cx fuel items st = .ok (a, st')) :
    ∃ h', Steps cx (mk .script sp (l ++ items)) [] h (mk .script sp (l ++ a)) [] h' [] ∧
      fi.good h' st' ∧ st'.before = [] := by
  induction items generalizing l h st a with
  | nil =>
    cases hs
    exact ⟨h, .refl _ _ _, hg, hb⟩
  | cons item items ih =>
    unfold Visitor.visitScriptItems at hs
    obtain ⟨out, st1, h1, h2⟩ := M.bind_ok hs
    obtain ⟨rest, st2, h3, h4⟩ := M.bind_ok h2
    cases h4
    obtain ⟨h', s1, g1, b1⟩ := withBefore (k := .script) (sp := sp) (l := l) (r := items) rfl
      (visit cx fi fuel .coverage item [] h trivial) hg hb h1
    obtain ⟨h'', s2, g2, b2⟩ := ih (l := l ++ out) g1 b1 h3
    refine ⟨h'', ?_, g2, b2⟩
    have := s1.trans s2
    simpa using this

/-- The coverage function and its call, added to the instrumented items. -/
inductive Templated : Node → Node → Prop
  | module (sp : Span) (items : List Node) :
      Templated (mk .module sp items)
        (mk .module sp (insertModuleTemplates (mk .covDecl Span.dummy []) (mk .covCall Span.dummy []) items))
  | script (sp : Span) (items : List Node) :
      Templated (mk .script sp items)
        (mk .script sp (mk .covDecl Span.dummy [] :: mk .covCall Span.dummy [] :: items))

/-- What instrumentation of a program does: nothing, or steps followed by the templates, and the
coverage data are those of the registrations made. -/
theorem instrument {fuel : Nat} {path : String} {sm : Option SourceMap} {p p' : Node}
    {cov : SourceCoverage} (hs : instrument cx fuel path sm p = .ok (p', cov)) :
    (p' = p ∧ cov = (initial cx path sm).cov ∧ (Hint.shouldIgnoreFile cx.cc cx.comments p.span = true ∨
      (p.kind ≠ .module ∧ p.kind ≠ .script))) ∨
    (Hint.shouldIgnoreFile cx.cc cx.comments p.span = false ∧ ∃ n h cov0,
      Steps cx p [] [] n [] h [] ∧ Templated n p' ∧
      Inv path cx.reportLogic sm h cov0 ∧ Legal h ∧ cov = cov0.freeze) := by
  unfold Visitor.instrument at hs
  split at hs
  · cases hs
  · next n st hv =>
    cases hs
    unfold Visitor.visitProgram at hv
    obtain ⟨_, st0, h0, hv⟩ := M.bind_ok hv
    cases h0
    have hg : File.good ⟨path, cx.reportLogic, sm⟩ []
        { initial cx path sm with nodes := [.program] } :=
      ⟨inv_setInputSourceMap inv_new sm, legal_nil⟩
    split at hv
    · next hf =>
      cases hv
      exact .inl ⟨rfl, rfl, .inl hf⟩
    · next hf =>
      obtain ⟨p1, st1, h1, h2⟩ := M.bind_ok hv
      obtain ⟨_, st2, h3, h4⟩ := M.bind_ok h2
      cases h4
      cases h3
      unfold Visitor.programBody at h1
      split at h1
      · next sp items _ =>
        refine .inr ⟨by simpa using hf, ?_⟩
        obtain ⟨out, st3, h5, h6⟩ := M.bind_ok h1
        cases h6
        unfold Visitor.moduleItems at h5
        obtain ⟨root, st4, h7, h8⟩ := M.bind_ok h5
        obtain ⟨items', st5, h9, h10⟩ := M.bind_ok h8
        obtain ⟨⟨d, c⟩, st6, h11, h12⟩ := M.bind_ok h10
        obtain ⟨_, st7, h13, h14⟩ := M.bind_ok h12
        cases h14
        have hr : st4.before = [] ∧ st4.cov = (initial cx path sm).cov := by
          simp only [Visitor.ensureRoot] at h7
          split at h7 <;> cases h7 <;> exact ⟨rfl, rfl⟩
        have hg4 : File.good ⟨path, cx.reportLogic, sm⟩ [] st4 := by
          unfold File.good at hg ⊢; rw [hr.2]; exact hg
        obtain ⟨h', s, g, b⟩ := visitItems (sp := sp) (l := []) hg4 hr.1 h9
        cases h11
        have h15 : st1.cov = st5.cov.freeze := by
          unfold Visitor.keepIf at h13
          split at h13 <;> cases h13 <;> rfl
        refine ⟨_, h', st5.cov, s, .module sp items', g.1, g.2, h15⟩
      · next sp items _ =>
        refine .inr ⟨by simpa using hf, ?_⟩
        obtain ⟨out, st3, h5, h6⟩ := M.bind_ok h1
        cases h6
        unfold Visitor.scriptBody at h5
        obtain ⟨items', st5, h9, h10⟩ := M.bind_ok h5
        obtain ⟨⟨d, c⟩, st6, h11, h12⟩ := M.bind_ok h10
        cases h12
        obtain ⟨h', s, g, b⟩ := visitScriptItems (sp := sp) (l := []) hg rfl h9
        cases h11
        exact ⟨_, h', st5.cov, s, .script sp items', g.1, g.2, rfl⟩
      · next hm hsc =>
        cases h1
        refine .inl ⟨rfl, rfl, .inr ⟨?_, ?_⟩⟩
        · obtain ⟨k, sp, cs⟩ := p
          rintro hk
          simp only [Node.kind] at hk
          subst hk
          exact hm sp cs rfl
        · obtain ⟨k, sp, cs⟩ := p
          rintro hk
          simp only [Node.kind] at hk
          subst hk
          exact hsc sp cs rfl

end Sound
end Verif
