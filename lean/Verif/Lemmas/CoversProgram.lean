import Verif.Lemmas.CoversVisit
import Verif.Lemmas.Run
import Verif.Lemmas.Frozen
/-
Instrumentation leaves nothing out that is reached: programs.
-/
namespace Verif
open Node RegOp

/-- The entries of the finished report. -/
theorem Finished.tables {path : String} {sm : Option SourceMap} {rl : Bool} {h : List RegOp} {r : FileCoverage}
    (hf : Finished path sm rl h r) (hl : Legal h) : Tables.Le h (Tables.report r) := by
  constructor
  · intro id l hs
    refine ⟨?_, ?_⟩
    · rw [hf.statementMap, get_numbered, hs]; rfl
    · rw [hf.s, get_numbered, hs]; rfl
  · intro id x hs
    refine ⟨?_, ?_⟩
    · rw [hf.fnMap, get_numbered, hs]; rfl
    · rw [hf.f, get_numbered, hs]; rfl
  · intro id x hs br hb
    replace hs : (branches h)[id]? = some x := hs
    rw [hf.branchMap, hs] at hb
    simp only [Option.bind_some] at hb
    split at hb
    · cases hb
    · next ha =>
      cases hb
      refine ⟨rfl, ?_, fun ht1 ht => ?_⟩
      · rw [hf.b, if_neg ha]
      · rw [hf.bT, hs]
        simp only [Option.bind_some]
        rw [if_pos ⟨by simp [isTruth, ht1, ht], ha⟩]
  · intro id i l hs
    replace hs : (arms h id)[i]? = some l := hs
    have ha : arms h id ≠ [] := by
      intro e; rw [e] at hs; cases hs
    have hk : id < (branches h).length := Classical.byContradiction fun hk => ha (arms_eq_nil hl (by omega))
    refine ⟨⟨some ((branches h)[id]).2.1, ((branches h)[id]).1, arms h id, some ((branches h)[id]).2.1.start.line⟩, ?_, hs⟩
    rw [hf.branchMap, List.getElem?_eq_getElem hk]
    simp [ha]

section
variable {cx : Ctx} {T T' : Tables} (hp : T.Le T')
include hp

theorem ItemsLead.le {p p' : Node} (hl : ItemsLead cx T p p') : ItemsLead cx T' p p' := by
  intro s hs
  obtain ⟨pre, s', post, h1, h2, h3⟩ := hl s hs
  refine ⟨pre, s', post, h1, h2, fun sp hsp => ?_⟩
  obtain ⟨id, h4, h5⟩ := h3 sp hsp
  exact ⟨id, h4, hp.statement h5⟩
end

namespace Cover
open Visitor
variable {cx : Ctx} {fi : File}

/-- Items of a program of kind `k` have been visited. -/
structure Items (cx : Ctx) (k : Kind) (h : List RegOp) (ss ss' : List Node) : Prop where
  leads : ∀ s ∈ ownStmts cx ss, ∃ pre s' post, ss' = pre ++ s' :: post ∧ strip s' = strip s ∧
    ∀ sp ∈ itemDues cx k s, ∃ id, Before pre (.s id) ∧ (statements h)[id]? = some (cx.range sp)
  covered : ∀ s ∈ ownStmts cx ss, ∃ s' ∈ ss', Covered cx h s s'

theorem Items.mono {k : Kind} {h h' : List RegOp} (hp : h <+: h') {ss ss' : List Node} (hl : Items cx k h ss ss') :
    Items cx k h' ss ss' := by
  constructor
  · intro x hx
    obtain ⟨pre, s', post, h3, h4, h5⟩ := hl.leads x hx
    refine ⟨pre, s', post, h3, h4, fun sp hsp => ?_⟩
    obtain ⟨id, h6, h7⟩ := h5 sp hsp
    exact ⟨id, h6, statements_prefix hp h7⟩
  · intro s hs
    obtain ⟨s', h1, h2⟩ := hl.covered s hs
    exact ⟨s', h1, h2.mono hp⟩

theorem Items.nil (k : Kind) (h : List RegOp) (ss' : List Node) : Items cx k h [] ss' :=
  ⟨fun _ hs => by simp [ownStmts] at hs, fun _ hs => by simp [ownStmts] at hs⟩

theorem Items.cons {k : Kind} {h : List RegOp} {s : Node} {ss out rest : List Node} (h1 : Items cx k h [s] out)
    (h2 : Items cx k h ss rest) : Items cx k h (s :: ss) (out ++ rest) := by
  constructor
  · intro x hx
    rw [ownStmts_cons] at hx
    rcases List.mem_append.1 hx with hx | hx
    · obtain ⟨pre, s', post, h3, h4, h5⟩ := h1.leads x (by rw [ownStmts_cons]; exact List.mem_append_left _ hx)
      exact ⟨pre, s', post ++ rest, by rw [h3]; simp, h4, h5⟩
    · obtain ⟨pre, s', post, h3, h4, h5⟩ := h2.leads x hx
      refine ⟨out ++ pre, s', post, by rw [h3]; simp, h4, fun sp hsp => ?_⟩
      obtain ⟨id, h6, h7⟩ := h5 sp hsp
      exact ⟨id, Before.append h6 _, h7⟩
  · intro x hx
    rw [ownStmts_cons] at hx
    rcases List.mem_append.1 hx with hx | hx
    · obtain ⟨s', h3, h4⟩ := h1.covered x (by rw [ownStmts_cons]; exact List.mem_append_left _ hx)
      exact ⟨s', by simp [h3], h4⟩
    · obtain ⟨s', h3, h4⟩ := h2.covered x hx
      exact ⟨s', by simp [h3], h4⟩

theorem Items.single {k : Kind} {h : List RegOp} {s s' : Node} {before : List Node} (hs : Covered cx h s s')
    (he : strip s' = strip s) (hd : ∀ sp ∈ itemDues cx k s, Due cx h before sp)
    (hb : ∀ c ∈ before, isInjectedItem c = true) : Items cx k h [s] (before ++ [s']) := by
  have hx : ∀ x ∈ ownStmts cx [s], x = s := fun x hx => List.mem_singleton.1 (List.mem_filter.1 hx).1
  constructor
  · intro x hx'
    cases hx x hx'
    refine ⟨before, s', [], rfl, he, fun sp hsp => ?_⟩
    obtain ⟨id, h1, h2⟩ := hd sp hsp
    exact ⟨id, ⟨[], before, rfl, hb, h1⟩, h2⟩
  · intro x hx'
    cases hx x hx'
    exact ⟨s', by simp, hs⟩

theorem Items.skip {k : Kind} {h : List RegOp} {s : Node} (hh : cx.hint s.span = some .next) (out : List Node) :
    Items cx k h [s] out := by
  have ho : ownStmts cx [s] = [] := by simp [ownStmts, Ctx.hinted, hh]
  constructor <;> intro x hx <;> rw [ho] at hx <;> cases hx

/-- A visit of items. -/
def Visited (cx : Ctx) (fi : File) (k : Kind) (h : List RegOp) (ss ss' : List Node) (st' : St) : Prop :=
  ∃ h', h <+: h' ∧ fi.good h' st' ∧ st'.ignore ≠ some .next ∧ st'.before = [] ∧ Items cx k h' ss ss'

theorem withBefore {k : Kind} {x : M Node} {s : Node} {h : List RegOp} {st st' : St} {a : List Node}
    (hx : Gets fi x h fun s' h' o => Part cx .coverage h' s s' ∧ ∀ sp ∈ itemDues cx k s, Due cx h' o sp)
    (hg : fi.good h st) (hi : st.ignore ≠ some .next) (hb : st.before = []) (hs : withBefore x st = .ok (a, st')) :
    Visited cx fi k h [s] a st' := by
  unfold Visitor.withBefore at hs
  obtain ⟨s', st1, h1, h2⟩ := M.bind_ok hs
  obtain ⟨bef, st2, h3, h4⟩ := M.bind_ok h2
  cases h3
  cases h4
  obtain ⟨h', o, p, g, i, b, c, q, d⟩ := hx st s' st1 hg hi h1
  rw [hb, List.nil_append] at b
  rw [b]
  exact ⟨h', p, g, i, rfl, .single q.covered q.strip d c⟩

/-- What a frame does to the current hint. -/
theorem frame_ignore {t : Tag} {sp : Span} {body : Option IgnoreScope → M α} {st st' : St} {a : α}
    (h : Visitor.frame cx t sp body st = .ok (a, st')) : st'.ignore = st.ignore ∧ ∃ st1 st2,
      (st.ignore ≠ some .next → body (cx.hint sp) st1 = .ok (a, st2) ∧ st1.ignore = cx.hint sp) ∧
      st1.before = st.before ∧ st1.cov = st.cov ∧ st'.before = st2.before ∧ st'.cov = st2.cov := by
  unfold Visitor.frame at h
  obtain ⟨⟨old, cur⟩, st1, h1, h2⟩ := M.bind_ok h
  obtain ⟨r, st2, h3, h4⟩ := M.bind_ok h2
  unfold Visitor.enter at h1
  obtain ⟨_, st3, h5, h6⟩ := M.bind_ok h1
  cases h5
  obtain ⟨_, st4, h7, h8⟩ := M.bind_ok h4
  cases h8
  cases h7
  simp only [Visitor.enterSpan] at h6
  split at h6
  · next hn => cases h6; exact ⟨rfl, _, st2, fun hc => absurd hn hc, rfl, rfl, rfl, rfl⟩
  · cases h6; exact ⟨rfl, _, st2, fun _ => ⟨h3, rfl⟩, rfl, rfl, rfl, rfl⟩

theorem itemBody (fuel : Nat) (s : Node) (hd : isDirectiveStmt s = false) (h : List RegOp) :
    Gets fi (itemBody cx fuel s) h
      fun s' h' o => Part cx .coverage h' s s' ∧ ∀ sp ∈ itemDues cx .module s, Due cx h' o sp := by
  unfold Visitor.itemBody
  refine .bind (P := fun _ h' o => isExportConst s = true → Due cx h' o s.span)
    (.keepIf (fun he ht => by rw [he] at ht; cases ht) fun _ => .conseq (.mark _) fun _ _ _ _ hm _ => hm) ?_
  intro _ h1 o1 hp1 hm
  refine .conseq (visit cx fi fuel .coverage s h1 trivial) ?_
  rintro s' h2 o2 hp2 ⟨hq, hdue⟩
  refine ⟨hq, fun sp hsp => ?_⟩
  have hall : ∀ sp ∈ dues cx s, Due cx h2 (o1 ++ o2) sp :=
    fun sp hs => (hdue sp hs).mono (List.prefix_refl _) fun _ => List.mem_append_right _
  unfold itemDues at hsp
  split at hsp
  · cases hsp
  · rcases List.mem_cons.1 hsp with rfl | hsp
    · exact (hm rfl).mono hp2 fun _ => List.mem_append_left _
    · exact hall _ hsp
  · exact hall _ hsp

theorem visitItem {fuel : Nat} {s : Node} {h : List RegOp} {st st' : St} {a : List Node} (hg : fi.good h st)
    (hi : st.ignore ≠ some .next) (hb : st.before = []) (hs : visitItem cx fuel s st = .ok (a, st')) :
    Visited cx fi .module h [s] a st' := by
  by_cases hh : cx.hint s.span = some .next
  · obtain ⟨h', s1, g, b⟩ := Sound.visitItem (sp := s.span) (l := []) (r := []) hg hb hs
    refine ⟨h', s1.pre, g, ?_, b, .skip hh _⟩
    unfold Visitor.visitItem at hs
    split at hs
    · cases hs; exact hi
    · rw [(frame_ignore hs).1]; exact hi
  · unfold Visitor.visitItem at hs
    split at hs
    · next hd =>
      cases hs
      refine ⟨h, List.prefix_refl _, hg, hi, hb, ?_⟩
      unfold isDirectiveStmt at hd
      split at hd
      · next sp v sp' cs =>
        refine Items.single (before := []) (.of rfl (.plain rfl rfl h) ?_) rfl (by simp [itemDues]) (by simp)
        intro c hc
        rcases opened_sub hc with hc | ⟨l, hl, _⟩
        · cases hc
        · cases hl
      · cases hd
    · next hd =>
      obtain ⟨hi', st1, st2, hx, b1, c1, b2, c2⟩ := frame_ignore hs
      obtain ⟨hx, i1⟩ := hx hi
      have hg1 : fi.good h st1 := by unfold File.good at hg ⊢; rw [c1]; exact hg
      obtain ⟨h', p, g, i, b, hit⟩ := withBefore (itemBody fuel s (by simpa using hd) h) hg1 (by rw [i1]; exact hh)
        (b1.trans hb) hx
      refine ⟨h', p, ?_, by rw [hi']; exact hi, b2.trans b, hit⟩
      unfold File.good at g ⊢; rw [c2]; exact g

theorem visitItems {fuel : Nat} {ss : List Node} {h : List RegOp} {st st' : St} {a : List Node} (hg : fi.good h st)
    (hi : st.ignore ≠ some .next) (hb : st.before = []) (hs : visitItems cx fuel ss st = .ok (a, st')) :
    Visited cx fi .module h ss a st' := by
  induction ss generalizing h st a with
  | nil => cases hs; exact ⟨h, List.prefix_refl _, hg, hi, hb, .nil _ _ _⟩
  | cons s ss ih =>
    unfold Visitor.visitItems at hs
    obtain ⟨out, st1, h1, h2⟩ := M.bind_ok hs
    obtain ⟨rest, st2, h3, h4⟩ := M.bind_ok h2
    cases h4
    obtain ⟨h', p1, g1, i1, b1, t1⟩ := visitItem hg hi hb h1
    obtain ⟨h'', p2, g2, i2, b2, t2⟩ := ih g1 i1 b1 h3
    exact ⟨h'', p1.trans p2, g2, i2, b2, .cons (t1.mono p2) t2⟩

theorem visitScriptItems {fuel : Nat} {ss : List Node} {h : List RegOp} {st st' : St} {a : List Node} (hg : fi.good h st)
    (hi : st.ignore ≠ some .next) (hb : st.before = []) (hs : visitScriptItems cx fuel ss st = .ok (a, st')) :
    Visited cx fi .script h ss a st' := by
  induction ss generalizing h st a with
  | nil => cases hs; exact ⟨h, List.prefix_refl _, hg, hi, hb, .nil _ _ _⟩
  | cons s ss ih =>
    unfold Visitor.visitScriptItems at hs
    obtain ⟨out, st1, h1, h2⟩ := M.bind_ok hs
    obtain ⟨rest, st2, h3, h4⟩ := M.bind_ok h2
    cases h4
    have hx : Gets fi (Visitor.visit cx fuel .coverage s) h
        fun s' h' o => Part cx .coverage h' s s' ∧ ∀ sp ∈ itemDues cx .script s, Due cx h' o sp :=
      .conseq (visit cx fi fuel .coverage s h trivial) fun _ _ _ _ hq => ⟨hq.1, hq.2⟩
    obtain ⟨h', p1, g1, i1, b1, t1⟩ := withBefore hx hg hi hb h1
    obtain ⟨h'', p2, g2, i2, b2, t2⟩ := ih g1 i1 b1 h3
    exact ⟨h'', p1.trans p2, g2, i2, b2, .cons (t1.mono p2) t2⟩

/-! ### The templates -/

theorem Before.insert {x : Node} {pre : List Node} {c : Counter} (hb : Before (x :: pre) c) :
    Before (x :: declItem :: callItem :: pre) c := by
  obtain ⟨a, b, h1, h2, h3⟩ := hb
  cases a with
  | nil =>
    simp only [List.nil_append] at h1
    subst h1
    refine ⟨[], x :: declItem :: callItem :: pre, rfl, ?_, ?_⟩
    · intro y hy
      simp only [List.mem_cons] at hy
      rcases hy with rfl | rfl | rfl | hy
      · exact h2 _ (by simp)
      · rfl
      · rfl
      · exact h2 _ (by simp [hy])
    · rcases List.mem_cons.1 h3 with rfl | h3 <;> simp_all
  | cons y a =>
    simp only [List.cons_append, List.cons.injEq] at h1
    obtain ⟨rfl, rfl⟩ := h1
    exact ⟨x :: declItem :: callItem :: a, b, by simp, h2, h3⟩

theorem Items.module {h : List RegOp} {ss ss' : List Node} (hl : Items cx .module h ss ss') :
    Items cx .module h ss (insertModuleTemplates declItem callItem ss') := by
  constructor
  · intro s hs
    obtain ⟨pre, s', post, rfl, h4, h5⟩ := hl.leads s hs
    cases pre with
    | nil =>
      refine ⟨[], s', declItem :: callItem :: post, rfl, h4, ?_⟩
      exact h5
    | cons x pre =>
      refine ⟨x :: declItem :: callItem :: pre, s', post, rfl, h4, fun sp hsp => ?_⟩
      obtain ⟨id, h6, h7⟩ := h5 sp hsp
      exact ⟨id, Before.insert h6, h7⟩
  · intro s hs
    obtain ⟨s', h1, h2⟩ := hl.covered s hs
    refine ⟨s', ?_, h2⟩
    cases ss' with
    | nil => cases h1
    | cons x ss' =>
      rcases List.mem_cons.1 h1 with rfl | h1 <;> simp [insertModuleTemplates, *]

theorem Items.script {h : List RegOp} {ss ss' : List Node} (hl : Items cx .script h ss ss') :
    Items cx .script h ss (declItem :: callItem :: ss') := by
  constructor
  · intro s hs
    obtain ⟨pre, s', post, rfl, h4, h5⟩ := hl.leads s hs
    refine ⟨declItem :: callItem :: pre, s', post, rfl, h4, fun sp hsp => ?_⟩
    obtain ⟨id, h6, h7⟩ := h5 sp hsp
    exact ⟨id, Before.append h6 [declItem, callItem], h7⟩
  · intro s hs
    obtain ⟨s', h1, h2⟩ := hl.covered s hs
    exact ⟨s', by simp [h1], h2⟩

theorem items_result {k : Kind} {h : List RegOp} {sp : Span} {ss ss' : List Node} {T : Tables} (hT : Tables.Le h T)
    (hl : Items cx k h ss ss') :
    ItemsLead cx T (mk k sp ss) (mk k sp ss') ∧ ∀ x, InProgram cx (mk k sp ss) x →
      ∃ x' ∈ each (mk k sp ss'), strip x' = strip x ∧ Local cx T x x' := by
  constructor
  · have hi : ItemsLead cx h (mk k sp ss) (mk k sp ss') := hl.leads
    exact hi.le hT
  · rintro x ⟨s, hs, hr⟩
    obtain ⟨s', h1, h2⟩ := hl.covered s hs
    obtain ⟨x', h3, h4, h5⟩ := h2 x hr
    exact ⟨x', mem_each_mk.2 (.inr ⟨s', h1, h3⟩), h4, h5.le hT⟩

/-- Everything of a program that is reached has its counters in the result. -/
theorem instrument {fuel : Nat} {path : String} {sm : Option SourceMap} {p p' : Node} {cov : SourceCoverage}
    (hf : Hint.shouldIgnoreFile cx.cc cx.comments p.span = false) (hk : p.kind = .module ∨ p.kind = .script)
    (hr : instrument cx fuel path sm p = .ok (p', cov)) :
    ItemsLead cx (Tables.report cov.inner) p p' ∧ ∀ x, InProgram cx p x →
      ∃ x' ∈ each p', strip x' = strip x ∧ Local cx (Tables.report cov.inner) x x' := by
  have hg : File.good ⟨path, cx.reportLogic, sm⟩ [] (start cx path sm) :=
    ⟨inv_setInputSourceMap inv_new sm, legal_nil⟩
  obtain ⟨k, sp, ss⟩ := p
  simp only [Node.kind] at hk
  rcases hk with rfl | rfl
  · rw [instrument_module cx fuel path sm sp ss hf] at hr
    split at hr
    · cases hr
    · next out st hv =>
      cases hr
      obtain ⟨h, _, g, _, _, hit⟩ := visitItems hg (by simp [start, initial]) rfl hv
      exact items_result ((g.1.finished g.2).tables g.2) (Items.module hit)
  · rw [instrument_script cx fuel path sm sp ss hf] at hr
    split at hr
    · cases hr
    · next out st hv =>
      cases hr
      obtain ⟨h, _, g, _, _, hit⟩ := visitScriptItems hg (by simp [start, initial]) rfl hv
      exact items_result ((g.1.finished g.2).tables g.2) (Items.script hit)

end Cover

/-- The part of a node found by following positions. -/
def follow (cx : Ctx) (n : Node) : List Nat → Option Node
  | [] => some n
  | i :: is => match (opened cx n)[i]? with
    | some c => follow cx c is
    | none => none

theorem reached_follow {cx : Ctx} {n x : Node} {is : List Nat} (h : follow cx n is = some x) : Reached cx n x := by
  induction is generalizing n with
  | nil => cases h; exact .here
  | cons i is ih =>
    unfold follow at h
    split at h
    · next c hc => exact reached_iff.2 (.inr ⟨c, List.mem_of_getElem? hc, ih h⟩)
    · cases h

/-- The part of a program found by following positions. -/
def find (cx : Ctx) (p : Node) (i : Nat) (is : List Nat) : Option Node :=
  match (ownStmts cx p.children)[i]? with
  | some s => follow cx s is
  | none => none

theorem of_any {o : Option α} {f : α → Bool} (h : o.any f = true) : ∃ x, o = some x ∧ f x = true := by
  cases o with
  | none => cases h
  | some x => exact ⟨x, rfl, h⟩

theorem inProgram_find {cx : Ctx} {p : Node} {i : Nat} {is : List Nat} {f : Node → Bool}
    (h : (find cx p i is).any f = true) : ∃ x, InProgram cx p x ∧ f x = true := by
  obtain ⟨x, hx, hf⟩ := of_any h
  unfold find at hx
  split at hx
  · next s hs => exact ⟨x, ⟨s, List.mem_of_getElem? hs, reached_follow hx⟩, hf⟩
  · cases hx

end Verif
