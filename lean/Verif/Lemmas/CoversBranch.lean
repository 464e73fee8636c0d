import Verif.Lemmas.CoversKinds
/-
Continuation of `Lemmas/CoversKinds.lean`: branches.
-/
namespace Verif
open Node RegOp

namespace Cover
open Visitor
variable {cx : Ctx} {fi : File} {go : Mode → Node → M Node}

theorem hasBranch {h : List RegOp} {b : Nat} {t : BranchType} {sp : Span} (ht : t ≠ .binaryExpr)
    (hb : (branches h)[b]? = some (t, cx.range sp, false)) : HasBranch cx h b t sp := by
  unfold HasBranch
  show (branches h)[b]? = _
  rw [hb]
  cases t <;> first | rfl | exact absurd rfl ht

/-! ### `switch` -/

theorem strip_counter_case (sp : Span) (t : Node) (c : Counter) (ss : List Node) :
    strip (mk .switchCase sp (t :: counterStmt c :: ss)) = strip (mk .switchCase sp (t :: ss)) := by
  rw [strip_mk, strip_mk]
  rfl

theorem switch (hgo : Go cx fi go) {m : Mode} (sp : Span) (cs : List Node) (hh : cx.hint sp ≠ some .next) (h : List RegOp) :
    Gets fi (do
        mark cx sp
        let branch ← newBranch .switch (cx.range sp) false
        let (n, _) ← Visitor.fresh (cx.hint sp) (Visitor.visitChildren cx go (.switchCase branch) (mk .switchStmt sp cs))
        pure n) h
      fun n' h' o => Core cx m h' (mk .switchStmt sp cs) n' o := by
  refine .bind (.mark sp) ?_
  intro _ h1 o1 hp1 hdue
  refine .bind (.newBranch _ _ _) ?_
  rintro b h2 o2 hp2 ⟨hb, rfl⟩
  refine .bind (.fresh hh (visitChildren hgo (m := .switchCase b) rfl .switchStmt sp cs rfl h2 ⟨_, _, hb⟩)) ?_
  rintro ⟨n, before⟩ h3 o3 hp3 ⟨rfl, ⟨cs', rfl, hps⟩, _⟩
  refine .pure ⟨.mk' (noLists rfl rfl) rfl rfl ?_, ?_, ?_, ?_⟩
  · intro _
    refine ⟨b, (hasBranch (by decide) hb).mono hp3, fun csp test ss hm hc => ?_⟩
    obtain ⟨c', hc', hp⟩ := forall₂_mem hps.parts hm
    obtain ⟨i, test', ss', rfl, ha⟩ := hp.case b csp test ss rfl rfl hc
    refine ⟨i, test', ss', hc', ?_, ha⟩
    rw [← hp.strip, strip_counter_case]
  · intro c hc
    rcases opened_sub hc with hc | ⟨l, hl, _⟩
    · exact Part.under hps.parts hc
    · cases hl
  · intro b csp test ss _ x; cases x
  · intro x hx
    unfold dues at hx
    split at hx
    · cases hx
    · cases List.mem_singleton.1 hx
      exact hdue.mono (hp2.trans hp3) (by simp)

theorem caseCore {h : List RegOp} {m : Mode} {sp : Span} {test test' : Node} {ss ss' : List Node} {o : List Node}
    (ht : Covered cx h test test') (hl : Listed cx h ss ss')
    (hc : CaseOk cx m h (mk .switchCase sp (test :: ss)) (mk .switchCase sp (test' :: ss'))) :
    Core cx m h (mk .switchCase sp (test :: ss)) (mk .switchCase sp (test' :: ss')) o := by
  refine ⟨.mk' ?_ rfl rfl (fun _ => trivial), ?_, hc, ?_⟩
  · exact fun _ => .cons hl.leads .nil
  · intro c hc
    rcases opened_sub hc with hc | ⟨l, hl', hc⟩
    · cases List.mem_singleton.1 hc
      exact ⟨test', mem_each_child (by simp), ht⟩
    · cases List.mem_singleton.1 hl'
      obtain ⟨c', h2, h3⟩ := hl.covered c hc
      exact ⟨c', mem_each_child (by simp [h2]), h3⟩
  · intro x hx
    unfold dues at hx
    split at hx <;> cases hx

theorem visitCase (hgo : Go cx fi go) (b : Nat) (sp : Span) (test : Node) (ss : List Node) (h : List RegOp)
    (hok : (Mode.switchCase b).ok cx h) :
    Gets fi (visitCase cx go b sp test ss) h
      fun n' h' o => Core cx (.switchCase b) h' (mk .switchCase sp (test :: ss)) n' o := by
  unfold Visitor.visitCase
  refine .bind (.addPath _ ?_) ?_
  · obtain ⟨l, g, hb⟩ := hok
    exact ⟨_, hb⟩
  rintro i h1 o1 hp1 ⟨ha, rfl⟩
  refine .bind (hgo (.switchCase b) test h1 (hok.mono hp1)) ?_
  rintro test' h2 o2 hp2 ⟨pt, _⟩
  refine .bind (visitStmts hgo ss h2) ?_
  rintro ss' h3 o3 hp3 ⟨rfl, hl⟩
  refine .pure (caseCore (pt.covered.mono hp3) (hl.prepend [_]) ?_)
  rintro b' csp t s ⟨⟩ ⟨⟩ _
  exact ⟨i, test', ss', rfl, arms_prefix (hp2.trans hp3) ha⟩

theorem otherCase (hgo : Go cx fi go) {m : Mode} (hm : normal m = true) (hne : ∀ b, m ≠ .switchCase b) (sp : Span)
    (test : Node) (ss : List Node) (h : List RegOp) (hok : m.ok cx h) :
    Gets fi (Visitor.visitChildren cx go m (mk .switchCase sp (test :: ss))) h
      fun n' h' o => Core cx m h' (mk .switchCase sp (test :: ss)) n' o := by
  refine .bind (hgo m test h hok) ?_
  intro test' h1 o1 hp1 pt
  obtain ⟨pt, _⟩ := Post.normal hm pt
  refine .bind (visitStmts hgo ss h1) ?_
  rintro ss' h2 o2 hp2 ⟨rfl, hl⟩
  refine .pure (caseCore (pt.covered.mono hp2) hl ?_)
  intro b csp t s hb
  exact absurd hb (hne b)

/-! ### `if` and `with` -/

theorem bodyStmts_of_ne {s : Node} (h1 : ∀ sp ss, s ≠ mk .block sp ss) :
    bodyStmts s = [] ∨ bodyStmts s = [s] := by
  unfold bodyStmts
  split
  · next sp ss => exact absurd rfl (h1 sp ss)
  · exact .inl rfl
  · exact .inr rfl

theorem armBody (hgo : Go cx fi go) {ig : Option IgnoreScope} (hh : ig ≠ some .next) (s : Node)
    (hs : ∀ sp ss, s ≠ mk .block sp ss) (h : List RegOp) :
    Gets fi (Visitor.fresh ig (go .stmt s)) h fun a h' o => o = [] ∧ Listed cx h' (bodyStmts s) (a.2 ++ [a.1]) := by
  refine .conseq (.fresh hh (hgo .stmt s h trivial)) ?_
  rintro ⟨s', before⟩ h1 o1 _ ⟨rfl, ⟨hp, hd⟩, hb⟩
  refine ⟨rfl, ?_⟩
  rcases bodyStmts_of_ne hs with hx | hx
  · rw [hx]; exact .nil _ _
  · rw [hx]; exact .single hp.covered hp.strip hd hb

theorem wrapArm (hgo : Go cx fi go) {ig : Option IgnoreScope} (hh : ig ≠ some .next) (b : Nat) (sp : Span) (s : Node)
    (h : List RegOp) (hb : ∃ x, (branches h)[b]? = some x) :
    Gets fi (wrapArm cx go ig b (cx.range sp) s) h fun n h' o => o = [] ∧ ∃ i bsp out,
      n = mk .block bsp (counterStmt (.b b i) :: out) ∧ HasArm cx h' b i sp ∧ Listed cx h' (bodyStmts s) out := by
  unfold Visitor.wrapArm
  refine .bind (.addPath _ hb) ?_
  rintro i h1 o1 hp1 ⟨ha, rfl⟩
  split
  · next bsp ss =>
    refine .bind (insertStmts hgo ss h1) ?_
    rintro out h2 o2 hp2 ⟨rfl, hl⟩
    exact .pure ⟨rfl, i, bsp, out, rfl, arms_prefix hp2 ha, hl⟩
  · next hs =>
    refine .bind (armBody hgo hh s hs h1) ?_
    rintro ⟨s', before⟩ h2 o2 hp2 ⟨rfl, hl⟩
    exact .pure ⟨rfl, i, _, _, rfl, arms_prefix hp2 ha, hl⟩

/-- What becomes of an arm that may be excluded. -/
def ArmPost (cx : Ctx) (skip : Prop) (h : List RegOp) (b : Nat) (sp : Span) (s n : Node) : Prop :=
  ¬ skip → ∃ i bsp out, n = mk .block bsp (counterStmt (.b b i) :: out) ∧ HasArm cx h b i sp ∧ Listed cx h (bodyStmts s) out

theorem ArmPost.mono {skip : Prop} {h h' : List RegOp} (hp : h <+: h') {b : Nat} {sp : Span} {s n : Node}
    (ha : ArmPost cx skip h b sp s n) : ArmPost cx skip h' b sp s n := by
  intro hs
  obtain ⟨i, bsp, out, h1, h2, h3⟩ := ha hs
  exact ⟨i, bsp, out, h1, h2.mono hp, h3.mono hp⟩

theorem wrapIf (hgo : Go cx fi go) {ig : Option IgnoreScope} (hh : ig ≠ some .next) (skip : Prop) [Decidable skip] (b : Nat)
    (sp : Span) (s s1 : Node) (hs : bodyStmts s1 = bodyStmts s) (h : List RegOp)
    (hb : ∃ x, (branches h)[b]? = some x) :
    Gets fi (Visitor.keepIf skip s (Visitor.wrapArm cx go ig b (cx.range sp) s1)) h
      fun n h' o => o = [] ∧ ArmPost cx skip h' b sp s n := by
  refine .keepIf (fun hk => ⟨rfl, fun hn => absurd hk hn⟩) fun _ => .conseq (wrapArm hgo hh b sp s1 h hb) ?_
  rintro n h' o _ ⟨rfl, hx⟩
  rw [hs] at hx
  exact ⟨rfl, fun _ => hx⟩

theorem visitIf (hgo : Go cx fi go) {m : Mode} (hm : normal m = true) (sp : Span) (test cons alt : Node)
    (hh : cx.hint sp ≠ some .next) (h : List RegOp) (hok : m.ok cx h) :
    Gets fi (visitIf cx go m (cx.hint sp) sp test cons alt) h
      fun n' h' o => Core cx m h' (mk .ifStmt sp [test, cons, alt]) n' o := by
  unfold Visitor.visitIf
  refine .bind (.mark sp) ?_
  intro _ h1 o1 hp1 hdue
  refine .bind (.newBranch _ _ _) ?_
  rintro b h2 o2 hp2 ⟨hb, rfl⟩
  refine .bind (wrapIf hgo hh (cx.hint sp = some .if) b sp cons cons rfl h2 ⟨_, hb⟩) ?_
  rintro cons' h3 o3 hp3 ⟨rfl, hc⟩
  refine .bind (wrapIf hgo hh (cx.hint sp = some .else) b sp alt _ ?_ h3 ⟨_, getElem?_prefix hp3 hb⟩) ?_
  · obtain ⟨k, asp, cs⟩ := alt
    split
    · next hn =>
      unfold isNone at hn
      split at hn
      · next e => rw [e]; rfl
      · cases hn
    · rfl
  rintro alt' h4 o4 hp4 ⟨rfl, ha⟩
  refine .bind (hgo m test h4 (hok.mono (hp1.trans (hp2.trans (hp3.trans hp4))))) ?_
  intro test' h5 o5 hp5 pt
  obtain ⟨pt, _⟩ := Post.normal hm pt
  have hc := hc.mono (hp4.trans hp5)
  have ha := ha.mono hp5
  refine .pure ⟨.mk' ?_ rfl rfl ?_, ?_, ?_, ?_⟩
  · intro _
    simp only [lists]
    by_cases h6 : cx.hint sp = some .if
    · rw [if_pos h6, if_pos h6, List.nil_append, List.nil_append]
      by_cases h7 : cx.hint sp = some .else
      · rw [if_pos h7, if_pos h7]; exact .nil
      · rw [if_neg h7, if_neg h7]
        obtain ⟨i, bsp, out, rfl, _, hl⟩ := ha h7
        exact .cons (hl.prepend [_]).leads .nil
    · rw [if_neg h6, if_neg h6]
      obtain ⟨i, bsp, out, rfl, _, hl⟩ := hc h6
      refine .cons (hl.prepend [_]).leads ?_
      by_cases h7 : cx.hint sp = some .else
      · rw [if_pos h7, if_pos h7]; exact .nil
      · rw [if_neg h7, if_neg h7]
        obtain ⟨i, bsp, out, rfl, _, hl⟩ := ha h7
        exact .cons (hl.prepend [_]).leads .nil
  · intro _
    refine ⟨b, test', cons', alt', rfl, (hasBranch (by decide) hb).mono (hp3.trans (hp4.trans hp5)), fun h6 => ?_, fun h6 => ?_⟩
    · obtain ⟨i, bsp, out, rfl, h7, _⟩ := hc h6
      exact ⟨i, bsp, out, rfl, h7⟩
    · obtain ⟨i, bsp, out, rfl, h7, _⟩ := ha h6
      exact ⟨i, bsp, out, rfl, h7⟩
  · intro c hcc
    have key : ∀ (skip : Prop) (s s' : Node), ArmPost cx skip h5 b sp s s' → ¬ skip → s' ∈ [test', cons', alt'] →
        c ∈ ownStmts cx (bodyStmts s) →
        ∃ c', (∀ x ∈ each c', x ∈ each (mk .ifStmt sp [test', cons', alt'])) ∧ Covered cx h5 c c' := by
      intro skip s s' hp hs hm hc
      obtain ⟨i, bsp, out, rfl, _, hl⟩ := hp hs
      obtain ⟨c', h6, h7⟩ := hl.covered c hc
      exact ⟨c', fun x hx => mem_each_child hm _ (mem_each_child (List.mem_cons_of_mem _ h6) x hx), h7⟩
    rcases opened_sub hcc with hcc | ⟨l, hl, hcc⟩
    · cases List.mem_singleton.1 hcc
      exact ⟨test', mem_each_child (by simp), pt.covered⟩
    · simp only [lists] at hl
      rcases List.mem_append.1 hl with hl | hl
      · split at hl
        · cases hl
        · next h6 =>
          cases List.mem_singleton.1 hl
          exact key _ _ _ hc h6 (by simp) hcc
      · split at hl
        · cases hl
        · next h6 =>
          cases List.mem_singleton.1 hl
          exact key _ _ _ ha h6 (by simp) hcc
  · intro b csp test ss _ x; cases x
  · intro x hx
    unfold dues at hx
    split at hx
    · cases hx
    · cases List.mem_singleton.1 hx
      exact hdue.mono (hp2.trans (hp3.trans (hp4.trans hp5))) (by simp; grind)

theorem visitWithBody (hgo : Go cx fi go) {ig : Option IgnoreScope} (hh : ig ≠ some .next) (s : Node) (h : List RegOp) :
    Gets fi (visitWithBody cx go ig s) h fun n h' o => o = [] ∧ ∃ bsp out, n = mk .block bsp out ∧
      Listed cx h' (bodyStmts s) out := by
  unfold Visitor.visitWithBody
  split
  · next bsp ss =>
    refine .bind (insertStmts hgo ss h) ?_
    rintro out h2 o2 hp2 ⟨rfl, hl⟩
    exact .pure ⟨rfl, bsp, out, rfl, hl⟩
  · next hs =>
    refine .bind (armBody hgo hh s hs h) ?_
    rintro ⟨s', before⟩ h2 o2 hp2 ⟨rfl, hl⟩
    exact .pure ⟨rfl, _, _, rfl, hl⟩

theorem withStmt (hgo : Go cx fi go) {m : Mode} (sp : Span) (obj body : Node) (hh : cx.hint sp ≠ some .next) (h : List RegOp) :
    Gets fi (do
        mark cx sp
        let body ← Visitor.visitWithBody cx go (cx.hint sp) body
        pure (mk .withStmt sp [obj, body])) h
      fun n' h' o => Core cx m h' (mk .withStmt sp [obj, body]) n' o := by
  refine .bind (.mark sp) ?_
  intro _ h1 o1 hp1 hdue
  refine .bind (visitWithBody hgo hh body h1) ?_
  rintro _ h2 o2 hp2 ⟨rfl, bsp, out, rfl, hl⟩
  refine .pure ⟨.mk' ?_ rfl rfl (fun _ => trivial), ?_, ?_, ?_⟩
  · exact fun _ => .cons hl.leads .nil
  · intro c hc
    rcases opened_sub hc with hc | ⟨l, hl', hc⟩
    · cases hc
    · cases List.mem_singleton.1 hl'
      obtain ⟨c', h3, h4⟩ := hl.covered c hc
      exact ⟨c', fun x hx => mem_each_child (c := mk .block bsp out) (by simp) _ (mem_each_child h3 x hx), h4⟩
  · intro b csp test ss _ x; cases x
  · intro x hx
    unfold dues at hx
    split at hx
    · cases hx
    · cases List.mem_singleton.1 hx
      exact hdue.mono hp2 (by simp)

/-! ### Conditional expressions -/

/-- What becomes of an arm of a conditional expression before it is visited. -/
def CondArm (cx : Ctx) (h : List RegOp) (b : Nat) (e e1 : Node) : Prop :=
  (cx.hinted e = true ∧ e1 = e) ∨ ∃ i, e1 = wrapCounter (.b b i) e ∧ HasArm cx h b i e.span

theorem CondArm.mono {h h' : List RegOp} (hp : h <+: h') {b : Nat} {e e1 : Node} (ha : CondArm cx h b e e1) :
    CondArm cx h' b e e1 := by
  rcases ha with ha | ⟨i, h1, h2⟩
  · exact .inl ha
  · exact .inr ⟨i, h1, h2.mono hp⟩

theorem wrapCondArm (b : Nat) (e : Node) (h : List RegOp) (hb : ∃ x, (branches h)[b]? = some x) :
    Gets fi (Visitor.keepIf (cx.hint e.span = some .next) e (replaceWithBranchCounter cx b e)) h
      fun e1 h' o => o = [] ∧ CondArm cx h' b e e1 := by
  refine .keepIf (fun hk => ⟨rfl, .inl ⟨by simp [Ctx.hinted, hk], rfl⟩⟩) fun _ => .conseq (.replaceWithBranchCounter e hb) ?_
  rintro e1 h' o _ ⟨rfl, i, rfl, ha⟩
  exact ⟨rfl, .inr ⟨i, rfl, ha⟩⟩

theorem CondArm.covered {h : List RegOp} {b : Nat} {e e1 e' : Node} (ha : CondArm cx h b e e1) (hc : Covered cx h e1 e') :
    Covered cx h e e' := by
  rcases ha with ⟨_, rfl⟩ | ⟨i, rfl, _⟩
  · exact hc
  · exact covered_wrap hc

theorem CondArm.wraps {m : Mode} {h : List RegOp} {b : Nat} {e e1 e' : Node} (ha : CondArm cx h b e e1) (hc : Part cx m h e1 e')
    (hh : cx.hinted e = false) : WrapsArm cx h b e e' := by
  rcases ha with ⟨hx, _⟩ | ⟨i, rfl, ha⟩
  · rw [hh] at hx; cases hx
  · obtain ⟨x, rfl⟩ := hc.kept.wrap _ _ rfl
    exact ⟨i, x, rfl, strip_wrap_inj hc.strip, ha⟩

theorem visitCond (hgo : Go cx fi go) {m : Mode} (hm : normal m = true) (sp : Span) (test cons alt : Node)
    (hh : cx.hint sp ≠ some .next) (h : List RegOp) (hok : m.ok cx h) :
    Gets fi (visitCond cx go m (cx.hint sp) sp test cons alt) h
      fun n' h' o => Core cx m h' (mk .cond sp [test, cons, alt]) n' o := by
  unfold Visitor.visitCond Visitor.keepIf
  rw [if_neg hh]
  refine .bind (P := fun a h' o => o = [] ∧ ∃ b, HasBranch cx h' b .condExpr sp ∧ CondArm cx h' b cons a.1 ∧ CondArm cx h' b alt a.2) ?_ ?_
  · unfold wrapCondArms
    refine .bind (.newBranch _ _ _) ?_
    rintro b h2 o2 hp2 ⟨hb, rfl⟩
    refine .bind (wrapCondArm b cons h2 ⟨_, hb⟩) ?_
    rintro cons1 h3 o3 hp3 ⟨rfl, hc⟩
    refine .bind (wrapCondArm b alt h3 ⟨_, getElem?_prefix hp3 hb⟩) ?_
    rintro alt1 h4 o4 hp4 ⟨rfl, ha⟩
    exact .pure ⟨rfl, b, (hasBranch (by decide) hb).mono (hp3.trans hp4), hc.mono hp4, ha⟩
  · rintro ⟨cons1, alt1⟩ h1 o1 hp1 ⟨rfl, b, hb, hc, ha⟩
    refine .conseq (visitChildren hgo hm .cond sp [test, cons1, alt1] rfl h1 (hok.mono hp1)) ?_
    rintro _ h2 o2 hp2 ⟨cs', rfl, hp⟩
    obtain ⟨test', _, pt, hr, rfl⟩ := List.forall₂_cons_left_iff.1 hp.parts
    obtain ⟨cons', _, pc, hr', rfl⟩ := List.forall₂_cons_left_iff.1 hr
    obtain ⟨alt', _, pa, hr'', rfl⟩ := List.forall₂_cons_left_iff.1 hr'
    cases List.forall₂_nil_left_iff.1 hr''
    have hc := hc.mono hp2
    have ha := ha.mono hp2
    refine ⟨.mk' (noLists rfl rfl) rfl rfl ?_, ?_, ?_, ?_⟩
    · intro _
      exact ⟨b, test', cons', alt', rfl, hb.mono hp2, hc.wraps pc, ha.wraps pa⟩
    · intro c hcc
      have : c = test ∨ c = cons ∨ c = alt := by
        rcases opened_sub hcc with hcc | ⟨l, hl, _⟩
        · simpa [heads] using hcc
        · cases hl
      rcases this with rfl | rfl | rfl
      · exact ⟨test', mem_each_child (by simp), pt.covered⟩
      · exact ⟨cons', mem_each_child (by simp), hc.covered pc.covered⟩
      · exact ⟨alt', mem_each_child (by simp), ha.covered pa.covered⟩
    · intro b csp test ss _ x; cases x
    · intro x hx
      unfold dues at hx
      split at hx <;> cases hx

/-! ### Logical expressions -/

theorem operands_single (e : Node) : operands cx [e] =
    if cx.hinted e then [] else if e.any Kind.isLogical then leaves cx e else [e] := by
  rw [operands, operands, List.append_nil]

theorem operands_pair (l r : Node) : operands cx [l, r] = operands cx [l] ++ operands cx [r] := by
  rw [operands_single l, operands]

theorem Post.strip {m : Mode} {n n' : Node} {h : List RegOp} {o : List Node} (hp : Post cx m n n' h o) :
    strip n' = strip n := by
  cases m <;> first | exact hp.1 | exact hp.1.strip

theorem wrapBin (hgo : Go cx fi go) (m : Mode) (b : Nat) (e : Node) (h : List RegOp) (hok : m.ok cx h)
    (hb : LogicalBranch cx h b) :
    Gets fi (wrapBin cx go m b e) h fun e' h' _ => Operands cx h' b (operands cx [e]) e' ∧ WrapsOperand cx h' b e e' ∧
      SparesOperand cx e e' ∧
      (normal m = true → leaf cx e = true → Covered cx h' e e') := by
  have hb' : ∀ {h'}, h <+: h' → ∃ x, (branches h')[b]? = some x := by
    intro h' hp
    obtain ⟨t, l, g, hx, _⟩ := hb
    exact ⟨_, getElem?_prefix hp hx⟩
  unfold Visitor.wrapBin
  simp only
  refine .ite (fun hh => ?_) fun hh => ?_
  · have hx : cx.hinted e = true := by simp [Ctx.hinted, hh]
    refine .pure ⟨?_, fun hx' => absurd hx (by simp [hx']), ⟨fun _ => rfl, fun _ h => h⟩, fun _ hl => ?_⟩
    · rw [operands_single, if_pos hx]
      intro _ hy; cases hy
    · simp [leaf, hx] at hl
  have hx : cx.hinted e = false := by simp [Ctx.hinted, hh]
  refine .ite (fun hl => ?_) fun hl => ?_
  · refine .bind (.fresh hh (hgo (.logicalInner b) e h hb)) ?_
    rintro ⟨e', before⟩ h1 o1 hp1 ⟨rfl, ⟨_, ho, hd⟩, _⟩
    refine .pure ⟨?_, fun _ hl' => absurd hl (by simp [hl']), ⟨fun hx' => absurd hx (by simp [hx']), fun _ => hd⟩, fun _ hl' => ?_⟩
    · rw [operands_single, hx, if_neg (by simp), if_pos hl]
      exact ho
    · simp [leaf, hl] at hl'
  have hop : operands cx [e] = [e] := by
    rw [operands_single, hx, if_neg (by simp), if_neg hl]
  refine .ite (fun hr => ?_) fun hr => ?_
  · refine .bind (.addPath _ (hb' (List.prefix_refl _))) ?_
    rintro i h1 o1 hp1 ⟨ha, rfl⟩
    refine .pure ⟨?_, fun _ _ => ⟨i, e, by rw [if_pos hr], rfl, ha⟩,
      ⟨fun hx' => absurd hx (by simp [hx']), fun hl' => absurd hl' hl⟩, fun _ hl' => ?_⟩
    · rw [hop]
      intro x hx
      cases List.mem_singleton.1 hx
      exact ⟨_, each_self _, i, e, by rw [if_pos hr], rfl, ha⟩
    · simp [leaf, hr] at hl'
  · refine .bind (hgo m e h hok) ?_
    intro e1 h1 o1 hp1 hpost
    have hs := Post.strip hpost
    have hspan : e1.span = e.span := by rw [← strip_span e1, hs, strip_span]
    refine .conseq (.replaceWithBranchCounter e1 (hb' hp1)) ?_
    rintro _ h2 o2 hp2 ⟨rfl, i, rfl, ha⟩
    rw [hspan] at ha
    refine ⟨?_, fun _ _ => ⟨i, e1, by rw [if_neg hr], hs, ha⟩,
      ⟨fun hx' => absurd hx (by simp [hx']), fun hl' => absurd hl' hl⟩, fun hn _ => ?_⟩
    · rw [hop]
      intro x hx
      cases List.mem_singleton.1 hx
      exact ⟨_, each_self _, i, e1, by rw [if_neg hr], hs, ha⟩
    · intro x hx
      obtain ⟨x', h3, h4, h5⟩ := (Post.normal hn hpost).1.covered x hx
      refine ⟨x', ?_, h4, h5.mono hp2⟩
      exact mem_each_child (c := mk .seq Span.dummy [counterExpr (.b b i), e1]) (by simp) _ (mem_each_child (by simp) _ h3)

theorem assignPat (hgo : Go cx fi go) {m : Mode} (hm : normal m = true) (sp : Span) (left right : Node)
    (h : List RegOp) (hok : m.ok cx h) :
    Gets fi (do
        let branch ← newBranch .defaultArg (cx.range sp) false
        let right ← Visitor.wrapBin cx go m branch right
        pure (mk .assignPat sp [left, right])) h
      fun n' h' o => Core cx m h' (mk .assignPat sp [left, right]) n' o := by
  refine .bind (.newBranch _ _ _) ?_
  rintro b h1 o1 hp1 ⟨hb, rfl⟩
  refine .bind (wrapBin hgo m b right h1 (hok.mono hp1) ⟨_, _, _, hb, .inr rfl⟩) ?_
  rintro right' h2 o2 hp2 ⟨ho, hw, hd, hc⟩
  refine .pure ⟨.mk' (noLists rfl rfl) rfl rfl ?_, ?_, ?_, ?_⟩
  · intro _
    exact ⟨b, right', rfl, (hasBranch (by decide) hb).mono hp2, hw, hd, ho⟩
  · intro c hcc
    rcases opened_sub hcc with hcc | ⟨l, hl, _⟩
    · obtain ⟨h3, h4⟩ := List.mem_filter.1 hcc
      cases List.mem_singleton.1 h3
      exact ⟨right', mem_each_child (by simp), hc hm h4⟩
    · cases hl
  · intro b csp test ss _ x; cases x
  · intro x hx
    unfold dues at hx
    split at hx <;> cases hx

theorem logicalBin (hgo : Go cx fi go) (m : Mode) (b : Nat) (op : BinOp) (sp : Span)
    (left right : Node) (h : List RegOp) (hok : m.ok cx h) (hb : LogicalBranch cx h b) :
    Gets fi (do
        let left ← Visitor.wrapBin cx go m b left
        let right ← Visitor.wrapBin cx go m b right
        pure (mk (.bin op) sp [left, right])) h
      fun n' h' _ => ∃ left' right', n' = mk (.bin op) sp [left', right'] ∧
        Operands cx h' b (operands cx [left]) left' ∧ Operands cx h' b (operands cx [right]) right' ∧
        WrapsOperand cx h' b left left' ∧ WrapsOperand cx h' b right right' ∧
        (normal m = true → leaf cx left = true → Covered cx h' left left') ∧
        (normal m = true → leaf cx right = true → Covered cx h' right right') := by
  refine .bind (wrapBin hgo m b left h hok hb) ?_
  rintro left' h1 o1 hp1 ⟨ho, hw, _, hc⟩
  refine .bind (wrapBin hgo m b right h1 (hok.mono hp1) (hb.mono hp1)) ?_
  rintro right' h2 o2 hp2 ⟨ho', hw', _, hc'⟩
  exact .pure ⟨left', right', rfl, ho.mono hp2, ho', hw.mono hp2, hw', fun x y => (hc x y).mono hp2, hc'⟩

/-- What `logicalBin` says, for both operands at once. -/
theorem operands_both {h : List RegOp} {b : Nat} {op : BinOp} {sp : Span} {left right left' right' : Node}
    (ho : Operands cx h b (operands cx [left]) left') (ho' : Operands cx h b (operands cx [right]) right') :
    Operands cx h b (operands cx [left, right]) (mk (.bin op) sp [left', right']) := by
  rw [operands_pair]
  exact (ho.sub (mem_each_child (by simp))).append (ho'.sub (mem_each_child (by simp)))

theorem visitBin (hgo : Go cx fi go) {m : Mode} (hm : normal m = true) (op : BinOp) (sp : Span) (left right : Node)
    (hh : cx.hint sp ≠ some .next) (h : List RegOp) (hok : m.ok cx h) :
    Gets fi (Visitor.visitBin cx go m none (Visitor.visitChildren cx go m) op sp left right) h
      fun n' h' o => Core cx m h' (mk (.bin op) sp [left, right]) n' o := by
  unfold Visitor.visitBin
  refine .bind (.enterSpan hh) ?_
  rintro ⟨old, cur⟩ h1 o1 hp1 ⟨hold, rfl, rfl, rfl⟩
  simp only
  refine .ite (fun hx => absurd hx hh) fun _ => .ite (fun hl => ?_) fun hl => ?_
  · refine .bind (.push _) ?_
    rintro _ _ _ _ ⟨rfl, rfl⟩
    refine .bind (.newBranch _ _ _) ?_
    rintro b h2 o2 hp2 ⟨hb, rfl⟩
    refine .conseq (logicalBin hgo m b op sp left right h2 (hok.mono hp2) ⟨_, _, _, hb, .inl ⟨rfl, rfl⟩⟩) ?_
    rintro _ h3 o3 hp3 ⟨left', right', rfl, ho, ho', hw, hw', hc, hc'⟩
    refine ⟨.mk' (noLists rfl rfl) rfl rfl ?_, ?_, ?_, ?_⟩
    · intro _ _
      refine ⟨b, left', right', rfl, ?_, hw, hw', ho, ho'⟩
      have := getElem?_prefix hp3 hb
      simpa [HasBranch] using this
    · intro c hcc
      rcases opened_sub hcc with hcc | ⟨l, hl', _⟩
      · simp only [heads, hl, if_true] at hcc
        obtain ⟨h4, h5⟩ := List.mem_filter.1 hcc
        rcases List.mem_cons.1 h4 with rfl | h4
        · exact ⟨left', mem_each_child (by simp), hc hm h5⟩
        · cases List.mem_singleton.1 h4
          exact ⟨right', mem_each_child (by simp), hc' hm h5⟩
      · cases hl'
    · intro b csp test ss _ x; cases x
    · intro x hx
      unfold dues at hx
      split at hx <;> cases hx
  · refine .bind (.push _) ?_
    rintro _ _ _ _ ⟨rfl, rfl⟩
    refine .bind (visitChildren hgo hm (.bin op) sp [left, right] rfl _ (hok.mono hp1)) ?_
    rintro _ h2 o2 hp2 ⟨cs', rfl, hp⟩
    refine .bind (.exit hold) ?_
    rintro _ _ _ _ ⟨rfl, rfl⟩
    refine .pure ⟨.mk' (noLists rfl rfl) rfl rfl ?_, ?_, ?_, ?_⟩
    · intro _ hl'
      exact absurd (by rcases hl' with rfl | rfl | rfl <;> rfl) hl
    · intro c hcc
      rcases opened_sub hcc with hcc | ⟨l, hl', _⟩
      · simp only [heads, hl] at hcc
        exact Part.under hp.parts hcc
      · cases hl'
    · intro b csp test ss _ x; cases x
    · intro x hx
      unfold dues at hx
      split at hx <;> cases hx

end Cover

/-- The operands of a logical expression, without their places. -/
theorem BranchesCounted.operands {cx : Ctx} {T : Tables} {op : BinOp} {sp : Span} {left right m' : Node}
    (hi : cx.ignores (mk (.bin op) sp [left, right]) = false)
    (hop : op = .and ∨ op = .or ∨ op = .nullish) (hl : BranchesCounted cx T (mk (.bin op) sp [left, right]) m') :
    ∃ b, HasBranch cx T b .binaryExpr sp ∧ ∀ e ∈ operands cx [left, right], ∃ n ∈ each m', OperandArm cx T b e n := by
  obtain ⟨b, l, r, rfl, h1, -, -, h2, h3⟩ := hl hi hop
  refine ⟨b, h1, fun e he => ?_⟩
  have he : e ∈ Verif.operands cx [left] ∨ e ∈ Verif.operands cx [right] := by
    rw [Verif.operands, List.mem_append] at he
    rcases he with he | he
    · left
      rw [Verif.operands, Verif.operands, List.append_nil]
      exact he
    · exact .inr he
  rcases he with he | he
  · obtain ⟨n, h4, h5⟩ := h2 e he
    exact ⟨n, mem_each_child (by simp) _ h4, h5⟩
  · obtain ⟨n, h4, h5⟩ := h3 e he
    exact ⟨n, mem_each_child (by simp) _ h4, h5⟩

end Verif
