import Verif.Lemmas.CoversBranch
import Verif.Lemmas.LogicalNames
/-
Continuation of `Lemmas/CoversBranch.lean`: all nodes.
-/
namespace Verif
open Node RegOp

namespace Cover
open Visitor
variable {cx : Ctx} {fi : File} {go : Mode → Node → M Node}

theorem _root_.Verif.Gets.frozen {x : M α} {a : α} {h : List RegOp} {P : α → List RegOp → List Node → Prop}
    (hx : ∀ st b st', x st = .ok (b, st') → b = a ∧ st' = st) (hP : P a h []) : Gets fi x h P := by
  intro st b st' hg hi hs
  obtain ⟨rfl, rfl⟩ := hx st b st' hs
  exact ⟨h, [], List.prefix_refl _, hg, hi, by simp, by simp, hP⟩

theorem duesList_self (k : Kind) (sp : Span) (cs : List Node) (hk : dues cx (mk k sp cs) = []) :
    ∀ x ∈ dues cx (mk k sp cs), x ∈ duesList cx cs := by
  rw [hk]; intro x hx; cases hx

theorem isDirective {e : Node} (h : isDirectiveLit e = true) :
    ∃ v sp cs, e = mk (.strLit v) sp cs ∧ v ∈ ["use strict", "use asm", "use strong"] := by
  unfold isDirectiveLit at h
  split at h
  · next v sp cs => exact ⟨v, sp, cs, rfl, List.contains_iff_mem.1 h⟩
  · cases h

theorem isInjected {e : Node} (h : isInjectedExpr e = true) : ∃ c sp cs, e = mk (.counter c) sp cs := by
  unfold isInjectedExpr at h
  split at h
  · exact ⟨_, _, _, rfl⟩
  · exact ⟨_, _, _, rfl⟩
  · cases h

theorem exprStmt (hgo : Go cx fi go) {m : Mode} (hm : normal m = true) (sp : Span) (e : Node)
    (hh : cx.hint sp ≠ some .next) (h : List RegOp) (hok : m.ok cx h) :
    Gets fi (if isDirectiveLit e then pure (mk .exprStmt sp [e])
      else do
        Visitor.keepIf (cx.hint sp = some .next ∨ isInjectedExpr e) () (mark cx sp)
        Visitor.visitChildren cx go m (mk .exprStmt sp [e])) h
      fun n' h' o => Core cx m h' (mk .exprStmt sp [e]) n' o := by
  refine .ite (fun hd => ?_) fun hd => ?_
  · obtain ⟨v, sp', cs, rfl, hv⟩ := isDirective hd
    refine .pure ⟨.plain rfl rfl h, ?_, ?_, ?_⟩
    · intro c hc
      rcases opened_sub hc with hc | ⟨l, hl, _⟩
      · cases hc
      · cases hl
    · intro b csp test ss _ x; cases x
    · intro x hx
      unfold dues at hx
      rw [if_neg hh] at hx
      simp only at hx
      rw [if_pos hv] at hx
      cases hx
  · refine .bind (keepMark _ _ _) ?_
    intro _ h1 o1 hp1 hmark
    refine .conseq (visitChildren hgo hm .exprStmt sp [e] rfl h1 (hok.mono hp1)) ?_
    rintro _ h2 o2 hp2 ⟨cs', rfl, hp⟩
    refine core_plain rfl hp.parts fun x hx => ?_
    rcases hmark with (hx' | hi) | hdue
    · exact absurd hx' hh
    · obtain ⟨c, sp', cs, rfl⟩ := isInjected hi
      unfold dues at hx
      rw [if_neg hh] at hx
      cases hx
    · have : x = sp := by
        unfold dues at hx
        rw [if_neg hh] at hx
        split at hx <;> first | (cases hx; done) | skip
        all_goals first
          | exact List.mem_singleton.1 hx
          | (split at hx <;> first | (cases hx; done) | exact List.mem_singleton.1 hx)
          | contradiction
      subst this
      exact hdue.mono hp2 (by simp; grind)

theorem unmark {sp : Span} {h : List RegOp} {x : M Node} (hh : cx.hint sp ≠ some .next)
    {P : Node → List RegOp → List Node → Prop} (hx : Gets fi (do mark cx sp; x) h P) :
    Gets fi (do Visitor.keepIf (cx.hint sp = some .next) () (mark cx sp); x) h P := by
  unfold Visitor.keepIf
  rw [if_neg hh]
  exact hx

theorem fnHead_fn {ident fn : Node} {sp : Span} {k : Kind} (hk : k = .fnDecl ∨ k = .fnExpr) {a : String} {fsp : Span}
    {p d b : Node} {name : Option String} {decl : Span} (hf : fn = mk (.function a) fsp [p, d, b])
    (h : fnHead cx (mk k sp [ident, fn]) = some (name, decl)) :
    name = (ident.identName?.map fun x => (ident.span, x)).map (·.2) ∧
      decl = ((ident.identName?.map fun x => (ident.span, x)).map (·.1)).getD fsp := by
  subst hf
  rcases hk with rfl | rfl
  · simp only [fnHead, Option.some.injEq, Prod.mk.injEq] at h
    obtain ⟨rfl, rfl⟩ := h
    cases ident.identName? <;> simp
  · simp only [fnHead] at h
    split at h
    · cases h
    · simp only [Option.some.injEq, Prod.mk.injEq] at h
      obtain ⟨rfl, rfl⟩ := h
      cases ident.identName? <;> simp

/-- A function-like construct that the options exclude. -/
theorem excluded {m : Mode} {n : Node} {h : List RegOp} (hl : lists cx n = []) (hi : initOf n = none)
    (hf : fnHead cx n = none) (hb : BranchesCounted cx h n n) (hh : heads cx n = []) (hc : ∀ sp cs, n ≠ mk .switchCase sp cs)
    (hd : dues cx n = []) : Core cx m h n n [] := by
  refine ⟨⟨noLists hl hl, fun _ i hx => by rw [hi] at hx; (cases hx), fun _ nm d b hx => by rw [hf] at hx; (cases hx), hb⟩, ?_, ?_, ?_⟩
  · intro c hc
    rcases opened_sub hc with hc | ⟨l, hl', _⟩
    · rw [hh] at hc; cases hc
    · rw [hl] at hl'; cases hl'
  · intro b csp test ss _ x
    exact absurd x (hc _ _)
  · rw [hd]; intro x hx; cases hx

theorem dues_other {k : Kind} {sp : Span} {cs : List Node} (hk : hasFn k = true ∨ k = .getterProp ∨ k = .setterProp) :
    dues cx (mk k sp cs) = [] := by
  unfold dues
  split
  · rfl
  · rcases hk with hk | rfl | rfl
    · cases k <;> first | rfl | cases hk
    · rfl
    · rfl

theorem statement (hgo : Go cx fi go) {m : Mode} (hm : normal m = true) {k : Kind} {sp : Span} {cs : List Node}
    (hs : special k cs.length = false) (hd : dues cx (mk k sp cs) = [] ∨ dues cx (mk k sp cs) = [sp]) (h : List RegOp)
    (hok : m.ok cx h) :
    Gets fi (do mark cx sp; Visitor.visitChildren cx go m (mk k sp cs)) h
      fun n' h' o => Core cx m h' (mk k sp cs) n' o := by
  refine marked hgo hm hs (fun x hx => .inl ?_) h hok
  rcases hd with hd | hd
  · rw [hd] at hx; cases hx
  · rw [hd] at hx; exact List.mem_singleton.1 hx

theorem initFrame (hgo : Go cx fi go) {m : Mode} (hm : normal m = true) {k : Kind} {t : Tag} {sp : Span}
    {a e : Node} {post : List Node} (hk : isInit k post.length = true) (ht : t = .varDeclarator → k = .varDeclarator)
    (hh : cx.hint sp ≠ some .next) (h : List RegOp) (hok : m.ok cx h) :
    Gets fi (Visitor.guarded cx t (mk k sp (a :: e :: post)) do
        let e ← Visitor.keepIf (e.isNone = true) e (coverStatement cx go m e)
        Visitor.visitChildren cx go m (mk k sp (a :: e :: post))) h
      fun n' h' o => Core cx m h' (mk k sp (a :: e :: post)) n' o := by
  unfold Visitor.guarded
  refine .frame_top hh (body' := fun _ => do
        let e ← Visitor.keepIf (e.isNone = true) e (coverAs cx go t m e)
        Visitor.visitChildren cx go m (mk k sp (a :: e :: post))) (fun st hst => ?_) (initialiser hgo hm hk ht h hok)
  have hx : ¬ cx.hint (mk k sp (a :: e :: post)).span = some .next := hh
  refine (congrFun (if_neg hx) st).trans ?_
  simp only [Bind.bind, M.bind]
  unfold Visitor.keepIf
  by_cases hn : e.isNone = true
  · rw [if_pos hn, if_pos hn]
  · rw [if_neg hn, if_neg hn, coverStatement_as t m e st hst]

theorem visitAccessor (hgo : Go cx fi go) {m : Mode} (hm : normal m = true) {k : Kind} {sp : Span} {key : Node}
    {pre : List Node} (hk : isAccessor k pre.length = true) (hkey : pre.head? = some key) (body : Node)
    {rebuild : Node → Node} (hr : ∀ b, rebuild b = mk k sp (pre ++ [b])) (h : List RegOp) (hok : m.ok cx h) :
    Gets fi (Visitor.visitAccessor cx go m (mk k sp (pre ++ [body])) key body rebuild) h
      fun n' h' o => Core cx m h' (mk k sp (pre ++ [body])) n' o := by
  cases (funext hr : rebuild = fun b => mk k sp (pre ++ [b]))
  have hhead : fnHead cx (mk k sp (pre ++ [body])) =
      if cx.excludes key.propName? then none
      else if key.propName?.isSome then some (key.propName?, key.span) else some (some "anonymous", sp) := by
    rcases accessor_cases hk with ⟨rfl, a, rfl⟩ | ⟨rfl, a, b, c, rfl⟩ <;> cases hkey <;> rfl
  unfold Visitor.visitAccessor
  split
  · next name hname =>
    refine .ite (fun he => ?_) fun he => ?_
    · have he' : cx.excludes key.propName? = true := by rw [hname]; exact he
      refine .pure (excluded ?_ ?_ ?_ ?_ ?_ ?_ (dues_other ?_))
      · rcases accessor_cases hk with ⟨rfl, a, rfl⟩ | ⟨rfl, a, b, c, rfl⟩ <;> rfl
      · rcases accessor_cases hk with ⟨rfl, a, rfl⟩ | ⟨rfl, a, b, c, rfl⟩ <;> rfl
      · rw [hhead, if_pos he']
      · intro _
        rcases accessor_cases hk with ⟨rfl, a, rfl⟩ | ⟨rfl, a, b, c, rfl⟩ <;> trivial
      · rcases accessor_cases hk with ⟨rfl, a, rfl⟩ | ⟨rfl, a, b, c, rfl⟩ <;> cases hkey <;> simp [heads, he']
      · intro sp cs e
        injection e with e _ _
        subst e; cases hk
      · rcases accessor_cases hk with ⟨rfl, _⟩ | ⟨rfl, _⟩ <;> simp
    · have he' : ¬ cx.excludes key.propName? = true := by rw [hname]; exact he
      refine accessor hgo hm hk body name key.span (fun nm d hx => ?_) h hok
      rw [hhead, if_neg he', hname] at hx
      simp at hx
      grind
  · next hname =>
    have he' : ¬ cx.excludes key.propName? = true := by rw [hname]; simp [Ctx.excludes]
    refine accessor hgo hm hk body "anonymous" sp (fun nm d hx => ?_) h hok
    rw [hhead, if_neg he', hname] at hx
    simp at hx
    grind

theorem visitNode (hgo : Go cx fi go) (m : Mode) (hm : normal m = true) (n : Node)
    (hn : n.hintable = true → cx.hint n.span ≠ some .next) (h : List RegOp) (hok : m.ok cx h) :
    Gets fi (visitNode cx go m n) h fun n' h' o => Core cx m h' n n' o := by
  have hin : ∀ (n : Node), cx.hint n.span = some .next → n.kind = .switchCase ∨ n.kind = .exportDecl ∨ n.kind = .exportDefault ∨
      n.kind = .debugger → ∀ {m : Mode} {h : List RegOp} {n' : Node} {o : List Node}, Core cx m h n n' o := by
    intro n hh hk m h n' o
    refine Core.ignored ?_
    simp only [Ctx.ignores, Ctx.hinted, hh, Bool.and_eq_true, Bool.or_eq_true, decide_eq_true_eq, and_true, decide_true]
    rcases hk with hk | hk | hk | hk <;> simp [hk]
  unfold Visitor.visitNode
  split
  all_goals try simp only [Node.span] at hn
  -- block
  · exact .guarded (hn rfl) (block hgo _ _ h)
  -- functions
  · exact .guarded (hn rfl) (withFn hgo hm rfl _ _ _ _ (fun _ _ _ _ _ _ _ hf hx => fnHead_fn (.inl rfl) hf hx) h hok)
  · exact .guarded (hn rfl) (arrow hgo _ _ _ _ h)
  · next sp ident fn =>
    refine .guarded (hn rfl) ?_
    simp only
    refine .ite (fun he => ?_) fun he => ?_
    · have he' : cx.excludes ident.identName? = true := he
      refine .pure (excluded rfl rfl ?_ (fun _ => trivial) ?_ (by rintro _ _ ⟨⟩) (dues_other (.inl rfl)))
      · unfold fnHead
        split <;> first | rfl | (next e => cases e; done) | (next e => cases e; rw [if_pos he'])
      · simp [heads, he']
    · exact withFn hgo hm rfl _ _ _ _ (fun _ _ _ _ _ _ _ hf hx => fnHead_fn (.inr rfl) hf hx) h hok
  -- expression statement, `break`
  · exact .frame (hn rfl) (exprStmt hgo hm _ _ (hn rfl) h hok)
  · exact .frame (hn rfl) (unmark (hn rfl) (statement hgo hm rfl (.inr (by unfold dues; rw [if_neg (hn rfl)])) h hok))
  -- conditional expression, tagged template
  · exact .frame (hn rfl) (visitCond hgo hm _ _ _ _ (hn rfl) h hok)
  · exact .guarded (hn rfl) (statement hgo hm rfl (.inl (by unfold dues; rw [if_neg (hn rfl)])) h hok)
  -- `return`, variables, class
  · exact .frame (hn rfl) (unmark (hn rfl) (statement hgo hm rfl (.inr (by unfold dues; rw [if_neg (hn rfl)])) h hok))
  · refine .frame (hn rfl) (plain hgo hm rfl (fun x hx => ?_) h hok)
    unfold dues at hx
    rw [if_neg (hn rfl)] at hx
    exact hx
  · exact .guarded (hn rfl) (plain hgo hm rfl (duesList_self _ _ _ (by unfold dues; rw [if_neg (hn rfl)])) h hok)
  -- fields
  · exact initFrame hgo hm rfl (by simp) (hn rfl) h hok
  · exact initFrame hgo hm rfl (by simp) (hn rfl) h hok
  -- methods
  · next sp key fn =>
    refine .guarded (hn rfl) ?_
    split
    · next name hname =>
      refine .ite (fun he => ?_) fun he => ?_
      · have he' : cx.excludes key.propName? = true := by rw [hname]; exact he
        refine .pure (excluded rfl rfl ?_ (fun _ => trivial) ?_ (by rintro _ _ ⟨⟩) (dues_other (.inl rfl)))
        · simp [fnHead, he']
        · simp [heads, he']
      · refine withFn hgo hm rfl _ _ _ _ (fun _ _ _ _ _ _ _ hf hx => ?_) h hok
        have he' : ¬ cx.excludes key.propName? = true := by rw [hname]; exact he
        simp only [fnHead, hname] at hx
        simp at hx
        grind
    · next hname =>
      refine .pure (excluded rfl rfl ?_ (fun _ => trivial) ?_ (by rintro _ _ ⟨⟩) (dues_other (.inl rfl)))
      · simp [fnHead, hname]
      · simp [heads, hname]
  · next sp key fn =>
    refine .guarded (hn rfl) ?_
    split
    · next name hname =>
      refine .ite (fun he => ?_) fun he => ?_
      · have he' : cx.excludes key.propName? = true := by rw [hname]; exact he
        refine .pure (excluded rfl rfl ?_ (fun _ => trivial) ?_ (by rintro _ _ ⟨⟩) (dues_other (.inl rfl)))
        · simp [fnHead, he']
        · simp [heads, he']
      · refine withFn hgo hm rfl _ _ _ _ (fun _ _ _ _ _ _ _ hf hx => ?_) h hok
        have he' : ¬ cx.excludes key.propName? = true := by rw [hname]; exact he
        simp only [fnHead, hname] at hx
        simp at hx
        grind
    · next hname =>
      refine withFn hgo hm rfl _ _ _ _ (fun _ _ _ _ _ _ _ hf hx => ?_) h hok
      have he' : ¬ cx.excludes key.propName? = true := by rw [hname]; simp [Ctx.excludes]
      simp only [fnHead, hname] at hx
      simp at hx
      grind
  -- accessors
  · next sp key body =>
    exact .guarded (hn rfl) (visitAccessor hgo hm (pre := [key]) rfl (by simp) body (fun b => by simp) h hok)
  · next sp key this param body =>
    exact .guarded (hn rfl) (visitAccessor hgo hm (pre := [key, this, param]) rfl (by simp) body (fun b => by simp) h hok)
  -- variable
  · exact initFrame hgo hm rfl (by simp) (hn rfl) h hok
  -- loops
  · exact .guarded (hn rfl) (loop hgo hm _ _ _ h hok)
  -- labels, `continue`
  · refine .frame (hn rfl) (unmark (hn rfl) (marked hgo hm rfl (fun x hx => ?_) h hok))
    unfold dues at hx
    rw [if_neg (hn rfl)] at hx
    exact List.mem_cons.1 hx
  · exact .frame (hn rfl) (unmark (hn rfl) (statement hgo hm rfl (.inr (by unfold dues; rw [if_neg (hn rfl)])) h hok))
  -- `switch`, `if`
  · refine .frame (hn rfl) ?_
    rw [if_neg (hn rfl)]
    exact switch hgo _ _ (hn rfl) h
  · refine .frame (hn rfl) ?_
    rw [if_neg (hn rfl)]
    exact visitIf hgo hm _ _ _ _ (hn rfl) h hok
  -- binary expressions, default values
  · exact visitBin hgo hm _ _ _ _ (hn rfl) h hok
  · exact .guarded (hn rfl) (assignPat hgo hm _ _ _ h hok)
  -- `try`, `throw`
  · exact .guarded (hn rfl) (statement hgo hm rfl (.inr (by unfold dues; rw [if_neg (hn rfl)])) h hok)
  · exact .guarded (hn rfl) (statement hgo hm rfl (.inr (by unfold dues; rw [if_neg (hn rfl)])) h hok)
  -- `with`
  · refine .frame (hn rfl) ?_
    rw [if_neg (hn rfl)]
    exact withStmt hgo _ _ _ (hn rfl) h
  -- cases
  · next sp test cons =>
    by_cases hh : cx.hint sp = some .next
    · split
      · exact .frozen (fun st b st' => guarded_hinted hh) (hin (mk .switchCase sp (test :: cons)) hh (.inl rfl))
      · next hne => exact .conseq (otherCase hgo hm hne sp test cons h hok) fun _ _ _ _ _ => hin (mk .switchCase sp (test :: cons)) hh (.inl rfl)
    · split
      · exact .guarded hh (visitCase hgo _ sp test cons h hok)
      · next hne => exact otherCase hgo hm hne sp test cons h hok
  -- exports, `debugger`
  · next sp cs =>
    by_cases hh : cx.hint sp = some .next
    · split
      · exact .frozen (fun st b st' => guarded_hinted hh) (hin (mk .exportDecl sp cs) hh (.inr (.inl rfl)))
      · exact .conseq (plain hgo hm rfl (duesList_self _ _ _ (dues_hinted hh)) h hok) fun _ _ _ _ hc => hc
    · have hd : ∀ x ∈ dues cx (mk .exportDecl sp cs), x ∈ duesList cx cs := by
        unfold dues
        rw [if_neg hh]
        exact fun _ hx => hx
      split
      · exact .guarded hh (plain hgo hm rfl hd h hok)
      · exact plain hgo hm rfl hd h hok
  · next sp cs =>
    have hd : dues cx (mk .exportDefault sp cs) = [] := by unfold dues; split <;> rfl
    split
    · by_cases hh : cx.hint sp = some .next
      · exact .frozen (fun st b st' => guarded_hinted hh) (hin (mk .exportDefault sp cs) hh (.inr (.inr (.inl rfl))))
      · exact .guarded hh (plain hgo hm rfl (duesList_self _ _ _ hd) h hok)
    · exact plain hgo hm rfl (duesList_self _ _ _ hd) h hok
  · next sp cs =>
    have hd : dues cx (mk .debugger sp cs) = [] := by unfold dues; split <;> rfl
    split
    · by_cases hh : cx.hint sp = some .next
      · exact .frozen (fun st b st' => guarded_hinted hh) (hin (mk .debugger sp cs) hh (.inr (.inr (.inr rfl))))
      · exact .guarded hh (plain hgo hm rfl (duesList_self _ _ _ hd) h hok)
    · exact plain hgo hm rfl (duesList_self _ _ _ hd) h hok
  -- anything else
  · obtain ⟨k, sp, cs⟩ := n
    have hs : special k cs.length = false := by
      obtain ⟨len, hl⟩ : ∃ l, cs.length = l := ⟨_, rfl⟩
      rw [hl]
      unfold special
      split <;> first | rfl | (exfalso; solve_by_elim) | skip
      all_goals
        exfalso
        first
          | (obtain ⟨a, b, rfl⟩ := List.length_eq_two.1 hl; solve_by_elim)
          | (obtain ⟨a, b, c, rfl⟩ := List.length_eq_three.1 hl; solve_by_elim)
          | (obtain ⟨a, l, rfl⟩ := List.exists_cons_of_length_eq_add_one hl
             first
               | solve_by_elim
               | (obtain ⟨b, c, d, rfl⟩ := List.length_eq_three.1 (Nat.succ.inj hl); solve_by_elim))
    have hd : dues cx (mk k sp cs) = [] := by
      unfold dues
      split
      · rfl
      · split <;> first | rfl | (exfalso; solve_by_elim)
    exact plain hgo hm hs (duesList_self _ _ _ hd) h hok

/-! ### Inside logical expressions -/

theorem logicalList (hgo : Go cx fi go) (b : Nat) (cs : List Node) (h : List RegOp) (hb : LogicalBranch cx h b) :
    Gets fi (M.mapList (go (.logical b)) cs) h fun cs' h' _ => ∀ e ∈ leavesList cx cs, ∃ c ∈ cs', ∃ n ∈ each c, OperandArm cx h' b e n := by
  induction cs generalizing h with
  | nil => exact .pure (by simp [leavesList])
  | cons c cs ih =>
    refine .bind (hgo (.logical b) c h hb) ?_
    rintro c' h1 o1 p1 ⟨_, hc⟩
    refine .bind (ih h1 (hb.mono p1)) ?_
    intro cs' h2 o2 p2 hcs
    refine .pure ?_
    intro e he
    rw [leavesList] at he
    rcases List.mem_append.1 he with he | he
    · obtain ⟨n, hn, ho⟩ := hc.1 e he
      exact ⟨c', by simp, n, hn, ho.mono p2⟩
    · obtain ⟨c, hc, hx⟩ := hcs e he
      exact ⟨c, by simp [hc], hx⟩

theorem logicalChildren (hgo : Go cx fi go) (b : Nat) (k : Kind) (sp : Span) (cs : List Node) (h : List RegOp)
    (hb : LogicalBranch cx h b) :
    Gets fi (logicalChildren go b (mk k sp cs)) h fun n' h' _ => Operands cx h' b (leavesList cx cs) n' := by
  refine .bind (logicalList hgo b cs h hb) ?_
  intro cs' h1 o1 _ hc
  refine .pure ?_
  intro e he
  obtain ⟨c, hc, n, hn, ho⟩ := hc e he
  exact ⟨n, mem_each_child hc n hn, ho⟩

theorem leaves_hinted {n : Node} (hk : n.kind.isExpr = true) (hh : cx.hint n.span = some .next) : leaves cx n = [] := by
  obtain ⟨k, sp, cs⟩ := n
  simp only [Node.kind, Node.span] at hk hh
  unfold leaves
  rw [if_pos (by simp [noExpr_eq k, hk, hh])]

theorem leaves_open {k : Kind} {sp : Span} {cs : List Node} (hb : ∀ op l r, k = .bin op → cs ≠ [l, r]) :
    ∀ e ∈ leaves cx (mk k sp cs), e ∈ leavesList cx cs := by
  unfold leaves
  split
  · intro e he; cases he
  · split
    · exact absurd rfl (hb _ _ _ rfl)
    · exact fun _ he => he

theorem _root_.Verif.Operands.of_sub {h : List RegOp} {b : Nat} {es es' : List Node} {n : Node} (hs : ∀ e ∈ es', e ∈ es)
    (ho : Operands cx h b es n) : Operands cx h b es' n := fun e he => ho e (hs e he)

theorem visitLogicalInner (hgo : Go cx fi go) (hst : ∀ m n, Still (go m n) n) (b : Nat) (n : Node) (h : List RegOp)
    (hb : LogicalBranch cx h b) :
    Gets fi (visitLogicalInner cx go b n) h fun n' h' _ => Operands cx h' b (leaves cx n) n' := by
  unfold Visitor.visitLogicalInner
  split
  · next op sp left right =>
    by_cases hh : cx.hint sp = some .next
    · refine .frozen (a := mk (.bin op) sp [left, right]) ?_ ?_
      · intro st a st' hx
        unfold Visitor.visitBin at hx
        obtain ⟨⟨old, cur⟩, st1, h1, h2⟩ := M.bind_ok hx
        have h1' : st1 = { st with ignore := some .next } ∧ old = st.ignore ∧ cur = some .next := by
          unfold Visitor.enterSpan at h1
          split at h1
          · next hs => cases h1; exact ⟨by rw [← hs], rfl, hs⟩
          · rw [hh] at h1
            cases h1; exact ⟨rfl, rfl, rfl⟩
        obtain ⟨rfl, rfl, rfl⟩ := h1'
        simp only [if_true] at h2
        obtain ⟨_, st2, h3, h4⟩ := M.bind_ok h2
        cases h3
        obtain ⟨r, st3, h5, h6⟩ := M.bind_ok h4
        obtain ⟨rfl, rfl⟩ := Still.logicalChildren hst b (mk (.bin op) sp [left, right]) _ _ _ rfl h5
        cases h6
        exact ⟨rfl, rfl⟩
      · rw [leaves_hinted rfl hh]
        intro _ hx; cases hx
    · unfold Visitor.visitBin
      refine .bind (.enterSpan hh) ?_
      rintro ⟨old, cur⟩ h1 o1 hp1 ⟨hold, rfl, rfl, rfl⟩
      simp only
      refine .ite (fun hx => absurd hx hh) fun _ => .ite (fun hl => ?_) fun hl => ?_
      · refine .bind (.push _) ?_
        rintro _ _ _ _ ⟨rfl, rfl⟩
        refine .conseq (logicalBin hgo (.logicalInner b) b op sp left right _ hb hb) ?_
        rintro _ h3 o3 hp3 ⟨left', right', rfl, ho, ho', _⟩
        refine (operands_both ho ho').of_sub fun e he => ?_
        unfold leaves at he
        rw [if_neg (by simp [hh])] at he
        simp only [hl, if_true] at he
        exact he
      · refine .bind (.push _) ?_
        rintro _ _ _ _ ⟨rfl, rfl⟩
        refine .bind (logicalChildren hgo b (.bin op) sp [left, right] _ hb) ?_
        intro n' h2 o2 hp2 ho
        refine .bind (.exit hold) ?_
        rintro _ _ _ _ ⟨rfl, rfl⟩
        refine .pure (ho.of_sub fun e he => ?_)
        unfold leaves at he
        rw [if_neg (by simp [hh])] at he
        simp only [hl] at he
        exact he
  · next hne =>
    obtain ⟨k, sp, cs⟩ := n
    refine .conseq (logicalChildren hgo b k sp cs h hb) ?_
    intro n' h' o _ ho
    refine ho.of_sub (leaves_open fun op l r hk hc => ?_)
    subst hk hc
    exact hne _ _ _ _ rfl

theorem visitLogical (hgo : Go cx fi go) (hst : ∀ m n, Still (go m n) n) (b : Nat) (n : Node) (h : List RegOp)
    (hb : LogicalBranch cx h b) :
    Gets fi (visitLogical cx go b n) h fun n' h' _ => Operands cx h' b (leaves cx n) n' := by
  unfold Visitor.visitLogical
  refine .ite (fun hk => ?_) fun hk => ?_
  · by_cases hh : cx.hint n.span = some .next
    · refine .frozen (fun st a st' hx => frame_hinted hh (hst _ _) hx) ?_
      rw [leaves_hinted hk hh]
      intro _ hx; cases hx
    · exact .frame hh (.conseq (hgo (.logicalInner b) n h hb) fun _ _ _ _ hp => hp.2.1)
  · obtain ⟨k, sp, cs⟩ := n
    refine .conseq (logicalChildren hgo b k sp cs h hb) ?_
    intro n' h' o _ ho
    refine ho.of_sub (leaves_open fun op l r hk' hc => ?_)
    subst hk'
    exact hk rfl

/-! ### All visits -/

theorem visit_strip {fuel : Nat} {m : Mode} {n n' : Node} {h : List RegOp} {st st' : St} (hok : m.ok cx h)
    (hg : fi.good h st) (hx : visit cx fuel m n st = .ok (n', st')) : strip n' = strip n := by
  obtain ⟨h', out, hs, _⟩ := Sound.visit cx fi fuel m n [] h hok st n' st' hg hx
  exact hs.strip_eq

theorem visit (cx : Ctx) (fi : File) (fuel : Nat) : Go cx fi (visit cx fuel) := by
  induction fuel with
  | zero =>
    intro m n h _ st a st' _ _ hx
    cases hx
  | succ fuel ih =>
    have hst := Still.visit cx fuel
    intro m n h hok
    by_cases hm : normal m = true
    · have hcore : Gets fi (Visitor.visit cx (fuel + 1) m n) h fun n' h' o => Core cx m h' n n' o := by
        by_cases hh : n.hintable = true ∧ cx.hint n.span = some .next
        · refine .frozen (fun st b st' => visit_hinted hh.1 ?_ hh.2) (.ignored ?_)
          · cases m <;> first | rfl | cases hm
          · simp [Ctx.ignores, Ctx.hinted, hh.1, hh.2]
        · have := visitNode ih m hm n (fun h1 h2 => hh ⟨h1, h2⟩) h hok
          cases m <;> first | exact this | cases hm
      have hall := Gets.and_run (hcore.and_good fun st a st' hg hx => visit_strip hok hg hx) fun st a st' hx => kept hm hx
      refine hall.conseq ?_
      rintro n' h' o _ ⟨⟨hc, hs⟩, hk⟩
      have hp : Part cx m h' n n' ∧ ∀ sp ∈ dues cx n, Due cx h' o sp :=
        ⟨⟨hs, hk, .of hs hc.loc hc.under, hc.case⟩, hc.dues⟩
      cases m <;> first | exact hp | cases hm
    · cases m with
      | logical b =>
        exact (Gets.and_run ((visitLogical ih hst b n h hok).and_good fun st a st' hg hx => visit_strip (fuel := fuel + 1) hok hg hx)
          fun st a st' hx => keepsName_visit cx b (fuel + 1) _ _ _ _ _ (.inl rfl) hx).conseq
          fun _ _ _ _ hp => ⟨hp.1.2, hp.1.1, hp.2.2⟩
      | logicalInner b =>
        exact (Gets.and_run ((visitLogicalInner ih hst b n h hok).and_good fun st a st' hg hx => visit_strip (fuel := fuel + 1) hok hg hx)
          fun st a st' hx => keepsName_visit cx b (fuel + 1) _ _ _ _ _ (.inr rfl) hx).conseq
          fun _ _ _ _ hp => ⟨hp.1.2, hp.1.1, hp.2.2⟩
      | _ => exact absurd rfl hm

end Cover
end Verif
