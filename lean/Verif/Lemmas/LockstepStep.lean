import Verif.Lemmas.LockstepVisit
/-
The visit functions in lockstep: one visit, given the recursive visits.
-/
namespace Verif
open Node Visitor

/-! ### Lists of children -/

theorem forall₂_one {α β : Type} {Q : α → β → Prop} {a : α} {l : List β} (h : List.Forall₂ Q [a] l) : ∃ b, l = [b] ∧ Q a b := by
  cases h with
  | cons h1 h2 => cases h2; exact ⟨_, rfl, h1⟩

theorem forall₂_two {α β : Type} {Q : α → β → Prop} {a b : α} {l : List β} (h : List.Forall₂ Q [a, b] l) :
    ∃ a' b', l = [a', b'] ∧ Q a a' ∧ Q b b' := by
  cases h with
  | cons h1 h2 => obtain ⟨b', rfl, h3⟩ := forall₂_one h2; exact ⟨_, _, rfl, h1, h3⟩

theorem forall₂_three {α β : Type} {Q : α → β → Prop} {a b c : α} {l : List β} (h : List.Forall₂ Q [a, b, c] l) :
    ∃ a' b' c', l = [a', b', c'] ∧ Q a a' ∧ Q b b' ∧ Q c c' := by
  cases h with
  | cons h1 h2 => obtain ⟨b', c', rfl, h3⟩ := forall₂_two h2; exact ⟨_, _, _, rfl, h1, h3⟩

theorem forall₂_four {α β : Type} {Q : α → β → Prop} {a b c d : α} {l : List β} (h : List.Forall₂ Q [a, b, c, d] l) :
    ∃ a' b' c' d', l = [a', b', c', d'] ∧ Q a a' ∧ Q b b' ∧ Q c c' ∧ Q d d' := by
  cases h with
  | cons h1 h2 => obtain ⟨b', c', d', rfl, h3⟩ := forall₂_three h2; exact ⟨_, _, _, _, rfl, h1, h3⟩

theorem Change.Kinds.block_iff {d : Change} {k k' : Kind} (h : d.Kinds k k') : k = .block ↔ k' = .block := by
  cases h <;> simp

theorem Change.Kinds.case_iff {d : Change} {k k' : Kind} (h : d.Kinds k k') : k = .switchCase ↔ k' = .switchCase := by
  cases h <;> simp

theorem Change.Kinds.tagged_iff {d : Change} {k k' : Kind} (h : d.Kinds k k') : k = .taggedTpl ↔ k' = .taggedTpl := by
  cases h <;> simp

/-- Nodes with a visit function, by their kind and number of children. -/
def hasVisit : Kind → Nat → Bool
  | .block, _ => true
  | .fnDecl, 2 => true
  | .arrow _, 2 => true
  | .fnExpr, 2 => true
  | .exprStmt, 1 => true
  | .breakStmt, _ => true
  | .cond, 3 => true
  | .taggedTpl, _ => true
  | .returnStmt, _ => true
  | .varDecl _, _ => true
  | .classDecl, _ => true
  | .classProp, 3 => true
  | .privateProp, 3 => true
  | .classMethod, 2 => true
  | .methodProp, 2 => true
  | .getterProp, 2 => true
  | .setterProp, 4 => true
  | .varDeclarator, 2 => true
  | .loop _, _ => true
  | .labeled, _ => true
  | .continueStmt, _ => true
  | .switchStmt, _ => true
  | .ifStmt, 3 => true
  | .bin _, 2 => true
  | .assignPat, 2 => true
  | .tryStmt, _ => true
  | .throwStmt, _ => true
  | .withStmt, 2 => true
  | .switchCase, _ + 1 => true
  | .exportDecl, _ => true
  | .exportDefault, _ => true
  | .debugger, _ => true
  | _, _ => false

/-- Nodes by their visit functions. -/
theorem visitCases {p : Node → Prop}
    (h1 : ∀ (sp : Span) (cs : List Node), p (mk .block sp cs))
    (h2 : ∀ (sp : Span) (a b : Node), p (mk .fnDecl sp [a, b]))
    (h3 : ∀ (x : String) (sp : Span) (a b : Node), p (mk (.arrow x) sp [a, b]))
    (h4 : ∀ (sp : Span) (a b : Node), p (mk .fnExpr sp [a, b]))
    (h5 : ∀ (sp : Span) (a : Node), p (mk .exprStmt sp [a]))
    (h6 : ∀ (sp : Span) (cs : List Node), p (mk .breakStmt sp cs))
    (h7 : ∀ (sp : Span) (a b c : Node), p (mk .cond sp [a, b, c]))
    (h8 : ∀ (sp : Span) (cs : List Node), p (mk .taggedTpl sp cs))
    (h9 : ∀ (sp : Span) (cs : List Node), p (mk .returnStmt sp cs))
    (h10 : ∀ (x : VarKind) (sp : Span) (cs : List Node), p (mk (.varDecl x) sp cs))
    (h11 : ∀ (sp : Span) (cs : List Node), p (mk .classDecl sp cs))
    (h12 : ∀ (sp : Span) (a b c : Node), p (mk .classProp sp [a, b, c]))
    (h13 : ∀ (sp : Span) (a b c : Node), p (mk .privateProp sp [a, b, c]))
    (h14 : ∀ (sp : Span) (a b : Node), p (mk .classMethod sp [a, b]))
    (h15 : ∀ (sp : Span) (a b : Node), p (mk .methodProp sp [a, b]))
    (h16 : ∀ (sp : Span) (a b : Node), p (mk .getterProp sp [a, b]))
    (h17 : ∀ (sp : Span) (a b c d : Node), p (mk .setterProp sp [a, b, c, d]))
    (h18 : ∀ (sp : Span) (a b : Node), p (mk .varDeclarator sp [a, b]))
    (h19 : ∀ (x : LoopKind) (sp : Span) (cs : List Node), p (mk (.loop x) sp cs))
    (h20 : ∀ (sp : Span) (cs : List Node), p (mk .labeled sp cs))
    (h21 : ∀ (sp : Span) (cs : List Node), p (mk .continueStmt sp cs))
    (h22 : ∀ (sp : Span) (cs : List Node), p (mk .switchStmt sp cs))
    (h23 : ∀ (sp : Span) (a b c : Node), p (mk .ifStmt sp [a, b, c]))
    (h24 : ∀ (x : BinOp) (sp : Span) (a b : Node), p (mk (.bin x) sp [a, b]))
    (h25 : ∀ (sp : Span) (a b : Node), p (mk .assignPat sp [a, b]))
    (h26 : ∀ (sp : Span) (cs : List Node), p (mk .tryStmt sp cs))
    (h27 : ∀ (sp : Span) (cs : List Node), p (mk .throwStmt sp cs))
    (h28 : ∀ (sp : Span) (a b : Node), p (mk .withStmt sp [a, b]))
    (h29 : ∀ (sp : Span) (a : Node) (cs : List Node), p (mk .switchCase sp (a :: cs)))
    (h30 : ∀ (sp : Span) (cs : List Node), p (mk .exportDecl sp cs))
    (h31 : ∀ (sp : Span) (cs : List Node), p (mk .exportDefault sp cs))
    (h32 : ∀ (sp : Span) (cs : List Node), p (mk .debugger sp cs))
    (hd : ∀ (k : Kind) (sp : Span) (cs : List Node), hasVisit k cs.length = false → p (mk k sp cs)) (n : Node) : p n := by
  cases n with
  | mk k sp cs =>
    cases k <;> first
      | exact hd _ _ _ rfl
      | solve_by_elim only [h1, h6, h8, h9, h10, h11, h19, h20, h21, h22, h26, h27, h30, h31, h32]
      | (rcases cs with _ | ⟨a, _ | ⟨b, _ | ⟨c, _ | ⟨d, _ | ⟨e, cs⟩⟩⟩⟩⟩ <;> first
          | exact hd _ _ _ rfl
          | solve_by_elim only [h2, h3, h4, h5, h7, h12, h13, h14, h15, h16, h17, h18, h23, h24, h25, h28, h29])

theorem visitNode_default {cx : Ctx} {go : Mode → Node → M Node} {m : Mode} {k : Kind} {sp : Span} {cs : List Node}
    (h : hasVisit k cs.length = false) : visitNode cx go m (mk k sp cs) = visitChildren cx go m (mk k sp cs) := by
  unfold visitNode
  split <;> first
    | rfl
    | (next e => cases e; cases h)

namespace Lock
variable {L : Lock}

/-- Recursive visits in lockstep. -/
def Rec (L : Lock) (go go' : Mode → Node → M Node) : Prop := ∀ m n n', L.In n n' → L.Sim (go m n) (go' m n') L.Out

/-- Visits of trees in which there is nothing to instrument. -/
def Quiet (go : Mode → Node → M Node) : Prop :=
  ∀ m e st a st', Passive e → go m e st = .ok (a, st') → a = e ∧ st' = st

namespace Sim
variable {α β γ δ : Type} {P : α → β → Prop} {Q : γ → δ → Prop}

section
variable {go go' : Mode → Node → M Node} (hgo : L.Rec go go')
include hgo

theorem mapList {m : Mode} {cs cs' : List Node} (hc : List.Forall₂ L.In cs cs') :
    L.Sim (M.mapList (go m) cs) (M.mapList (go' m) cs') (List.Forall₂ L.Out) := by
  induction hc with
  | nil => exact pure .nil
  | cons h1 h2 ih => exact bind (hgo m _ _ h1) fun a b ha => bind ih fun as bs has => pure (.cons ha has)

theorem insertStmt {s s' : Node} (hs : L.In s s') :
    L.Sim (insertStmt L.cx go s) (Visitor.insertStmt L.cx' go' s') (List.Forall₂ L.Out) := by
  unfold Visitor.insertStmt
  refine ite (by rw [hs.1.isInjectedStmt]) (fun _ => pure (.cons hs.out .nil)) fun _ => ?_
  refine frame hs.1.span fun cur => ite Iff.rfl (fun _ => pure (.cons hs.out .nil)) fun _ => ?_
  refine bind (fresh (hgo .stmt _ _ hs)) ?_
  rintro ⟨a, bf⟩ ⟨b, bf'⟩ ⟨h1, h2⟩
  exact pure (List.rel_append h2 (.cons h1 .nil))

theorem insertStmts {ss ss' : List Node} (hs : List.Forall₂ L.In ss ss') :
    L.Sim (insertStmts L.cx go ss) (Visitor.insertStmts L.cx' go' ss') (List.Forall₂ L.Out) := by
  induction hs with
  | nil => exact pure .nil
  | cons h1 h2 ih => exact bind (insertStmt hgo h1) fun a b ha => bind ih fun as bs has => pure (List.rel_append ha has)

theorem visitStmts {ss ss' : List Node} (hs : List.Forall₂ L.In ss ss') :
    L.Sim (visitStmts L.cx go ss) (Visitor.visitStmts L.cx' go' ss') (List.Forall₂ L.Out) :=
  bind (push .stmts) fun _ _ _ => bind (insertStmts hgo hs) fun _ _ h => bind pop fun _ _ _ => pure h

theorem visitChildren {m : Mode} {k k' : Kind} {sp sp' : Span} {cs cs' : List Node} (hk : L.d.Kinds k k')
    (hs : L.d.span sp sp') (hc : List.Forall₂ L.In cs cs') :
    L.Sim (visitChildren L.cx go m (mk k sp cs)) (Visitor.visitChildren L.cx' go' m (mk k' sp' cs')) L.Out := by
  unfold Visitor.visitChildren
  split
  · next h =>
    cases h
    cases hk
    exact bind (visitStmts hgo hc) fun _ _ h => pure (.node (.refl _) hs h)
  · next h =>
    cases h
    cases hk
    cases hc with
    | cons h1 h2 =>
      exact bind (hgo m _ _ h1) fun _ _ h1' => bind (visitStmts hgo h2) fun _ _ h => pure (.node (.refl _) hs (.cons h1' h))
  · next h1 h2 h =>
    cases h
    split
    · next h =>
      cases h
      cases hk
      exact (h1 rfl).elim
    · next h =>
      cases h
      cases hk
      cases hc with
      | cons h3 h4 => exact (h2 _ _ rfl rfl).elim
    · next h =>
      cases h
      exact bind (mapList hgo hc) fun _ _ h => pure (.node hk hs h)

omit hgo in
theorem _root_.Verif.Lock.outSpan {e e' : Node} (h : L.Out e e') : L.d.span e.span e'.span := by
  cases h with
  | node hk hs hc => exact hs
  | truth ht => exact L.dummy

omit hgo in
theorem branchCounter (b : Nat) {e e' : Node} (h : L.Out e e') :
    L.Sim (Visitor.replaceWithBranchCounter L.cx b e) (Visitor.replaceWithBranchCounter L.cx' b e') L.Out := by
  unfold Visitor.replaceWithBranchCounter
  refine bind (addPath b (L.range (outSpan h))) ?_
  rintro i _ rfl
  exact pure (.wrapC L.dummy _ h)

theorem logicalChildren {b : Nat} {k k' : Kind} {sp sp' : Span} {cs cs' : List Node} (hk : L.d.Kinds k k')
    (hs : L.d.span sp sp') (hc : List.Forall₂ L.In cs cs') :
    L.Sim (logicalChildren go b (mk k sp cs)) (Visitor.logicalChildren go' b (mk k' sp' cs')) L.Out :=
  bind (mapList hgo hc) fun _ _ h => pure (.node hk hs h)

theorem wrapBin (hq : L.t = true → Quiet go) {m : Mode} (b : Nat) {e e' : Node} (he : L.In e e')
    (hp : L.t = true → e.any Kind.isLogical = true ∨ Passive e) :
    L.Sim (wrapBin L.cx go m b e) (Visitor.wrapBin L.cx' go' m b e') L.Out := by
  unfold Visitor.wrapBin
  dsimp only
  rw [L.hint he.1.span]
  refine ite Iff.rfl (fun _ => pure he.out) fun _ => ite (by rw [he.1.any_eq fun _ _ h => h.isLogical]) (fun _ => ?_) fun hl => ?_
  · refine bind (fresh (hgo _ _ _ he)) ?_
    rintro ⟨a, bf⟩ ⟨b, bf'⟩ ⟨h1, h2⟩
    exact pure h1
  rcases Bool.eq_false_or_eq_true L.t with ht | ht
  · rw [L.off ht, if_neg (by simp)]
    by_cases h' : L.cx'.reportLogic = true
    · rw [if_pos h']
      intro st st' hn a s h
      obtain ⟨e1, s1, h1, h2⟩ := M.bind_ok h
      obtain ⟨rfl, rfl⟩ := hq ht m e st e1 s1 ((hp ht).resolve_left hl) h1
      refine (bind (addPath b (L.range he.1.span)) ?_ : L.Sim (Visitor.replaceWithBranchCounter L.cx b e1) _ L.Out) _ _ hn _ _ h2
      rintro i _ rfl
      exact pure (.truth ht he.out)
    · rw [if_neg h']
      exact bind (hgo m _ _ he) fun _ _ h => branchCounter b h
  · refine ite (by rw [L.same ht]) (fun _ => ?_) fun _ => bind (hgo m _ _ he) fun _ _ h => branchCounter b h
    refine bind (addPath b (L.range he.1.span)) ?_
    rintro i _ rfl
    exact pure (.wrapT L.dummy _ _ he.out)

omit hgo in
theorem prependFn {id : Nat} {body body' : Node} (hb : L.In body body') :
    L.Sim (prependFn id body) (Visitor.prependFn id body') L.In := by
  unfold Visitor.prependFn
  split
  · obtain ⟨k', sp', cs', rfl, hk, hs, hc⟩ := hb.inv
    cases hk
    exact pure (.node (.refl _) hs rfl rfl (.cons (.stmtC _) hc))
  · intro st st' _ a s h; cases h

/-- Names with their spans. -/
def _root_.Verif.Lock.Names (L : Lock) (x y : Option (Span × String)) : Prop :=
  (x = none ∧ y = none) ∨ ∃ sp nm sp' nm', x = some (sp, nm) ∧ y = some (sp', nm') ∧ L.d.span sp sp' ∧ L.d.names nm nm'

omit hgo in
theorem createFn {ident ident' : Option (Span × String)} {n n' : Node} (hi : L.Names ident ident') (hn : L.In n n') :
    L.Sim (createFn L.cx ident n) (Visitor.createFn L.cx' ident' n') L.In := by
  unfold Visitor.createFn
  split
  · next a sp ps ds body =>
    obtain ⟨k', sp', cs', rfl, hk, hs, hc⟩ := hn.inv
    obtain ⟨a', rfl⟩ : ∃ a', k' = .function a' := by cases hk <;> exact ⟨_, rfl⟩
    obtain ⟨ps', ds', body', rfl, h1, h2, h3⟩ := forall₂_three hc
    refine bind (newFunction ?_ (L.range ?_) (L.range ?_)) ?_
    · rcases hi with ⟨rfl, rfl⟩ | ⟨sp, nm, sp', nm', rfl, rfl, -, h⟩
      · exact .inl ⟨rfl, rfl⟩
      · exact .inr ⟨_, _, rfl, rfl, h⟩
    · rcases hi with ⟨rfl, rfl⟩ | ⟨sp, nm, sp', nm', rfl, rfl, h, -⟩
      · exact hs
      · exact h
    · rw [h3.1.isNone]
      split
      · exact hs
      · exact h3.1.span
    · rintro i _ rfl
      exact bind (prependFn h3) fun _ _ h => pure (.node hk hs rfl rfl (.cons h1 (.cons h2 (.cons h .nil))))
  · next h =>
    split
    · next a sp ps ds body =>
      cases n with
      | mk k sp1 cs =>
        obtain ⟨k', sp', cs', h1, hk, hs, hc⟩ := hn.inv
        cases h1
        obtain ⟨a', rfl⟩ : ∃ a', k = .function a' := by cases hk <;> exact ⟨_, rfl⟩
        obtain ⟨ps', ds', body', rfl, -⟩ := forall₂_three hc.flip
        exact absurd rfl (h _ _ _ _ _)
    · exact pure hn

omit hgo in
theorem topNode : L.Sim topNode Visitor.topNode (· = ·) := by
  intro st st' hn a s h
  unfold Visitor.topNode at h ⊢
  rw [← hn.nodes]
  cases hs : st.nodes with
  | nil => rw [hs] at h; cases h
  | cons t ts => rw [hs] at h; cases h; exact ⟨_, _, rfl, rfl, hn⟩

omit hgo in
theorem allNodes : L.Sim allNodes Visitor.allNodes (· = ·) := by
  intro st st' hn a s h
  cases h
  exact ⟨_, _, rfl, by rw [hn.nodes], hn⟩

omit hgo in
theorem coverHoisted {e e' : Node} (he : L.In e e') : L.Sim (coverHoisted L.cx e) (Visitor.coverHoisted L.cx' e') L.In := by
  unfold Visitor.coverHoisted
  refine bind allNodes ?_
  rintro nodes _ rfl
  exact ite Iff.rfl (fun _ => bind (P := fun _ _ => True) (keepIf Iff.rfl trivial fun _ => mark he.1.span) fun _ _ _ => pure he)
    fun _ => replaceWithStmtCounter he

theorem coverStatement {m : Mode} {e e' : Node} (he : L.In e e') (ht : L.t = true → e.kind ≠ .taggedTpl) :
    L.Sim (coverStatement L.cx go m e) (Visitor.coverStatement L.cx' go' m e') L.In := by
  unfold Visitor.coverStatement
  refine ite he.1.kind.tagged_iff (fun hk => ?_) fun _ => ite (by rw [he.1.any_eq fun _ _ h => h.isBlock]) (fun _ => ?_) fun _ => ?_
  · have hf : L.t = false := by
      rcases Bool.eq_false_or_eq_true L.t with h | h
      · exact absurd hk (ht h)
      · exact h
    exact bind (mark he.1.span) fun _ _ _ => (hgo m _ _ he).imp fun _ _ h => h.in hf
  · exact bind (mark he.1.span) fun _ _ _ => pure he
  · refine bind (P := fun _ _ => True) (keepIf (by rw [he.1.any_eq fun _ _ h => h.isStmt]) trivial fun _ => mark he.1.span) ?_
    intro _ _ _
    refine bind topNode ?_
    rintro parent _ rfl
    exact ite (by rw [he.1.any_eq fun _ _ h => h.isHoisting]) (fun _ => coverHoisted he) fun _ =>
      ite (by rw [he.1.any_eq fun _ _ h => h.isExpr]) (fun _ => replaceWithStmtCounter he) fun _ => pure he

omit hgo in
/-- A block stays a block. -/
theorem _root_.Verif.Lock.In.block {sp : Span} {ss : List Node} {n : Node} (h : L.In (mk .block sp ss) n) :
    ∃ sp' ss', n = mk .block sp' ss' ∧ L.d.span sp sp' ∧ List.Forall₂ L.In ss ss' := by
  obtain ⟨k', sp', cs', rfl, hk, hs, hc⟩ := h.inv
  cases hk
  exact ⟨_, _, rfl, hs, hc⟩

omit hgo in
/-- What is no block does not become one. -/
theorem _root_.Verif.Lock.In.noBlock {n : Node} {sp' : Span} {ss' : List Node} (h : L.In n (mk .block sp' ss')) :
    ∃ sp ss, n = mk .block sp ss := by
  cases n with
  | mk k sp ss =>
    obtain ⟨k', sp', cs', h1, hk, -, -⟩ := h.inv
    cases h1
    cases hk
    exact ⟨_, _, rfl⟩

theorem visitArrow {a a' : String} {sp sp' : Span} {params params' body body' : Node} (hk : L.d.Kinds (.arrow a) (.arrow a'))
    (hs : L.d.span sp sp') (hp : L.In params params') (hb : L.In body body') :
    L.Sim (visitArrow L.cx go a sp params body) (Visitor.visitArrow L.cx' go' a' sp' params' body') L.Out := by
  unfold Visitor.visitArrow
  refine bind (newFunction (.inl ⟨rfl, rfl⟩) (L.range hs) (L.range hb.1.span)) ?_
  rintro i _ rfl
  split
  · obtain ⟨bsp', ss', rfl, h1, h2⟩ := hb.block
    exact bind (insertStmts hgo h2) fun _ _ h =>
      pure (.node hk hs (.cons hp.out (.cons (.node (.refl _) h1 (.cons (.stmtC L.dummy _) h)) .nil)))
  · next h =>
    split
    · obtain ⟨_, _, rfl⟩ := hb.noBlock
      exact absurd rfl (h _ _)
    · exact bind (insertStmts hgo (.cons (.stmtC _) (.cons (.node (.refl _) hb.1.span rfl rfl (.cons hb .nil)) .nil))) fun _ _ h =>
        pure (.node hk hs (.cons hp.out (.cons (.node (.refl _) L.dummy h) .nil)))

omit hgo in
theorem createAccessor {name name' : String} {sp sp' : Span} {body body' : Node} (hname : L.d.names name name')
    (hs : L.d.span sp sp') (hb : L.In body body') :
    L.Sim (createAccessor L.cx name sp body) (Visitor.createAccessor L.cx' name' sp' body') L.In := by
  unfold Visitor.createAccessor
  split
  · obtain ⟨bsp', ss', rfl, h1, h2⟩ := hb.block
    refine bind (newFunction (.inr ⟨_, _, rfl, rfl, hname⟩) (L.range hs) (L.range h1)) ?_
    rintro i _ rfl
    exact pure (.node (.refl _) h1 rfl rfl (.cons (.stmtC _) h2))
  · next h =>
    split
    · obtain ⟨_, _, rfl⟩ := hb.noBlock
      exact absurd rfl (h _ _)
    · exact pure hb

omit hgo in
theorem visitAccessor {m : Mode} {n n' key key' body body' : Node} {rebuild rebuild' : Node → Node} (hn : L.In n n')
    (hkey : L.In key key') (hb : L.In body body')
    (hr : ∀ c c', L.In c c' → L.Sim (Visitor.visitChildren L.cx go m (rebuild c)) (Visitor.visitChildren L.cx' go' m (rebuild' c')) L.Out) :
    L.Sim (visitAccessor L.cx go m n key body rebuild) (Visitor.visitAccessor L.cx' go' m n' key' body' rebuild') L.Out := by
  unfold Visitor.visitAccessor
  rcases hkey.1.propName with ⟨h1, h2⟩ | ⟨x, y, h1, h2, h3⟩
  · rw [h1, h2]
    exact bind (createAccessor (.inl rfl) hn.1.span hb) fun c c' hc => hr c c' hc
  · rw [h1, h2]
    refine ite (by rw [L.ignore h3]) (fun _ => pure hn.out) fun _ => ?_
    exact bind (createAccessor h3 hkey.1.span hb) fun c c' hc => hr c c' hc

theorem wrapArm {cur : Option IgnoreScope} {b : Nat} {r r' : Range} (hr : L.R r r') {s s' : Node} (hs : L.In s s') :
    L.Sim (wrapArm L.cx go cur b r s) (Visitor.wrapArm L.cx' go' cur b r' s') L.Out := by
  unfold Visitor.wrapArm
  refine bind (addPath b hr) ?_
  rintro i _ rfl
  split
  · obtain ⟨bsp', ss', rfl, h1, h2⟩ := hs.block
    exact bind (insertStmts hgo h2) fun _ _ h => pure (.node (.refl _) h1 (.cons (.stmtC L.dummy _) h))
  · next h =>
    split
    · obtain ⟨_, _, rfl⟩ := hs.noBlock
      exact absurd rfl (h _ _)
    · refine bind (fresh (hgo _ _ _ hs)) ?_
      rintro ⟨a, bf⟩ ⟨c, bf'⟩ ⟨h1, h2⟩
      exact pure (.node (.refl _) L.dummy (.cons (.stmtC L.dummy _) (List.rel_append h2 (.cons h1 .nil))))

theorem visitIf {m : Mode} {cur : Option IgnoreScope} {sp sp' : Span} {test test' cons cons' alt alt' : Node}
    (hs : L.d.span sp sp') (ht : L.In test test') (hc : L.In cons cons') (ha : L.In alt alt') :
    L.Sim (visitIf L.cx go m cur sp test cons alt) (Visitor.visitIf L.cx' go' m cur sp' test' cons' alt') L.Out := by
  unfold Visitor.visitIf
  refine bind (mark hs) fun _ _ _ => bind (newBranch (L.range hs) fun _ => rfl) ?_
  rintro b _ rfl
  refine bind (keepIf Iff.rfl hc.out fun _ => wrapArm hgo (L.range hs) hc) fun _ _ h1 =>
    bind (keepIf Iff.rfl ha.out fun _ => wrapArm hgo (L.range hs) ?_) fun _ _ h2 => bind (hgo m _ _ ht) fun _ _ h3 =>
      pure (.node (.refl _) hs (.cons h3 (.cons h1 (.cons h2 .nil))))
  rw [ha.1.isNone]
  split
  · exact .node (.refl _) L.dummy rfl rfl .nil
  · exact ha

theorem visitCond {m : Mode} {cur : Option IgnoreScope} {sp sp' : Span} {test test' cons cons' alt alt' : Node}
    (hs : L.d.span sp sp') (ht : L.In test test') (hc : L.In cons cons') (ha : L.In alt alt') :
    L.Sim (visitCond L.cx go m cur sp test cons alt) (Visitor.visitCond L.cx' go' m cur sp' test' cons' alt') L.Out := by
  unfold Visitor.visitCond
  refine bind (P := fun x y => L.In x.1 y.1 ∧ L.In x.2 y.2) (keepIf Iff.rfl ⟨hc, ha⟩ fun _ => ?_) ?_
  · unfold Visitor.wrapCondArms
    refine bind (newBranch (L.range hs) fun _ => rfl) ?_
    rintro b _ rfl
    exact bind (keepIf (by rw [L.hint hc.1.span]) hc fun _ => replaceWithBranchCounter b hc) fun _ _ h1 =>
      bind (keepIf (by rw [L.hint ha.1.span]) ha fun _ => replaceWithBranchCounter b ha) fun _ _ h2 => pure ⟨h1, h2⟩
  · rintro ⟨c, a⟩ ⟨c', a'⟩ ⟨h1, h2⟩
    exact visitChildren hgo (.refl _) hs (.cons ht (.cons h1 (.cons h2 .nil)))

theorem visitBin (hq : L.t = true → Quiet go) {m : Mode} {branch? : Option Nat} {children children' : Node → M Node}
    {op op' : BinOp} {sp sp' : Span} {left right left' right' : Node} (hn : L.In (mk (.bin op) sp [left, right]) (mk (.bin op') sp' [left', right']))
    (hc : L.Sim (children (mk (.bin op) sp [left, right])) (children' (mk (.bin op') sp' [left', right'])) L.Out) :
    L.Sim (visitBin L.cx go m branch? children op sp left right) (Visitor.visitBin L.cx' go' m branch? children' op' sp' left' right')
      L.Out := by
  obtain ⟨k', sp1, cs', h1, hk, hs, hcs⟩ := hn.inv
  cases h1
  obtain ⟨_, _, h1, hl, hr⟩ := forall₂_two hcs
  cases h1
  have hop : op.isLogical = op'.isLogical := by cases hk <;> rfl
  have he : ∀ (old : Option IgnoreScope) (t : Tag), L.Sim (do
      Visitor.push t
      let n ← children (mk (.bin op) sp [left, right])
      Visitor.exit old
      Pure.pure n) (do
      Visitor.push t
      let n ← children' (mk (.bin op') sp' [left', right'])
      Visitor.exit old
      Pure.pure n) L.Out := fun old t =>
    bind (push t) fun _ _ _ => bind hc fun _ _ h => bind (exit old) fun _ _ _ => pure h
  unfold Visitor.visitBin
  refine bind (enterSpan hs) ?_
  rintro ⟨old, cur⟩ _ rfl
  refine ite Iff.rfl (fun _ => he old _) fun _ => ite (by rw [hop]) (fun hlog => ?_) fun _ => he old _
  refine bind (push _) fun _ _ _ => bind (P := (· = ·)) ?_ ?_
  · unfold Visitor.logicalBranch
    split
    · exact pure rfl
    · exact newBranch (L.range hs) fun ht => L.same ht
  · rintro b _ rfl
    have hcalm : L.t = true → ∀ e ∈ [left, right], e.any Kind.isLogical = true ∨ Passive e := by
      intro ht e hmem
      refine (calm_mk.1 (hn.2 ht)).1.2 e ?_
      have : Node.operands (mk (.bin op) sp [left, right]) = [left, right] := if_pos hlog
      rw [this]
      exact hmem
    exact bind (wrapBin hgo hq b hl fun ht => hcalm ht _ (by simp)) fun _ _ h1 =>
      bind (wrapBin hgo hq b hr fun ht => hcalm ht _ (by simp)) fun _ _ h2 => pure (.node hk hs (.cons h1 (.cons h2 .nil)))

theorem visitCase {b : Nat} {sp sp' : Span} {test test' : Node} {cons cons' : List Node} (hs : L.d.span sp sp')
    (ht : L.In test test') (hc : List.Forall₂ L.In cons cons') :
    L.Sim (visitCase L.cx go b sp test cons) (Visitor.visitCase L.cx' go' b sp' test' cons') L.Out := by
  unfold Visitor.visitCase
  refine bind (addPath b (L.range hs)) ?_
  rintro i _ rfl
  exact bind (hgo _ _ _ ht) fun _ _ h1 => bind (visitStmts hgo hc) fun _ _ h2 =>
    pure (.node (.refl _) hs (.cons h1 (.cons (.stmtC L.dummy _) h2)))

theorem visitWithBody {cur : Option IgnoreScope} {body body' : Node} (hb : L.In body body') :
    L.Sim (visitWithBody L.cx go cur body) (Visitor.visitWithBody L.cx' go' cur body') L.Out := by
  unfold Visitor.visitWithBody
  split
  · obtain ⟨bsp', ss', rfl, h1, h2⟩ := hb.block
    exact bind (insertStmts hgo h2) fun _ _ h => pure (.node (.refl _) h1 h)
  · next h =>
    split
    · obtain ⟨_, _, rfl⟩ := hb.noBlock
      exact absurd rfl (h _ _)
    · refine bind (fresh (hgo _ _ _ hb)) ?_
      rintro ⟨a, bf⟩ ⟨c, bf'⟩ ⟨h1, h2⟩
      exact pure (.node (.refl _) L.dummy (List.rel_append h2 (.cons h1 .nil)))

omit hgo in
theorem blockify {s s' : Node} (hs : L.In s s') : L.In (blockify s) (Visitor.blockify s') := by
  unfold Visitor.blockify
  split
  · obtain ⟨bsp', ss', rfl, h1, h2⟩ := hs.block
    exact hs
  · next h =>
    split
    · obtain ⟨_, _, rfl⟩ := hs.noBlock
      exact absurd rfl (h _ _)
    · exact .node (.refl _) L.dummy rfl rfl (.cons hs .nil)

omit hgo in
theorem blockifyLast {cs cs' : List Node} (hc : List.Forall₂ L.In cs cs') :
    List.Forall₂ L.In (blockifyLast cs) (Visitor.blockifyLast cs') := by
  induction hc with
  | nil => exact .nil
  | cons h1 h2 ih =>
    cases h2 with
    | nil => exact .cons (blockify h1) .nil
    | cons h3 h4 => exact .cons h1 ih

/-- A function with its name. -/
theorem withFn {m : Mode} {i i' : Option (Span × String)} {kd : Kind} {sp sp' : Span} {id id' fn fn' : Node} (hi : L.Names i i')
    (hs : L.d.span sp sp') (hid : L.In id id') (hf : L.In fn fn') :
    L.Sim (do
      let fn ← Visitor.createFn L.cx i fn
      Visitor.visitChildren L.cx go m (mk kd sp [id, fn])) (do
      let fn ← Visitor.createFn L.cx' i' fn'
      Visitor.visitChildren L.cx' go' m (mk kd sp' [id', fn])) L.Out :=
  bind (createFn hi hf) fun _ _ h => visitChildren hgo (.refl _) hs (.cons hid (.cons h .nil))

omit hgo in
theorem _root_.Verif.Lock.In.names {n n' : Node} (h : L.In n n') :
    L.Names (n.identName?.map fun x => (n.span, x)) (n'.identName?.map fun x => (n'.span, x)) := by
  rcases h.1.identName with ⟨h1, h2⟩ | ⟨x, y, h1, h2, h3⟩
  · rw [h1, h2]; exact .inl ⟨rfl, rfl⟩
  · rw [h1, h2]; exact .inr ⟨_, _, _, _, rfl, rfl, h.1.span, h3⟩

/-- A statement that is marked before its children are visited. -/
theorem marked {m : Mode} {k k' : Kind} {sp sp' : Span} {cs cs' : List Node} {p q : Prop} [Decidable p] [Decidable q]
    (hk : L.d.Kinds k k') (hs : L.d.span sp sp') (hc : List.Forall₂ L.In cs cs') (hpq : p ↔ q) :
    L.Sim (do
      Visitor.keepIf p () (Visitor.mark L.cx sp)
      Visitor.visitChildren L.cx go m (mk k sp cs)) (do
      Visitor.keepIf q () (Visitor.mark L.cx' sp')
      Visitor.visitChildren L.cx' go' m (mk k' sp' cs')) L.Out :=
  bind (P := fun _ _ => True) (keepIf hpq trivial fun _ => mark hs) fun _ _ _ => visitChildren hgo hk hs hc

theorem marked' {m : Mode} {k k' : Kind} {sp sp' : Span} {cs cs' : List Node}
    (hk : L.d.Kinds k k') (hs : L.d.span sp sp') (hc : List.Forall₂ L.In cs cs') :
    L.Sim (do
      Visitor.mark L.cx sp
      Visitor.visitChildren L.cx go m (mk k sp cs)) (do
      Visitor.mark L.cx' sp'
      Visitor.visitChildren L.cx' go' m (mk k' sp' cs')) L.Out :=
  bind (mark hs) fun _ _ _ => visitChildren hgo hk hs hc

theorem visitNode (hq : L.t = true → Quiet go) (m : Mode) {n n' : Node} (hn : L.In n n') :
    L.Sim (visitNode L.cx go m n) (Visitor.visitNode L.cx' go' m n') L.Out := by
  have hch : ∀ m, L.Sim (Visitor.visitChildren L.cx go m n) (Visitor.visitChildren L.cx' go' m n') L.Out := by
    intro m
    cases n with
    | mk kd sp cs =>
      obtain ⟨k', sp', cs', rfl, hk, hs, hc⟩ := hn.inv
      exact visitChildren hgo hk hs hc
  have tagged : ∀ init, L.t = true → initOf n = some init → init.kind ≠ .taggedTpl := by
    intro init ht hi
    cases n with
    | mk kd sp cs => exact (calm_mk.1 (hn.2 ht)).1.1 init hi
  cases n using visitCases
  -- block
  · obtain ⟨k', sp', cs', rfl, hk, hs, hc⟩ := hn.inv
    cases hk
    unfold Visitor.visitNode
    dsimp only
    exact guarded hn (hch m)
  -- function declaration
  · obtain ⟨k', sp', cs', rfl, hk, hs, hc⟩ := hn.inv
    cases hk
    obtain ⟨i', f', rfl, h1, h2⟩ := forall₂_two hc
    unfold Visitor.visitNode
    dsimp only
    exact guarded hn (withFn hgo h1.names hs h1 h2)
  -- arrow
  · obtain ⟨k', sp', cs', rfl, hk, hs, hc⟩ := hn.inv
    obtain ⟨a', rfl⟩ : ∃ a', k' = .arrow a' := by cases hk <;> exact ⟨_, rfl⟩
    obtain ⟨i', f', rfl, h1, h2⟩ := forall₂_two hc
    unfold Visitor.visitNode
    dsimp only
    exact guarded hn (visitArrow hgo hk hs h1 h2)
  -- function expression
  · obtain ⟨k', sp', cs', rfl, hk, hs, hc⟩ := hn.inv
    cases hk
    obtain ⟨i', f', rfl, h1, h2⟩ := forall₂_two hc
    unfold Visitor.visitNode
    dsimp only
    refine guarded hn ?_
    refine ite ?_ (fun _ => pure hn.out) fun _ => withFn hgo h1.names hs h1 h2
    rcases h1.1.identName with ⟨e1, e2⟩ | ⟨x, y, e1, e2, e3⟩
    · rw [e1, e2]
    · rw [e1, e2]
      show L.cx.ignoreMethods.contains x = true ↔ L.cx'.ignoreMethods.contains y = true
      rw [L.ignore e3]
  -- expression statement
  · obtain ⟨k', sp', cs', rfl, hk, hs, hc⟩ := hn.inv
    cases hk
    obtain ⟨e', rfl, h1⟩ := forall₂_one hc
    unfold Visitor.visitNode
    dsimp only
    exact frame hs fun cur => ite (by rw [h1.1.isDirectiveLit]) (fun _ => pure hn.out) fun _ =>
      marked hgo (.refl _) hs hc (by rw [h1.1.isInjectedExpr])
  -- break
  · obtain ⟨k', sp', cs', rfl, hk, hs, hc⟩ := hn.inv
    cases hk
    unfold Visitor.visitNode
    dsimp only
    exact frame hs fun cur => marked hgo (.refl _) hs hc Iff.rfl
  -- conditional
  · obtain ⟨k', sp', cs', rfl, hk, hs, hc⟩ := hn.inv
    cases hk
    obtain ⟨t', c', a', rfl, h1, h2, h3⟩ := forall₂_three hc
    unfold Visitor.visitNode
    dsimp only
    exact frame hs fun cur => visitCond hgo hs h1 h2 h3
  -- tagged template
  · obtain ⟨k', sp', cs', rfl, hk, hs, hc⟩ := hn.inv
    cases hk
    unfold Visitor.visitNode
    dsimp only
    exact guarded hn (marked' hgo (.refl _) hs hc)
  -- return
  · obtain ⟨k', sp', cs', rfl, hk, hs, hc⟩ := hn.inv
    cases hk
    unfold Visitor.visitNode
    dsimp only
    exact frame hs fun cur => marked hgo (.refl _) hs hc Iff.rfl
  -- variable declaration
  · obtain ⟨k', sp', cs', rfl, hk, hs, hc⟩ := hn.inv
    obtain ⟨v', rfl⟩ : ∃ v', k' = .varDecl v' := by cases hk <;> exact ⟨_, rfl⟩
    unfold Visitor.visitNode
    dsimp only
    exact frame hs fun cur => hch m
  -- class declaration
  · obtain ⟨k', sp', cs', rfl, hk, hs, hc⟩ := hn.inv
    cases hk
    unfold Visitor.visitNode
    dsimp only
    exact guarded hn (hch m)
  -- class properties
  · obtain ⟨k', sp', cs', rfl, hk, hs, hc⟩ := hn.inv
    cases hk
    obtain ⟨t', c', a', rfl, h1, h2, h3⟩ := forall₂_three hc
    unfold Visitor.visitNode
    dsimp only
    exact guarded hn (bind (keepIf (by rw [h2.1.isNone]) h2 fun _ => coverStatement hgo h2 fun ht => tagged _ ht rfl) fun _ _ h =>
      visitChildren hgo (.refl _) hs (.cons h1 (.cons h (.cons h3 .nil))))
  · obtain ⟨k', sp', cs', rfl, hk, hs, hc⟩ := hn.inv
    cases hk
    obtain ⟨t', c', a', rfl, h1, h2, h3⟩ := forall₂_three hc
    unfold Visitor.visitNode
    dsimp only
    exact guarded hn (bind (keepIf (by rw [h2.1.isNone]) h2 fun _ => coverStatement hgo h2 fun ht => tagged _ ht rfl) fun _ _ h =>
      visitChildren hgo (.refl _) hs (.cons h1 (.cons h (.cons h3 .nil))))
  -- methods
  · obtain ⟨k', sp', cs', rfl, hk, hs, hc⟩ := hn.inv
    cases hk
    obtain ⟨i', f', rfl, h1, h2⟩ := forall₂_two hc
    unfold Visitor.visitNode
    dsimp only
    refine guarded hn ?_
    rcases h1.1.propName with ⟨e1, e2⟩ | ⟨x, y, e1, e2, e3⟩
    · rw [e1, e2]
      exact pure hn.out
    · rw [e1, e2]
      exact ite (by rw [L.ignore e3]) (fun _ => pure hn.out) fun _ =>
        withFn hgo (.inr ⟨_, _, _, _, rfl, rfl, h1.1.span, e3⟩) hs h1 h2
  · obtain ⟨k', sp', cs', rfl, hk, hs, hc⟩ := hn.inv
    cases hk
    obtain ⟨i', f', rfl, h1, h2⟩ := forall₂_two hc
    unfold Visitor.visitNode
    dsimp only
    refine guarded hn ?_
    rcases h1.1.propName with ⟨e1, e2⟩ | ⟨x, y, e1, e2, e3⟩
    · rw [e1, e2]
      exact withFn hgo (.inr ⟨_, _, _, _, rfl, rfl, L.dummy, .inl rfl⟩) hs h1 h2
    · rw [e1, e2]
      exact ite (by rw [L.ignore e3]) (fun _ => pure hn.out) fun _ =>
        withFn hgo (.inr ⟨_, _, _, _, rfl, rfl, h1.1.span, e3⟩) hs h1 h2
  -- accessors
  · obtain ⟨k', sp', cs', rfl, hk, hs, hc⟩ := hn.inv
    cases hk
    obtain ⟨i', f', rfl, h1, h2⟩ := forall₂_two hc
    unfold Visitor.visitNode
    dsimp only
    exact guarded hn (visitAccessor hn h1 h2 fun c c' h => visitChildren hgo (.refl _) hs (.cons h1 (.cons h .nil)))
  · obtain ⟨k', sp', cs', rfl, hk, hs, hc⟩ := hn.inv
    cases hk
    obtain ⟨i', f', x', y', rfl, h1, h2, h3, h4⟩ := forall₂_four hc
    unfold Visitor.visitNode
    dsimp only
    exact guarded hn (visitAccessor hn h1 h4 fun c c' h =>
      visitChildren hgo (.refl _) hs (.cons h1 (.cons h2 (.cons h3 (.cons h .nil)))))
  -- declarator
  · obtain ⟨k', sp', cs', rfl, hk, hs, hc⟩ := hn.inv
    cases hk
    obtain ⟨t', c', rfl, h1, h2⟩ := forall₂_two hc
    unfold Visitor.visitNode
    dsimp only
    exact guarded hn (bind (keepIf (by rw [h2.1.isNone]) h2 fun _ => coverStatement hgo h2 fun ht => tagged _ ht rfl) fun _ _ h =>
      visitChildren hgo (.refl _) hs (.cons h1 (.cons h .nil)))
  -- loop
  · obtain ⟨k', sp', cs', rfl, hk, hs, hc⟩ := hn.inv
    cases hk
    unfold Visitor.visitNode
    dsimp only
    exact guarded hn (marked' hgo (.refl _) hs (blockifyLast hc))
  -- labeled statement
  · obtain ⟨k', sp', cs', rfl, hk, hs, hc⟩ := hn.inv
    cases hk
    unfold Visitor.visitNode
    dsimp only
    exact frame hs fun cur => marked hgo (.refl _) hs hc Iff.rfl
  -- continue
  · obtain ⟨k', sp', cs', rfl, hk, hs, hc⟩ := hn.inv
    cases hk
    unfold Visitor.visitNode
    dsimp only
    exact frame hs fun cur => marked hgo (.refl _) hs hc Iff.rfl
  -- switch
  · obtain ⟨k', sp', cs', rfl, hk, hs, hc⟩ := hn.inv
    cases hk
    unfold Visitor.visitNode
    dsimp only
    refine frame hs fun cur => ite Iff.rfl (fun _ => pure hn.out) fun _ => bind (mark hs) fun _ _ _ =>
      bind (newBranch (L.range hs) fun _ => rfl) ?_
    rintro b _ rfl
    refine bind (fresh (visitChildren hgo (.refl _) hs hc)) ?_
    rintro ⟨a, bf⟩ ⟨c, bf'⟩ ⟨h1, h2⟩
    exact pure h1
  -- if
  · obtain ⟨k', sp', cs', rfl, hk, hs, hc⟩ := hn.inv
    cases hk
    obtain ⟨t', c', a', rfl, h1, h2, h3⟩ := forall₂_three hc
    unfold Visitor.visitNode
    dsimp only
    exact frame hs fun cur => ite Iff.rfl (fun _ => pure hn.out) fun _ => visitIf hgo hs h1 h2 h3
  -- binary
  · obtain ⟨k', sp', cs', rfl, hk, hs, hc⟩ := hn.inv
    obtain ⟨i', f', rfl, h1, h2⟩ := forall₂_two hc
    cases hk with
    | refl =>
      unfold Visitor.visitNode
      exact visitBin hgo hq hn (visitChildren hgo (.refl _) hs hc)
    | op ht =>
      unfold Visitor.visitNode
      exact visitBin hgo hq hn (visitChildren hgo (.op ht _ _) hs hc)
  -- default value
  · obtain ⟨k', sp', cs', rfl, hk, hs, hc⟩ := hn.inv
    cases hk
    obtain ⟨i', f', rfl, h1, h2⟩ := forall₂_two hc
    unfold Visitor.visitNode
    dsimp only
    refine guarded hn (bind (newBranch (L.range hs) fun _ => rfl) ?_)
    rintro b _ rfl
    exact bind (wrapBin hgo hq b h2 fun ht => (calm_mk.1 (hn.2 ht)).1.2 _ (by simp [Node.operands])) fun _ _ h =>
      pure (.node (.refl _) hs (.cons h1.out (.cons h .nil)))
  -- try
  · obtain ⟨k', sp', cs', rfl, hk, hs, hc⟩ := hn.inv
    cases hk
    unfold Visitor.visitNode
    dsimp only
    exact guarded hn (marked' hgo (.refl _) hs hc)
  -- throw
  · obtain ⟨k', sp', cs', rfl, hk, hs, hc⟩ := hn.inv
    cases hk
    unfold Visitor.visitNode
    dsimp only
    exact guarded hn (marked' hgo (.refl _) hs hc)
  -- with
  · obtain ⟨k', sp', cs', rfl, hk, hs, hc⟩ := hn.inv
    cases hk
    obtain ⟨i', f', rfl, h1, h2⟩ := forall₂_two hc
    unfold Visitor.visitNode
    dsimp only
    exact frame hs fun cur => ite Iff.rfl (fun _ => pure hn.out) fun _ => bind (mark hs) fun _ _ _ =>
      bind (visitWithBody hgo h2) fun _ _ h => pure (.node (.refl _) hs (.cons h1.out (.cons h .nil)))
  -- switch case
  · obtain ⟨k', sp', cs', rfl, hk, hs, hc⟩ := hn.inv
    cases hk
    cases hc with
    | cons h1 h2 =>
      unfold Visitor.visitNode
      dsimp only
      split
      · exact guarded hn (visitCase hgo hs h1 h2)
      · exact hch _
  -- module declarations, debugger
  · obtain ⟨k', sp', cs', rfl, hk, hs, hc⟩ := hn.inv
    cases hk
    unfold Visitor.visitNode
    dsimp only
    split
    · exact guarded hn (hch _)
    · exact hch _
  · obtain ⟨k', sp', cs', rfl, hk, hs, hc⟩ := hn.inv
    cases hk
    unfold Visitor.visitNode
    dsimp only
    split
    · exact guarded hn (hch _)
    · exact hch _
  · obtain ⟨k', sp', cs', rfl, hk, hs, hc⟩ := hn.inv
    cases hk
    unfold Visitor.visitNode
    dsimp only
    split
    · exact guarded hn (hch _)
    · exact hch _
  -- others
  · next k sp cs h =>
    obtain ⟨k', sp', cs', rfl, hk, hs, hc⟩ := hn.inv
    rw [visitNode_default h, visitNode_default (by
      rw [← hc.length_eq, ← h]
      cases hk with
      | op | arrow => rcases cs.length with _ | _ | _ | n <;> rfl
      | _ => rfl)]
    exact visitChildren hgo hk hs hc

theorem step (hq : L.t = true → Quiet go) (m : Mode) {n n' : Node} (hn : L.In n n') :
    L.Sim (step L.cx go m n) (Visitor.step L.cx' go' m n') L.Out := by
  cases n with
  | mk k sp cs =>
    obtain ⟨k', sp', cs', rfl, hk, hs, hc⟩ := hn.inv
    unfold Visitor.step
    split
    · unfold visitLogical
      exact ite (by rw [hn.1.kind.isExpr]) (fun _ => frame hs fun _ => hgo _ _ _ hn) fun _ => logicalChildren hgo hk hs hc
    · unfold visitLogicalInner
      split
      · next h =>
        cases h
        obtain ⟨_, _, rfl, h1, h2⟩ := forall₂_two hc
        cases hk with
        | refl => exact visitBin hgo hq hn (logicalChildren hgo (.refl _) hs hc)
        | op ht => exact visitBin hgo hq hn (logicalChildren hgo (.op ht _ _) hs hc)
      · next h =>
        split
        · next h2 =>
          cases h2
          obtain ⟨_, _, rfl, -⟩ := forall₂_two hc.flip
          cases hk <;> exact absurd rfl (h _ _ _ _)
        · exact logicalChildren hgo hk hs hc
    · exact visitNode hgo hq m hn

end

end Sim

/-! ### Trees in which there is nothing to instrument -/

/-- If `x` succeeds then with `a`, and changes nothing. -/
def Idle (x : M α) (a : α) : Prop := ∀ st b st', x st = .ok (b, st') → b = a ∧ st' = st

namespace Idle

theorem pure (a : α) : Idle (Pure.pure a : M α) a := by
  intro st b st' h
  cases h
  exact ⟨rfl, rfl⟩

theorem bind {x : M α} {a : α} {f : α → M β} {b : β} (hx : Idle x a) (hf : Idle (f a) b) : Idle (x >>= f) b := by
  intro st c st' h
  obtain ⟨a', s1, h1, h2⟩ := M.bind_ok h
  obtain ⟨rfl, rfl⟩ := hx _ _ _ h1
  exact hf _ _ _ h2

theorem mapList {f : Node → M Node} {cs : List Node} (h : ∀ c ∈ cs, Idle (f c) c) : Idle (M.mapList f cs) cs := by
  induction cs with
  | nil => exact pure []
  | cons c cs ih => exact bind (h c (by simp)) (bind (ih fun d hd => h d (by simp [hd])) (pure _))

theorem frame {cx : Ctx} {t : Tag} {sp : Span} {body : Option IgnoreScope → M α} {a : α} (hb : ∀ cur, Idle (body cur) a) :
    Idle (Visitor.frame cx t sp body) a := by
  intro st b st' h
  unfold Visitor.frame Visitor.enter at h
  obtain ⟨⟨old, cur⟩, s1, h1, h2⟩ := M.bind_ok h
  obtain ⟨u, s2, h3, h4⟩ := M.bind_ok h1
  cases h3
  obtain ⟨r, s3, h5, h6⟩ := M.bind_ok h2
  obtain ⟨rfl, rfl⟩ := hb cur _ _ _ h5
  cases h6
  unfold Visitor.enterSpan at h4
  split at h4 <;> cases h4 <;> exact ⟨rfl, rfl⟩

theorem visitBin {cx : Ctx} {go : Mode → Node → M Node} {m : Mode} {br : Option Nat} {children : Node → M Node} {x : String}
    {sp : Span} {l r : Node} (hc : Idle (children (mk (.bin (.other x)) sp [l, r])) (mk (.bin (.other x)) sp [l, r])) :
    Idle (Visitor.visitBin cx go m br children (.other x) sp l r) (mk (.bin (.other x)) sp [l, r]) := by
  have he : ∀ (st : St) (old cur : Option IgnoreScope) (s1 : St) (b : Node) (st' : St),
      Visitor.enterSpan cx sp st = .ok ((old, cur), s1) → (do
      Visitor.push .binExpr
      let n ← children (mk (.bin (.other x)) sp [l, r])
      Visitor.exit old
      Pure.pure n : M Node) s1 = .ok (b, st') → b = mk (.bin (.other x)) sp [l, r] ∧ st' = st := by
    intro st old cur s1 b st' h1 h2
    obtain ⟨u, s2, h3, h4⟩ := M.bind_ok h2
    cases h3
    obtain ⟨r', s3, h5, h6⟩ := M.bind_ok h4
    obtain ⟨rfl, rfl⟩ := hc _ _ _ h5
    cases h6
    unfold Visitor.enterSpan at h1
    split at h1 <;> cases h1 <;> exact ⟨rfl, rfl⟩
  intro st b st' h
  unfold Visitor.visitBin at h
  obtain ⟨⟨old, cur⟩, s1, h1, h2⟩ := M.bind_ok h
  dsimp only at h2
  split at h2
  · exact he _ _ _ _ _ _ h1 h2
  · rw [if_neg (by simp [BinOp.isLogical])] at h2
    exact he _ _ _ _ _ _ h1 h2

theorem step {cx : Ctx} {go : Mode → Node → M Node} (m : Mode) {n : Node} (hgo : ∀ m e, e = n ∨ e ∈ n.children → Passive e → Idle (go m e) e)
    (hn : Passive n) : Idle (Visitor.step cx go m n) n := by
  cases n with
  | mk k sp cs =>
    replace hgo : ∀ m e, e = mk k sp cs ∨ e ∈ cs → Passive e → Idle (go m e) e := hgo
    have hk : k.passive = true ∧ ∀ c ∈ cs, Passive c := by
      unfold Passive Node.any at hn
      rw [Bool.or_eq_false_iff] at hn
      refine ⟨by simpa using hn.1, ?_⟩
      have := hn.2
      clear hn hgo
      induction cs with
      | nil => intro c h; cases h
      | cons c cs ih =>
        unfold Node.anyList at this
        rw [Bool.or_eq_false_iff] at this
        intro d hd
        rcases List.mem_cons.1 hd with rfl | hd
        · exact this.1
        · exact ih this.2 d hd
    obtain ⟨hk, hc⟩ := hk
    have h1 : ∀ b, Idle (logicalChildren go b (mk k sp cs)) (mk k sp cs) := fun b =>
      bind (mapList fun c h => hgo _ c (.inr h) (hc c h)) (pure _)
    have h2 : ∀ m, Idle (visitChildren cx go m (mk k sp cs)) (mk k sp cs) := by
      intro m
      unfold visitChildren
      split
      · next h => cases h; cases hk
      · next h => cases h; cases hk
      · next h => cases h; exact bind (mapList fun c h => hgo _ c (.inr h) (hc c h)) (pure _)
    unfold Visitor.step
    split
    · unfold visitLogical
      split
      · exact frame fun _ => hgo _ _ (.inl rfl) hn
      · exact h1 _
    · unfold visitLogicalInner
      split
      · next op _ _ _ h =>
        cases h
        cases op with
        | other x => exact visitBin (h1 _)
        | _ => cases hk
      · exact h1 _
    · by_cases hv : hasVisit k cs.length = false
      · rw [visitNode_default hv]
        exact h2 _
      · cases k with
        | bin op =>
          cases op with
          | other x =>
            rcases cs with _ | ⟨l, _ | ⟨r, _ | ⟨c, cs⟩⟩⟩
            · exact absurd rfl hv
            · exact absurd rfl hv
            · unfold visitNode
              exact visitBin (h2 _)
            · exact absurd rfl hv
          | _ => cases hk
        | _ => first | exact absurd rfl hv | cases hk

end Idle

theorem quiet (cx : Ctx) (fuel : Nat) : Quiet (visit cx fuel) := by
  have : ∀ m e, Passive e → Idle (visit cx fuel m e) e := by
    induction fuel with
    | zero => intro m e _ st b st' h; cases h
    | succ fuel ih => exact fun m e he => Idle.step m (fun m e _ => ih m e) he
  exact fun m e st a st' he h => this m e he _ _ _ h

theorem visit (L : Lock) (fuel : Nat) : L.Rec (visit L.cx fuel) (Visitor.visit L.cx' fuel) := by
  induction fuel with
  | zero => intro m n n' _ st st' _ a s h; cases h
  | succ fuel ih => exact fun m n n' hn => Sim.step ih (fun _ => quiet _ _) m hn

end Lock
end Verif
