import Verif.Lemmas.CoversNode
/-
Continuation of `Lemmas/CoversNode.lean`: accessors, arrow functions, initialisers, loops.
-/
namespace Verif
open Node RegOp

namespace Cover
open Visitor
variable {cx : Ctx} {fi : File} {go : Mode → Node → M Node}

theorem noExpr_eq (k : Kind) : k.noExpr = !k.isExpr := by
  cases k with
  | temp t => cases t <;> rfl
  | other c _ => cases c <;> rfl
  | _ => rfl

theorem any_of_expr {n : Node} (h : n.kind.isExpr = true) : n.any Kind.isExpr = true := by
  obtain ⟨k, sp, cs⟩ := n
  unfold Node.any
  rw [show k.isExpr = true from h]
  rfl

theorem _root_.Verif.Gets.ite {p : Prop} [Decidable p] {x y : M α} {h : List RegOp} {P : α → List RegOp → List Node → Prop}
    (h1 : p → Gets fi x h P) (h2 : ¬ p → Gets fi y h P) : Gets fi (if p then x else y) h P := by
  split
  · next hp => exact h1 hp
  · next hp => exact h2 hp

/-! ### Accessors -/

theorem createAccessor (name : String) (decl : Span) (body : Node) (h : List RegOp) :
    Gets fi (createAccessor cx name decl body) h fun b1 h' o => o = [] ∧
      ((b1 = body ∧ body.kind ≠ .block) ∨
       ∃ bsp ss id, body = mk .block bsp ss ∧ b1 = mk .block bsp (counterStmt (.f id) :: ss) ∧
        (functions h')[id]? = some (some name, cx.range decl, cx.range bsp)) := by
  unfold Visitor.createAccessor
  split
  · next bsp ss =>
    refine .bind (.newFunction _ _ _) ?_
    rintro id h1 o1 _ ⟨hf, rfl⟩
    exact .pure ⟨rfl, .inr ⟨bsp, ss, id, rfl, rfl, hf⟩⟩
  · next hne =>
    refine .pure ⟨rfl, .inl ⟨rfl, ?_⟩⟩
    obtain ⟨k, sp, cs⟩ := body
    rintro ⟨⟩
    exact hne sp cs rfl

theorem forall₂_snoc {R : α → β → Prop} {pre : List α} {b : α} {cs' : List β} (hf : List.Forall₂ R (pre ++ [b]) cs') :
    ∃ pre' b', cs' = pre' ++ [b'] ∧ List.Forall₂ R pre pre' ∧ R b b' := by
  induction pre generalizing cs' with
  | nil =>
    obtain ⟨b', r, h1, h2, rfl⟩ := List.forall₂_cons_left_iff.1 hf
    cases List.forall₂_nil_left_iff.1 h2
    exact ⟨[], b', rfl, .nil, h1⟩
  | cons a pre ih =>
    obtain ⟨a', r, h1, h2, rfl⟩ := List.forall₂_cons_left_iff.1 hf
    obtain ⟨pre', b', rfl, h3, h4⟩ := ih h2
    exact ⟨a' :: pre', b', rfl, .cons h1 h3, h4⟩

/-- Getters with a key, setters with a key and two parameters. -/
def isAccessor (k : Kind) (pre : Nat) : Bool :=
  match k, pre with
  | .getterProp, 1 | .setterProp, 3 => true
  | _, _ => false

theorem accessor_cases {k : Kind} {pre : List Node} (hk : isAccessor k pre.length = true) :
    (k = .getterProp ∧ ∃ a, pre = [a]) ∨ (k = .setterProp ∧ ∃ a b c, pre = [a, b, c]) := by
  unfold isAccessor at hk
  split at hk
  · next h => exact .inl ⟨rfl, List.length_eq_one_iff.1 h⟩
  · next h => exact .inr ⟨rfl, List.length_eq_three.1 h⟩
  · cases hk

theorem accessor (hgo : Go cx fi go) {m : Mode} (hm : normal m = true) {k : Kind} {sp : Span} {pre : List Node}
    (hk : isAccessor k pre.length = true) (body : Node) (name : String) (decl : Span)
    (hh : ∀ nm d, fnHead cx (mk k sp (pre ++ [body])) = some (nm, d) → nm = some name ∧ d = decl)
    (h : List RegOp) (hok : m.ok cx h) :
    Gets fi (do
        let body ← Visitor.createAccessor cx name decl body
        Visitor.visitChildren cx go m (mk k sp (pre ++ [body]))) h
      fun n' h' o => Core cx m h' (mk k sp (pre ++ [body])) n' o := by
  have hsingle : ∀ cs, single (mk k sp cs) = true := by
    intro cs; cases k <;> first | rfl | cases hk
  refine .bind (createAccessor name decl body h) ?_
  rintro b1 h1 o1 hp1 ⟨rfl, hb⟩
  refine .conseq (visitChildren hgo hm k sp (pre ++ [b1]) (hsingle _) h1 (hok.mono hp1)) ?_
  rintro _ h2 o2 hp2 ⟨cs', rfl, hp⟩
  obtain ⟨pre', b', rfl, p1, p2⟩ := forall₂_snoc hp.parts
  have hk' : isAccessor k pre'.length = true := by rw [← p1.length_eq]; exact hk
  have hbody : ∀ (pre : List Node) (b : Node), isAccessor k pre.length = true → bodyOf (mk k sp (pre ++ [b])) = some b := by
    intro pre b hk
    rcases accessor_cases hk with ⟨rfl, a, rfl⟩ | ⟨rfl, a, b, c, rfl⟩ <;> rfl
  have hlist : ∀ (pre : List Node) (b : Node), isAccessor k pre.length = true → lists cx (mk k sp (pre ++ [b])) = [] := by
    intro pre b hk
    rcases accessor_cases hk with ⟨rfl, a, rfl⟩ | ⟨rfl, a, b, c, rfl⟩ <;> rfl
  have hcov : Covered cx h2 body b' := by
    rcases hb with ⟨rfl, _⟩ | ⟨bsp, ss, id, rfl, rfl, _⟩
    · exact p2.covered
    · exact covered_block p2.covered
  refine ⟨⟨noLists (hlist _ _ hk) (hlist _ _ hk'), ?_, ?_, ?_⟩, ?_, ?_, ?_⟩
  · intro _ i hi
    rcases accessor_cases hk with ⟨rfl, a, rfl⟩ | ⟨rfl, a, b, c, rfl⟩ <;> cases hi
  · intro _ nm d bd h3 h4 h5
    rw [hbody _ _ hk] at h4
    cases h4
    obtain ⟨rfl, rfl⟩ := hh nm d h3
    rcases hb with ⟨_, hne⟩ | ⟨bsp, ss, id, rfl, rfl, hf⟩
    · rcases h5 with h5 | ⟨a, h5⟩
      · exact absurd h5 hne
      · simp only [Node.kind] at h5
        subst h5; cases hk
    · obtain ⟨ss', rfl⟩ := p2.kept.block _ _ _ rfl
      exact ⟨id, bsp, ss', hbody _ _ hk', functions_prefix hp2 hf⟩
  · intro _
    rcases accessor_cases hk with ⟨rfl, a, rfl⟩ | ⟨rfl, a, b, c, rfl⟩ <;> trivial
  · intro c hc
    have hc' : c ∈ pre ++ [body] := by
      rcases opened_sub hc with hc | ⟨l, hl, _⟩
      · rcases accessor_cases hk with ⟨rfl, a, rfl⟩ | ⟨rfl, a, b, d, rfl⟩
        all_goals
          simp only [List.cons_append, List.nil_append, heads] at hc
          split at hc
          · cases hc
          · exact hc
      · rw [hlist _ _ hk] at hl; cases hl
    rcases List.mem_append.1 hc' with hc' | hc'
    · obtain ⟨c', h3, h4⟩ := forall₂_mem p1 hc'
      exact ⟨c', mem_each_child (List.mem_append_left _ h3), h4.covered⟩
    · cases List.mem_singleton.1 hc'
      exact ⟨b', mem_each_child (by simp), hcov⟩
  · intro b csp test ss _ e
    injection e with e _ _
    subst e; cases hk
  · intro x hx
    exfalso
    unfold dues at hx
    rcases accessor_cases hk with ⟨rfl, a, rfl⟩ | ⟨rfl, a, b, c, rfl⟩ <;> (split at hx <;> cases hx)

/-! ### Arrow functions -/

theorem arrow_body {h : List RegOp} {a : String} {sp : Span} {params body : Node} {bsp : Span} {ss' : List Node}
    {m : Mode} {o : List Node} {id : Nat}
    (hl : Listed cx h (asArrowBody body).children (counterStmt (.f id) :: ss'))
    (hf : (functions h)[id]? = some (none, cx.range sp, cx.range body.span)) :
    Core cx m h (mk (.arrow a) sp [params, body]) (mk (.arrow a) sp [params, mk .block bsp (counterStmt (.f id) :: ss')]) o := by
  refine ⟨⟨?_, ?_, ?_, ?_⟩, ?_, ?_, ?_⟩
  · exact fun _ => .cons hl.leads .nil
  · intro _ i hi; cases hi
  · intro _ nm d bd h3 h4 _
    cases h3; cases h4
    exact ⟨id, bsp, ss', rfl, hf⟩
  · intro _; trivial
  · intro c hc
    rcases opened_sub hc with hc | ⟨l, hl', hc⟩
    · cases hc
    · cases List.mem_singleton.1 hl'
      obtain ⟨c', h3, h4⟩ := hl.covered c hc
      refine ⟨c', fun x hx => ?_, h4⟩
      exact mem_each_child (c := mk .block bsp (counterStmt (.f id) :: ss')) (by simp) _ (mem_each_child h3 x hx)
  · intro b csp test ss _ e; cases e
  · intro x hx
    unfold dues at hx
    split at hx <;> cases hx

theorem Listed.counter {h : List RegOp} {c : Counter} {ss ss' : List Node} :
    Listed cx h (counterStmt c :: ss) ss' ↔ Listed cx h ss ss' := by
  have : ownStmts cx (counterStmt c :: ss) = ownStmts cx ss := rfl
  constructor
  · rintro ⟨h1, h2⟩
    exact ⟨Leads.counter.1 h1, by rw [this] at h2; exact h2⟩
  · rintro ⟨h1, h2⟩
    exact ⟨Leads.counter.2 h1, by rw [this]; exact h2⟩

theorem arrow (hgo : Go cx fi go) {m : Mode} (a : String) (sp : Span) (params body : Node) (h : List RegOp) :
    Gets fi (visitArrow cx go a sp params body) h
      fun n' h' o => Core cx m h' (mk (.arrow a) sp [params, body]) n' o := by
  unfold visitArrow
  refine .bind (.newFunction _ _ _) ?_
  rintro id h1 o1 _ ⟨hf, rfl⟩
  split
  · next bsp ss =>
    refine .bind (insertStmts hgo ss h1) ?_
    rintro ss' h2 o2 hp ⟨rfl, hl⟩
    refine .pure (arrow_body ?_ (functions_prefix hp hf))
    exact hl.prepend [counterStmt (.f id)]
  · next hne =>
    refine .bind (.and_run (insertStmts hgo _ h1) fun _ _ _ => insertStmts_counter) ?_
    rintro out h2 o2 hp ⟨⟨rfl, hl⟩, rest, rfl⟩
    refine .pure (arrow_body ?_ (functions_prefix hp hf))
    have : asArrowBody body = mk .block Span.dummy [mk .returnStmt body.span [body]] := by
      obtain ⟨k, bsp, cs⟩ := body
      refine asArrowBody_of_ne ?_
      rintro ⟨⟩
      exact hne bsp cs rfl
    rw [this]
    exact Listed.counter.1 hl

/-! ### Initialisers -/

/-- `cover_statement` with the top of the node stack known. -/
def coverAs (cx : Ctx) (go : Mode → Node → M Node) (t : Tag) (m : Mode) (e : Node) : M Node :=
  if e.kind = .taggedTpl then do
    mark cx e.span
    go m e
  else if e.any Kind.isBlock then do
    mark cx e.span
    pure e
  else do
    Visitor.keepIf (e.any Kind.isStmt = false) () (mark cx e.span)
    if e.any Kind.isHoisting ∧ t = .varDeclarator then coverHoisted cx e
    else if e.any Kind.isExpr then replaceWithStmtCounter cx e
    else pure e

theorem coverStatement_as (t : Tag) (m : Mode) (e : Node) (st : St) (ht : st.nodes.head? = some t) :
    coverStatement cx go m e st = coverAs cx go t m e st := by
  unfold coverStatement coverAs
  by_cases h1 : e.kind = .taggedTpl
  · simp only [h1, if_true]
  · simp only [h1, if_false]
    by_cases h2 : e.any Kind.isBlock = true
    · simp only [h2, if_true]
    · simp only [h2]
      obtain ⟨before, nodes, ignore, cov⟩ := st
      cases nodes with
      | nil => cases ht
      | cons t' nodes =>
        cases ht
        by_cases h3 : e.any Kind.isStmt = false
        · unfold Visitor.keepIf
          simp only [h3, if_true]
          rfl
        · unfold Visitor.keepIf
          simp only [h3]
          rfl

/-- What `coverAs` makes of an initialiser. -/
structure InitPost (cx : Ctx) (t : Tag) (h : List RegOp) (o : List Node) (e e1 : Node) : Prop where
  due : e.kind = .taggedTpl ∨ e.any Kind.isBlock = true → Due cx h o e.span
  shape : e.kind ≠ .taggedTpl → e1 = e ∨ ∃ id, e1 = wrapCounter (.s id) e
  wrapped : e.kind ≠ .taggedTpl → e.any Kind.isBlock = false → ¬ (e.any Kind.isHoisting = true ∧ t = .varDeclarator) →
    e.any Kind.isExpr = true → ∃ id, e1 = wrapCounter (.s id) e ∧ (statements h)[id]? = some (cx.range e.span)

theorem keepMark (p : Prop) [Decidable p] (sp : Span) (h : List RegOp) :
    Gets fi (Visitor.keepIf p () (mark cx sp)) h fun _ h' o => p ∨ Due cx h' o sp :=
  .keepIf .inl fun _ => .conseq (.mark sp) fun _ _ _ _ hd => .inr hd

theorem coverHoisted (e : Node) (h : List RegOp) :
    Gets fi (coverHoisted cx e) h fun e1 _ _ => e1 = e ∨ ∃ id, e1 = wrapCounter (.s id) e := by
  unfold Visitor.coverHoisted
  refine .bind (P := fun _ h' o => h' = h ∧ o = [])
    (.neutral (fun st a st' hs => by cases hs; exact ⟨rfl, rfl, rfl⟩) fun _ _ _ _ => ⟨rfl, rfl⟩) ?_
  rintro nodes _ _ _ ⟨rfl, rfl⟩
  refine .ite (fun _ => ?_) fun _ => ?_
  · refine .bind (keepMark _ _ _) ?_
    intro _ h1 o1 _ _
    exact .pure (.inl rfl)
  · refine .conseq (.replaceWithStmtCounter e) ?_
    rintro e1 h' o _ ⟨_, id, rfl, _⟩
    exact .inr ⟨id, rfl⟩

theorem coverAs_post (hgo : Go cx fi go) (t : Tag) (m : Mode) (e : Node) (h : List RegOp) (hok : m.ok cx h) :
    Gets fi (coverAs cx go t m e) h fun e1 h' o => InitPost cx t h' o e e1 := by
  unfold coverAs
  split
  · next hk =>
    refine .bind (.mark _) ?_
    intro _ h1 o1 hp hd
    refine .conseq (hgo m e h1 (hok.mono hp)) ?_
    intro e1 h2 o2 hp2 _
    exact ⟨fun _ => hd.mono hp2 (by simp; grind), fun hn => absurd hk hn, fun hn => absurd hk hn⟩
  · next hk =>
    split
    · next hb =>
      refine .bind (.mark _) ?_
      intro _ h1 o1 hp hd
      refine .pure ⟨fun _ => by simpa using hd, fun _ => .inl rfl, fun _ hn => ?_⟩
      rw [hb] at hn; cases hn
    · next hb =>
      have hnd : ∀ {P : Prop}, (e.kind = .taggedTpl ∨ e.any Kind.isBlock = true) → P := by
        rintro P (h | h)
        · exact absurd h hk
        · exact absurd h hb
      refine .bind (keepMark _ _ _) ?_
      intro _ h1 o1 hp _
      split
      · next hh =>
        refine .conseq (coverHoisted e h1) ?_
        intro e1 h2 o2 _ he
        exact ⟨hnd, fun _ => he, fun _ _ hn => absurd hh hn⟩
      · split
        · refine .conseq (.replaceWithStmtCounter e) ?_
          rintro e1 h2 o2 _ ⟨_, id, rfl, hs⟩
          exact ⟨hnd, fun _ => .inr ⟨id, rfl⟩, fun _ _ _ _ => ⟨id, rfl, hs⟩⟩
        · next hne =>
          exact .pure ⟨hnd, fun _ => .inl rfl, fun _ _ _ he => absurd he hne⟩

theorem covered_wrap {h : List RegOp} {c : Counter} {e n' : Node} (hc : Covered cx h (wrapCounter c e) n') :
    Covered cx h e n' := by
  intro x hx
  refine hc x (reached_iff.2 (.inr ⟨mk .seq Span.dummy [counterExpr c, e], ?_, reached_iff.2 (.inr ⟨e, ?_, hx⟩)⟩))
  · simp [wrapCounter, opened, Ctx.ignores, hintable, Node.kind, heads]
  · simp [opened, Ctx.ignores, hintable, Node.kind, heads]

theorem strip_wrap_inj {c : Counter} {e x : Node} (hs : strip (wrapCounter c x) = strip (wrapCounter c e)) :
    strip x = strip e := by
  rw [strip_wrapCounter, strip_wrapCounter] at hs
  unfold wrapCounter at hs
  injection hs with _ _ hs
  injection hs with hs _
  injection hs with _ _ hs
  injection hs with _ hs
  injection hs with hs _

/-- Variables with a name, class fields with a key; then the initialiser, and decorators of fields. -/
def isInit (k : Kind) (post : Nat) : Bool :=
  match k, post with
  | .varDeclarator, 0 | .classProp, 1 | .privateProp, 1 => true
  | _, _ => false

theorem init_cases {k : Kind} {post : List Node} (hk : isInit k post.length = true) :
    (k = .varDeclarator ∧ post = []) ∨ (k = .classProp ∧ ∃ d, post = [d]) ∨ (k = .privateProp ∧ ∃ d, post = [d]) := by
  unfold isInit at hk
  split at hk
  · next h => exact .inl ⟨rfl, List.length_eq_zero_iff.1 h⟩
  · next h => exact .inr (.inl ⟨rfl, List.length_eq_one_iff.1 h⟩)
  · next h => exact .inr (.inr ⟨rfl, List.length_eq_one_iff.1 h⟩)
  · cases hk

theorem initialiser (hgo : Go cx fi go) {m : Mode} (hm : normal m = true) {k : Kind} {t : Tag} {sp : Span}
    {a e : Node} {post : List Node} (hk : isInit k post.length = true) (ht : t = .varDeclarator → k = .varDeclarator)
    (h : List RegOp) (hok : m.ok cx h) :
    Gets fi (do
        let e ← Visitor.keepIf (e.isNone = true) e (coverAs cx go t m e)
        Visitor.visitChildren cx go m (mk k sp (a :: e :: post))) h
      fun n' h' o => Core cx m h' (mk k sp (a :: e :: post)) n' o := by
  have hsingle : ∀ cs, single (mk k sp cs) = true := by
    intro cs; cases k <;> first | rfl | cases hk
  have hkeep : Gets fi (Visitor.keepIf (e.isNone = true) e (coverAs cx go t m e)) h
      fun e1 h' o => (e.isNone = true ∧ e1 = e) ∨ InitPost cx t h' o e e1 :=
    .keepIf (fun hn => .inl ⟨hn, rfl⟩) fun _ => .conseq (coverAs_post hgo t m e h hok) fun _ _ _ _ hp => .inr hp
  refine .bind hkeep ?_
  intro e1 h1 o1 hp1 hinit
  refine .conseq (visitChildren hgo hm k sp (a :: e1 :: post) (hsingle _) h1 (hok.mono hp1)) ?_
  rintro _ h2 o2 hp2 ⟨cs', rfl, hp⟩
  obtain ⟨a', _, pa, hr, rfl⟩ := List.forall₂_cons_left_iff.1 hp.parts
  obtain ⟨e', post', pe, hr', rfl⟩ := List.forall₂_cons_left_iff.1 hr
  have hk' : isInit k post'.length = true := by rw [← hr'.length_eq]; exact hk
  have hlist : ∀ (a e : Node) (post : List Node), isInit k post.length = true → lists cx (mk k sp (a :: e :: post)) = [] := by
    intro a e post hk
    rcases init_cases hk with ⟨rfl, rfl⟩ | ⟨rfl, d, rfl⟩ | ⟨rfl, d, rfl⟩ <;> rfl
  have hof : ∀ (a e : Node) (post : List Node), isInit k post.length = true → initOf (mk k sp (a :: e :: post)) = some e := by
    intro a e post hk
    rcases init_cases hk with ⟨rfl, rfl⟩ | ⟨rfl, d, rfl⟩ | ⟨rfl, d, rfl⟩ <;> rfl
  refine ⟨⟨noLists (hlist _ _ _ hk) (hlist _ _ _ hk'), ?_, ?_, ?_⟩, ?_, ?_, ?_⟩
  · intro _ i hi hw
    rw [hof _ _ _ hk] at hi
    cases hi
    unfold wrappable at hw
    simp only [Bool.and_eq_true, Bool.not_eq_true', Bool.and_eq_false_iff] at hw
    obtain ⟨⟨⟨⟨w1, w2⟩, w3⟩, w4⟩, w5⟩ := hw
    have w2 := of_decide_eq_true w2
    have w4 := w4.imp (fun x => of_decide_eq_false x) id
    simp only [Node.kind] at w4
    rcases hinit with ⟨hn, _⟩ | hinit
    · rw [w1] at hn; cases hn
    · obtain ⟨id, rfl, hs⟩ := hinit.wrapped w2 w3 (by
        rintro ⟨x1, x2⟩
        rcases w4 with w4 | w4
        · exact w4 (ht x2)
        · rw [w4] at x1; cases x1) (any_of_expr (by rw [noExpr_eq] at w5; simpa using w5))
      obtain ⟨x, rfl⟩ := pe.kept.wrap _ _ rfl
      exact ⟨id, x, hof _ _ _ hk', strip_wrap_inj pe.strip, statements_prefix hp2 hs⟩
  · intro _ nm d bd _ h4 _
    rcases init_cases hk with ⟨rfl, rfl⟩ | ⟨rfl, d, rfl⟩ | ⟨rfl, d, rfl⟩ <;> cases h4
  · intro _
    rcases init_cases hk with ⟨rfl, rfl⟩ | ⟨rfl, d, rfl⟩ | ⟨rfl, d, rfl⟩ <;> trivial
  · intro c hc
    have hc' : c = a ∨ (c = e ∧ e.kind ≠ .taggedTpl) ∨ c ∈ post := by
      rcases opened_sub hc with hc | ⟨l, hl, _⟩
      · rcases init_cases hk with ⟨rfl, rfl⟩ | ⟨rfl, d, rfl⟩ | ⟨rfl, d, rfl⟩
        all_goals
          simp only [heads, List.mem_append, List.mem_cons, List.mem_filter, decide_eq_true_eq] at hc
          grind
      · rw [hlist _ _ _ hk] at hl; cases hl
    rcases hc' with rfl | ⟨rfl, hne⟩ | hc'
    · exact ⟨a', mem_each_child (by simp), pa.covered⟩
    · refine ⟨e', mem_each_child (by simp), ?_⟩
      rcases hinit with ⟨_, rfl⟩ | hinit
      · exact pe.covered
      · rcases hinit.shape hne with rfl | ⟨id, rfl⟩
        · exact pe.covered
        · exact covered_wrap pe.covered
    · obtain ⟨c', h3, h4⟩ := forall₂_mem hr' hc'
      exact ⟨c', mem_each_child (by simp [h3]), h4.covered⟩
  · intro b csp test ss _ x
    cases x; cases hk
  · intro x hx
    unfold dues at hx
    split at hx
    · cases hx
    · rcases init_cases hk with ⟨rfl, rfl⟩ | ⟨rfl, d, rfl⟩ | ⟨rfl, d, rfl⟩ <;> simp only at hx
      · split at hx
        · cases hx
        · next hnone =>
          split at hx
          · next hd =>
            cases List.mem_singleton.1 hx
            rcases hinit with ⟨hn, _⟩ | hinit
            · exact absurd hn hnone
            · refine (hinit.due ?_).mono hp2 (by simp; grind)
              simpa using hd
          · cases hx
      · cases hx
      · cases hx

/-! ### Loops -/

theorem blockifyLast_eq (k : LoopKind) (cs : List Node) : blockifyLast cs = tidyBodies (.loop k) cs := by
  simp only [tidyBodies]
  induction cs with
  | nil => rfl
  | cons c cs ih =>
    cases cs with
    | nil =>
      obtain ⟨kk, sp, ss⟩ := c
      simp only [blockifyLast, mapLast]
      by_cases h : (mk kk sp ss).kind = .block
      · cases h; rfl
      · rw [if_neg h]
        congr 1
        unfold blockify
        split
        · next e => cases e; exact absurd rfl h
        · rfl
    | cons d ds =>
      rw [blockifyLast, mapLast, ih]
      · simp
      · simp

theorem loop (hgo : Go cx fi go) {m : Mode} (hm : normal m = true) (k : LoopKind) (sp : Span) (cs : List Node)
    (h : List RegOp) (hok : m.ok cx h) :
    Gets fi (do mark cx sp; Visitor.visitChildren cx go m (mk (.loop k) sp (blockifyLast cs))) h
      fun n' h' o => Core cx m h' (mk (.loop k) sp cs) n' o := by
  refine .bind (.mark sp) ?_
  intro _ h1 o1 hp1 hdue
  refine .conseq (visitChildren hgo hm (.loop k) sp (blockifyLast cs) rfl h1 (hok.mono hp1)) ?_
  rintro _ h' o hp ⟨cs', rfl, hps⟩
  refine ⟨.mk' (noLists rfl rfl) rfl rfl (fun _ => trivial), ?_, ?_, ?_⟩
  · intro c hc
    rcases opened_sub hc with hc | ⟨l, hl, _⟩
    · refine Part.under hps.parts ?_
      rw [blockifyLast_eq k]
      exact hc
    · cases hl
  · intro b csp test ss _ x; cases x
  · intro x hx
    unfold dues at hx
    split at hx
    · cases hx
    · cases List.mem_singleton.1 hx
      exact hdue.mono hp (by simp; grind)

end Cover
end Verif
