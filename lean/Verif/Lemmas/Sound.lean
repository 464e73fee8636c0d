import Verif.Lemmas.Does
/-
The visitors perform steps: one lemma for each definition of `Model/Visitor.lean`.
-/
namespace Verif
open Node RegOp

theorem Kind.listPos_append {k : Kind} {l : List Node} (h : k.listPos l = true) (r : List Node) :
    k.listPos (l ++ r) = true := by
  cases k <;> cases l <;> simp_all [Kind.listPos]

theorem quiet_of_marks {k : Kind} (h : k.marks = true) (sp : Span) (cs : List Node) :
    (mk k sp cs).quiet = false := by
  simp [quiet, h]

namespace Sound
open Visitor
variable {cx : Ctx} {fi : File} {go : Mode → Node → M Node}

/-- What is assumed of recursive visits. -/
def Go (cx : Ctx) (fi : File) (go : Mode → Node → M Node) : Prop :=
  ∀ m n q h, m.ok cx h → Does cx fi m.emits (go m n) n q h id (fun _ => q) anyH

theorem mapList {f : Node → M Node} {e : Emit} {k : Kind} {sp : Span} {I : List RegOp → Prop}
    (hI : ∀ h h', h <+: h' → I h → I h')
    (hf : ∀ l c r q h, I h → Does cx fi e (f c) (mk k sp (l ++ c :: r)) q h
      (fun a => mk k sp (l ++ a :: r)) (fun _ => q) anyH)
    (l cs : List Node) (q : List Counter) (h : List RegOp) (hi : I h) :
    Does cx fi e (M.mapList f cs) (mk k sp (l ++ cs)) q h (fun out => mk k sp (l ++ out))
      (fun _ => q) anyH := by
  induction cs generalizing l h with
  | nil => exact .pure rfl rfl trivial
  | cons c cs ih =>
    refine .bind (hf l c cs q h hi) ?_
    intro a h1 hp _
    have := ih (l ++ [a]) h1 (hI _ _ hp hi)
    simp only [List.append_assoc, List.singleton_append] at this
    refine .bind this ?_
    intro as h2 _ _
    exact .pure rfl rfl trivial

theorem insertStmt (hgo : Go cx fi go) (e : Emit) (k : Kind) (sp : Span) (l : List Node) (s : Node)
    (r : List Node) (hk : k.listPos l = true) (q : List Counter) (h : List RegOp) :
    Does cx fi e (insertStmt cx go s) (mk k sp (l ++ s :: r)) q h (fun out => mk k sp (l ++ out ++ r))
      (fun _ => q) anyH := by
  unfold Visitor.insertStmt
  split
  · exact .pure (by simp) rfl trivial
  · refine .frame _ _ fun cur => ?_
    split
    · exact .pure (by simp) rfl trivial
    · refine .bind (.fresh_insert cur k sp l r hk (hgo .stmt s q h trivial)) ?_
      intro a h1 _ _
      exact .pure (by simp) rfl trivial

theorem insertStmts (hgo : Go cx fi go) (e : Emit) (k : Kind) (sp : Span) (l ss : List Node)
    (hk : k.listPos l = true) (q : List Counter) (h : List RegOp) :
    Does cx fi e (insertStmts cx go ss) (mk k sp (l ++ ss)) q h (fun out => mk k sp (l ++ out))
      (fun _ => q) anyH := by
  induction ss generalizing l h with
  | nil => exact .pure rfl rfl trivial
  | cons s ss ih =>
    refine .bind (insertStmt hgo e k sp l s ss hk q h) ?_
    intro out h1 _ _
    refine .bind (ih (l ++ out) (Kind.listPos_append hk _) h1) ?_
    intro rest h2 _ _
    exact .pure (by simp) rfl trivial

theorem visitStmts (hgo : Go cx fi go) (e : Emit) (k : Kind) (sp : Span) (l ss : List Node)
    (hk : k.listPos l = true) (q : List Counter) (h : List RegOp) :
    Does cx fi e (visitStmts cx go ss) (mk k sp (l ++ ss)) q h (fun out => mk k sp (l ++ out))
      (fun _ => q) anyH := by
  unfold Visitor.visitStmts
  refine .bind (.push _) ?_
  rintro _ _ _ rfl
  refine .bind (insertStmts hgo e k sp l ss hk q _) ?_
  intro out h1 _ _
  refine .bind .pop ?_
  rintro _ _ _ rfl
  exact .pure rfl rfl trivial

/-- The children of nodes without statement lists. -/
theorem children (hgo : Go cx fi go) (m : Mode) (k : Kind) (sp : Span)
    (hk : m.emits ≠ .any ∨ ∀ b, k.carries b = true) (cs : List Node) (q : List Counter) (h : List RegOp)
    (hm : m.ok cx h) :
    Does cx fi m.emits (M.mapList (go m) cs) (mk k sp cs) q h (mk k sp) (fun _ => q) anyH := by
  refine mapList (I := fun h => m.ok cx h) (fun _ _ hp hm => hm.mono hp) ?_ [] cs q h hm
  intro l c r q h hi
  exact .child k sp l r (hk.imp id fun hk => hk _) (hgo m c q h hi)

theorem visitChildren (hgo : Go cx fi go) (m : Mode) (he : m.emits = .any) (n : Node)
    (q : List Counter) (h : List RegOp) (hm : m.ok cx h) :
    Does cx fi .any (visitChildren cx go m n) n q h id (fun _ => q) anyH := by
  unfold Visitor.visitChildren
  split
  · refine .bind (visitStmts hgo .any .block _ [] _ rfl q h) ?_
    intro cs h1 _ _
    exact .pure rfl rfl trivial
  · next sp test cons =>
    have h1 := hgo m test q h hm
    rw [he] at h1
    refine .bind (.child .switchCase sp [] cons (.inr rfl) h1) ?_
    intro t h2 _ _
    refine .bind (visitStmts hgo .any .switchCase sp [t] cons rfl q h2) ?_
    intro cs h3 _ _
    exact .pure rfl rfl trivial
  · next k sp cs h1 h2 =>
    have hc : k = .switchCase ∧ cs = [] ∨ ∀ b, k.carries b = true := by
      cases k <;> simp_all [Kind.carries]
      cases cs with
      | nil => rfl
      | cons c cs => exact (h2 c cs rfl).elim
    rcases hc with ⟨rfl, rfl⟩ | hc
    · refine .bind (F := fun cs => mk .switchCase sp cs) (Q := fun _ => q) (P := anyH)
        (.pure (a := []) rfl rfl trivial) ?_
      intro cs h1 _ _
      exact .pure rfl rfl trivial
    · have := children hgo m k sp (.inr hc) cs q h hm
      rw [he] at this
      refine .bind this ?_
      intro cs h1 _ _
      exact .pure rfl rfl trivial

/-- The children of a switch statement, visited by a visitor that is dropped. -/
theorem switchChildren (hgo : Go cx fi go) (m : Mode) (he : m.emits = .any) (sp : Span)
    (cs : List Node) (q : List Counter) (h : List RegOp) (hm : m.ok cx h) :
    Does cx fi .lost (Visitor.visitChildren cx go m (mk .switchStmt sp cs)) (mk .switchStmt sp cs) q h id
      (fun _ => q) anyH := by
  unfold Visitor.visitChildren
  refine .bind (F := fun cs => mk .switchStmt sp cs) (Q := fun _ => q) (P := anyH) ?_ ?_
  · refine mapList (I := fun h => m.ok cx h) (fun _ _ hp hm => hm.mono hp) ?_ [] cs q h hm
    intro l c r q h hi
    have := hgo m c q h hi
    rw [he] at this
    exact .lose sp l r this
  · intro cs h1 _ _
    exact .pure rfl rfl trivial

/-- `LogicalExprVisitor` emits nothing, so that it may visit anything. -/
theorem logicalChildren (hgo : Go cx fi go) (b : Nat) (n : Node) (q : List Counter) (h : List RegOp)
    (hb : LogicalBranch cx h b) :
    Does cx fi .none (logicalChildren go b n) n q h id (fun _ => q) anyH := by
  obtain ⟨k, sp, cs⟩ := n
  unfold Visitor.logicalChildren
  refine .bind (children hgo (.logical b) k sp (.inl (by intro h; cases h)) cs q h hb) ?_
  intro cs h1 _ _
  exact .pure rfl rfl trivial

/-- Wrap a child with a branch counter. -/
theorem replaceWithBranchCounter (e : Emit) (k : Kind) (sp : Span) (l : List Node) (x : Node)
    (r : List Node) (hk : k.wraps = true) (hd : k.inits = false) (b : Nat) (q : List Counter)
    (h : List RegOp) (hs : Sourced cx h (mk k sp (l ++ x :: r)) (.path b (cx.range x.span))) :
    Does cx fi e (replaceWithBranchCounter cx b x) (mk k sp (l ++ x :: r)) q h
      (fun a => mk k sp (l ++ a :: r)) (fun _ => q) anyH := by
  unfold Visitor.replaceWithBranchCounter
  refine .bind (.addPath b _ hs) ?_
  intro idx h1 _ _
  refine .step (n1 := mk k sp (l ++ wrapCounter (.b b idx) x :: r)) (q1 := q) ?_ ?_
  · simpa using Steps.wrap k sp l x r q (.b b idx) [] h1 hk fun h => by rw [hd] at h; cases h
  · exact .pure rfl rfl trivial

theorem replaceWithStmtCounter (e : Emit) (k : Kind) (sp : Span) (l : List Node) (x : Node)
    (r : List Node) (hk : k.wraps = true) (hd : k.inits = true → x.any Kind.isBlock = false ∧
      (k = .varDeclarator → x.any Kind.isHoisting = false))
    (q : List Counter) (h : List RegOp)
    (hs : Sourced cx h (mk k sp (l ++ x :: r)) (.statement (cx.range x.span))) :
    Does cx fi e (replaceWithStmtCounter cx x) (mk k sp (l ++ x :: r)) q h
      (fun a => mk k sp (l ++ a :: r)) (fun _ => q) anyH := by
  unfold Visitor.replaceWithStmtCounter
  refine .bind (.newStatement _ hs) ?_
  intro id h1 _ _
  refine .step (n1 := mk k sp (l ++ wrapCounter (.s id) x :: r)) (q1 := q) ?_ ?_
  · simpa using Steps.wrap k sp l x r q (.s id) [] h1 hk hd
  · exact .pure rfl rfl trivial

/-- A `Does` also says that the span of the root stays. -/
theorem Does_span {e : Emit} {x : M Node} {n : Node} {q : List Counter} {h : List RegOp}
    (hx : Does cx fi e x n q h id (fun _ => q) anyH) :
    Does cx fi e x n q h id (fun _ => q) (fun a _ => a.span = n.span ∧ a.kind = n.kind) := by
  intro st a st' hg hs
  obtain ⟨h', o, s, g, f, _⟩ := hx st a st' hg hs
  exact ⟨h', o, s, g, f, s.root.2, s.root.1⟩

theorem Kind.carries_of_wraps {k : Kind} (hk : k.wraps = true) (b : Bool) : k.carries b = true := by
  cases k <;> simp_all [Kind.wraps, Kind.carries]

theorem wrapBin (hgo : Go cx fi go) (m : Mode) (k : Kind) (sp : Span) (l : List Node) (x : Node)
    (r : List Node) (hk : k.wraps = true) (hd : k.inits = false) (b : Nat) (q : List Counter)
    (h : List RegOp) (hm : m.ok cx h) (hb : LogicalBranch cx h b)
    (hs : ∃ t l g, (branches h)[b]? = some (t, l, g) ∧ k.armOf t = true) :
    Does cx fi m.emits (wrapBin cx go m b x) (mk k sp (l ++ x :: r)) q h
      (fun a => mk k sp (l ++ a :: r)) (fun _ => q) anyH := by
  unfold Visitor.wrapBin
  simp only
  split
  · exact .pure rfl rfl trivial
  · split
    · have h1 := hgo (.logicalInner b) x q h hb
      refine .bind (.fresh _ (.silent (.child k sp l r (.inl (by intro h; cases h)) h1))) ?_
      intro a h2 _ _
      exact .pure rfl rfl trivial
    · split
      · next hrl =>
        refine .bind (.addPath b _ ⟨hs, .inr ⟨x, by simp [Node.children], rfl⟩⟩) ?_
        intro idx h1 hp _
        refine .step (n1 := mk k sp (l ++ wrapTruth b idx x :: r)) (q1 := q) ?_ ?_
        · simpa using Steps.truth k sp l x r q b idx [] h1 hk hd hrl (hb.mono hp)
        · exact .pure rfl rfl trivial
      · refine .bind (.child k sp l r (.inr (Kind.carries_of_wraps hk _)) (hgo m x q h hm)) ?_
        intro a h1 hp _
        refine replaceWithBranchCounter _ k sp l a r hk hd b q h1 ⟨?_, .inr ⟨a, by simp [Node.children], rfl⟩⟩
        obtain ⟨t, l, g, h2, h3⟩ := hs
        exact ⟨t, l, g, getElem?_prefix hp h2, h3⟩

theorem ite {e : Emit} {p : Prop} [Decidable p] {x y : M α} {n : Node}
    {q : List Counter} {h : List RegOp} {F : α → Node} {Q : α → List Counter}
    {P : α → List RegOp → Prop} (hx : Does cx fi e x n q h F Q P) (hy : Does cx fi e y n q h F Q P) :
    Does cx fi e (if p then x else y) n q h F Q P := by
  split
  · exact hx
  · exact hy

theorem keepIf {e : Emit} {p : Prop} [Decidable p] {a : α} {x : M α} {n : Node}
    {q : List Counter} {h : List RegOp} {F : α → Node} (hF : F a = n)
    (hx : Does cx fi e x n q h F (fun _ => q) anyH) :
    Does cx fi e (keepIf p a x) n q h F (fun _ => q) anyH := by
  unfold Visitor.keepIf
  split
  · exact .pure hF rfl trivial
  · exact hx

theorem identName_eq (n : Node) : n.identName? = n.kind.ident? := by
  obtain ⟨k, sp, cs⟩ := n
  cases k <;> rfl

theorem propName_eq (n : Node) : n.propName? = n.kind.prop? := by
  obtain ⟨k, sp, cs⟩ := n
  cases k <;> rfl

theorem createFn (e : Emit) (k : Kind) (sp : Span) (first fn : Node)
    (ident : Option (Span × String))
    (hk : k.hasFn = true) (hi : ∀ isp x, ident = some (isp, x) → isp = first.span ∨ isp = Span.dummy)
    (hc : ident.map (·.2) = (mk k sp [first, fn]).called)
    (q : List Counter) (h : List RegOp) :
    Does cx fi e (createFn cx ident fn) (mk k sp [first, fn]) q h (fun a => mk k sp [first, a])
      (fun _ => q) anyH := by
  unfold Visitor.createFn
  split
  · next a fsp params decorators body =>
    by_cases hb : body.kind = .block
    · have hbody : (mk k sp [first, mk (.function a) fsp [params, decorators, body]]).fnBody?
          = some body := by
        cases k <;> simp_all [Kind.hasFn, Node.fnBody?, Kind.isFn, Node.kind, Node.children]
      obtain ⟨bk, bsp, ss⟩ := body
      simp only [Node.kind] at hb
      subst hb
      refine .bind (.newFunction _ _ _ ?_) ?_
      · refine ⟨?_, _, hbody, ?_, ?_⟩
        · rcases ident with _ | ⟨isp, x⟩
          · exact ⟨fsp, .inr (.inr ⟨mk (.function a) fsp [params, decorators, mk .block bsp ss],
              by simp [Node.children], rfl⟩), rfl⟩
          · refine ⟨isp, ?_, rfl⟩
            rcases hi isp x rfl with h1 | h1
            · exact .inr (.inr ⟨first, by simp [Node.children], h1⟩)
            · exact .inr (.inl h1)
        · simp [Node.isNone]
        · exact hc
      · intro id h1 _ _
        refine .step (n1 := mk k sp [first, mk (.function a) fsp [params, decorators,
          mk .block bsp (counterStmt (.f id) :: ss)]]) (q1 := q) ?_ ?_
        · refine .child k sp [first] [] (.inl rfl) (.child (.function a) fsp [params, decorators] []
            (.inl rfl) ?_)
          simpa using Steps.headBlock bsp ss q (.f id) [] h1
        · refine .bind (F := fun b => mk k sp [first, mk (.function a) fsp [params, decorators, b]])
            (Q := fun _ => q) (P := anyH) (.pure rfl rfl trivial) ?_
          intro b h2 _ _
          exact .pure rfl rfl trivial
    · intro st a' st' hg hx
      exfalso
      obtain ⟨bk, bsp, ss⟩ := body
      simp only [Node.kind] at hb
      simp only [Visitor.newFunction, Bind.bind, M.bind] at hx
      have hp : ∀ id st, Visitor.prependFn id (mk bk bsp ss) st = .error .noFunctionBody := by
        intro id st
        cases bk <;> first | exact (hb rfl).elim | rfl
      rw [hp] at hx
      cases hx
  · exact .pure rfl rfl trivial

theorem topNode {e : Emit} {n : Node} {q : List Counter} {h : List RegOp} :
    Does cx fi e topNode n q h (fun _ => n) (fun _ => q) (fun _ h' => h' = h) := by
  refine .neutral ?_
  intro st a st' hx
  unfold Visitor.topNode at hx
  split at hx <;> cases hx
  exact ⟨rfl, rfl⟩

theorem coverHoisted (e : Emit) (k : Kind) (sp : Span) (l : List Node) (x : Node) (r : List Node)
    (hw : k.wraps = true) (hd : k ≠ .varDeclarator) (hb : x.any Kind.isBlock = false) (hq : (mk k sp (l ++ x :: r)).quiet = false)
    (q : List Counter) (h : List RegOp)
    (hs : ∀ h, Sourced cx h (mk k sp (l ++ x :: r)) (.statement (cx.range x.span))) (he : e = .any) :
    Does cx fi e (coverHoisted cx x) (mk k sp (l ++ x :: r)) q h
      (fun a => mk k sp (l ++ a :: r)) (fun _ => q) anyH := by
  subst he
  unfold Visitor.coverHoisted
  refine .bind (F := fun _ => mk k sp (l ++ x :: r)) (Q := fun _ => q) (P := anyH)
    (.conseq (.neutral fun st a st' hx => by cases hx; exact ⟨rfl, rfl⟩) fun _ _ _ => trivial) ?_
  intro nodes h1 _ _
  refine ite ?_ ?_
  · refine .bind (keepIf (F := fun _ => mk k sp (l ++ x :: r)) rfl (.mark _ hq (hs _))) ?_
    intro _ h2 _ _
    exact .pure rfl rfl trivial
  · exact replaceWithStmtCounter .any k sp l x r hw (fun _ => ⟨hb, fun h => (hd h).elim⟩) q _ (hs _)

theorem coverStatement (hgo : Go cx fi go) (m : Mode) (he : m.emits = .any) (k : Kind) (sp : Span)
    (l : List Node) (x : Node) (r : List Node) (hk : k.inits = true) (hd : k ≠ .varDeclarator)
    (q : List Counter) (h : List RegOp) (hm : m.ok cx h) :
    Does cx fi .any (coverStatement cx go m x) (mk k sp (l ++ x :: r)) q h
      (fun a => mk k sp (l ++ a :: r)) (fun _ => q) anyH := by
  have hw : k.wraps = true := by cases k <;> simp_all [Kind.inits, Kind.wraps]
  have hq : (mk k sp (l ++ x :: r)).quiet = false :=
    quiet_of_marks (by cases k <;> simp_all [Kind.inits, Kind.marks]) _ _
  have hs : ∀ h, Sourced cx h (mk k sp (l ++ x :: r)) (.statement (cx.range x.span)) :=
    fun h => .inr ⟨hk, x, by simp [Node.children], rfl⟩
  unfold Visitor.coverStatement
  split
  · refine .bind (.mark _ hq (hs h)) ?_
    intro _ h1 hp _
    have := hgo m x q h1 (hm.mono hp)
    rw [he] at this
    exact .child k sp l r (.inr (Kind.carries_of_wraps hw _)) this
  · split
    · refine .bind (.mark _ hq (hs h)) ?_
      intro _ h1 hp _
      exact .pure rfl rfl trivial
    · next hblk =>
      refine .bind (keepIf (F := fun _ => mk k sp (l ++ x :: r)) rfl (.mark _ hq (hs h))) ?_
      intro _ h1 _ _
      refine .bind topNode ?_
      rintro parent _ _ rfl
      split
      · exact coverHoisted .any k sp l x r hw hd (by simpa using hblk) hq q _ hs rfl
      · split
        · exact replaceWithStmtCounter .any k sp l x r hw (fun _ => ⟨by simpa using hblk, fun h => (hd h).elim⟩)
            q _ (hs _)
        · exact .pure rfl rfl trivial

/-- `cover_statement` as it is for the initialiser of a variable. -/
def coverInit (cx : Ctx) (go : Mode → Node → M Node) (m : Mode) (e : Node) : M Node :=
  if e.kind = .taggedTpl then do
    mark cx e.span
    go m e
  else if e.any Kind.isBlock then do
    mark cx e.span
    pure e
  else do
    Visitor.keepIf (e.any Kind.isStmt = false) () (mark cx e.span)
    if e.any Kind.isHoisting then do
      let nodes ← allNodes
      Visitor.keepIf (¬ (nodes[if nodes.length ≥ 4 then nodes.length - 4 else 0]? = some .blockStmt ∨
        nodes[if nodes.length ≥ 4 then nodes.length - 4 else 0]? = some .program)) () (mark cx e.span)
      pure e
    else if e.any Kind.isExpr then Visitor.replaceWithStmtCounter cx e
    else pure e

theorem coverStatement_top (m : Mode) (e : Node) (st : St) (ht : st.nodes.head? = some .varDeclarator) :
    Visitor.coverStatement cx go m e st = coverInit cx go m e st := by
  unfold Visitor.coverStatement coverInit
  by_cases h1 : e.kind = .taggedTpl
  · simp only [h1, if_true]
  · simp only [h1, if_false]
    by_cases h2 : e.any Kind.isBlock = true
    · simp only [h2, if_true]
    · simp only [h2]
      have key : ∀ st : St, st.nodes.head? = some .varDeclarator →
          (do
            let parent ← Visitor.topNode
            if e.any Kind.isHoisting ∧ parent = .varDeclarator then Visitor.coverHoisted cx e
            else if e.any Kind.isExpr then Visitor.replaceWithStmtCounter cx e
            else pure e : M Node) st =
          (if e.any Kind.isHoisting then do
              let nodes ← allNodes
              Visitor.keepIf (¬ (nodes[if nodes.length ≥ 4 then nodes.length - 4 else 0]? = some .blockStmt ∨
                nodes[if nodes.length ≥ 4 then nodes.length - 4 else 0]? = some .program)) () (mark cx e.span)
              pure e
            else if e.any Kind.isExpr then Visitor.replaceWithStmtCounter cx e
            else pure e : M Node) st := by
        intro st ht
        obtain ⟨before, nodes, ignore, cov⟩ := st
        cases nodes with
        | nil => cases ht
        | cons t nodes =>
          cases ht
          simp only [Visitor.topNode, Bind.bind, M.bind]
          by_cases h3 : e.any Kind.isHoisting = true
          · simp only [h3, and_self, if_true]
            unfold Visitor.coverHoisted
            simp only [Visitor.allNodes, Bind.bind, M.bind]
            rw [if_pos]
            · rfl
            · rw [List.getElem?_eq_getElem (by
                simp only [List.length_reverse, List.length_cons]
                split <;> omega)]
              rfl
          · simp only [h3, false_and, if_false, Bool.false_eq_true]
      by_cases h3 : e.any Kind.isStmt = false
      · simp only [Visitor.keepIf, h3, if_true, Bind.bind, M.bind, Pure.pure, M.pure]
        exact key st ht
      · simp only [Visitor.keepIf, h3, if_false, Bind.bind, M.bind]
        exact key _ ht

theorem coverInit_does (hgo : Go cx fi go) (m : Mode) (he : m.emits = .any) (sp : Span)
    (l : List Node) (x : Node) (r : List Node) (q : List Counter) (h : List RegOp) (hm : m.ok cx h) :
    Does cx fi .any (Sound.coverInit cx go m x) (mk .varDeclarator sp (l ++ x :: r)) q h
      (fun a => mk .varDeclarator sp (l ++ a :: r)) (fun _ => q) anyH := by
  have hq : (mk .varDeclarator sp (l ++ x :: r)).quiet = false := quiet_of_marks rfl _ _
  have hs : ∀ h, Sourced cx h (mk .varDeclarator sp (l ++ x :: r)) (.statement (cx.range x.span)) :=
    fun h => .inr ⟨rfl, x, by simp [Node.children], rfl⟩
  unfold Sound.coverInit
  split
  · refine .bind (.mark _ hq (hs h)) ?_
    intro _ h1 hp _
    have := hgo m x q h1 (hm.mono hp)
    rw [he] at this
    exact .child .varDeclarator sp l r (.inr (Kind.carries_of_wraps rfl _)) this
  · split
    · refine .bind (.mark _ hq (hs h)) ?_
      intro _ h1 hp _
      exact .pure rfl rfl trivial
    · next hblk =>
      refine .bind (keepIf (F := fun _ => mk .varDeclarator sp (l ++ x :: r)) rfl (.mark _ hq (hs h))) ?_
      intro _ h1 _ _
      by_cases hh : x.any Kind.isHoisting = true
      · rw [if_pos hh]
        refine .bind (F := fun _ => mk .varDeclarator sp (l ++ x :: r)) (Q := fun _ => q) (P := anyH)
          (.conseq (.neutral fun st a st' hx => by cases hx; exact ⟨rfl, rfl⟩) fun _ _ _ => trivial) ?_
        intro nodes h2 _ _
        refine .bind (keepIf (F := fun _ => mk .varDeclarator sp (l ++ x :: r)) rfl (.mark _ hq (hs _))) ?_
        intro _ h2 _ _
        exact .pure rfl rfl trivial
      · rw [if_neg hh]
        refine ite ?_ ?_
        · exact replaceWithStmtCounter .any .varDeclarator sp l x r rfl
            (fun _ => ⟨by simpa using hblk, fun _ => by simpa using hh⟩) q _ (hs _)
        · exact .pure rfl rfl trivial

/-- An arm of an if statement. -/
theorem wrapArm (hgo : Go cx fi go) (cur : Option IgnoreScope) (sp : Span) (l : List Node) (s : Node)
    (r : List Node) (hp : Kind.bodyPos .ifStmt l r = true) (hr : r = [] → s.isNone = false)
    (b : Nat) (q : List Counter) (h : List RegOp)
    (hs : TypedBranch .if h b) :
    Does cx fi .any (wrapArm cx go cur b (cx.range sp) s) (mk .ifStmt sp (l ++ s :: r)) q h
      (fun a => mk .ifStmt sp (l ++ a :: r)) (fun _ => q) anyH := by
  unfold Visitor.wrapArm
  refine .bind (.addPath b _ ?_) ?_
  · obtain ⟨l', g, h1⟩ := hs
    exact ⟨⟨.if, l', g, h1, rfl⟩, .inl rfl⟩
  · intro idx h1 _ _
    split
    · next bsp ss =>
      refine .step (n1 := mk .ifStmt sp (l ++ mk .block bsp (counterStmt (.b b idx) :: ss) :: r))
        (q1 := q) ?_ ?_
      · refine .child _ _ _ _ (.inl rfl) ?_
        simpa using Steps.headBlock bsp ss q (.b b idx) [] h1
      · refine .bind (.child .ifStmt sp l r (.inr rfl)
          (insertStmts hgo .any .block bsp [counterStmt (.b b idx)] ss rfl q h1)) ?_
        intro ss' h2 _ _
        exact .pure rfl rfl trivial
    · next hnb =>
      have hk : s.kind ≠ .block := by
        obtain ⟨sk, ssp, ss⟩ := s
        rintro hk
        simp only [Node.kind] at hk
        subst hk
        exact hnb ssp ss rfl
      refine .step (n1 := mk .ifStmt sp (l ++ mk .block Span.dummy [counterStmt (.b b idx), s] :: r))
        (q1 := q) ?_ ?_
      · have s1 := Steps.body (cx := cx) .ifStmt sp l s r (q ++ [.b b idx]) h1 hp hk (fun _ => hr)
        have s2 := Steps.headBlock (cx := cx) Span.dummy [s] q (.b b idx) [] h1
        have s3 := Steps.child .ifStmt sp l r (.inl rfl) s2
        simpa using s1.trans (by simpa using s3)
      · refine .bind (.child .ifStmt sp l r (.inr rfl)
          (.fresh_insert cur .block Span.dummy [counterStmt (.b b idx)] [] rfl
            (hgo .stmt s q h1 trivial))) ?_
        intro a h2 _ _
        exact .pure (by simp) rfl trivial

theorem visitArrow (hgo : Go cx fi go) (a : String) (sp : Span) (params body : Node)
    (q : List Counter) (h : List RegOp) :
    Does cx fi .any (visitArrow cx go a sp params body) (mk (.arrow a) sp [params, body]) q h id
      (fun _ => q) anyH := by
  unfold Visitor.visitArrow
  refine .bind (.newFunction _ _ _ ?_) ?_
  · exact ⟨⟨sp, .inl rfl, rfl⟩, body, by simp [Node.fnBody?, Node.kind, Kind.isFn, Node.children], rfl,
      rfl⟩
  · intro id h1 _ _
    split
    · next bsp ss =>
      refine .step (n1 := mk (.arrow a) sp [params, mk .block bsp (counterStmt (.f id) :: ss)])
        (q1 := q) ?_ ?_
      · refine .child _ _ [params] [] (.inl rfl) ?_
        simpa using Steps.headBlock bsp ss q (.f id) [] h1
      · refine .bind (.child (.arrow a) sp [params] [] (.inr rfl)
          (insertStmts hgo .any .block bsp [counterStmt (.f id)] ss rfl q h1)) ?_
        intro ss' h2 _ _
        exact .pure rfl rfl trivial
    · next hnb =>
      have hk : body.kind ≠ .block := by
        obtain ⟨sk, ssp, ss⟩ := body
        rintro hk
        simp only [Node.kind] at hk
        subst hk
        exact hnb ssp ss rfl
      refine .step (n1 := mk (.arrow a) sp [params, mk .block Span.dummy
        [counterStmt (.f id), mk .returnStmt body.span [body]]]) (q1 := q) ?_ ?_
      · have s1 := Steps.arrow (cx := cx) a sp params body (q ++ [.f id]) h1 hk
        have s2 := Steps.headBlock (cx := cx) Span.dummy [mk .returnStmt body.span [body]] q (.f id) [] h1
        have s3 := Steps.child (.arrow a) sp [params] [] (.inl rfl) s2
        simpa using s1.trans (by simpa using s3)
      · refine .bind (.child (.arrow a) sp [params] [] (.inr rfl)
          (insertStmts hgo .any .block Span.dummy []
            [counterStmt (.f id), mk .returnStmt body.span [body]] rfl q h1)) ?_
        intro ss' h2 _ _
        exact .pure rfl rfl trivial

theorem createAccessor (e : Emit) (name : String) (declSpan : Span) (k : Kind) (sp : Span)
    (key : Node) (l : List Node) (body : Node) (hk : k.isFn = true)
    (hd : declSpan = sp ∨ declSpan = key.span) (hc : some name = (mk k sp (key :: l ++ [body])).called)
    (q : List Counter) (h : List RegOp) :
    Does cx fi e (createAccessor cx name declSpan body) (mk k sp (key :: l ++ [body])) q h
      (fun a => mk k sp (key :: l ++ [a])) (fun _ => q) anyH := by
  unfold Visitor.createAccessor
  split
  · next bsp ss =>
    refine .bind (.newFunction _ _ _ ?_) ?_
    · refine ⟨⟨declSpan, ?_, rfl⟩, mk .block bsp ss, ?_, rfl, ?_⟩
      · rcases hd with hd | hd
        · exact .inl hd
        · exact .inr (.inr ⟨key, by simp [Node.children], hd⟩)
      · simp only [Node.fnBody?, Node.kind, hk, Node.children, if_true]
        exact List.getLast?_concat ..
      · exact hc
    · intro id h1 _ _
      refine .step (n1 := mk k sp (key :: l ++ [mk .block bsp (counterStmt (.f id) :: ss)])) (q1 := q) ?_ ?_
      · refine .child _ _ (key :: l) [] (.inl rfl) ?_
        simpa using Steps.headBlock bsp ss q (.f id) [] h1
      · exact .pure rfl rfl trivial
  · exact .pure rfl rfl trivial

theorem visitAccessor (hgo : Go cx fi go) (m : Mode) (he : m.emits = .any) (k : Kind) (sp : Span)
    (key : Node) (l : List Node) (body : Node) (hk : k.isFn = true)
    (hc : (mk k sp (key :: l ++ [body])).called = some (key.kind.prop?.getD "anonymous"))
    (q : List Counter) (h : List RegOp) (hm : m.ok cx h) :
    Does cx fi .any (visitAccessor cx go m (mk k sp (key :: l ++ [body])) key body
      fun body => mk k sp (key :: l ++ [body])) (mk k sp (key :: l ++ [body])) q h id
      (fun _ => q) anyH := by
  unfold Visitor.visitAccessor
  split
  · next name hname =>
    split
    · exact .pure rfl rfl trivial
    · refine .bind (createAccessor .any _ _ k sp key l body hk
        (.inr rfl) (by rw [hc, ← propName_eq, hname]; rfl) q h) ?_
      intro b h1 hp _
      exact visitChildren hgo m he _ q h1 (hm.mono hp)
  · next hname =>
    refine .bind (createAccessor .any _ _ k sp key l body hk (.inl rfl)
      (by rw [hc, ← propName_eq, hname]; rfl) q h) ?_
    intro b h1 hp _
    exact visitChildren hgo m he _ q h1 (hm.mono hp)

theorem visitIf (hgo : Go cx fi go) (m : Mode) (he : m.emits = .any) (cur : Option IgnoreScope)
    (sp : Span) (test cons alt : Node) (q : List Counter) (h : List RegOp) (hm : m.ok cx h) :
    Does cx fi .any (visitIf cx go m cur sp test cons alt) (mk .ifStmt sp [test, cons, alt]) q h id
      (fun _ => q) anyH := by
  unfold Visitor.visitIf
  refine .bind (.mark _ (quiet_of_marks rfl _ _) (.inl ⟨rfl, rfl⟩)) ?_
  intro _ h1 hp1 _
  refine .bind (.newBranch _ _ _ ⟨rfl, rfl, rfl⟩) ?_
  intro branch h2 hp2 hb
  have hb : TypedBranch .if h2 branch := ⟨_, _, hb⟩
  refine .bind (F := fun a => mk .ifStmt sp [test, a, alt]) (Q := fun _ => q) (P := anyH) ?_ ?_
  · exact keepIf rfl (wrapArm hgo cur sp [test] cons [alt] rfl (by simp) branch q h2 hb)
  · intro cons' h3 hp3 _
    refine .bind (F := fun a => mk .ifStmt sp [test, cons', a]) (Q := fun _ => q) (P := anyH) ?_ ?_
    · refine keepIf rfl ?_
      · split
        · next hn =>
          refine .step (.addElse sp test cons' alt q h3 hn) ?_
          exact wrapArm hgo cur sp [test, cons'] _ [] rfl (by simp [Node.isNone]) branch q h3 (hb.mono hp3)
        · next hn =>
          exact wrapArm hgo cur sp [test, cons'] alt [] rfl (by simpa using hn) branch q h3 (hb.mono hp3)
    · intro alt' h4 hp4 _
      have := hgo m test q h4 (hm.mono (hp1.trans (hp2.trans (hp3.trans hp4))))
      rw [he] at this
      refine .bind (.child .ifStmt sp [] [cons', alt'] (.inr rfl) this) ?_
      intro t h5 _ _
      exact .pure rfl rfl trivial

theorem visitCond (hgo : Go cx fi go) (m : Mode) (he : m.emits = .any) (cur : Option IgnoreScope)
    (sp : Span) (test cons alt : Node) (q : List Counter) (h : List RegOp) (hm : m.ok cx h) :
    Does cx fi .any (visitCond cx go m cur sp test cons alt) (mk .cond sp [test, cons, alt]) q h id
      (fun _ => q) anyH := by
  unfold Visitor.visitCond
  refine .bind (F := fun a => mk .cond sp [test, a.1, a.2]) (Q := fun _ => q) (P := anyH) ?_ ?_
  · refine keepIf rfl ?_
    unfold Visitor.wrapCondArms
    refine .bind (.newBranch _ _ _ ⟨rfl, rfl, rfl⟩) ?_
    intro branch h1 hp1 hb
    refine .bind (F := fun a => mk .cond sp [test, a, alt]) (Q := fun _ => q) (P := anyH) ?_ ?_
    · exact keepIf rfl (replaceWithBranchCounter .any .cond sp [test] cons [alt] rfl rfl branch q h1
        ⟨⟨_, _, _, hb, rfl⟩, .inr ⟨cons, by simp [Node.children], rfl⟩⟩)
    · intro cons' h2 hp2 _
      refine .bind (F := fun a => mk .cond sp [test, cons', a]) (Q := fun _ => q) (P := anyH) ?_ ?_
      · exact keepIf rfl (replaceWithBranchCounter .any .cond sp [test, cons'] alt [] rfl rfl branch q h2
          ⟨⟨_, _, _, getElem?_prefix hp2 hb, rfl⟩, .inr ⟨alt, by simp [Node.children], rfl⟩⟩)
      · intro alt' h3 _ _
        exact .pure rfl rfl trivial
  · rintro ⟨cons', alt'⟩ h1 hp _
    exact visitChildren hgo m he _ q h1 (hm.mono hp)

theorem visitBin (hgo : Go cx fi go) (m : Mode) (branch? : Option Nat) (children : Node → M Node)
    (op : BinOp) (sp : Span) (left right : Node) (q : List Counter) (h : List RegOp) (hm : m.ok cx h)
    (hb : ∀ b, branch? = some b → LogicalBranch cx h b)
    (hc : ∀ n h', h <+: h' → Does cx fi m.emits (children n) n q h' id (fun _ => q) anyH) :
    Does cx fi m.emits (visitBin cx go m branch? children op sp left right)
      (mk (.bin op) sp [left, right]) q h id (fun _ => q) anyH := by
  unfold Visitor.visitBin
  refine .bind (.enterSpan sp) ?_
  rintro ⟨old, cur⟩ h0 hp0 hh0
  subst hh0
  have hplain : Does cx fi m.emits (do
      Visitor.push .binExpr
      let n ← children (mk (.bin op) sp [left, right])
      Visitor.exit old
      pure n) (mk (.bin op) sp [left, right]) q h0 id (fun _ => q) anyH := by
    refine .bind (.push _) ?_
    rintro _ _ _ rfl
    refine .bind (hc _ _ (List.prefix_refl _)) ?_
    intro n h1 _ _
    refine .bind (.exit _) ?_
    rintro _ _ _ rfl
    exact .pure rfl rfl trivial
  simp only
  split
  · exact hplain
  · split
    · next hl =>
      refine .bind (.push _) ?_
      rintro _ _ _ rfl
      refine .bind (F := fun _ => mk (.bin op) sp [left, right]) (Q := fun _ => q)
        (P := fun b h => LogicalBranch cx h b) ?_ ?_
      · unfold Visitor.logicalBranch
        split
        · next b => exact .pure rfl rfl (hb b rfl)
        · refine .conseq (.newBranch _ _ _ ⟨by simp [Node.kind, Kind.branchType, hl], rfl, rfl⟩) ?_
          intro b h1 hb
          exact ⟨_, _, _, hb, .inl ⟨rfl, rfl⟩⟩
      · intro b h1 hp1 hb
        have harm : ∀ h', h1 <+: h' →
            ∃ t l g, (branches h')[b]? = some (t, l, g) ∧ (Kind.bin op).armOf t = true := by
          intro h' hp
          obtain ⟨t, l, g, h2, h3⟩ := hb.mono hp
          refine ⟨t, l, g, h2, ?_⟩
          rcases h3 with ⟨rfl, _⟩ | rfl <;> exact hl
        refine .bind (wrapBin hgo m (.bin op) sp [] left [right] rfl rfl b q h1 (hm.mono hp1) hb
          (harm h1 (List.prefix_refl _))) ?_
        intro left' h2 hp2 _
        refine .bind (wrapBin hgo m (.bin op) sp [left'] right [] rfl rfl b q h2 (hm.mono (hp1.trans hp2))
          (hb.mono hp2) (harm h2 hp2)) ?_
        intro right' h3 _ _
        exact .pure rfl rfl trivial
    · exact hplain

theorem visitWithBody (hgo : Go cx fi go) (cur : Option IgnoreScope) (sp : Span) (obj body : Node)
    (q : List Counter) (h : List RegOp) :
    Does cx fi .any (visitWithBody cx go cur body) (mk .withStmt sp [obj, body]) q h
      (fun a => mk .withStmt sp [obj, a]) (fun _ => q) anyH := by
  unfold Visitor.visitWithBody
  split
  · next bsp ss =>
    refine .bind (.child .withStmt sp [obj] [] (.inr rfl)
      (insertStmts hgo .any .block bsp [] ss rfl q h)) ?_
    intro ss' h1 _ _
    exact .pure rfl rfl trivial
  · next hnb =>
    have hk : body.kind ≠ .block := by
      obtain ⟨sk, ssp, ss⟩ := body
      rintro hk
      simp only [Node.kind] at hk
      subst hk
      exact hnb ssp ss rfl
    refine .step (.body .withStmt sp [obj] body [] q h rfl hk (by intro h; cases h)) ?_
    refine .bind (.child .withStmt sp [obj] [] (.inr rfl)
      (.fresh_insert cur .block Span.dummy [] [] rfl (hgo .stmt body q h trivial))) ?_
    intro a h1 _ _
    exact .pure (by simp) rfl trivial

theorem blockifyLast (k : LoopKind) (sp : Span) (l cs : List Node) (q : List Counter) (h : List RegOp) :
    Steps cx (mk (.loop k) sp (l ++ cs)) q h (mk (.loop k) sp (l ++ blockifyLast cs)) q h [] := by
  induction cs generalizing l with
  | nil => exact .refl _ _ _
  | cons c cs ih =>
    cases cs with
    | nil =>
      simp only [Visitor.blockifyLast, Visitor.blockify]
      split
      · exact .refl _ _ _
      · next hnb =>
        refine .body (.loop k) sp l c [] q h ?_ ?_ (by intro h; cases h)
        · simp [Kind.bodyPos]
        · obtain ⟨sk, ssp, ss⟩ := c
          rintro hk
          simp only [Node.kind] at hk
          subst hk
          exact hnb ssp ss rfl
    | cons d cs =>
      have := ih (l ++ [c])
      simpa [Visitor.blockifyLast] using this

/-- `mark`, then the rest, for a node that marks. -/
theorem marked {x : M Node} {k : Kind} {sp : Span} {cs : List Node} {m : Mode} {q : List Counter}
    {h : List RegOp} (hk : k.marks = true) (hm : m.ok cx h)
    (hx : ∀ h', m.ok cx h' → Does cx fi .any x (mk k sp cs) q h' id (fun _ => q) anyH) :
    Does cx fi .any (do mark cx sp; x) (mk k sp cs) q h id (fun _ => q) anyH := by
  refine .bind (.mark _ (quiet_of_marks hk _ _) (.inl ⟨hk, rfl⟩)) ?_
  intro _ h1 hp _
  exact hx h1 (hm.mono hp)

/-- The same with a condition. -/
theorem markedIf {p : Prop} [Decidable p] {x : M Node} {k : Kind} {sp : Span} {cs : List Node}
    {m : Mode} {q : List Counter} {h : List RegOp} (hk : k.marks = true) (hm : m.ok cx h)
    (hx : ∀ h', m.ok cx h' → Does cx fi .any x (mk k sp cs) q h' id (fun _ => q) anyH) :
    Does cx fi .any (do Visitor.keepIf p () (mark cx sp); x) (mk k sp cs) q h id (fun _ => q) anyH := by
  refine .bind (keepIf (F := fun _ => mk k sp cs) rfl (.mark _ (quiet_of_marks hk _ _) (.inl ⟨hk, rfl⟩))) ?_
  intro _ h1 hp _
  exact hx h1 (hm.mono hp)

theorem initialised (hgo : Go cx fi go) (m : Mode) (he : m.emits = .any) (k : Kind) (sp : Span)
    (key x : Node) (r : List Node) (hk : k.inits = true) (hd : k ≠ .varDeclarator) (q : List Counter)
    (h : List RegOp) (hm : m.ok cx h) :
    Does cx fi .any (do
        let value ← Visitor.keepIf x.isNone x (Visitor.coverStatement cx go m x)
        Visitor.visitChildren cx go m (mk k sp (key :: value :: r)))
      (mk k sp (key :: x :: r)) q h id (fun _ => q) anyH := by
  refine .bind (F := fun a => mk k sp (key :: a :: r)) (Q := fun _ => q) (P := anyH) ?_ ?_
  · exact keepIf rfl (coverStatement hgo m he k sp [key] x r hk hd q h hm)
  · intro v h1 hp _
    exact visitChildren hgo m he _ q h1 (hm.mono hp)

theorem declared (hgo : Go cx fi go) (m : Mode) (he : m.emits = .any) (sp : Span)
    (key x : Node) (q : List Counter) (h : List RegOp) (hm : m.ok cx h) :
    Does cx fi .any (do
        let value ← Visitor.keepIf x.isNone x (Sound.coverInit cx go m x)
        Visitor.visitChildren cx go m (mk .varDeclarator sp [key, value]))
      (mk .varDeclarator sp [key, x]) q h id (fun _ => q) anyH := by
  refine .bind (F := fun a => mk .varDeclarator sp [key, a]) (Q := fun _ => q) (P := anyH) ?_ ?_
  · exact keepIf rfl (coverInit_does hgo m he sp [key] x [] q h hm)
  · intro v h1 hp _
    exact visitChildren hgo m he _ q h1 (hm.mono hp)

theorem declared_top (m : Mode) (sp : Span) (key x : Node) (st : St)
    (ht : st.nodes.head? = some .varDeclarator) :
    (do
        let value ← Visitor.keepIf x.isNone x (Visitor.coverStatement cx go m x)
        Visitor.visitChildren cx go m (mk .varDeclarator sp [key, value]) : M Node) st =
      (do
        let value ← Visitor.keepIf x.isNone x (Sound.coverInit cx go m x)
        Visitor.visitChildren cx go m (mk .varDeclarator sp [key, value]) : M Node) st := by
  unfold Visitor.keepIf
  by_cases h : x.isNone = true
  · simp only [h, if_true]
  · rw [if_neg h, if_neg h]
    simp only [Bind.bind, M.bind]
    rw [coverStatement_top m x st ht]

theorem withFn (hgo : Go cx fi go) (m : Mode) (he : m.emits = .any) (k : Kind) (sp : Span)
    (first fn : Node) (ident : Option (Span × String))
    (hk : k.hasFn = true) (hi : ∀ isp x, ident = some (isp, x) → isp = first.span ∨ isp = Span.dummy)
    (hc : ident.map (·.2) = (mk k sp [first, fn]).called)
    (q : List Counter) (h : List RegOp) (hm : m.ok cx h) :
    Does cx fi .any (do
        let fn ← Visitor.createFn cx ident fn
        Visitor.visitChildren cx go m (mk k sp [first, fn]))
      (mk k sp [first, fn]) q h id (fun _ => q) anyH := by
  refine .bind (createFn .any k sp first fn ident hk hi hc q h) ?_
  intro v h1 hp _
  exact visitChildren hgo m he _ q h1 (hm.mono hp)

theorem visitCase (hgo : Go cx fi go) (b : Nat) (sp : Span) (test : Node) (cs : List Node)
    (q : List Counter) (h : List RegOp) (hm : (Mode.switchCase b).ok cx h) :
    Does cx fi .any (visitCase cx go b sp test cs) (mk .switchCase sp (test :: cs)) q h id
      (fun _ => q) anyH := by
  have hs : Sourced cx h (mk .switchCase sp (test :: cs)) (.path b (cx.range sp)) := by
    obtain ⟨l', g, h1⟩ := hm
    exact ⟨⟨_, l', g, h1, rfl⟩, .inl rfl⟩
  unfold Visitor.visitCase
  refine .bind (.addPath b _ hs) ?_
  intro idx h1 hp _
  refine .bind (.child .switchCase sp [] cs (.inr rfl) (hgo (.switchCase b) test _ h1 (hm.mono hp))) ?_
  intro t h2 _ _
  refine .bind (visitStmts hgo .any .switchCase sp [t] cs rfl _ h2) ?_
  intro cs' h3 _ _
  refine .step (n1 := mk .switchCase sp (t :: counterStmt (.b b idx) :: cs')) (q1 := q) ?_ ?_
  · simpa using Steps.headCase sp t cs' q (.b b idx) [] h3
  · exact .pure rfl rfl trivial

theorem visitNode (hgo : Go cx fi go) (m : Mode) (he : m.emits = .any) (n : Node) (q : List Counter)
    (h : List RegOp) (hm : m.ok cx h) :
    Does cx fi .any (visitNode cx go m n) n q h id (fun _ => q) anyH := by
  have hch : ∀ n h', m.ok cx h' → Does cx fi .any (Visitor.visitChildren cx go m n) n q h' id
      (fun _ => q) anyH := fun n h' hm' => visitChildren hgo m he n q h' hm'
  unfold Visitor.visitNode
  split
  -- block
  · exact .guarded _ (hch _ h hm)
  -- fnDecl
  · refine .guarded _ (withFn hgo m he .fnDecl _ _ _ _ rfl ?_ ?_ q h hm)
    · intro isp x hx
      simp only [Option.map_eq_some_iff, Prod.mk.injEq] at hx
      obtain ⟨_, _, h1, _⟩ := hx
      exact .inl h1.symm
    · rw [identName_eq, Option.map_map]
      exact Option.map_id_fun' ▸ rfl
  -- arrow
  · exact .guarded _ (visitArrow hgo _ _ _ _ q h)
  -- fnExpr
  · refine .guarded _ ?_
    simp only
    refine ite (.pure rfl rfl trivial) (withFn hgo m he .fnExpr _ _ _ _ rfl ?_ ?_ q h hm)
    · intro isp x hx
      simp only [Option.map_eq_some_iff, Prod.mk.injEq] at hx
      obtain ⟨_, _, h1, _⟩ := hx
      exact .inl h1.symm
    · rw [identName_eq, Option.map_map]
      exact Option.map_id_fun' ▸ rfl
  -- exprStmt
  · refine .frame _ _ fun cur => ite (.pure rfl rfl trivial) (markedIf rfl hm (hch _))
  -- breakStmt
  · exact .frame _ _ fun cur => markedIf rfl hm (hch _)
  -- cond
  · exact .frame _ _ fun cur => visitCond hgo m he cur _ _ _ _ q h hm
  -- taggedTpl
  · exact .guarded _ (marked rfl hm (hch _))
  -- returnStmt
  · exact .frame _ _ fun cur => markedIf rfl hm (hch _)
  -- varDecl
  · exact .frame _ _ fun cur => hch _ h hm
  -- classDecl
  · exact .guarded _ (hch _ h hm)
  -- classProp
  · exact .guarded _ (initialised hgo m he .classProp _ _ _ _ rfl (by simp) q h hm)
  -- privateProp
  · exact .guarded _ (initialised hgo m he .privateProp _ _ _ _ rfl (by simp) q h hm)
  -- classMethod
  · refine .guarded _ ?_
    split
    · next name hname =>
      refine ite (.pure rfl rfl trivial) (withFn hgo m he .classMethod _ _ _ _ rfl ?_ ?_ q h hm)
      · intro isp x hx
        cases hx
        exact .inl rfl
      · rw [propName_eq] at hname
        simp only [Node.called, hname]
        rfl
    · exact .pure rfl rfl trivial
  -- methodProp
  · refine .guarded _ ?_
    split
    · next name hname =>
      refine ite (.pure rfl rfl trivial) (withFn hgo m he .methodProp _ _ _ _ rfl ?_ ?_ q h hm)
      · intro isp x hx
        cases hx
        exact .inl rfl
      · rw [propName_eq] at hname
        simp only [Node.called, hname]
        rfl
    · next hname =>
      refine withFn hgo m he .methodProp _ _ _ _ rfl ?_ ?_ q h hm
      · intro isp x hx
        cases hx
        exact .inr rfl
      · rw [propName_eq] at hname
        simp only [Node.called, hname]
        rfl
  -- getterProp
  · exact .guarded _ (visitAccessor hgo m he .getterProp _ _ [] _ rfl rfl q h hm)
  -- setterProp
  · exact .guarded _ (visitAccessor hgo m he .setterProp _ _ [_, _] _ rfl rfl q h hm)
  -- varDeclarator
  · exact .guarded_top _ (declared hgo m he _ _ _ q h hm) fun st ht => declared_top m _ _ _ st ht
  -- loop
  · next k sp cs =>
    refine .guarded _ (marked rfl hm fun h' hm' => ?_)
    exact .step (blockifyLast k sp [] cs q h') (hch _ h' hm')
  -- labeled
  · exact .frame _ _ fun cur => markedIf rfl hm (hch _)
  -- continueStmt
  · exact .frame _ _ fun cur => markedIf rfl hm (hch _)
  -- switchStmt
  · next sp cs =>
    refine .frame _ _ fun cur => ite (.pure rfl rfl trivial) (marked rfl hm fun h' hm' => ?_)
    refine .bind (.newBranch _ _ _ ⟨rfl, rfl, rfl⟩) ?_
    intro b h2 _ hb
    refine .bind (.fresh cur (switchChildren hgo (.switchCase b) rfl sp cs q h2 ⟨_, _, hb⟩)) ?_
    intro a h3 _ _
    exact .pure rfl rfl trivial
  -- ifStmt
  · exact .frame _ _ fun cur => ite (.pure rfl rfl trivial) (visitIf hgo m he cur _ _ _ _ q h hm)
  -- bin
  · next op sp left right =>
    have := visitBin hgo m none (Visitor.visitChildren cx go m) op sp left right q h hm
      (by intro b hb; cases hb) (fun n h' hp => by rw [he]; exact hch n h' (hm.mono hp))
    rw [he] at this
    exact this
  -- assignPat
  · next sp left right =>
    refine .guarded _ ?_
    refine .bind (.newBranch _ _ _ ⟨rfl, rfl, rfl⟩) ?_
    intro b h2 hp hb
    have := wrapBin hgo m .assignPat sp [left] right [] rfl rfl b q h2 (hm.mono hp)
      ⟨_, _, _, hb, .inr rfl⟩ ⟨_, _, _, hb, rfl⟩
    rw [he] at this
    refine .bind this ?_
    intro a h3 _ _
    exact .pure rfl rfl trivial
  -- tryStmt
  · exact .guarded _ (marked rfl hm (hch _))
  -- throwStmt
  · exact .guarded _ (marked rfl hm (hch _))
  -- withStmt
  · next sp obj body =>
    refine .frame _ _ fun cur => ite (.pure rfl rfl trivial) (marked rfl hm fun h' hm' => ?_)
    refine .bind (visitWithBody hgo cur sp obj body q h') ?_
    intro b h2 _ _
    exact .pure rfl rfl trivial
  -- switchCase
  · split
    · next b => exact .guarded _ (visitCase hgo b _ _ _ q h hm)
    · exact hch _ h hm
  -- exportDecl
  · split
    · exact .guarded _ (hch _ h hm)
    · exact hch _ h hm
  -- exportDefault
  · split
    · exact .guarded _ (hch _ h hm)
    · exact hch _ h hm
  -- debugger
  · split
    · exact .guarded _ (hch _ h hm)
    · exact hch _ h hm
  · exact hch _ h hm

theorem visitLogicalInner (hgo : Go cx fi go) (b : Nat) (n : Node) (q : List Counter)
    (h : List RegOp) (hb : LogicalBranch cx h b) :
    Does cx fi .none (visitLogicalInner cx go b n) n q h id (fun _ => q) anyH := by
  unfold Visitor.visitLogicalInner
  split
  · next op sp left right =>
    refine visitBin hgo (.logicalInner b) (some b) (Visitor.logicalChildren go b) op sp left right q h hb
      ?_ ?_
    · rintro _ ⟨⟩
      exact hb
    · intro n h' hp
      exact logicalChildren hgo b n q h' (hb.mono hp)
  · exact logicalChildren hgo b n q h hb

theorem visitLogical (hgo : Go cx fi go) (b : Nat) (n : Node) (q : List Counter)
    (h : List RegOp) (hb : LogicalBranch cx h b) :
    Does cx fi .none (visitLogical cx go b n) n q h id (fun _ => q) anyH := by
  unfold Visitor.visitLogical
  refine ite ?_ (logicalChildren hgo b n q h hb)
  exact .frame _ _ fun cur => hgo (.logicalInner b) n q h hb

/-- The visitors perform steps. -/
theorem visit (cx : Ctx) (fi : File) (fuel : Nat) : Go cx fi (visit cx fuel) := by
  induction fuel with
  | zero =>
    intro m n q h _ st a st' _ hx
    cases hx
  | succ fuel ih =>
    intro m n q h hm
    unfold Visitor.visit Visitor.step
    cases m with
    | coverage => exact visitNode ih .coverage rfl n q h hm
    | stmt => exact visitNode ih .stmt rfl n q h hm
    | switchCase b => exact visitNode ih (.switchCase b) rfl n q h hm
    | logical b => exact visitLogical ih b n q h hm
    | logicalInner b => exact visitLogicalInner ih b n q h hm

end Sound
end Verif
