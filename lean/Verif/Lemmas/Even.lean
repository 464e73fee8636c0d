import Verif.Spec.Slide
import Verif.Lemmas.LockstepStep
/-
A visit that meets no exposed logical expression leaves the node stack and the ignore scope as they were.
-/
namespace Verif
open Node

/-- Nothing that disturbs the node stack is exposed in the tree. -/
def Node.Even (t : Bool) (n : Node) : Prop := n.exposes (Kind.disturbs t) = false

namespace Node
variable {t : Bool}

theorem exposesList_false {p : Kind → Bool} : ∀ {cs : List Node}, exposesList p cs = false ↔ ∀ c ∈ cs, c.exposes p = false
  | [] => by simp [exposesList]
  | c :: cs => by simp [exposesList, exposesList_false (cs := cs)]

theorem even_mk {k : Kind} {sp : Span} {cs : List Node} :
    Even t (mk k sp cs) ↔ k.disturbs t = false ∧ (k.shields cs.length = false → ∀ c ∈ cs, Even t c) := by
  unfold Even
  rw [exposes, Bool.or_eq_false_iff, Bool.and_eq_false_iff, exposesList_false]
  simp only [Bool.not_eq_false']
  constructor
  · rintro ⟨h1, h2⟩
    refine ⟨h1, fun hs => h2.resolve_left ?_⟩
    rw [hs]
    exact Bool.false_ne_true
  · rintro ⟨h1, h2⟩
    refine ⟨h1, ?_⟩
    cases hs : k.shields cs.length with
    | true => exact .inl rfl
    | false => exact .inr (h2 hs)

theorem even_shield {k : Kind} {sp : Span} {cs : List Node} (h1 : k.disturbs t = false) (h2 : k.shields cs.length = true) : Even t (mk k sp cs) :=
  even_mk.2 ⟨h1, fun h => by rw [h2] at h; cases h⟩

theorem even_of {k : Kind} {sp : Span} {cs : List Node} (h1 : k.disturbs t = false) (h : ∀ c ∈ cs, Even t c) : Even t (mk k sp cs) :=
  even_mk.2 ⟨h1, fun _ => h⟩

theorem even_one {k : Kind} {sp : Span} {a : Node} (hk : k.disturbs t = false) (ha : Even t a) : Even t (mk k sp [a]) :=
  even_of hk (by simpa using ha)

theorem even_two {k : Kind} {sp : Span} {a b : Node} (hk : k.disturbs t = false) (ha : Even t a) (hb : Even t b) : Even t (mk k sp [a, b]) :=
  even_of hk (by simp [ha, hb])

theorem even_three {k : Kind} {sp : Span} {a b c : Node} (hk : k.disturbs t = false) (ha : Even t a) (hb : Even t b) (hc : Even t c) :
    Even t (mk k sp [a, b, c]) :=
  even_of hk (by simp [ha, hb, hc])

theorem even_wrapCounter {c : Counter} {e : Node} (h : Even t e) : Even t (wrapCounter c e) := by
  unfold wrapCounter
  exact even_one rfl (even_two rfl rfl h)

end Node

namespace Visitor

/-- The visitors that do not look for logical expressions. -/
def _root_.Verif.Mode.calm : Mode → Prop
  | .logical _ | .logicalInner _ => False
  | _ => True

/-- The computation leaves the node stack and the scope as they were if `q`, and its result has the property. -/
def Steady (q : Prop) (x : M α) (P : α → Prop) : Prop :=
  ∀ st a s, x st = .ok (a, s) → (q → s.nodes = st.nodes ∧ s.ignore = st.ignore) ∧ P a

/-- Even, unless truthiness is reported. -/
abbrev Even' (cx : Ctx) (n : Node) : Prop := cx.reportLogic = false → Even cx.reportLogic n

/-- Even trees. -/
abbrev Evens (cx : Ctx) (l : List Node) : Prop := ∀ n ∈ l, Even cx.reportLogic n

theorem even_of' {cx : Ctx} {k : Kind} {sp : Span} {cs : List Node} (h : Even cx.reportLogic (mk k sp cs)) {ds : List Node}
    (hd : ∀ d ∈ ds, Even' cx d) : Even' cx (mk k sp ds) := fun ht =>
  even_of (even_mk.1 h).1 fun d hm => hd d hm ht

namespace Steady
variable {α β : Type} {P : α → Prop} {Q : β → Prop} {cx : Ctx} {q : Prop}

theorem pure {a : α} (h : P a) : Steady q (Pure.pure a) P := by
  intro st b s h'
  cases h'
  exact ⟨fun _ => ⟨rfl, rfl⟩, h⟩

theorem bind {x : M α} {f : α → M β} (hx : Steady q x P) (hf : ∀ a, P a → Steady q (f a) Q) : Steady q (x >>= f) Q := by
  intro st b s h
  obtain ⟨a, s1, h1, h2⟩ := M.bind_ok h
  obtain ⟨h3, h4⟩ := hx _ _ _ h1
  obtain ⟨h5, h6⟩ := hf a h4 _ _ _ h2
  exact ⟨fun hq => ⟨(h5 hq).1.trans (h3 hq).1, (h5 hq).2.trans (h3 hq).2⟩, h6⟩

theorem imp {x : M α} {P' : α → Prop} (hx : Steady q x P) (h : ∀ a, P a → P' a) : Steady q x P' := fun _ _ _ hs =>
  ⟨(hx _ _ _ hs).1, h _ (hx _ _ _ hs).2⟩

theorem of_true {x : M α} (hx : Steady True x P) : Steady q x P := fun _ _ _ hs =>
  ⟨fun _ => (hx _ _ _ hs).1 trivial, (hx _ _ _ hs).2⟩

theorem ite {p : Prop} [Decidable p] {x x' : M α} (hx : p → Steady q x P) (hy : ¬p → Steady q x' P) :
    Steady q (if p then x else x') P := by
  split
  · exact hx ‹_›
  · exact hy ‹_›

theorem keepIf {p : Prop} [Decidable p] {a : α} {x : M α} (ha : P a) (hx : Steady q x P) : Steady q (keepIf p a x) P :=
  ite (fun _ => pure ha) fun _ => hx

theorem newStatement (r : Range) : Steady q (newStatement r) fun _ => True := fun _ _ _ h => by cases h; exact ⟨fun _ => ⟨rfl, rfl⟩, trivial⟩
theorem newFunction (n : Option String) (d l : Range) : Steady q (newFunction n d l) fun _ => True :=
  fun _ _ _ h => by cases h; exact ⟨fun _ => ⟨rfl, rfl⟩, trivial⟩
theorem newBranch (ty : BranchType) (r : Range) (l : Bool) : Steady q (newBranch ty r l) fun _ => True :=
  fun _ _ _ h => by cases h; exact ⟨fun _ => ⟨rfl, rfl⟩, trivial⟩
theorem addPath (b : Nat) (r : Range) : Steady q (addPath b r) fun _ => True :=
  fun _ _ _ h => by
    unfold Visitor.addPath at h
    split at h <;> cases h
    exact ⟨fun _ => ⟨rfl, rfl⟩, trivial⟩
theorem topNode : Steady q topNode fun _ => True :=
  fun _ _ _ h => by
    unfold Visitor.topNode at h
    split at h <;> cases h
    exact ⟨fun _ => ⟨rfl, rfl⟩, trivial⟩
theorem allNodes : Steady q allNodes fun _ => True := fun _ _ _ h => by cases h; exact ⟨fun _ => ⟨rfl, rfl⟩, trivial⟩
theorem drain : Steady q drain fun _ => True := fun _ _ _ h => by cases h; exact ⟨fun _ => ⟨rfl, rfl⟩, trivial⟩
theorem pushBefore (n : Node) : Steady q (pushBefore n) fun _ => True := fun _ _ _ h => by cases h; exact ⟨fun _ => ⟨rfl, rfl⟩, trivial⟩

theorem panic (e : Panic) : Steady q (M.panic e : M α) P := fun _ _ _ h => by cases h

/-- What is entered is left. -/
theorem enterSpan {sp : Span} {tg : Option IgnoreScope → Tag} {b : Option IgnoreScope → M α} (hb : ∀ cur, Steady q (b cur) P) :
    Steady q (do
      let r ← Visitor.enterSpan cx sp
      Visitor.push (tg r.2)
      let n ← b r.2
      Visitor.exit r.1
      Pure.pure n) P := by
  intro st a s h
  obtain ⟨r, s1, h1, h⟩ := M.bind_ok h
  obtain ⟨_, s2, h2, h⟩ := M.bind_ok h
  obtain ⟨n, s3, h3, h⟩ := M.bind_ok h
  obtain ⟨_, s4, h4, h⟩ := M.bind_ok h
  cases h
  cases h2
  cases h4
  obtain ⟨h5, h6⟩ := hb _ _ _ _ h3
  refine ⟨fun hq => ?_, h6⟩
  obtain ⟨h7, h8⟩ := h5 hq
  dsimp only at h7 h8
  unfold Visitor.enterSpan at h1
  split at h1
  · cases h1
    refine ⟨?_, rfl⟩
    dsimp only
    rw [h7]
    rfl
  · cases h1
    refine ⟨?_, rfl⟩
    dsimp only
    rw [h7]
    rfl

theorem frame {t : Tag} {sp : Span} {b : Option IgnoreScope → M α} (hb : ∀ cur, Steady q (b cur) P) :
    Steady q (frame cx t sp b) P := by
  intro st a s h
  unfold Visitor.frame Visitor.enter at h
  obtain ⟨r, s2, h1, h⟩ := M.bind_ok h
  obtain ⟨_, s1, h0, h1⟩ := M.bind_ok h1
  obtain ⟨n, s3, h3, h⟩ := M.bind_ok h
  obtain ⟨_, s4, h4, h⟩ := M.bind_ok h
  cases h
  cases h0
  cases h4
  obtain ⟨h5, h6⟩ := hb _ _ _ _ h3
  refine ⟨fun hq => ?_, h6⟩
  obtain ⟨h7, h8⟩ := h5 hq
  unfold Visitor.enterSpan at h1
  split at h1
  · cases h1
    refine ⟨?_, rfl⟩
    dsimp only
    rw [h7]
    rfl
  · cases h1
    refine ⟨?_, rfl⟩
    dsimp only
    rw [h7]
    rfl

theorem guarded {t : Tag} {n : Node} {b : M Node} {P : Node → Prop} (hn : P n) (hb : Steady q b P) :
    Steady q (guarded cx t n b) P :=
  frame fun _ => ite (fun _ => pure hn) fun _ => hb

/-- A visitor of its own leaves the visitor as it was. -/
theorem fresh {q' : Prop} {ig : Option IgnoreScope} {x : M α} (hx : Steady q' x P) : Steady q (fresh ig x) fun r => P r.1 := by
  intro st r s h
  unfold Visitor.fresh at h
  split at h
  · cases h
  · next a st1 hxs =>
    cases h
    exact ⟨fun _ => ⟨rfl, rfl⟩, (hx _ _ _ hxs).2⟩

/-- Nothing is known of the result. -/
theorem any {x : M α} : Steady False x fun _ => True := fun _ _ _ _ => ⟨nofun, trivial⟩

theorem mark (sp : Span) : Steady q (mark cx sp) fun _ => True :=
  bind (newStatement _) fun _ _ => pushBefore _

theorem mapList {f : Node → M Node} {l : List Node} {P : Node → Prop} (h : ∀ c ∈ l, Steady q (f c) P) :
    Steady q (M.mapList f l) fun l' => l'.length = l.length ∧ ∀ n ∈ l', P n := by
  induction l with
  | nil => exact pure ⟨rfl, nofun⟩
  | cons a l ih =>
    exact bind (h a (by simp)) fun _ h1 => bind (ih fun c hc => h c (by simp [hc])) fun _ h2 => pure (by
      refine ⟨congrArg (· + 1) h2.1, fun n hn => ?_⟩
      rcases List.mem_cons.1 hn with rfl | hn
      · exact h1
      · exact h2.2 n hn)

theorem replaceWithStmtCounter {e : Node} {P : Node → Prop} (h : ∀ c, P (wrapCounter c e)) : Steady q (replaceWithStmtCounter cx e) P :=
  bind (newStatement _) fun _ _ => pure (h _)

theorem replaceWithBranchCounter (b : Nat) {e : Node} {P : Node → Prop} (h : ∀ c, P (wrapCounter c e)) :
    Steady q (replaceWithBranchCounter cx b e) P :=
  bind (addPath _ _) fun _ _ => pure (h _)

theorem insertStmt (go : Mode → Node → M Node) (s : Node) : Steady q (insertStmt cx go s) fun _ => True :=
  ite (fun _ => pure trivial) fun _ => frame fun _ => ite (fun _ => pure trivial) fun _ =>
    bind (fresh any) fun _ _ => pure trivial

theorem insertStmts (go : Mode → Node → M Node) : ∀ ss : List Node, Steady q (insertStmts cx go ss) fun _ => True
  | [] => pure trivial
  | s :: ss => bind (insertStmt go s) fun _ _ => bind (insertStmts go ss) fun _ _ => pure trivial

theorem visitStmts (go : Mode → Node → M Node) (ss : List Node) : Steady q (visitStmts cx go ss) fun _ => True := by
  intro st r s h
  obtain ⟨_, s1, h1, h⟩ := M.bind_ok h
  obtain ⟨_, s2, h2, h⟩ := M.bind_ok h
  obtain ⟨_, s3, h3, h⟩ := M.bind_ok h
  cases h
  cases h1
  cases h3
  obtain ⟨h4, h5⟩ := (insertStmts (q := True) go ss _ _ _ h2).1 trivial
  refine ⟨fun _ => ⟨?_, h5⟩, trivial⟩
  dsimp only at h4 ⊢
  rw [h4]
  rfl

section
variable {go : Mode → Node → M Node} (hgo : ∀ m n, Even cx.reportLogic n → Steady m.calm (go m n) (Even' cx))
include hgo

theorem visitChildren {m : Mode} {n : Node} (hn : Even cx.reportLogic n)
    (hs : n.kind = .block ∨ n.kind.shields n.children.length = false) : Steady m.calm (visitChildren cx go m n) (Even' cx) := by
  unfold Visitor.visitChildren
  split
  · exact bind (visitStmts go _) fun _ _ => pure fun _ => even_shield rfl rfl
  · cases (even_mk.1 hn).1
  · next k sp cs h _ =>
    have hs := hs.resolve_left h
    exact bind (mapList fun c hc => hgo _ _ ((even_mk.1 hn).2 hs c hc)) fun _ h => pure (even_of' hn h.2)

omit hgo in
theorem switchChildren (m : Mode) (sp : Span) (cs : List Node) : Steady False (Visitor.visitChildren cx go m (mk .switchStmt sp cs)) (Even' cx) :=
  bind (P := fun _ => True) any fun _ _ => pure fun _ => even_shield rfl rfl

theorem logicalChildren (b : Nat) {n : Node} (hn : Even cx.reportLogic n) : Steady False (logicalChildren go b n) (Even' cx) := by
  cases n with
  | mk k sp cs =>
    cases hs : k.shields cs.length with
    | true =>
      exact bind (mapList (P := fun _ => True) fun c hc => any) fun _ h => pure fun _ => even_shield (even_mk.1 hn).1 (h.1 ▸ hs)
    | false => exact bind (mapList fun c hc => hgo (.logical b) _ ((even_mk.1 hn).2 hs c hc)) fun _ h => pure (even_of' hn h.2)

theorem wrapBin (m : Mode) (b : Nat) {e : Node} (he : Even cx.reportLogic e) : Steady m.calm (wrapBin cx go m b e) (Even' cx) :=
  ite (fun _ => pure fun _ => he) fun _ => ite (fun _ => bind (fresh (hgo _ _ he)) fun _ h => pure h) fun _ =>
    ite (fun ht => bind (addPath _ _) fun _ _ => pure fun hf => absurd (ht.symm.trans hf) nofun) fun _ =>
      bind (hgo _ _ he) fun _ h => replaceWithBranchCounter b fun _ ht => even_wrapCounter (h ht)

omit hgo in
theorem createFn (i : Option (Span × String)) {fn : Node} (h : Even cx.reportLogic fn) : Steady q (createFn cx i fn) (Even cx.reportLogic) := by
  unfold Visitor.createFn
  split
  · rename_i a sp params decorators body
    have hc := (even_mk.1 h).2 rfl
    refine bind (newFunction _ _ _) fun id _ => bind (P := Even cx.reportLogic) ?_ fun b hb => pure (even_three rfl (hc _ (by simp)) (hc _ (by simp)) hb)
    unfold prependFn
    split
    · exact pure (even_shield rfl rfl)
    · exact panic _
  · exact pure h

omit hgo in
theorem coverHoisted {e : Node} (h : Even cx.reportLogic e) : Steady q (coverHoisted cx e) (Even cx.reportLogic) :=
  bind allNodes fun _ _ => ite (fun _ => bind (keepIf trivial (mark _)) fun _ _ => pure h) fun _ => replaceWithStmtCounter fun _ => even_wrapCounter h

theorem coverStatement (m : Mode) {e : Node} (h : Even cx.reportLogic e) : Steady m.calm (coverStatement cx go m e) (Even cx.reportLogic) :=
  ite (fun hk => bind (mark _) fun _ _ => (hgo _ _ h).imp fun a ha => ha (by
    cases e with
    | mk k sp cs =>
      cases (show k = .taggedTpl from hk)
      exact (even_mk.1 h).1)) fun _ => ite (fun _ => bind (mark _) fun _ _ => pure h) fun _ =>
    bind (keepIf trivial (mark _)) fun _ _ => bind topNode fun _ _ => ite (fun _ => coverHoisted h) fun _ =>
      ite (fun _ => replaceWithStmtCounter fun _ => even_wrapCounter h) fun _ => pure h

omit hgo in
theorem wrapArm (cur : Option IgnoreScope) (b : Nat) (r : Range) (s : Node) :
    Steady q (wrapArm cx go cur b r s) (Even cx.reportLogic) := by
  unfold Visitor.wrapArm
  refine bind (addPath _ _) fun idx _ => ?_
  split
  · exact bind (insertStmts go _) fun _ h => pure (even_shield rfl rfl)
  · exact bind (fresh any) fun _ h => pure (even_shield rfl rfl)

omit hgo in
theorem visitArrow (a : String) (sp : Span) (params body : Node) :
    Steady q (visitArrow cx go a sp params body) (Even cx.reportLogic) := by
  unfold Visitor.visitArrow
  refine bind (newFunction _ _ _) fun idx _ => ?_
  split
  · exact bind (insertStmts go _) fun _ h => pure (even_shield rfl rfl)
  · exact bind (insertStmts go _) fun _ h => pure (even_shield rfl rfl)

omit hgo in
theorem blockify (s : Node) (h : Even cx.reportLogic s) : Even cx.reportLogic (blockify s) := by
  unfold Visitor.blockify
  split
  · exact h
  · exact even_shield rfl rfl

omit hgo in
theorem blockifyLast : ∀ {cs : List Node}, Evens cx cs → Evens cx (blockifyLast cs)
  | [], h => h
  | [a], h => fun n hn => by
    rw [List.mem_singleton.1 hn]
    exact blockify a (h a (by simp))
  | a :: b :: cs, h => fun n hn => by
    rcases List.mem_cons.1 hn with rfl | hn
    · exact h _ (by simp)
    · exact blockifyLast (fun n hn => h n (List.mem_cons_of_mem _ hn)) n hn

omit hgo in
theorem createAccessor (name : String) (sp : Span) {body : Node} (h : Even cx.reportLogic body) :
    Steady q (createAccessor cx name sp body) (Even cx.reportLogic) := by
  unfold Visitor.createAccessor
  split
  · exact bind (newFunction _ _ _) fun _ _ => pure (even_shield rfl rfl)
  · exact pure h

theorem visitAccessor (m : Mode) {n key body : Node} {rebuild : Node → Node} (hn : Even cx.reportLogic n) (hb : Even cx.reportLogic body)
    (hr : ∀ b, Even cx.reportLogic b → Even cx.reportLogic (rebuild b) ∧ (rebuild b).kind.shields (rebuild b).children.length = false) :
    Steady m.calm (visitAccessor cx go m n key body rebuild) (Even' cx) := by
  unfold Visitor.visitAccessor
  split
  · exact ite (fun _ => pure fun _ => hn) fun _ => bind (createAccessor _ _ hb) fun _ h => visitChildren hgo (hr _ h).1 (.inr (hr _ h).2)
  · exact bind (createAccessor _ _ hb) fun _ h => visitChildren hgo (hr _ h).1 (.inr (hr _ h).2)

theorem visitIf (m : Mode) (cur : Option IgnoreScope) (sp : Span) {test cons alt : Node} (ht : Even cx.reportLogic test)
    (hc : Even cx.reportLogic cons) (ha : Even cx.reportLogic alt) :
    Steady m.calm (visitIf cx go m cur sp test cons alt) (Even' cx) :=
  bind (mark _) fun _ _ => bind (newBranch _ _ _) fun _ _ => bind (keepIf hc (wrapArm _ _ _ _)) fun _ h1 =>
    bind (keepIf ha (wrapArm _ _ _ _)) fun _ h2 => bind (hgo _ _ ht) fun _ h3 => pure fun ht => even_three rfl (h3 ht) h1 h2

theorem visitCond (m : Mode) (cur : Option IgnoreScope) (sp : Span) {test cons alt : Node} (ht : Even cx.reportLogic test)
    (hc : Even cx.reportLogic cons) (ha : Even cx.reportLogic alt) :
    Steady m.calm (visitCond cx go m cur sp test cons alt) (Even' cx) := by
  refine bind (P := fun r => Even cx.reportLogic r.1 ∧ Even cx.reportLogic r.2) (keepIf ⟨hc, ha⟩ ?_) fun r h =>
    visitChildren hgo (even_three rfl ht h.1 h.2) (.inr rfl)
  exact bind (newBranch _ _ _) fun _ _ => bind (keepIf hc (replaceWithBranchCounter _ fun _ => even_wrapCounter hc)) fun _ h1 =>
    bind (keepIf ha (replaceWithBranchCounter _ fun _ => even_wrapCounter ha)) fun _ h2 => pure ⟨h1, h2⟩

omit hgo in
theorem visitBin (m : Mode) (branch? : Option Nat) {ch : Node → M Node} {op : BinOp}
    {sp : Span} {l r : Node} (hn : Even cx.reportLogic (mk (.bin op) sp [l, r])) (hch : Steady q (ch (mk (.bin op) sp [l, r])) (Even' cx)) :
    Steady q (visitBin cx go m branch? ch op sp l r) (Even' cx) := by
  have hop : op.isLogical = false := (even_mk.1 hn).1
  intro st a s h
  unfold Visitor.visitBin at h
  obtain ⟨x, s1, h1, h⟩ := M.bind_ok h
  have h2 : (do
      Visitor.push .binExpr
      let n ← ch (mk (.bin op) sp [l, r])
      Visitor.exit x.1
      Pure.pure n) s1 = .ok (a, s) := by
    obtain ⟨old, cur⟩ := x
    dsimp only at h
    rw [hop, if_neg Bool.false_ne_true, ite_self] at h
    exact h
  refine enterSpan (cx := cx) (sp := sp) (tg := fun _ => .binExpr) (fun _ => hch) st a s ?_
  show M.bind _ _ st = _
  unfold M.bind
  rw [h1]
  exact h2

omit hgo in
theorem visitWithBody (cur : Option IgnoreScope) (body : Node) :
    Steady q (visitWithBody cx go cur body) (Even cx.reportLogic) := by
  unfold Visitor.visitWithBody
  split
  · exact bind (insertStmts go _) fun _ h => pure (even_shield rfl rfl)
  · exact bind (fresh any) fun _ h => pure (even_shield rfl rfl)

theorem visitNode (m : Mode) {n : Node} (hn : Even cx.reportLogic n) : Steady m.calm (visitNode cx go m n) (Even' cx) := by
  have hv := visitChildren (m := m) hgo hn
  have hcs : ∀ {k : Kind} {sp : Span} {cs : List Node}, Even cx.reportLogic (mk k sp cs) → k.shields cs.length = false → Evens cx cs :=
    fun h hs => (even_mk.1 h).2 hs
  cases n using visitCases
  -- block
  · exact guarded (fun _ => hn) (hv (.inl rfl))
  -- function declaration
  · have h := hcs hn rfl
    exact guarded (fun _ => hn) (bind (createFn _ (h _ (by simp))) fun _ h1 => visitChildren hgo (even_two rfl (h _ (by simp)) h1) (.inr rfl))
  -- arrow
  · exact guarded (fun _ => hn) (imp (visitArrow _ _ _ _) fun _ h _ => h)
  -- function expression
  · have h := hcs hn rfl
    exact guarded (fun _ => hn) (ite (fun _ => pure fun _ => hn) fun _ =>
      bind (createFn _ (h _ (by simp))) fun _ h1 => visitChildren hgo (even_two rfl (h _ (by simp)) h1) (.inr rfl))
  -- expression statement
  · unfold Visitor.visitNode
    dsimp only
    exact frame fun cur => ite (fun _ => pure fun _ => hn) fun _ => bind (keepIf trivial (mark _)) fun _ _ => hv (.inr rfl)
  -- break
  · unfold Visitor.visitNode
    dsimp only
    exact frame fun cur => bind (keepIf trivial (mark _)) fun _ _ => hv (.inr rfl)
  -- conditional
  · have h := hcs hn rfl
    unfold Visitor.visitNode
    dsimp only
    exact frame fun cur => visitCond hgo m cur _ (h _ (by simp)) (h _ (by simp)) (h _ (by simp))
  -- tagged template
  · exact guarded (fun _ => hn) (bind (mark _) fun _ _ => hv (.inr rfl))
  -- return
  · unfold Visitor.visitNode
    dsimp only
    exact frame fun cur => bind (keepIf trivial (mark _)) fun _ _ => hv (.inr rfl)
  -- variable declaration
  · unfold Visitor.visitNode
    dsimp only
    exact frame fun cur => hv (.inr rfl)
  -- class declaration
  · exact guarded (fun _ => hn) (hv (.inr rfl))
  -- class properties
  · have h := hcs hn rfl
    exact guarded (fun _ => hn) (bind (keepIf (h _ (by simp)) (coverStatement hgo m (h _ (by simp)))) fun _ h1 =>
      visitChildren hgo (even_three rfl (h _ (by simp)) h1 (h _ (by simp))) (.inr rfl))
  · have h := hcs hn rfl
    exact guarded (fun _ => hn) (bind (keepIf (h _ (by simp)) (coverStatement hgo m (h _ (by simp)))) fun _ h1 =>
      visitChildren hgo (even_three rfl (h _ (by simp)) h1 (h _ (by simp))) (.inr rfl))
  -- methods
  · have h := hcs hn rfl
    refine guarded (fun _ => hn) ?_
    split
    · exact ite (fun _ => pure fun _ => hn) fun _ =>
        bind (createFn _ (h _ (by simp))) fun _ h1 => visitChildren hgo (even_two rfl (h _ (by simp)) h1) (.inr rfl)
    · exact pure fun _ => hn
  · have h := hcs hn rfl
    refine guarded (fun _ => hn) ?_
    split
    · exact ite (fun _ => pure fun _ => hn) fun _ =>
        bind (createFn _ (h _ (by simp))) fun _ h1 => visitChildren hgo (even_two rfl (h _ (by simp)) h1) (.inr rfl)
    · exact bind (createFn _ (h _ (by simp))) fun _ h1 => visitChildren hgo (even_two rfl (h _ (by simp)) h1) (.inr rfl)
  -- accessors
  · have h := hcs hn rfl
    exact guarded (fun _ => hn) (visitAccessor hgo m hn (h _ (by simp)) fun x hx => ⟨even_two rfl (h _ (by simp)) hx, rfl⟩)
  · have h := hcs hn rfl
    exact guarded (fun _ => hn) (visitAccessor hgo m hn (h _ (by simp)) fun x hx => ⟨even_of rfl (by
      simp only [List.mem_cons, List.not_mem_nil, or_false]
      rintro c (rfl | rfl | rfl | rfl)
      · exact h _ (by simp)
      · exact h _ (by simp)
      · exact h _ (by simp)
      · exact hx), rfl⟩)
  -- declarator
  · have h := hcs hn rfl
    exact guarded (fun _ => hn) (bind (keepIf (h _ (by simp)) (coverStatement hgo m (h _ (by simp)))) fun _ h1 =>
      visitChildren hgo (even_two rfl (h _ (by simp)) h1) (.inr rfl))
  -- loop
  · have h := hcs hn rfl
    exact guarded (fun _ => hn) (bind (mark _) fun _ _ => visitChildren hgo (even_of rfl (blockifyLast h)) (.inr rfl))
  -- labeled statement
  · unfold Visitor.visitNode
    dsimp only
    exact frame fun cur => bind (keepIf trivial (mark _)) fun _ _ => hv (.inr rfl)
  -- continue
  · unfold Visitor.visitNode
    dsimp only
    exact frame fun cur => bind (keepIf trivial (mark _)) fun _ _ => hv (.inr rfl)
  -- switch
  · unfold Visitor.visitNode
    dsimp only
    exact frame fun cur => ite (fun _ => pure fun _ => hn) fun _ => bind (mark _) fun _ _ => bind (newBranch _ _ _) fun b _ =>
      bind (fresh (switchChildren _ _ _)) fun _ h => pure h
  -- if
  · have h := hcs hn rfl
    unfold Visitor.visitNode
    dsimp only
    exact frame fun cur => ite (fun _ => pure fun _ => hn) fun _ => visitIf hgo m cur _ (h _ (by simp)) (h _ (by simp)) (h _ (by simp))
  -- binary
  · unfold Visitor.visitNode
    dsimp only
    exact visitBin m none hn (hv (.inr rfl))
  -- default value
  · have h := hcs hn rfl
    exact guarded (fun _ => hn) (bind (newBranch _ _ _) fun _ _ => bind (wrapBin hgo _ _ (h _ (by simp))) fun _ h1 =>
      pure fun ht => even_two rfl (h _ (by simp)) (h1 ht))
  -- try
  · exact guarded (fun _ => hn) (bind (mark _) fun _ _ => hv (.inr rfl))
  -- throw
  · exact guarded (fun _ => hn) (bind (mark _) fun _ _ => hv (.inr rfl))
  -- with
  · have h := hcs hn rfl
    unfold Visitor.visitNode
    dsimp only
    exact frame fun cur => ite (fun _ => pure fun _ => hn) fun _ => bind (mark _) fun _ _ =>
      bind (visitWithBody cur _) fun _ h1 => pure fun _ => even_two rfl (h _ (by simp)) h1
  -- switch case
  · cases (even_mk.1 hn).1
  -- module declarations, debugger
  · unfold Visitor.visitNode
    simp only
    split
    · exact guarded (fun _ => hn) (hv (.inr rfl))
    · exact hv (.inr rfl)
  · unfold Visitor.visitNode
    simp only
    split
    · exact guarded (fun _ => hn) (hv (.inr rfl))
    · exact hv (.inr rfl)
  · unfold Visitor.visitNode
    simp only
    split
    · exact guarded (fun _ => hn) (hv (.inr rfl))
    · exact hv (.inr rfl)
  -- others
  · next k sp cs hk =>
    rw [visitNode_default hk]
    refine hv (.inr ?_)
    show k.shields cs.length = false
    unfold Kind.shields
    split
    · cases hk
    · next h => 
      obtain ⟨a, b, rfl⟩ := List.length_eq_two.1 h
      cases hk
    · cases hk
    · rfl

theorem step (m : Mode) {n : Node} (hn : Even cx.reportLogic n) : Steady m.calm (step cx go m n) (Even' cx) := by
  unfold Visitor.step
  split
  · next b => exact ite (fun _ => frame fun _ => hgo (.logicalInner b) _ hn) fun _ => logicalChildren hgo _ hn
  · unfold visitLogicalInner
    split
    · exact visitBin _ _ hn (logicalChildren hgo _ hn)
    · exact logicalChildren hgo _ hn
  · exact visitNode hgo m hn

end

theorem visit (fuel : Nat) (m : Mode) (n : Node) (hn : Even cx.reportLogic n) : Steady m.calm (visit cx fuel m n) (Even' cx) := by
  induction fuel generalizing m n with
  | zero => intro st a s h; cases h
  | succ fuel ih => exact step ih m hn

theorem withBefore {x : M Node} {P : Node → Prop} (h : Steady q x P) : Steady q (withBefore x) fun _ => True :=
  bind h fun _ _ => bind drain fun _ _ => pure trivial

theorem visitItem {fuel : Nat} {i : Node} (hi : Even cx.reportLogic i) : Steady True (visitItem cx fuel i) fun _ => True :=
  ite (fun _ => pure trivial) fun _ => frame fun _ => withBefore (bind (keepIf trivial (mark _)) fun _ _ => visit fuel .coverage i hi)

theorem visitItems {fuel : Nat} : ∀ {is : List Node}, Evens cx is → Steady True (visitItems cx fuel is) fun _ => True
  | [], _ => pure trivial
  | i :: is, h => bind (visitItem (h i (by simp))) fun _ _ => bind (visitItems fun n hn => h n (by simp [hn])) fun _ _ => pure trivial

theorem visitScriptItems {fuel : Nat} : ∀ {is : List Node}, Evens cx is → Steady True (visitScriptItems cx fuel is) fun _ => True
  | [], _ => pure trivial
  | i :: is, h => bind (withBefore (visit fuel .coverage i (h i (by simp)))) fun _ _ =>
    bind (visitScriptItems fun n hn => h n (by simp [hn])) fun _ _ => pure trivial

end Steady
end Visitor
end Verif
