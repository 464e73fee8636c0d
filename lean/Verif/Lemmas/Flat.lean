import Verif.Model.Namespace
import Verif.Lemmas.LockstepStep
/-
On programs without namespaces the visitors never get to a namespace, so that it does not matter what they do there.
-/
namespace Verif
open Node

/-- There is no namespace in the tree. -/
def Node.Flat (n : Node) : Prop := n.any Kind.isNs = false

namespace Node

theorem flat_mk {k : Kind} {sp : Span} {cs : List Node} : Flat (mk k sp cs) ↔ k.isNs = false ∧ ∀ c ∈ cs, Flat c := by
  unfold Flat
  rw [any_mk, Bool.or_eq_false_iff, List.any_eq_false]
  simp

theorem Flat.child {n c : Node} (h : Flat n) (hc : c ∈ n.children) : Flat c := by
  cases n
  exact (flat_mk.1 h).2 c hc

theorem flat_one {k : Kind} {sp : Span} {a : Node} (hk : k.isNs = false) (ha : Flat a) : Flat (mk k sp [a]) :=
  flat_mk.2 ⟨hk, by simpa using ha⟩

theorem flat_two {k : Kind} {sp : Span} {a b : Node} (hk : k.isNs = false) (ha : Flat a) (hb : Flat b) : Flat (mk k sp [a, b]) :=
  flat_mk.2 ⟨hk, by simp [ha, hb]⟩

theorem flat_three {k : Kind} {sp : Span} {a b c : Node} (hk : k.isNs = false) (ha : Flat a) (hb : Flat b) (hc : Flat c) :
    Flat (mk k sp [a, b, c]) :=
  flat_mk.2 ⟨hk, by simp [ha, hb, hc]⟩

theorem flat_counterStmt (c : Counter) : Flat (counterStmt c) := rfl

theorem flat_wrapCounter {c : Counter} {e : Node} (h : Flat e) : Flat (wrapCounter c e) := by
  unfold wrapCounter
  exact flat_one rfl (flat_two rfl rfl h)

theorem flat_wrapTruth {b a : Nat} {e : Node} (h : Flat e) : Flat (wrapTruth b a e) := by
  unfold Flat at *
  unfold wrapTruth increaseTrue
  simp only [any_mk, List.any_cons, List.any_nil, h]
  rfl

end Node

namespace Visitor

/-- No pending statement contains a namespace. -/
def St.Flat (st : St) : Prop := ∀ b ∈ st.before, b.Flat

/-- The two computations do the same, with a result that has the property. -/
def Same (x y : M α) (P : α → Prop) : Prop :=
  ∀ st, St.Flat st → x st = y st ∧ ∀ a s, x st = .ok (a, s) → P a ∧ St.Flat s

/-- Lists of trees without namespaces. -/
abbrev Flats (l : List Node) : Prop := ∀ n ∈ l, n.Flat

theorem Flats.append {a b : List Node} (ha : Flats a) (hb : Flats b) : Flats (a ++ b) := fun n hn =>
  (List.mem_append.1 hn).elim (ha n) (hb n)

theorem Flats.cons {a : Node} {b : List Node} (ha : a.Flat) (hb : Flats b) : Flats (a :: b) := fun n hn => by
  rcases List.mem_cons.1 hn with rfl | hn
  · exact ha
  · exact hb n hn

theorem Flats.one {a : Node} (ha : a.Flat) : Flats [a] := fun n hn => by
  rw [List.mem_singleton.1 hn]
  exact ha

namespace Same
variable {α β : Type} {P : α → Prop} {Q : β → Prop} {cx : Ctx}

theorem pure {a : α} (h : P a) : Same (Pure.pure a) (Pure.pure a) P := by
  intro st hst
  refine ⟨rfl, fun b s h' => ?_⟩
  cases h'
  exact ⟨h, hst⟩

theorem bind {x y : M α} {f g : α → M β} (hx : Same x y P) (hf : ∀ a, P a → Same (f a) (g a) Q) : Same (x >>= f) (y >>= g) Q := by
  intro st hst
  obtain ⟨h1, h2⟩ := hx st hst
  show M.bind x f st = M.bind y g st ∧ _
  unfold M.bind
  rw [← h1]
  cases hxs : x st with
  | error e =>
    refine ⟨rfl, fun b s h => ?_⟩
    obtain ⟨a, s1, h3, -⟩ := M.bind_ok h
    rw [hxs] at h3
    cases h3
  | ok r =>
    obtain ⟨a, s1⟩ := r
    obtain ⟨h3, h4⟩ := h2 a s1 hxs
    obtain ⟨h5, h6⟩ := hf a h3 s1 h4
    refine ⟨h5, fun b s h => ?_⟩
    obtain ⟨a', s1', h7, h8⟩ := M.bind_ok h
    rw [hxs] at h7
    cases h7
    exact h6 b s h8

theorem imp {x y : M α} {P' : α → Prop} (hx : Same x y P) (h : ∀ a, P a → P' a) : Same x y P' := fun st hst =>
  ⟨(hx st hst).1, fun a s hs => ⟨h a ((hx st hst).2 a s hs).1, ((hx st hst).2 a s hs).2⟩⟩

theorem ite {p : Prop} [Decidable p] {x x' y y' : M α} (hx : p → Same x y P) (hy : ¬p → Same x' y' P) :
    Same (if p then x else x') (if p then y else y') P := by
  split
  · exact hx ‹_›
  · exact hy ‹_›

theorem keepIf {p : Prop} [Decidable p] {a : α} {x y : M α} (ha : P a) (hx : Same x y P) : Same (keepIf p a x) (keepIf p a y) P :=
  ite (fun _ => pure ha) fun _ => hx

/-- Computations that leave the pending statements alone. -/
theorem quiet {x : M α} (h : ∀ st a s, x st = .ok (a, s) → s.before = st.before ∧ P a) : Same x x P := fun st hst =>
  ⟨rfl, fun a s hs => ⟨(h st a s hs).2, fun b hb => hst b ((h st a s hs).1 ▸ hb)⟩⟩

theorem push (t : Tag) : Same (push t) (Visitor.push t) fun _ => True := quiet fun _ _ _ h => by cases h; exact ⟨rfl, trivial⟩
theorem pop : Same pop Visitor.pop fun _ => True := quiet fun _ _ _ h => by cases h; exact ⟨rfl, trivial⟩
theorem exit (old : Option IgnoreScope) : Same (exit old) (Visitor.exit old) fun _ => True :=
  quiet fun _ _ _ h => by cases h; exact ⟨rfl, trivial⟩
theorem enterSpan (sp : Span) : Same (enterSpan cx sp) (Visitor.enterSpan cx sp) fun _ => True :=
  quiet fun st a s h => by
    unfold Visitor.enterSpan at h
    split at h <;> (cases h; exact ⟨rfl, trivial⟩)
theorem newStatement (r : Range) : Same (newStatement r) (Visitor.newStatement r) fun _ => True :=
  quiet fun _ _ _ h => by cases h; exact ⟨rfl, trivial⟩
theorem newFunction (n : Option String) (d l : Range) : Same (newFunction n d l) (Visitor.newFunction n d l) fun _ => True :=
  quiet fun _ _ _ h => by cases h; exact ⟨rfl, trivial⟩
theorem newBranch (t : BranchType) (r : Range) (l : Bool) : Same (newBranch t r l) (Visitor.newBranch t r l) fun _ => True :=
  quiet fun _ _ _ h => by cases h; exact ⟨rfl, trivial⟩
theorem addPath (b : Nat) (r : Range) : Same (addPath b r) (Visitor.addPath b r) fun _ => True :=
  quiet fun _ _ _ h => by
    unfold Visitor.addPath at h
    split at h <;> cases h
    exact ⟨rfl, trivial⟩
theorem topNode : Same topNode Visitor.topNode fun _ => True :=
  quiet fun _ _ _ h => by
    unfold Visitor.topNode at h
    split at h <;> cases h
    exact ⟨rfl, trivial⟩
theorem allNodes : Same allNodes Visitor.allNodes fun _ => True := quiet fun _ _ _ h => by cases h; exact ⟨rfl, trivial⟩

theorem panic (e : Panic) : Same (M.panic e : M α) (M.panic e) P := fun _ _ => ⟨rfl, nofun⟩

theorem frame {t : Tag} {sp : Span} {b b' : Option IgnoreScope → M α} (hb : ∀ cur, Same (b cur) (b' cur) P) :
    Same (frame cx t sp b) (frame cx t sp b') P :=
  bind (bind (push t) fun _ _ => enterSpan sp) fun r _ => bind (hb r.2) fun _ h => bind (exit r.1) fun _ _ => pure h

theorem guarded {t : Tag} {n : Node} {b b' : M Node} (hn : n.Flat) (hb : Same b b' Flat) :
    Same (guarded cx t n b) (guarded cx t n b') Flat :=
  frame fun _ => ite (fun _ => pure hn) fun _ => hb

theorem fresh {ig : Option IgnoreScope} {x y : M α} (hx : Same x y P) :
    Same (fresh ig x) (fresh ig y) fun r => P r.1 ∧ Flats r.2 := by
  intro st hst
  obtain ⟨h1, h2⟩ := hx { st with before := [], ignore := ig } nofun
  unfold Visitor.fresh
  rw [← h1]
  refine ⟨rfl, fun r s h => ?_⟩
  cases hxs : x { st with before := [], ignore := ig } with
  | error e => rw [hxs] at h; cases h
  | ok r =>
    obtain ⟨a1, st1⟩ := r
    rw [hxs] at h
    cases h
    exact ⟨h2 _ _ hxs, hst⟩

theorem pushBefore {n : Node} (h : n.Flat) : Same (pushBefore n) (Visitor.pushBefore n) fun _ => True := by
  intro st hst
  refine ⟨rfl, fun a s hs => ?_⟩
  cases hs
  exact ⟨trivial, Flats.append hst (Flats.one h)⟩

theorem mark (sp : Span) : Same (mark cx sp) (Visitor.mark cx sp) fun _ => True :=
  bind (newStatement _) fun _ _ => pushBefore (flat_counterStmt _)

theorem mapList {f g : Node → M Node} {l : List Node} (h : ∀ c ∈ l, Same (f c) (g c) Flat) : Same (M.mapList f l) (M.mapList g l) Flats := by
  induction l with
  | nil => exact pure nofun
  | cons a l ih =>
    exact bind (h a (by simp)) fun _ h1 => bind (ih fun c hc => h c (by simp [hc])) fun _ h2 => pure (Flats.cons h1 h2)

theorem replaceWithStmtCounter {e : Node} (h : e.Flat) : Same (replaceWithStmtCounter cx e) (Visitor.replaceWithStmtCounter cx e) Flat :=
  bind (newStatement _) fun _ _ => pure (flat_wrapCounter h)

theorem replaceWithBranchCounter (b : Nat) {e : Node} (h : e.Flat) :
    Same (replaceWithBranchCounter cx b e) (Visitor.replaceWithBranchCounter cx b e) Flat :=
  bind (addPath _ _) fun _ _ => pure (flat_wrapCounter h)

section
variable {go go' : Mode → Node → M Node} (hgo : ∀ m n, n.Flat → Same (go m n) (go' m n) Flat)
include hgo

theorem insertStmt {s : Node} (hs : s.Flat) : Same (insertStmt cx go s) (Visitor.insertStmt cx go' s) Flats :=
  ite (fun _ => pure (Flats.one hs)) fun _ => frame fun _ => ite (fun _ => pure (Flats.one hs)) fun _ =>
    bind (fresh (hgo _ _ hs)) fun _ h => pure (h.2.append (Flats.one h.1))

theorem insertStmts : ∀ {ss : List Node}, Flats ss → Same (insertStmts cx go ss) (Visitor.insertStmts cx go' ss) Flats
  | [], _ => pure nofun
  | s :: ss, h => bind (insertStmt hgo (h s (by simp))) fun _ h1 =>
    bind (insertStmts fun n hn => h n (by simp [hn])) fun _ h2 => pure (h1.append h2)

theorem visitStmts {ss : List Node} (h : Flats ss) : Same (visitStmts cx go ss) (Visitor.visitStmts cx go' ss) Flats :=
  bind (push _) fun _ _ => bind (insertStmts hgo h) fun _ h => bind pop fun _ _ => pure h

theorem visitChildren (m : Mode) {n : Node} (hn : n.Flat) : Same (visitChildren cx go m n) (Visitor.visitChildren cx go' m n) Flat := by
  unfold Visitor.visitChildren
  split
  · exact bind (visitStmts hgo (flat_mk.1 hn).2) fun _ h => pure (flat_mk.2 ⟨rfl, h⟩)
  · have := (flat_mk.1 hn).2
    exact bind (hgo _ _ (this _ (by simp))) fun _ h1 => bind (visitStmts hgo fun c hc => this c (by simp [hc])) fun _ h2 =>
      pure (flat_mk.2 ⟨rfl, Flats.cons h1 h2⟩)
  · exact bind (mapList fun c hc => hgo _ _ ((flat_mk.1 hn).2 c hc)) fun _ h => pure (flat_mk.2 ⟨(flat_mk.1 hn).1, h⟩)

theorem logicalChildren (b : Nat) {n : Node} (hn : n.Flat) : Same (logicalChildren go b n) (Visitor.logicalChildren go' b n) Flat := by
  cases n
  exact bind (mapList fun c hc => hgo _ _ ((flat_mk.1 hn).2 c hc)) fun _ h => pure (flat_mk.2 ⟨(flat_mk.1 hn).1, h⟩)

theorem wrapBin (m : Mode) (b : Nat) {e : Node} (he : e.Flat) : Same (wrapBin cx go m b e) (Visitor.wrapBin cx go' m b e) Flat :=
  ite (fun _ => pure he) fun _ => ite (fun _ => bind (fresh (hgo _ _ he)) fun _ h => pure h.1) fun _ =>
    ite (fun _ => bind (addPath _ _) fun _ _ => pure (flat_wrapTruth he)) fun _ => bind (hgo _ _ he) fun _ h => replaceWithBranchCounter b h

omit hgo in
theorem createFn (i : Option (Span × String)) {fn : Node} (h : fn.Flat) : Same (createFn cx i fn) (Visitor.createFn cx i fn) Flat := by
  unfold Visitor.createFn
  split
  · rename_i a sp params decorators body
    have hc := (flat_mk.1 h).2
    refine bind (newFunction _ _ _) fun id _ => bind (P := Flat) ?_ fun b hb => pure (flat_three rfl (hc _ (by simp)) (hc _ (by simp)) hb)
    have hb := hc body (by simp)
    unfold prependFn
    split
    · exact pure (flat_mk.2 ⟨rfl, Flats.cons (flat_counterStmt _) (flat_mk.1 hb).2⟩)
    · exact panic _
  · exact pure h

omit hgo in
theorem coverHoisted {e : Node} (h : e.Flat) : Same (coverHoisted cx e) (Visitor.coverHoisted cx e) Flat :=
  bind allNodes fun _ _ => ite (fun _ => bind (keepIf trivial (mark _)) fun _ _ => pure h) fun _ => replaceWithStmtCounter h

theorem coverStatement (m : Mode) {e : Node} (h : e.Flat) : Same (coverStatement cx go m e) (Visitor.coverStatement cx go' m e) Flat :=
  ite (fun _ => bind (mark _) fun _ _ => hgo _ _ h) fun _ => ite (fun _ => bind (mark _) fun _ _ => pure h) fun _ =>
    bind (keepIf trivial (mark _)) fun _ _ => bind topNode fun _ _ => ite (fun _ => coverHoisted h) fun _ =>
      ite (fun _ => replaceWithStmtCounter h) fun _ => pure h

theorem wrapArm (cur : Option IgnoreScope) (b : Nat) (r : Range) {s : Node} (h : s.Flat) :
    Same (wrapArm cx go cur b r s) (Visitor.wrapArm cx go' cur b r s) Flat := by
  unfold Visitor.wrapArm
  refine bind (addPath _ _) fun idx _ => ?_
  split
  · exact bind (insertStmts hgo (flat_mk.1 h).2) fun _ h => pure (flat_mk.2 ⟨rfl, Flats.cons (flat_counterStmt _) h⟩)
  · exact bind (fresh (hgo _ _ h)) fun _ h => pure (flat_mk.2 ⟨rfl, Flats.cons (flat_counterStmt _) (h.2.append (Flats.one h.1))⟩)

theorem visitArrow (a : String) (sp : Span) {params body : Node} (hp : params.Flat) (h : body.Flat) :
    Same (visitArrow cx go a sp params body) (Visitor.visitArrow cx go' a sp params body) Flat := by
  unfold Visitor.visitArrow
  refine bind (newFunction _ _ _) fun idx _ => ?_
  split
  · exact bind (insertStmts hgo (flat_mk.1 h).2) fun _ h =>
      pure (flat_two rfl hp (flat_mk.2 ⟨rfl, Flats.cons (flat_counterStmt _) h⟩))
  · exact bind (insertStmts hgo (Flats.cons (flat_counterStmt _) (Flats.one (flat_one rfl h)))) fun _ h =>
      pure (flat_two rfl hp (flat_mk.2 ⟨rfl, h⟩))

omit hgo in
theorem blockify {s : Node} (h : s.Flat) : (blockify s).Flat := by
  unfold Visitor.blockify
  split
  · exact h
  · exact flat_one rfl h

omit hgo in
theorem blockifyLast : ∀ {cs : List Node}, Flats cs → Flats (blockifyLast cs)
  | [], h => h
  | [a], h => Flats.one (blockify (h a (by simp)))
  | a :: b :: cs, h => Flats.cons (h a (by simp)) (blockifyLast fun n hn => h n (List.mem_cons_of_mem _ hn))

omit hgo in
theorem createAccessor (name : String) (sp : Span) {body : Node} (h : body.Flat) :
    Same (createAccessor cx name sp body) (Visitor.createAccessor cx name sp body) Flat := by
  unfold Visitor.createAccessor
  split
  · exact bind (newFunction _ _ _) fun _ _ => pure (flat_mk.2 ⟨rfl, Flats.cons (flat_counterStmt _) (flat_mk.1 h).2⟩)
  · exact pure h

theorem visitAccessor (m : Mode) {n key body : Node} {rebuild : Node → Node} (hn : n.Flat) (hb : body.Flat)
    (hr : ∀ b, b.Flat → (rebuild b).Flat) :
    Same (visitAccessor cx go m n key body rebuild) (Visitor.visitAccessor cx go' m n key body rebuild) Flat := by
  unfold Visitor.visitAccessor
  split
  · exact ite (fun _ => pure hn) fun _ => bind (createAccessor _ _ hb) fun _ h => visitChildren hgo m (hr _ h)
  · exact bind (createAccessor _ _ hb) fun _ h => visitChildren hgo m (hr _ h)

theorem visitIf (m : Mode) (cur : Option IgnoreScope) (sp : Span) {test cons alt : Node} (ht : test.Flat) (hc : cons.Flat) (ha : alt.Flat) :
    Same (visitIf cx go m cur sp test cons alt) (Visitor.visitIf cx go' m cur sp test cons alt) Flat :=
  bind (mark _) fun _ _ => bind (newBranch _ _ _) fun _ _ => bind (keepIf hc (wrapArm hgo _ _ _ hc)) fun _ h1 =>
    bind (keepIf ha (wrapArm hgo _ _ _ (by split; exacts [rfl, ha]))) fun _ h2 => bind (hgo _ _ ht) fun _ h3 => pure (flat_three rfl h3 h1 h2)

theorem visitCond (m : Mode) (cur : Option IgnoreScope) (sp : Span) {test cons alt : Node} (ht : test.Flat) (hc : cons.Flat) (ha : alt.Flat) :
    Same (visitCond cx go m cur sp test cons alt) (Visitor.visitCond cx go' m cur sp test cons alt) Flat := by
  refine bind (P := fun r => r.1.Flat ∧ r.2.Flat) (keepIf ⟨hc, ha⟩ ?_) fun r h => visitChildren hgo m (flat_three rfl ht h.1 h.2)
  exact bind (newBranch _ _ _) fun _ _ => bind (keepIf hc (replaceWithBranchCounter _ hc)) fun _ h1 =>
    bind (keepIf ha (replaceWithBranchCounter _ ha)) fun _ h2 => pure ⟨h1, h2⟩

theorem visitBin (m : Mode) (branch? : Option Nat) {ch ch' : Node → M Node} (hch : ∀ n, n.Flat → Same (ch n) (ch' n) Flat) (op : BinOp)
    (sp : Span) {l r : Node} (hl : l.Flat) (hr : r.Flat) :
    Same (visitBin cx go m branch? ch op sp l r) (Visitor.visitBin cx go' m branch? ch' op sp l r) Flat := by
  have hw : ∀ old : Option IgnoreScope, Same (do
      Visitor.push .binExpr
      let n ← ch (mk (.bin op) sp [l, r])
      Visitor.exit old
      Pure.pure n) (do
      Visitor.push .binExpr
      let n ← ch' (mk (.bin op) sp [l, r])
      Visitor.exit old
      Pure.pure n) Flat := fun old =>
    bind (push _) fun _ _ => bind (hch _ (flat_two rfl hl hr)) fun _ h => bind (exit _) fun _ _ => pure h
  refine bind (enterSpan _) fun x _ => ite (fun _ => hw _) fun _ => ite (fun _ => bind (push _) fun _ _ => bind (P := fun _ => True) ?_ fun b _ =>
    bind (wrapBin hgo _ _ hl) fun _ h1 => bind (wrapBin hgo _ _ hr) fun _ h2 => pure (flat_two rfl h1 h2)) fun _ => hw _
  unfold logicalBranch
  split
  · exact pure trivial
  · exact newBranch _ _ _

theorem visitCase (b : Nat) (sp : Span) {test : Node} {cons : List Node} (ht : test.Flat) (hc : Flats cons) :
    Same (visitCase cx go b sp test cons) (Visitor.visitCase cx go' b sp test cons) Flat :=
  bind (addPath _ _) fun _ _ => bind (hgo _ _ ht) fun _ h1 => bind (visitStmts hgo hc) fun _ h2 =>
    pure (flat_mk.2 ⟨rfl, Flats.cons h1 (Flats.cons (flat_counterStmt _) h2)⟩)

theorem visitWithBody (cur : Option IgnoreScope) {body : Node} (h : body.Flat) :
    Same (visitWithBody cx go cur body) (Visitor.visitWithBody cx go' cur body) Flat := by
  unfold Visitor.visitWithBody
  split
  · exact bind (insertStmts hgo (flat_mk.1 h).2) fun _ h => pure (flat_mk.2 ⟨rfl, h⟩)
  · exact bind (fresh (hgo _ _ h)) fun _ h => pure (flat_mk.2 ⟨rfl, h.2.append (Flats.one h.1)⟩)

theorem visitNode (m : Mode) {n : Node} (hn : n.Flat) : Same (visitNode cx go m n) (Visitor.visitNode cx go' m n) Flat := by
  have hv := visitChildren (cx := cx) hgo m hn
  have hcs : ∀ {k : Kind} {sp : Span} {cs : List Node}, (mk k sp cs).Flat → Flats cs := fun h => (flat_mk.1 h).2
  revert hn
  refine visitCases (p := fun n => n.Flat → Same (Visitor.visitChildren cx go m n) (Visitor.visitChildren cx go' m n) Flat →
    Same (Visitor.visitNode cx go m n) (Visitor.visitNode cx go' m n) Flat)
    ?_ ?_ ?_ ?_ ?_ ?_ ?_ ?_ ?_ ?_ ?_ ?_ ?_ ?_ ?_ ?_ ?_ ?_ ?_ ?_ ?_ ?_ ?_ ?_ ?_ ?_ ?_ ?_ ?_ ?_ ?_ ?_ ?_ n |> fun h hn => h hn hv
  · exact fun sp cs hn hv => guarded hn hv
  · exact fun sp a b hn hv => guarded hn (bind (createFn _ (hcs hn b (by simp))) fun _ h => visitChildren hgo m (flat_two rfl (hcs hn a (by simp)) h))
  · exact fun x sp a b hn hv => guarded hn (visitArrow hgo x sp (hcs hn a (by simp)) (hcs hn b (by simp)))
  · exact fun sp a b hn hv => guarded hn (ite (fun _ => pure hn) fun _ =>
      bind (createFn _ (hcs hn b (by simp))) fun _ h => visitChildren hgo m (flat_two rfl (hcs hn a (by simp)) h))
  · intro sp a hn hv
    unfold Visitor.visitNode
    dsimp only
    refine frame fun cur => ?_
    exact ite (fun _ => pure hn) fun _ => bind (keepIf trivial (mark _)) fun _ _ => hv
  · intro sp cs hn hv
    unfold Visitor.visitNode
    dsimp only
    refine frame fun cur => ?_
    exact bind (keepIf trivial (mark _)) fun _ _ => hv
  · intro sp a b c hn hv
    unfold Visitor.visitNode
    dsimp only
    refine frame fun cur => ?_
    exact visitCond hgo m cur sp (hcs hn a (by simp)) (hcs hn b (by simp)) (hcs hn c (by simp))
  · exact fun sp cs hn hv => guarded hn (bind (mark _) fun _ _ => hv)
  · intro sp cs hn hv
    unfold Visitor.visitNode
    dsimp only
    refine frame fun cur => ?_
    exact bind (keepIf trivial (mark _)) fun _ _ => hv
  · intro x sp cs hn hv
    unfold Visitor.visitNode
    dsimp only
    refine frame fun cur => ?_
    exact hv
  · exact fun sp cs hn hv => guarded hn hv
  · exact fun sp a b c hn hv => guarded hn (bind (keepIf (hcs hn b (by simp)) (coverStatement hgo m (hcs hn b (by simp)))) fun _ h =>
      visitChildren hgo m (flat_three rfl (hcs hn a (by simp)) h (hcs hn c (by simp))))
  · exact fun sp a b c hn hv => guarded hn (bind (keepIf (hcs hn b (by simp)) (coverStatement hgo m (hcs hn b (by simp)))) fun _ h =>
      visitChildren hgo m (flat_three rfl (hcs hn a (by simp)) h (hcs hn c (by simp))))
  · intro sp a b hn hv
    refine guarded hn ?_
    split
    · exact ite (fun _ => pure hn) fun _ =>
        bind (createFn _ (hcs hn b (by simp))) fun _ h => visitChildren hgo m (flat_two rfl (hcs hn a (by simp)) h)
    · exact pure hn
  · intro sp a b hn hv
    refine guarded hn ?_
    split
    · exact ite (fun _ => pure hn) fun _ =>
        bind (createFn _ (hcs hn b (by simp))) fun _ h => visitChildren hgo m (flat_two rfl (hcs hn a (by simp)) h)
    · exact bind (createFn _ (hcs hn b (by simp))) fun _ h => visitChildren hgo m (flat_two rfl (hcs hn a (by simp)) h)
  · exact fun sp a b hn hv => guarded hn (visitAccessor hgo m hn (hcs hn b (by simp)) fun x hx => flat_two rfl (hcs hn a (by simp)) hx)
  · exact fun sp a b c d hn hv => guarded hn (visitAccessor hgo m hn (hcs hn d (by simp)) fun x hx =>
      flat_mk.2 ⟨rfl, Flats.cons (hcs hn a (by simp)) (Flats.cons (hcs hn b (by simp)) (Flats.cons (hcs hn c (by simp)) (Flats.one hx)))⟩)
  · exact fun sp a b hn hv => guarded hn (bind (keepIf (hcs hn b (by simp)) (coverStatement hgo m (hcs hn b (by simp)))) fun _ h =>
      visitChildren hgo m (flat_two rfl (hcs hn a (by simp)) h))
  · exact fun x sp cs hn hv => guarded hn (bind (mark _) fun _ _ => visitChildren hgo m (flat_mk.2 ⟨rfl, blockifyLast (hcs hn)⟩))
  · intro sp cs hn hv
    unfold Visitor.visitNode
    dsimp only
    refine frame fun cur => ?_
    exact bind (keepIf trivial (mark _)) fun _ _ => hv
  · intro sp cs hn hv
    unfold Visitor.visitNode
    dsimp only
    refine frame fun cur => ?_
    exact bind (keepIf trivial (mark _)) fun _ _ => hv
  · intro sp cs hn hv
    unfold Visitor.visitNode
    dsimp only
    refine frame fun cur => ?_
    exact ite (fun _ => pure hn) fun _ => bind (mark _) fun _ _ => bind (newBranch _ _ _) fun b _ =>
      bind (fresh (visitChildren hgo (.switchCase b) hn)) fun _ h => pure h.1
  · intro sp a b c hn hv
    unfold Visitor.visitNode
    dsimp only
    refine frame fun cur => ?_
    exact ite (fun _ => pure hn) fun _ =>
      visitIf hgo m cur sp (hcs hn a (by simp)) (hcs hn b (by simp)) (hcs hn c (by simp))
  · exact fun x sp a b hn hv => visitBin hgo m none (fun _ h => visitChildren hgo m h) x sp (hcs hn a (by simp)) (hcs hn b (by simp))
  · exact fun sp a b hn hv => guarded hn (bind (newBranch _ _ _) fun _ _ => bind (wrapBin hgo _ _ (hcs hn b (by simp))) fun _ h =>
      pure (flat_two rfl (hcs hn a (by simp)) h))
  · exact fun sp cs hn hv => guarded hn (bind (mark _) fun _ _ => hv)
  · exact fun sp cs hn hv => guarded hn (bind (mark _) fun _ _ => hv)
  · intro sp a b hn hv
    unfold Visitor.visitNode
    dsimp only
    refine frame fun cur => ?_
    exact ite (fun _ => pure hn) fun _ => bind (mark _) fun _ _ =>
      bind (visitWithBody hgo cur (hcs hn b (by simp))) fun _ h => pure (flat_two rfl (hcs hn a (by simp)) h)
  · intro sp a cs hn hv
    unfold Visitor.visitNode
    simp only
    split
    · exact guarded hn (visitCase hgo _ _ (hcs hn a (by simp)) fun c hc => hcs hn c (by simp [hc]))
    · exact hv
  · intro sp cs hn hv
    unfold Visitor.visitNode
    simp only
    split
    · exact guarded hn hv
    · exact hv
  · intro sp cs hn hv
    unfold Visitor.visitNode
    simp only
    split
    · exact guarded hn hv
    · exact hv
  · intro sp cs hn hv
    unfold Visitor.visitNode
    simp only
    split
    · exact guarded hn hv
    · exact hv
  · intro k sp cs hk hn hv
    rw [visitNode_default hk, visitNode_default hk]
    exact hv

theorem step (m : Mode) {n : Node} (hn : n.Flat) : Same (step cx go m n) (Visitor.step cx go' m n) Flat := by
  unfold Visitor.step
  split
  · exact ite (fun _ => frame fun _ => hgo _ _ hn) fun _ => logicalChildren hgo _ hn
  · unfold visitLogicalInner
    split
    · exact visitBin hgo _ _ (fun _ h => logicalChildren hgo _ h) _ _ ((flat_mk.1 hn).2 _ (by simp)) ((flat_mk.1 hn).2 _ (by simp))
    · exact logicalChildren hgo _ hn
  · exact visitNode hgo m hn

end
end Same
end Visitor
end Verif
