import Verif.Lemmas.LockstepStep
import Verif.Lemmas.SoundProgram
/-
A visit adds arms only to branches that are made during the visit or given to it.
-/
namespace Verif
open Node

/-- The branches that a visit of this sort is given are `k` or above. -/
def Mode.Above (k : Nat) : Mode → Prop
  | .switchCase b | .logical b | .logicalInner b => k ≤ b
  | _ => True

namespace Visitor

/-- The computation leaves branches below `k` alone, and its result has the property. -/
def Over (k : Nat) (x : M α) (P : α → Prop := fun _ => True) : Prop :=
  ∀ st a s, x st = .ok (a, s) → k ≤ st.cov.lastB →
    k ≤ s.cov.lastB ∧ (∀ i, i < k → s.cov.inner.branchMap.get i = st.cov.inner.branchMap.get i) ∧ P a

namespace Over
variable {k : Nat} {α β : Type} {P : α → Prop} {Q : β → Prop} {cx : Ctx}

theorem pure {a : α} (h : P a) : Over k (Pure.pure a) P := by
  intro st b s hs hk
  cases hs
  exact ⟨hk, fun _ _ => rfl, h⟩

theorem ret {a : α} : Over k (Pure.pure a) := pure trivial

theorem bind {x : M α} {f : α → M β} (hx : Over k x P) (hf : ∀ a, P a → Over k (f a) Q) : Over k (x >>= f) Q := by
  intro st b s hs hk
  obtain ⟨a, s1, h1, h2⟩ := M.bind_ok hs
  obtain ⟨h3, h4, h5⟩ := hx st a s1 h1 hk
  obtain ⟨h6, h7, h8⟩ := hf a h5 s1 b s h2 h3
  exact ⟨h6, fun i hi => (h7 i hi).trans (h4 i hi), h8⟩

/-- In sequence, where nothing need be known of the first result. -/
theorem seq {x : M α} {f : α → M β} (hx : Over k x) (hf : ∀ a, Over k (f a) Q) : Over k (x >>= f) Q := bind hx fun a _ => hf a

theorem ite {p : Prop} [Decidable p] {x y : M α} (hx : Over k x P) (hy : Over k y P) : Over k (if p then x else y) P := by
  split
  · exact hx
  · exact hy

theorem keepIf {p : Prop} [Decidable p] {a : α} {x : M α} (hx : Over k x) : Over k (keepIf p a x) := ite ret hx

/-- Computations that leave the coverage data alone. -/
theorem quiet {x : M α} (h : ∀ st a s, x st = .ok (a, s) → s.cov = st.cov) : Over k x := fun st a s hs hk => by
  rw [h st a s hs]
  exact ⟨hk, fun _ _ => rfl, trivial⟩

theorem push (t : Tag) : Over k (push t) := quiet fun _ _ _ h => by cases h; rfl
theorem pop : Over k pop := quiet fun _ _ _ h => by cases h; rfl
theorem exit (old : Option IgnoreScope) : Over k (exit old) := quiet fun _ _ _ h => by cases h; rfl
theorem enterSpan (sp : Span) : Over k (enterSpan cx sp) := quiet fun st a s h => by
  unfold Visitor.enterSpan at h
  split at h <;> (cases h; rfl)
theorem topNode : Over k topNode := quiet fun _ _ _ h => by
  unfold Visitor.topNode at h
  split at h <;> cases h
  rfl
theorem allNodes : Over k allNodes := quiet fun _ _ _ h => by cases h; rfl
theorem pushBefore (n : Node) : Over k (pushBefore n) := quiet fun _ _ _ h => by cases h; rfl
theorem drain : Over k drain := quiet fun _ _ _ h => by cases h; rfl
theorem panic (e : Panic) : Over k (M.panic e : M α) P := fun _ _ _ h => by cases h

theorem newStatement (r : Range) : Over k (newStatement r) := fun st a s h hk => by
  cases h
  exact ⟨hk, fun _ _ => rfl, trivial⟩
theorem newFunction (n : Option String) (d l : Range) : Over k (newFunction n d l) := fun st a s h hk => by
  cases h
  exact ⟨hk, fun _ _ => rfl, trivial⟩

theorem maybe_lastB (c : SourceCoverage) (t : BranchType) (b : Nat) (l : Bool) :
    (c.maybeNewBranchTrue t b l).lastB = c.lastB ∧ (c.maybeNewBranchTrue t b l).inner.branchMap = c.inner.branchMap := by
  unfold SourceCoverage.maybeNewBranchTrue
  split
  · exact ⟨rfl, rfl⟩
  · split <;> exact ⟨rfl, rfl⟩

theorem newBranch (t : BranchType) (r : Range) (l : Bool) : Over k (newBranch t r l) (k ≤ ·) := fun st a s h hk => by
  have h : (Except.ok ((st.cov.newBranch t r l).2, { st with cov := (st.cov.newBranch t r l).1 }) : Except Panic _) = .ok (a, s) := h
  cases h
  unfold SourceCoverage.newBranch
  refine ⟨?_, fun i hi => ?_, hk⟩
  · show k ≤ (SourceCoverage.maybeNewBranchTrue _ _ _ _).lastB
    rw [(maybe_lastB _ _ _ _).1]
    exact Nat.le_succ_of_le hk
  · show (SourceCoverage.maybeNewBranchTrue _ _ _ _).inner.branchMap.get i = _
    rw [(maybe_lastB _ _ _ _).2]
    show (IndexMap.insert _ _ _).get i = _
    rw [IndexMap.get_insert, if_neg (by omega)]

theorem addPath {b : Nat} (hb : k ≤ b) (r : Range) : Over k (addPath b r) := fun st a s h hk => by
  unfold Visitor.addPath at h
  split at h
  · cases h
  · rename_i c idx hc
    cases h
    unfold SourceCoverage.addBranchPath at hc
    split at hc
    · cases hc
    · split at hc
      · cases hc
      · dsimp only at hc
        split at hc
        · cases hc
        · cases hc
          have ht : ∀ c : SourceCoverage, (c.maybeAddBranchTrue b).lastB = c.lastB ∧
              (c.maybeAddBranchTrue b).inner.branchMap = c.inner.branchMap := fun c => by
            unfold SourceCoverage.maybeAddBranchTrue
            split
            · exact ⟨rfl, rfl⟩
            · split <;> exact ⟨rfl, rfl⟩
          refine ⟨?_, fun i hi => ?_, trivial⟩
          · simp only [(ht _).1]
            exact hk
          · simp only [(ht _).2]
            rw [IndexMap.get_modify, if_neg (by omega)]

theorem frame {t : Tag} {sp : Span} {b : Option IgnoreScope → M α} (hb : ∀ cur, Over k (b cur)) : Over k (frame cx t sp b) :=
  seq (seq (push t) fun _ => enterSpan sp) fun r => seq (hb r.2) fun _ => seq (exit r.1) fun _ => ret

theorem guarded {t : Tag} {n : Node} {b : M Node} (hb : Over k b) : Over k (guarded cx t n b) := frame fun _ => ite ret hb

theorem fresh {ig : Option IgnoreScope} {x : M α} (hx : Over k x) : Over k (fresh ig x) := fun st r s h hk => by
  unfold Visitor.fresh at h
  cases hxs : x { st with before := [], ignore := ig } with
  | error e => rw [hxs] at h; cases h
  | ok r =>
    obtain ⟨a1, st1⟩ := r
    rw [hxs] at h
    cases h
    obtain ⟨h1, h2, _⟩ := hx _ _ _ hxs hk
    exact ⟨h1, h2, trivial⟩

theorem mark (sp : Span) : Over k (mark cx sp) := seq (newStatement _) fun _ => pushBefore _

theorem mapList {f : Node → M Node} (h : ∀ c, Over k (f c)) : ∀ l, Over k (M.mapList f l)
  | [] => ret
  | c :: l => seq (h c) fun _ => seq (mapList h l) fun _ => ret

theorem replaceWithStmtCounter (e : Node) : Over k (replaceWithStmtCounter cx e) := seq (newStatement _) fun _ => ret

theorem replaceWithBranchCounter {b : Nat} (hb : k ≤ b) (e : Node) : Over k (replaceWithBranchCounter cx b e) :=
  seq (addPath hb _) fun _ => ret

section
variable {go : Mode → Node → M Node} (hgo : ∀ m n, Mode.Above k m → Over k (go m n))
include hgo

theorem insertStmt (s : Node) : Over k (insertStmt cx go s) :=
  ite ret (frame fun _ => ite ret (seq (fresh (hgo _ _ trivial)) fun _ => ret))

theorem insertStmts : ∀ ss : List Node, Over k (insertStmts cx go ss)
  | [] => ret
  | s :: ss => seq (insertStmt hgo s) fun _ => seq (insertStmts ss) fun _ => ret

theorem visitStmts (ss : List Node) : Over k (visitStmts cx go ss) :=
  seq (push _) fun _ => seq (insertStmts hgo ss) fun _ => seq pop fun _ => ret

theorem visitChildren {m : Mode} (hm : m.Above k) (n : Node) : Over k (visitChildren cx go m n) := by
  unfold Visitor.visitChildren
  split
  · exact seq (visitStmts hgo _) fun _ => ret
  · exact seq (hgo _ _ hm) fun _ => seq (visitStmts hgo _) fun _ => ret
  · exact seq (mapList (fun c => hgo _ _ hm) _) fun _ => ret

theorem logicalChildren {b : Nat} (hb : k ≤ b) (n : Node) : Over k (logicalChildren go b n) := by
  cases n
  exact seq (mapList (fun c => hgo (.logical b) c hb) _) fun _ => ret

theorem wrapBin {m : Mode} (hm : m.Above k) {b : Nat} (hb : k ≤ b) (e : Node) : Over k (wrapBin cx go m b e) :=
  ite ret (ite (seq (fresh (hgo _ _ hb)) fun _ => ret) (ite (seq (addPath hb _) fun _ => ret)
    (seq (hgo _ _ hm) fun _ => replaceWithBranchCounter hb _)))

omit hgo in
theorem createFn (i : Option (Span × String)) (fn : Node) : Over k (createFn cx i fn) := by
  unfold Visitor.createFn
  split
  · refine seq (newFunction _ _ _) fun id => seq ?_ fun _ => ret
    unfold prependFn
    split
    · exact ret
    · exact panic _
  · exact ret

omit hgo in
theorem coverHoisted (e : Node) : Over k (coverHoisted cx e) :=
  seq allNodes fun _ => ite (seq (keepIf (mark _)) fun _ => ret) (replaceWithStmtCounter e)

theorem coverStatement {m : Mode} (hm : m.Above k) (e : Node) : Over k (coverStatement cx go m e) :=
  ite (seq (mark _) fun _ => hgo _ _ hm) (ite (seq (mark _) fun _ => ret)
    (seq (keepIf (mark _)) fun _ => seq topNode fun _ => ite (coverHoisted e) (ite (replaceWithStmtCounter e) ret)))

theorem wrapArm (cur : Option IgnoreScope) {b : Nat} (hb : k ≤ b) (r : Range) (s : Node) : Over k (wrapArm cx go cur b r s) := by
  unfold Visitor.wrapArm
  refine seq (addPath hb _) fun idx => ?_
  split
  · exact seq (insertStmts hgo _) fun _ => ret
  · exact seq (fresh (hgo _ _ trivial)) fun _ => ret

theorem visitArrow (a : String) (sp : Span) (params body : Node) : Over k (visitArrow cx go a sp params body) := by
  unfold Visitor.visitArrow
  refine seq (newFunction _ _ _) fun idx => ?_
  split
  · exact seq (insertStmts hgo _) fun _ => ret
  · exact seq (insertStmts hgo _) fun _ => ret

omit hgo in
theorem createAccessor (name : String) (sp : Span) (body : Node) : Over k (createAccessor cx name sp body) := by
  unfold Visitor.createAccessor
  split
  · exact seq (newFunction _ _ _) fun _ => ret
  · exact ret

theorem visitAccessor {m : Mode} (hm : m.Above k) (n key body : Node) (rebuild : Node → Node) :
    Over k (visitAccessor cx go m n key body rebuild) := by
  unfold Visitor.visitAccessor
  split
  · exact ite ret (seq (createAccessor _ _ _) fun _ => visitChildren hgo hm _)
  · exact seq (createAccessor _ _ _) fun _ => visitChildren hgo hm _

theorem visitIf {m : Mode} (hm : m.Above k) (cur : Option IgnoreScope) (sp : Span) (test cons alt : Node) :
    Over k (visitIf cx go m cur sp test cons alt) :=
  seq (mark _) fun _ => bind (newBranch _ _ _) fun _ hb => seq (keepIf (wrapArm hgo _ hb _ _)) fun _ =>
    seq (keepIf (wrapArm hgo _ hb _ _)) fun _ => seq (hgo _ _ hm) fun _ => ret

theorem visitCond {m : Mode} (hm : m.Above k) (cur : Option IgnoreScope) (sp : Span) (test cons alt : Node) :
    Over k (visitCond cx go m cur sp test cons alt) :=
  seq (keepIf (bind (newBranch _ _ _) fun _ hb => seq (keepIf (replaceWithBranchCounter hb _)) fun _ =>
    seq (keepIf (replaceWithBranchCounter hb _)) fun _ => ret)) fun _ => visitChildren hgo hm _

theorem visitBin {m : Mode} (hm : m.Above k) {branch? : Option Nat} (hb : ∀ b, branch? = some b → k ≤ b) {ch : Node → M Node}
    (hch : ∀ n, Over k (ch n)) (op : BinOp) (sp : Span) (l r : Node) : Over k (visitBin cx go m branch? ch op sp l r) := by
  refine seq (enterSpan _) fun x => ite (seq (push _) fun _ => seq (hch _) fun _ => seq (exit _) fun _ => ret)
    (ite (seq (push _) fun _ => bind (P := (k ≤ ·)) ?_ fun b hb => seq (wrapBin hgo hm hb _) fun _ => seq (wrapBin hgo hm hb _) fun _ => ret)
      (seq (push _) fun _ => seq (hch _) fun _ => seq (exit _) fun _ => ret))
  unfold logicalBranch
  split
  · exact pure (hb _ rfl)
  · exact newBranch _ _ _

theorem visitCase {b : Nat} (hb : k ≤ b) (sp : Span) (test : Node) (cons : List Node) :
    Over k (visitCase cx go b sp test cons) :=
  seq (addPath hb _) fun _ => seq (hgo _ _ hb) fun _ => seq (visitStmts hgo cons) fun _ => ret

theorem visitWithBody (cur : Option IgnoreScope) (body : Node) : Over k (visitWithBody cx go cur body) := by
  unfold Visitor.visitWithBody
  split
  · exact seq (insertStmts hgo _) fun _ => ret
  · exact seq (fresh (hgo _ _ trivial)) fun _ => ret

theorem visitNode {m : Mode} (hm : m.Above k) (n : Node) : Over k (visitNode cx go m n) := by
  have hv := fun n => visitChildren (cx := cx) hgo hm n
  refine visitCases (p := fun n => Over k (Visitor.visitNode cx go m n))
    ?_ ?_ ?_ ?_ ?_ ?_ ?_ ?_ ?_ ?_ ?_ ?_ ?_ ?_ ?_ ?_ ?_ ?_ ?_ ?_ ?_ ?_ ?_ ?_ ?_ ?_ ?_ ?_ ?_ ?_ ?_ ?_ ?_ n
  · exact fun sp cs => guarded (hv _)
  · exact fun sp a b => guarded (seq (createFn _ _) fun _ => hv _)
  · exact fun x sp a b => guarded (visitArrow hgo x sp _ _)
  · exact fun sp a b => guarded (ite ret (seq (createFn _ _) fun _ => hv _))
  · intro sp a
    unfold Visitor.visitNode
    dsimp only
    exact frame fun cur => ite ret (seq (keepIf (mark _)) fun _ => hv _)
  · intro sp cs
    unfold Visitor.visitNode
    dsimp only
    exact frame fun cur => seq (keepIf (mark _)) fun _ => hv _
  · intro sp a b c
    unfold Visitor.visitNode
    dsimp only
    exact frame fun cur => visitCond hgo hm cur sp _ _ _
  · exact fun sp cs => guarded (seq (mark _) fun _ => hv _)
  · intro sp cs
    unfold Visitor.visitNode
    dsimp only
    exact frame fun cur => seq (keepIf (mark _)) fun _ => hv _
  · intro x sp cs
    unfold Visitor.visitNode
    dsimp only
    exact frame fun cur => hv _
  · exact fun sp cs => guarded (hv _)
  · exact fun sp a b c => guarded (seq (keepIf (coverStatement hgo hm _)) fun _ => hv _)
  · exact fun sp a b c => guarded (seq (keepIf (coverStatement hgo hm _)) fun _ => hv _)
  · intro sp a b
    refine guarded ?_
    split
    · exact ite ret (seq (createFn _ _) fun _ => hv _)
    · exact ret
  · intro sp a b
    refine guarded ?_
    split
    · exact ite ret (seq (createFn _ _) fun _ => hv _)
    · exact seq (createFn _ _) fun _ => hv _
  · exact fun sp a b => guarded (visitAccessor hgo hm _ _ _ _)
  · exact fun sp a b c d => guarded (visitAccessor hgo hm _ _ _ _)
  · exact fun sp a b => guarded (seq (keepIf (coverStatement hgo hm _)) fun _ => hv _)
  · exact fun x sp cs => guarded (seq (mark _) fun _ => hv _)
  · intro sp cs
    unfold Visitor.visitNode
    dsimp only
    exact frame fun cur => seq (keepIf (mark _)) fun _ => hv _
  · intro sp cs
    unfold Visitor.visitNode
    dsimp only
    exact frame fun cur => seq (keepIf (mark _)) fun _ => hv _
  · intro sp cs
    unfold Visitor.visitNode
    dsimp only
    exact frame fun cur => ite ret (seq (mark _) fun _ => bind (newBranch _ _ _) fun b hb =>
      seq (fresh (visitChildren hgo (m := .switchCase b) hb _)) fun _ => ret)
  · intro sp a b c
    unfold Visitor.visitNode
    dsimp only
    exact frame fun cur => ite ret (visitIf hgo hm cur sp _ _ _)
  · exact fun x sp a b => visitBin hgo hm (fun _ h => by cases h) hv x sp _ _
  · exact fun sp a b => guarded (bind (newBranch _ _ _) fun _ hb => seq (wrapBin hgo hm hb _) fun _ => ret)
  · exact fun sp cs => guarded (seq (mark _) fun _ => hv _)
  · exact fun sp cs => guarded (seq (mark _) fun _ => hv _)
  · intro sp a b
    unfold Visitor.visitNode
    dsimp only
    exact frame fun cur => ite ret (seq (mark _) fun _ => seq (visitWithBody hgo cur _) fun _ => ret)
  · intro sp a cs
    unfold Visitor.visitNode
    simp only
    split
    · exact guarded (visitCase hgo hm _ _ _)
    · exact hv _
  · intro sp cs
    unfold Visitor.visitNode
    simp only
    split
    · exact guarded (hv _)
    · exact hv _
  · intro sp cs
    unfold Visitor.visitNode
    simp only
    split
    · exact guarded (hv _)
    · exact hv _
  · intro sp cs
    unfold Visitor.visitNode
    simp only
    split
    · exact guarded (hv _)
    · exact hv _
  · intro k sp cs hk
    rw [visitNode_default hk]
    exact hv _

theorem step {m : Mode} (hm : m.Above k) (n : Node) : Over k (step cx go m n) := by
  unfold Visitor.step
  split
  · exact ite (frame fun _ => hgo _ _ hm) (logicalChildren hgo hm n)
  · unfold visitLogicalInner
    split
    · exact visitBin hgo hm (fun b h => by cases h; exact hm) (fun _ => logicalChildren hgo hm _) _ _ _ _
    · exact logicalChildren hgo hm _
  · exact visitNode hgo hm n

end

theorem visit (cx : Ctx) : ∀ (fuel : Nat) (m : Mode) (n : Node), m.Above k → Over k (visit cx fuel m n)
  | 0, _, _, _ => panic _
  | fuel + 1, _, n, hm => step (visit cx fuel) hm n

theorem withBefore {x : M Node} (h : Over k x) : Over k (withBefore x) := seq h fun _ => seq drain fun _ => ret

theorem visitItem (cx : Ctx) (fuel : Nat) (item : Node) : Over k (visitItem cx fuel item) :=
  ite ret (frame fun _ => withBefore (seq (keepIf (mark _)) fun _ => visit cx fuel _ _ trivial))

theorem visitItems (cx : Ctx) (fuel : Nat) : ∀ items, Over k (visitItems cx fuel items)
  | [] => ret
  | _ :: items => seq (visitItem cx fuel _) fun _ => seq (visitItems cx fuel items) fun _ => ret

theorem visitScriptItems (cx : Ctx) (fuel : Nat) : ∀ items, Over k (visitScriptItems cx fuel items)
  | [] => ret
  | _ :: items => seq (withBefore (visit cx fuel _ _ trivial)) fun _ => seq (visitScriptItems cx fuel items) fun _ => ret

end Over
end Visitor
end Verif
