import Verif.Lemmas.Veil
/-
The visit functions on trees that are the same except inside constructs with an ignore-next hint.
-/
namespace Verif
open Node Visitor

namespace Veil
variable {cx : Ctx} {w l : Bool}

/-- From the same state two computations lead to the same state, with related results. -/
def Sim {α β : Type} (x : M α) (y : M β) (P : α → β → Prop) : Prop :=
  ∀ st a s b s', x st = .ok (a, s) → y st = .ok (b, s') → s = s' ∧ P a b

namespace Sim
variable {α β γ δ : Type} {P : α → β → Prop} {Q : γ → δ → Prop}

theorem pure {a : α} {b : β} (h : P a b) : Sim (Pure.pure a : M α) (Pure.pure b : M β) P := by
  intro st a' s b' s' h1 h2
  cases h1
  cases h2
  exact ⟨rfl, h⟩

theorem bind {x : M α} {y : M β} {f : α → M γ} {g : β → M δ} (hx : Sim x y P)
    (hf : ∀ a b, P a b → Sim (f a) (g b) Q) : Sim (x >>= f) (y >>= g) Q := by
  intro st c s d s' h h'
  obtain ⟨a, s1, h1, h2⟩ := M.bind_ok h
  obtain ⟨b, s1', h3, h4⟩ := M.bind_ok h'
  obtain ⟨rfl, h5⟩ := hx st a s1 b s1' h1 h3
  exact hf a b h5 s1 c s d s' h2 h4

theorem same {x : M α} : Sim x x (· = ·) := by
  intro st a s b s' h h'
  rw [h] at h'
  cases h'
  exact ⟨rfl, rfl⟩

theorem imp {P' : α → β → Prop} {x : M α} {y : M β} (h : Sim x y P) (hp : ∀ a b, P a b → P' a b) : Sim x y P' := by
  intro st a s b s' h1 h2
  obtain ⟨h3, h4⟩ := h st a s b s' h1 h2
  exact ⟨h3, hp a b h4⟩

theorem known {x : M Node} : Sim x x (Veil cx w l) := same.imp fun _ _ h => h ▸ refl _ w l

theorem ite {p q : Prop} [Decidable p] [Decidable q] {x x' : M α} {y y' : M β} (hpq : p ↔ q) (hx : p → Sim x y P)
    (hy : ¬ p → Sim x' y' P) : Sim (if p then x else x') (if q then y else y') P := by
  by_cases h : p
  · rw [if_pos h, if_pos (hpq.1 h)]; exact hx h
  · rw [if_neg h, if_neg (fun hq => h (hpq.2 hq))]; exact hy h

theorem keepIf {p q : Prop} [Decidable p] [Decidable q] {a : α} {b : β} {x : M α} {y : M β} (hpq : p ↔ q) (ha : P a b)
    (hx : ¬ p → Sim x y P) : Sim (keepIf p a x) (Visitor.keepIf q b y) P :=
  ite hpq (fun _ => pure ha) hx

theorem frame {t : Tag} {sp : Span} {body : Option IgnoreScope → M α} {body' : Option IgnoreScope → M β}
    (hb : ∀ cur, Sim (body cur) (body' cur) P) : Sim (frame cx t sp body) (Visitor.frame cx t sp body') P := by
  unfold Visitor.frame
  refine bind same ?_
  rintro ⟨old, cur⟩ _ rfl
  exact bind (hb cur) fun a b h => bind same fun _ _ _ => pure h

theorem guarded {t : Tag} {n n' : Node} {body body' : M Node} (hn : Veil cx w l n n') (hb : Sim body body' (Veil cx w l)) :
    Sim (guarded cx t n body) (Visitor.guarded cx t n' body') (Veil cx w l) := by
  unfold Visitor.guarded
  rw [hn.span]
  exact frame fun _ => ite Iff.rfl (fun _ => pure hn) fun _ => hb

theorem fresh {ig : Option IgnoreScope} {x : M α} {y : M β} (hx : Sim x y P) :
    Sim (fresh ig x) (Visitor.fresh ig y) fun a b => P a.1 b.1 ∧ a.2 = b.2 := by
  intro st a s b s' h h'
  unfold Visitor.fresh at h h'
  cases hxs : x { st with before := [], ignore := ig } with
  | error e => rw [hxs] at h; cases h
  | ok r =>
    cases hys : y { st with before := [], ignore := ig } with
    | error e => rw [hys] at h'; cases h'
    | ok r' =>
      obtain ⟨a1, s1⟩ := r
      obtain ⟨b1, s2⟩ := r'
      rw [hxs] at h
      rw [hys] at h'
      cases h
      cases h'
      obtain ⟨rfl, h1⟩ := hx _ _ _ _ _ hxs hys
      exact ⟨rfl, h1, rfl⟩

theorem replaceWithStmtCounter {e e' : Node} (h : Veil cx w l e e') :
    Sim (replaceWithStmtCounter cx e) (Visitor.replaceWithStmtCounter cx e') (Veil cx w l) := by
  unfold Visitor.replaceWithStmtCounter
  rw [h.span]
  refine bind same ?_
  rintro i _ rfl
  exact pure (.wrapC (.s i) h)

theorem replaceWithBranchCounter (b : Nat) {e e' : Node} (h : Veil cx w l e e') :
    Sim (replaceWithBranchCounter cx b e) (Visitor.replaceWithBranchCounter cx b e') (Veil cx w l) := by
  unfold Visitor.replaceWithBranchCounter
  rw [h.span]
  refine bind same ?_
  rintro i _ rfl
  exact pure (.wrapC (.b b i) h)

end Sim

/-- Visitors of operands are used inside of operands only. -/
def Fits (m : Mode) (l : Bool) : Prop := m.emits = .any ∨ l = true

theorem Fits.child {m : Mode} (h : Fits m l) (k : Kind) : Fits m (k.inOperand l) :=
  h.imp id fun (h : l = true) => by rw [h]; exact inOperand_true k

/-- Recursive visits. -/
def Rec (cx : Ctx) (go go' : Mode → Node → M Node) : Prop :=
  ∀ w l m n n', Fits m l → Veil cx w l n n' → Sim (go m n) (go' m n') (Veil cx w l)

namespace Sim
variable {α β γ δ : Type} {P : α → β → Prop} {Q : γ → δ → Prop}

section
variable {go go' : Mode → Node → M Node} (hgo : Rec cx go go')
include hgo

theorem mapList {m : Mode} {cs cs' : List Node} (hm : Fits m l) (hc : List.Forall₂ (Veil cx w l) cs cs') :
    Sim (M.mapList (go m) cs) (M.mapList (go' m) cs') (List.Forall₂ (Veil cx w l)) := by
  induction hc with
  | nil => exact pure .nil
  | cons h1 h2 ih => exact bind (hgo _ _ m _ _ hm h1) fun a b ha => bind ih fun as bs has => pure (.cons ha has)

omit hgo in
/-- A statement with a hint stays as it is. -/
theorem insertStmt_hinted {go : Mode → Node → M Node} {s : Node} (hh : cx.hint s.span = some .next) {st s' : St} {out : List Node}
    (h : Visitor.insertStmt cx go s st = .ok (out, s')) : out = [s] ∧ s' = st := by
  unfold Visitor.insertStmt at h
  split at h
  · cases h
    exact ⟨rfl, rfl⟩
  · obtain ⟨⟨old, cur⟩, s1, h1, h2⟩ := M.bind_ok h
    obtain ⟨_, s2, h3, h4⟩ := M.bind_ok h1
    cases h3
    unfold Visitor.enterSpan at h4
    split at h4
    · next hi =>
      cases h4
      dsimp only at h2 hi
      rw [hi, if_pos rfl] at h2
      cases h2
      rw [← hi]
      exact ⟨rfl, rfl⟩
    · cases h4
      dsimp only at h2
      rw [hh, if_pos rfl] at h2
      cases h2
      exact ⟨rfl, rfl⟩

theorem insertStmt {s s' : Node} (hs : Veil cx w l s s') :
    Sim (insertStmt cx go s) (Visitor.insertStmt cx go' s') (List.Forall₂ (Veil cx w l)) := by
  by_cases hh : cx.hint s.span = some .next
  · intro st a s1 b s2 h1 h2
    obtain ⟨rfl, rfl⟩ := insertStmt_hinted hh h1
    obtain ⟨rfl, rfl⟩ := insertStmt_hinted (hs.span ▸ hh) h2
    exact ⟨rfl, .cons hs .nil⟩
  unfold Visitor.insertStmt
  refine ite (by rw [hs.isInjectedStmt.resolve_right hh]) (fun _ => pure (.cons hs .nil)) fun _ => ?_
  rw [hs.span]
  refine frame fun cur => ite Iff.rfl (fun _ => pure (.cons hs .nil)) fun _ => ?_
  refine bind (fresh (hgo _ _ .stmt _ _ (.inl rfl) hs)) ?_
  rintro ⟨a, bf⟩ ⟨b, bf'⟩ ⟨h1, h2⟩
  cases h2
  exact pure (List.rel_append (refls _) (.cons h1 .nil))

theorem insertStmts {ss ss' : List Node} (hs : List.Forall₂ (Veil cx w l) ss ss') :
    Sim (insertStmts cx go ss) (Visitor.insertStmts cx go' ss') (List.Forall₂ (Veil cx w l)) := by
  induction hs with
  | nil => exact pure .nil
  | cons h1 h2 ih => exact bind (insertStmt hgo h1) fun a b ha => bind ih fun as bs has => pure (List.rel_append ha has)

theorem visitStmts {ss ss' : List Node} (hs : List.Forall₂ (Veil cx w l) ss ss') :
    Sim (visitStmts cx go ss) (Visitor.visitStmts cx go' ss') (List.Forall₂ (Veil cx w l)) :=
  bind same fun _ _ _ => bind (insertStmts hgo hs) fun _ _ h => bind same fun _ _ _ => pure h

theorem thinStmts {ss ss' : List Node} (hs : Stmts cx l ss ss') :
    Sim (Visitor.insertStmts cx go ss) (Visitor.insertStmts cx go' ss') (Stmts cx l) := by
  induction hs with
  | nil => exact pure .nil
  | keep h1 h2 ih =>
    exact bind (insertStmt hgo h1) fun a b ha => bind ih fun as bs has => pure (thin_append (thin_forall₂ ha) has)
  | left h1 h2 ih =>
    intro st a s b s' h h'
    obtain ⟨x, s1, h3, h4⟩ := M.bind_ok h
    obtain ⟨y, s2, h5, h6⟩ := M.bind_ok h4
    cases h6
    obtain ⟨rfl, rfl⟩ := insertStmt_hinted h1.1 h3
    obtain ⟨rfl, h7⟩ := ih _ _ _ _ _ h5 h'
    exact ⟨rfl, .left h1 h7⟩
  | right h1 h2 ih =>
    intro st a s b s' h h'
    obtain ⟨x, s1, h3, h4⟩ := M.bind_ok h'
    obtain ⟨y, s2, h5, h6⟩ := M.bind_ok h4
    cases h6
    obtain ⟨rfl, rfl⟩ := insertStmt_hinted h1.1 h3
    obtain ⟨rfl, h7⟩ := ih _ _ _ _ _ h h5
    exact ⟨rfl, .right h1 h7⟩

theorem thinVisit {ss ss' : List Node} (hs : Stmts cx l ss ss') :
    Sim (Visitor.visitStmts cx go ss) (Visitor.visitStmts cx go' ss') (Stmts cx l) :=
  bind same fun _ _ _ => bind (thinStmts hgo hs) fun _ _ h => bind same fun _ _ _ => pure h

/-- The statements of a case. -/
theorem thinCase {m : Mode} {sp : Span} {t t' : Node} {ss ss' : List Node} (hm : Fits m l) (ht : Veil cx false l t t') (hs : Stmts cx l ss ss') :
    Sim (Visitor.visitChildren cx go m (mk .switchCase sp (t :: ss))) (Visitor.visitChildren cx go' m (mk .switchCase sp (t' :: ss')))
      (Veil cx false l) :=
  bind (hgo _ _ m _ _ hm ht) fun _ _ h1 => bind (thinVisit hgo hs) fun _ _ h => pure (case' h1 h)

theorem thinVisitCase {b : Nat} {sp : Span} {test test' : Node} {cons cons' : List Node}
    (ht : Veil cx false l test test') (hc : Stmts cx l cons cons') :
    Sim (Visitor.visitCase cx go b sp test cons) (Visitor.visitCase cx go' b sp test' cons') (Veil cx false l) := by
  unfold Visitor.visitCase
  refine bind same ?_
  rintro i _ rfl
  exact bind (hgo _ _ (.switchCase b) _ _ (.inl rfl) ht) fun _ _ h1 => bind (thinVisit hgo hc) fun _ _ h2 =>
    pure (case' h1 (.keep (refl _ _ _) h2))

/-- The statements of a block. -/
theorem thinBlock {m : Mode} {sp : Span} {ss ss' : List Node} (hs : Stmts cx l ss ss') :
    Sim (Visitor.visitChildren cx go m (mk .block sp ss)) (Visitor.visitChildren cx go' m (mk .block sp ss')) (Veil cx w l) :=
  bind (thinVisit hgo hs) fun _ _ h => pure (block' h)

theorem visitChildren {m : Mode} {k : Kind} {sp : Span} {cs cs' : List Node} (hm : Fits m l)
    (hc : List.Forall₂ (Veil cx (k.inInit w) (k.inOperand l)) cs cs') :
    Sim (visitChildren cx go m (mk k sp cs)) (Visitor.visitChildren cx go' m (mk k sp cs')) (Veil cx w l) := by
  unfold Visitor.visitChildren
  split
  · next h =>
    cases h
    exact bind (visitStmts hgo hc) fun _ _ h => pure (.mk' h)
  · next h =>
    cases h
    cases hc with
    | cons h1 h2 =>
      exact bind (hgo _ _ m _ _ hm h1) fun _ _ h1' => bind (visitStmts hgo h2) fun _ _ h => pure (.mk' (.cons h1' h))
  · next h1 h2 h =>
    cases h
    split
    · next h =>
      cases h
      exact (h1 rfl).elim
    · next h =>
      cases h
      cases hc with
      | cons h3 h4 => exact (h2 _ _ rfl rfl).elim
    · next h =>
      cases h
      exact bind (mapList hgo (hm.child _) hc) fun _ _ h => pure (.mk' h)

theorem logicalChildren {b : Nat} {k : Kind} {sp : Span} {cs cs' : List Node} (hl : l = true)
    (hc : List.Forall₂ (Veil cx (k.inInit w) (k.inOperand l)) cs cs') :
    Sim (logicalChildren go b (mk k sp cs)) (Visitor.logicalChildren go' b (mk k sp cs')) (Veil cx w l) :=
  bind (mapList hgo (.inr (hl ▸ inOperand_true k)) hc) fun _ _ h => pure (.mk' h)

theorem wrapBin {m : Mode} (b : Nat) {e e' : Node} (he : Veil cx w true e e') :
    Sim (wrapBin cx go m b e) (Visitor.wrapBin cx go' m b e') (Veil cx w true) := by
  unfold Visitor.wrapBin
  dsimp only
  rw [he.span]
  refine ite Iff.rfl (fun _ => pure he) fun _ => ite (by rw [he.any_logical rfl]) (fun _ => ?_) fun hl => ?_
  · refine bind (fresh (hgo _ _ (.logicalInner b) _ _ (.inr rfl) he)) ?_
    rintro ⟨a, bf⟩ ⟨b, bf'⟩ ⟨h1, h2⟩
    exact pure h1
  · refine ite Iff.rfl (fun _ => ?_) fun _ => bind (hgo _ _ m _ _ (.inr rfl) he) fun _ _ h => replaceWithBranchCounter b h
    refine bind same ?_
    rintro i _ rfl
    exact pure (.wrapT _ _ he)

omit hgo in
theorem prependFn {id : Nat} {body body' : Node} (hb : Veil cx w l body body') :
    Sim (prependFn id body) (Visitor.prependFn id body') (Veil cx w l) := by
  unfold Visitor.prependFn
  split
  · obtain ⟨cs', rfl, hc⟩ := hb.block_inv
    exact pure (block' (.keep (refl _ _ _) hc))
  · intro st a s b s' h; cases h

omit hgo in
theorem createFn (ident : Option (Span × String)) {n n' : Node} (hn : Veil cx w l n n') :
    Sim (createFn cx ident n) (Visitor.createFn cx ident n') (Veil cx w l) := by
  unfold Visitor.createFn
  split
  · next a sp ps ds body =>
    obtain ⟨cs', rfl, hc | hh | ⟨hk, -⟩ | ⟨hk, -⟩⟩ := hn.mk_inv
    · obtain ⟨ps', ds', body', rfl, h1, h2, h3⟩ := forall₂_three hc
      dsimp only
      rw [h3.isNone, h3.span]
      refine bind same ?_
      rintro i _ rfl
      exact bind (prependFn h3) fun _ _ h => pure (.mk' (.cons h1 (.cons h2 (.cons h .nil))))
    · exact absurd hh.2.2.2.2.1 nofun
    · cases hk
    · cases hk
  · next h =>
    split
    · next a sp ps ds body =>
      cases n with
      | mk k sp1 cs =>
        obtain ⟨cs', h1, hc | hh | ⟨hk, -⟩ | ⟨hk, -⟩⟩ := hn.mk_inv
        · cases h1
          obtain ⟨ps', ds', body', rfl, -⟩ := forall₂_three hc.flip
          exact absurd rfl (h _ _ _ _ _)
        · exact absurd hh.2.2.2.2.2.1 nofun
        · subst hk
          cases h1
        · subst hk
          cases h1
    · exact pure hn

theorem coverStatement {m : Mode} {e e' : Node} (hm : Fits m l) (he : Veil cx true l e e') :
    Sim (coverStatement cx go m e) (Visitor.coverStatement cx go' m e') (Veil cx true l) := by
  unfold Visitor.coverStatement
  rw [he.span]
  refine ite (by rw [he.kind]) (fun hk => ?_) fun _ => ite (by rw [(he.any_block rfl).1]) (fun _ => ?_) fun hb => ?_
  · exact bind same fun _ _ _ => hgo _ _ m _ _ hm he
  · exact bind same fun _ _ _ => pure he
  · cases (he.any_block rfl).2 (by simpa using hb)
    exact known

theorem visitArrow {a : String} {sp : Span} {params params' body body' : Node}
    (hp : Veil cx w l params params') (hb : Veil cx w l body body') :
    Sim (visitArrow cx go a sp params body) (Visitor.visitArrow cx go' a sp params' body') (Veil cx w l) := by
  unfold Visitor.visitArrow
  rw [hb.span]
  refine bind same ?_
  rintro i _ rfl
  split
  · obtain ⟨ss', rfl, h2⟩ := hb.block_inv
    exact bind (thinStmts hgo h2) fun _ _ h => pure (.mk' (.cons hp (.cons (block' (.keep (refl _ _ _) h)) .nil)))
  · next h =>
    split
    · obtain ⟨_, rfl⟩ := hb.noBlock
      exact absurd rfl (h _ _)
    · rw [hb.span]
      refine bind (P := List.Forall₂ (Veil cx false l))
        (insertStmts hgo (.cons (refl _ _ _) (.cons (.mk' (.cons (show Veil cx _ (Kind.inOperand .returnStmt l) _ _ from hb.bare) .nil)) .nil)))
        fun _ _ h => pure (.mk' (.cons hp (.cons (.mk' h) .nil)))

omit hgo in
theorem createAccessor (name : String) (sp : Span) {body body' : Node} (hb : Veil cx w l body body') :
    Sim (createAccessor cx name sp body) (Visitor.createAccessor cx name sp body') (Veil cx w l) := by
  unfold Visitor.createAccessor
  split
  · obtain ⟨ss', rfl, h2⟩ := hb.block_inv
    refine bind same ?_
    rintro i _ rfl
    exact pure (block' (.keep (refl _ _ _) h2))
  · next h =>
    split
    · obtain ⟨_, rfl⟩ := hb.noBlock
      exact absurd rfl (h _ _)
    · exact pure hb

omit hgo in
theorem visitAccessor {m : Mode} {n n' key key' body body' : Node} {rebuild rebuild' : Node → Node} (hn : Veil cx w l n n')
    (hkey : Veil cx w l key key') (hb : Veil cx w l body body')
    (hr : ∀ c c', Veil cx w l c c' → Sim (Visitor.visitChildren cx go m (rebuild c)) (Visitor.visitChildren cx go' m (rebuild' c')) (Veil cx w l)) :
    Sim (visitAccessor cx go m n key body rebuild) (Visitor.visitAccessor cx go' m n' key' body' rebuild') (Veil cx w l) := by
  unfold Visitor.visitAccessor
  rw [hkey.propName, hkey.span, hn.span]
  split
  · exact ite Iff.rfl (fun _ => pure hn) fun _ => bind (createAccessor _ _ hb) fun c c' hc => hr c c' hc
  · exact bind (createAccessor _ _ hb) fun c c' hc => hr c c' hc

theorem wrapArm {cur : Option IgnoreScope} {b : Nat} (r : Range) {s s' : Node} (hs : Veil cx w l s s') :
    Sim (wrapArm cx go cur b r s) (Visitor.wrapArm cx go' cur b r s') (Veil cx w l) := by
  unfold Visitor.wrapArm
  refine bind same ?_
  rintro i _ rfl
  split
  · obtain ⟨ss', rfl, h2⟩ := hs.block_inv
    exact bind (thinStmts hgo h2) fun _ _ h => pure (block' (.keep (refl _ _ _) h))
  · next h =>
    split
    · obtain ⟨_, rfl⟩ := hs.noBlock
      exact absurd rfl (h _ _)
    · refine bind (fresh (hgo _ _ .stmt _ _ (.inl rfl) hs.bare)) ?_
      rintro ⟨a, bf⟩ ⟨c, bf'⟩ ⟨h1, h2⟩
      cases h2
      exact pure (.mk' (.cons (refl _ _ _) (List.rel_append (refls _) (.cons h1 .nil))))

theorem visitIf {m : Mode} {cur : Option IgnoreScope} {sp : Span} {test test' cons cons' alt alt' : Node} (hm : Fits m l)
    (ht : Veil cx w l test test') (hc : Veil cx w l cons cons') (ha : Veil cx w l alt alt') :
    Sim (visitIf cx go m cur sp test cons alt) (Visitor.visitIf cx go' m cur sp test' cons' alt') (Veil cx w l) := by
  unfold Visitor.visitIf
  refine bind same fun _ _ _ => bind same ?_
  rintro b _ rfl
  refine bind (keepIf Iff.rfl hc fun _ => wrapArm hgo _ hc) fun _ _ h1 =>
    bind (keepIf Iff.rfl ha fun _ => wrapArm hgo _ ?_) fun _ _ h2 => bind (hgo _ _ m _ _ hm ht) fun _ _ h3 =>
      pure (.mk' (.cons h3 (.cons h1 (.cons h2 .nil))))
  rw [ha.isNone]
  split
  · exact refl _ _ _
  · exact ha

theorem visitCond {m : Mode} {cur : Option IgnoreScope} {sp : Span} {test test' cons cons' alt alt' : Node} (hm : Fits m l)
    (ht : Veil cx w l test test') (hc : Veil cx w l cons cons') (ha : Veil cx w l alt alt') :
    Sim (visitCond cx go m cur sp test cons alt) (Visitor.visitCond cx go' m cur sp test' cons' alt') (Veil cx w l) := by
  unfold Visitor.visitCond
  refine bind (P := fun x y => Veil cx w l x.1 y.1 ∧ Veil cx w l x.2 y.2) (keepIf Iff.rfl ⟨hc, ha⟩ fun _ => ?_) ?_
  · unfold Visitor.wrapCondArms
    refine bind same ?_
    rintro b _ rfl
    exact bind (keepIf (by rw [hc.span]) hc fun _ => replaceWithBranchCounter b hc) fun _ _ h1 =>
      bind (keepIf (by rw [ha.span]) ha fun _ => replaceWithBranchCounter b ha) fun _ _ h2 => pure ⟨h1, h2⟩
  · rintro ⟨c, a⟩ ⟨c', a'⟩ ⟨h1, h2⟩
    exact visitChildren hgo hm (.cons ht (.cons h1 (.cons h2 .nil)))

theorem visitBin {m : Mode} {branch? : Option Nat} {children children' : Node → M Node}
    {op : BinOp} {sp : Span} {left right left' right' : Node} (hl : Veil cx w (l || op.isLogical) left left')
    (hr : Veil cx w (l || op.isLogical) right right')
    (hc : Sim (children (mk (.bin op) sp [left, right])) (children' (mk (.bin op) sp [left', right'])) (Veil cx w l)) :
    Sim (visitBin cx go m branch? children op sp left right)
      (Visitor.visitBin cx go' m branch? children' op sp left' right') (Veil cx w l) := by
  have he : ∀ (old : Option IgnoreScope) (t : Tag), Sim (do
      Visitor.push t
      let n ← children (mk (.bin op) sp [left, right])
      Visitor.exit old
      Pure.pure n) (do
      Visitor.push t
      let n ← children' (mk (.bin op) sp [left', right'])
      Visitor.exit old
      Pure.pure n) (Veil cx w l) := fun old t =>
    bind same fun _ _ _ => bind hc fun _ _ h => bind same fun _ _ _ => pure h
  unfold Visitor.visitBin
  refine bind same ?_
  rintro ⟨old, cur⟩ _ rfl
  refine ite Iff.rfl (fun _ => he old _) fun _ => ite Iff.rfl (fun hlog => ?_) fun _ => he old _
  refine bind same fun _ _ _ => bind same ?_
  rintro b _ rfl
  have e : ∀ l, (l || op.isLogical) = true := fun l => by rw [hlog, Bool.or_true]
  rw [e] at hl hr
  refine bind (wrapBin hgo b hl) fun _ _ h1 => bind (wrapBin hgo b hr) fun _ _ h2 => pure (.mk' ?_)
  show List.Forall₂ (Veil cx w (l || op.isLogical)) _ _
  rw [e]
  exact .cons h1 (.cons h2 .nil)

theorem visitCase {b : Nat} {sp : Span} {test test' : Node} {cons cons' : List Node}
    (ht : Veil cx w l test test') (hc : List.Forall₂ (Veil cx w l) cons cons') :
    Sim (visitCase cx go b sp test cons) (Visitor.visitCase cx go' b sp test' cons') (Veil cx w l) := by
  unfold Visitor.visitCase
  refine bind same ?_
  rintro i _ rfl
  exact bind (hgo _ _ (.switchCase b) _ _ (.inl rfl) ht) fun _ _ h1 => bind (visitStmts hgo hc) fun _ _ h2 =>
    pure (.mk' (.cons h1 (.cons (refl _ _ _) h2)))

theorem visitWithBody {cur : Option IgnoreScope} {body body' : Node} (hb : Veil cx w l body body') :
    Sim (visitWithBody cx go cur body) (Visitor.visitWithBody cx go' cur body') (Veil cx w l) := by
  unfold Visitor.visitWithBody
  split
  · obtain ⟨ss', rfl, h2⟩ := hb.block_inv
    exact bind (thinStmts hgo h2) fun _ _ h => pure (block' h)
  · next h =>
    split
    · obtain ⟨_, rfl⟩ := hb.noBlock
      exact absurd rfl (h _ _)
    · refine bind (fresh (hgo _ _ .stmt _ _ (.inl rfl) hb.bare)) ?_
      rintro ⟨a, bf⟩ ⟨c, bf'⟩ ⟨h1, h2⟩
      cases h2
      exact pure (.mk' (List.rel_append (refls _) (.cons h1 .nil)))

omit hgo in
theorem blockify {s s' : Node} (hs : Veil cx w l s s') : Veil cx w l (blockify s) (Visitor.blockify s') := by
  unfold Visitor.blockify
  split
  · obtain ⟨ss', rfl, h2⟩ := hs.block_inv
    exact hs
  · next h =>
    split
    · obtain ⟨_, rfl⟩ := hs.noBlock
      exact absurd rfl (h _ _)
    · exact .mk' (.cons hs.bare .nil)

omit hgo in
theorem blockifyLast {cs cs' : List Node} (hc : List.Forall₂ (Veil cx w l) cs cs') :
    List.Forall₂ (Veil cx w l) (blockifyLast cs) (Visitor.blockifyLast cs') := by
  induction hc with
  | nil => exact .nil
  | cons h1 h2 ih =>
    cases h2 with
    | nil => exact .cons (blockify h1) .nil
    | cons h3 h4 => exact .cons h1 ih

/-- A statement that is marked before its children are visited. -/
theorem marked {m : Mode} {k : Kind} {sp : Span} {cs cs' : List Node} {p q : Prop} [Decidable p] [Decidable q] (hm : Fits m l)
    (hc : List.Forall₂ (Veil cx (k.inInit w) (k.inOperand l)) cs cs') (hpq : p ↔ q) :
    Sim (do
      Visitor.keepIf p () (Visitor.mark cx sp)
      Visitor.visitChildren cx go m (mk k sp cs)) (do
      Visitor.keepIf q () (Visitor.mark cx sp)
      Visitor.visitChildren cx go' m (mk k sp cs')) (Veil cx w l) :=
  bind (P := fun _ _ => True) (keepIf hpq trivial fun _ => same.imp fun _ _ _ => trivial) fun _ _ _ => visitChildren hgo hm hc

theorem marked' {m : Mode} {k : Kind} {sp : Span} {cs cs' : List Node} (hm : Fits m l)
    (hc : List.Forall₂ (Veil cx (k.inInit w) (k.inOperand l)) cs cs') :
    Sim (do
      Visitor.mark cx sp
      Visitor.visitChildren cx go m (mk k sp cs)) (do
      Visitor.mark cx sp
      Visitor.visitChildren cx go' m (mk k sp cs')) (Veil cx w l) :=
  bind same fun _ _ _ => visitChildren hgo hm hc

/-- A function with its name. -/
theorem withFn {m : Mode} (i : Option (Span × String)) {kd : Kind} {sp : Span} {id id' fn fn' : Node} (hm : Fits m l)
    (hc : List.Forall₂ (Veil cx (kd.inInit w) (kd.inOperand l)) [id, fn] [id', fn']) :
    Sim (do
      let fn ← Visitor.createFn cx i fn
      Visitor.visitChildren cx go m (mk kd sp [id, fn])) (do
      let fn ← Visitor.createFn cx i fn'
      Visitor.visitChildren cx go' m (mk kd sp [id', fn])) (Veil cx w l) := by
  cases hc with
  | cons h1 h2 =>
    cases h2 with
    | cons h2 _ => exact bind (createFn i h2) fun _ _ h => visitChildren hgo hm (.cons h1 (.cons h .nil))

theorem visitNode (m : Mode) (hm : Fits m l) {k : Kind} {sp : Span} {cs cs' : List Node}
    (hc : List.Forall₂ (Veil cx (k.inInit w) (k.inOperand l)) cs cs') :
    Sim (visitNode cx go m (mk k sp cs)) (Visitor.visitNode cx go' m (mk k sp cs')) (Veil cx w l) := by
  have hn : Veil cx w l (mk k sp cs) (mk k sp cs') := .mk' hc
  have hch : ∀ m : Mode, Fits m l → Sim (Visitor.visitChildren cx go m (mk k sp cs)) (Visitor.visitChildren cx go' m (mk k sp cs')) (Veil cx w l) :=
    fun m hm => visitChildren hgo hm hc
  generalize he : mk k sp cs = n at hn hch ⊢
  cases n using visitCases <;> cases he
  -- block
  · unfold Visitor.visitNode
    dsimp only
    exact guarded hn (hch m hm)
  -- function declaration
  · obtain ⟨i', f', rfl, h1, h2⟩ := forall₂_two hc
    unfold Visitor.visitNode
    dsimp only
    rw [h1.identName, h1.span]
    exact guarded hn (withFn hgo _ hm hc)
  -- arrow
  · obtain ⟨i', f', rfl, h1, h2⟩ := forall₂_two hc
    unfold Visitor.visitNode
    dsimp only
    exact guarded hn (visitArrow hgo h1 h2)
  -- function expression
  · obtain ⟨i', f', rfl, h1, h2⟩ := forall₂_two hc
    unfold Visitor.visitNode
    dsimp only
    rw [h1.identName, h1.span]
    exact guarded hn (ite Iff.rfl (fun _ => pure hn) fun _ => withFn hgo _ hm hc)
  -- expression statement
  · obtain ⟨e', rfl, h1⟩ := forall₂_one hc
    unfold Visitor.visitNode
    dsimp only
    exact frame fun cur => ite (by rw [h1.isDirectiveLit]) (fun _ => pure hn) fun _ =>
      marked hgo hm hc (by rw [h1.isInjectedExpr])
  -- break
  · unfold Visitor.visitNode
    dsimp only
    exact frame fun cur => marked hgo hm hc Iff.rfl
  -- conditional
  · obtain ⟨t', c', a', rfl, h1, h2, h3⟩ := forall₂_three hc
    unfold Visitor.visitNode
    dsimp only
    exact frame fun cur => visitCond hgo hm h1 h2 h3
  -- tagged template
  · unfold Visitor.visitNode
    dsimp only
    exact guarded hn (marked' hgo hm hc)
  -- return
  · unfold Visitor.visitNode
    dsimp only
    exact frame fun cur => marked hgo hm hc Iff.rfl
  -- variable declaration
  · unfold Visitor.visitNode
    dsimp only
    exact frame fun cur => hch m hm
  -- class declaration
  · unfold Visitor.visitNode
    dsimp only
    exact guarded hn (hch m hm)
  -- class properties
  · obtain ⟨t', c', a', rfl, h1, h2, h3⟩ := forall₂_three hc
    unfold Visitor.visitNode
    dsimp only
    exact guarded hn (bind (keepIf (by rw [h2.isNone]) h2 fun _ => coverStatement hgo hm h2) fun _ _ h =>
      visitChildren hgo hm (.cons h1 (.cons h (.cons h3 .nil))))
  · obtain ⟨t', c', a', rfl, h1, h2, h3⟩ := forall₂_three hc
    unfold Visitor.visitNode
    dsimp only
    exact guarded hn (bind (keepIf (by rw [h2.isNone]) h2 fun _ => coverStatement hgo hm h2) fun _ _ h =>
      visitChildren hgo hm (.cons h1 (.cons h (.cons h3 .nil))))
  -- methods
  · obtain ⟨i', f', rfl, h1, h2⟩ := forall₂_two hc
    unfold Visitor.visitNode
    dsimp only
    refine guarded hn ?_
    rw [h1.propName, h1.span]
    split
    · exact ite Iff.rfl (fun _ => pure hn) fun _ => withFn hgo _ hm hc
    · exact pure hn
  · obtain ⟨i', f', rfl, h1, h2⟩ := forall₂_two hc
    unfold Visitor.visitNode
    dsimp only
    refine guarded hn ?_
    rw [h1.propName, h1.span]
    split
    · exact ite Iff.rfl (fun _ => pure hn) fun _ => withFn hgo _ hm hc
    · exact withFn hgo _ hm hc
  -- accessors
  · obtain ⟨i', f', rfl, h1, h2⟩ := forall₂_two hc
    unfold Visitor.visitNode
    dsimp only
    exact guarded hn (visitAccessor hn h1 h2 fun c c' h => visitChildren hgo hm (.cons h1 (.cons h .nil)))
  · obtain ⟨i', f', x', y', rfl, h1, h2, h3, h4⟩ := forall₂_four hc
    unfold Visitor.visitNode
    dsimp only
    exact guarded hn (visitAccessor hn h1 h4 fun c c' h =>
      visitChildren hgo hm (.cons h1 (.cons h2 (.cons h3 (.cons h .nil)))))
  -- declarator
  · obtain ⟨t', c', rfl, h1, h2⟩ := forall₂_two hc
    unfold Visitor.visitNode
    dsimp only
    exact guarded hn (bind (keepIf (by rw [h2.isNone]) h2 fun _ => coverStatement hgo hm h2) fun _ _ h =>
      visitChildren hgo hm (.cons h1 (.cons h .nil)))
  -- loop
  · unfold Visitor.visitNode
    dsimp only
    exact guarded hn (marked' hgo hm (blockifyLast hc))
  -- labeled statement
  · unfold Visitor.visitNode
    dsimp only
    exact frame fun cur => marked hgo hm hc Iff.rfl
  -- continue
  · unfold Visitor.visitNode
    dsimp only
    exact frame fun cur => marked hgo hm hc Iff.rfl
  -- switch
  · unfold Visitor.visitNode
    dsimp only
    refine frame fun cur => ite Iff.rfl (fun _ => pure hn) fun _ => bind same fun _ _ _ =>
      bind same ?_
    rintro b _ rfl
    refine bind (fresh (visitChildren (m := .switchCase b) hgo (.inl rfl) hc)) ?_
    rintro ⟨a, bf⟩ ⟨c, bf'⟩ ⟨h1, h2⟩
    exact pure h1
  -- if
  · obtain ⟨t', c', a', rfl, h1, h2, h3⟩ := forall₂_three hc
    unfold Visitor.visitNode
    dsimp only
    exact frame fun cur => ite Iff.rfl (fun _ => pure hn) fun _ => visitIf hgo hm h1 h2 h3
  -- binary
  · obtain ⟨i', f', rfl, h1, h2⟩ := forall₂_two hc
    unfold Visitor.visitNode
    exact visitBin hgo h1 h2 (visitChildren hgo hm hc)
  -- default value
  · obtain ⟨i', f', rfl, h1, h2⟩ := forall₂_two hc
    unfold Visitor.visitNode
    dsimp only
    refine guarded hn (bind same ?_)
    rintro b _ rfl
    exact bind (wrapBin hgo b h2) fun _ _ h => pure (.mk' (.cons h1 (.cons h .nil)))
  -- try
  · unfold Visitor.visitNode
    dsimp only
    exact guarded hn (marked' hgo hm hc)
  -- throw
  · unfold Visitor.visitNode
    dsimp only
    exact guarded hn (marked' hgo hm hc)
  -- with
  · obtain ⟨i', f', rfl, h1, h2⟩ := forall₂_two hc
    unfold Visitor.visitNode
    dsimp only
    exact frame fun cur => ite Iff.rfl (fun _ => pure hn) fun _ => bind same fun _ _ _ =>
      bind (visitWithBody hgo h2) fun _ _ h => pure (.mk' (.cons h1 (.cons h .nil)))
  -- switch case
  · cases hc with
    | cons h1 h2 =>
      unfold Visitor.visitNode
      dsimp only
      cases m with
      | switchCase b => exact guarded hn (visitCase hgo h1 h2)
      | coverage => exact hch .coverage hm
      | stmt => exact hch .stmt hm
      | logical b => exact hch (.logical b) hm
      | logicalInner b => exact hch (.logicalInner b) hm
  -- module declarations, debugger
  all_goals try
    unfold Visitor.visitNode
    dsimp only
    cases m with
    | coverage => exact guarded hn (hch .coverage hm)
    | switchCase b => exact hch (.switchCase b) hm
    | stmt => exact hch .stmt hm
    | logical b => exact hch (.logical b) hm
    | logicalInner b => exact hch (.logicalInner b) hm
  -- others
  · next h =>
    rw [visitNode_default h, visitNode_default (by rw [← hc.length_eq, ← h])]
    exact hch m hm

theorem step (m : Mode) (hm : Fits m l) {k : Kind} {sp : Span} {cs cs' : List Node}
    (hc : List.Forall₂ (Veil cx (k.inInit w) (k.inOperand l)) cs cs') :
    Sim (step cx go m (mk k sp cs)) (Visitor.step cx go' m (mk k sp cs')) (Veil cx w l) := by
  have hn : Veil cx w l (mk k sp cs) (mk k sp cs') := .mk' hc
  cases m with
  | logical b =>
    have hl : l = true := hm.resolve_left nofun
    show Sim (visitLogical cx go b _) (visitLogical cx go' b _) (Veil cx w l)
    unfold visitLogical
    exact ite Iff.rfl (fun _ => frame fun _ => hgo _ _ (.logicalInner b) _ _ (.inr hl) hn) fun _ => logicalChildren hgo hl hc
  | logicalInner b =>
    have hl : l = true := hm.resolve_left nofun
    show Sim (visitLogicalInner cx go b _) (visitLogicalInner cx go' b _) (Veil cx w l)
    unfold visitLogicalInner
    split
    · next h =>
      cases h
      obtain ⟨_, _, rfl, h1, h2⟩ := forall₂_two hc
      exact visitBin hgo h1 h2 (logicalChildren hgo hl hc)
    · next h =>
      split
      · next h2 =>
        cases h2
        obtain ⟨_, _, rfl, -⟩ := forall₂_two hc.flip
        exact absurd rfl (h _ _ _ _)
      · exact logicalChildren hgo hl hc
  | coverage => exact visitNode hgo .coverage hm hc
  | stmt => exact visitNode hgo .stmt hm hc
  | switchCase b => exact visitNode hgo (.switchCase b) hm hc

end
end Sim

/-- A construct with a hint stays as it is. -/
theorem stays {fuel : Nat} {m : Mode} {a : Node} (hh : cx.hint a.span = some .next) (ha : a.hintable = true) (hm : Fits m l)
    (hg : l = true → a.any Kind.isLogical = false) {st s : St} {n : Node} (h : visit cx fuel m a st = .ok (n, s)) : n = a ∧ s = st := by
  rcases hm with hm | hl
  · exact visit_hinted ha hm hh h
  · cases m with
    | logical b => exact idle_logical cx b fuel _ (.inl rfl) a (hg hl) _ _ _ h
    | logicalInner b => exact idle_logical cx b fuel _ (.inr rfl) a (hg hl) _ _ _ h
    | _ => exact visit_hinted ha rfl hh h

/-- The statements of a block that is part of an operand. -/
theorem thinList {fuel fuel' : Nat} (hgo : Rec cx (visit cx fuel) (Visitor.visit cx fuel')) {b : Nat} {ss ss' : List Node} (hs : Stmts cx true ss ss') :
    Sim (M.mapList (visit cx fuel (.logical b)) ss) (M.mapList (Visitor.visit cx fuel' (.logical b)) ss') (Stmts cx true) := by
  induction hs with
  | nil => exact .pure .nil
  | keep h1 h2 ih => exact .bind (hgo _ _ _ _ _ (.inr rfl) h1) fun a b ha => .bind ih fun as bs has => .pure (.keep ha has)
  | left h1 h2 ih =>
    intro st a s b s' h h'
    obtain ⟨x, s1, h3, h4⟩ := M.bind_ok h
    obtain ⟨y, s2, h5, h6⟩ := M.bind_ok h4
    cases h6
    obtain ⟨rfl, rfl⟩ := idle_logical cx _ fuel _ (.inl rfl) _ (h1.2 rfl) _ _ _ h3
    obtain ⟨rfl, h7⟩ := ih _ _ _ _ _ h5 h'
    exact ⟨rfl, .left h1 h7⟩
  | right h1 h2 ih =>
    intro st a s b s' h h'
    obtain ⟨x, s1, h3, h4⟩ := M.bind_ok h'
    obtain ⟨y, s2, h5, h6⟩ := M.bind_ok h4
    cases h6
    obtain ⟨rfl, rfl⟩ := idle_logical cx _ fuel' _ (.inl rfl) _ (h1.2 rfl) _ _ _ h3
    obtain ⟨rfl, h7⟩ := ih _ _ _ _ _ h h5
    exact ⟨rfl, .right h1 h7⟩

theorem thinStep {fuel fuel' : Nat} (hgo : Rec cx (visit cx fuel) (Visitor.visit cx fuel')) {m : Mode} {sp : Span} {ss ss' : List Node}
    (hs : Stmts cx l ss ss') (hn : Veil cx w l (mk .block sp ss) (mk .block sp ss')) (hm : Fits m l) :
    Sim (step cx (visit cx fuel) m (mk .block sp ss)) (Visitor.step cx (Visitor.visit cx fuel') m (mk .block sp ss')) (Veil cx w l) := by
  have hv : ∀ m, Sim (Visitor.visitNode cx (visit cx fuel) m (mk .block sp ss)) (Visitor.visitNode cx (Visitor.visit cx fuel') m (mk .block sp ss'))
      (Veil cx w l) := fun m => by
    unfold Visitor.visitNode
    dsimp only
    exact .guarded hn (.thinBlock hgo hs)
  cases m with
  | logical b =>
    obtain rfl : l = true := hm.resolve_left nofun
    show Sim (visitLogical cx _ b _) (visitLogical cx _ b _) (Veil cx w true)
    unfold visitLogical
    exact .ite Iff.rfl (fun _ => .frame fun _ => hgo _ _ (.logicalInner b) _ _ (.inr rfl) hn) fun _ =>
      .bind (thinList hgo hs) fun _ _ h => .pure (block' h)
  | logicalInner b =>
    obtain rfl : l = true := hm.resolve_left nofun
    exact .bind (thinList hgo hs) fun _ _ h => .pure (block' h)
  | coverage => exact hv .coverage
  | stmt => exact hv .stmt
  | switchCase b => exact hv (.switchCase b)

theorem caseStep {fuel fuel' : Nat} (hgo : Rec cx (visit cx fuel) (Visitor.visit cx fuel')) {m : Mode} {sp : Span} {t t' : Node} {ss ss' : List Node}
    (ht : Veil cx false l t t') (hs : Stmts cx l ss ss') (hn : Veil cx false l (mk .switchCase sp (t :: ss)) (mk .switchCase sp (t' :: ss')))
    (hm : Fits m l) : Sim (step cx (visit cx fuel) m (mk .switchCase sp (t :: ss)))
      (Visitor.step cx (Visitor.visit cx fuel') m (mk .switchCase sp (t' :: ss'))) (Veil cx false l) := by
  have hlog : l = true → ∀ b, Sim (logicalChildren (visit cx fuel) b (mk .switchCase sp (t :: ss)))
      (logicalChildren (Visitor.visit cx fuel') b (mk .switchCase sp (t' :: ss'))) (Veil cx false l) := by
    rintro rfl b
    refine .bind (P := fun a b => ∃ t t' ss ss', a = t :: ss ∧ b = t' :: ss' ∧ Veil cx false true t t' ∧ Stmts cx true ss ss')
      (.bind (hgo _ _ _ _ _ (.inr rfl) ht) fun _ _ h1 => .bind (thinList hgo hs) fun _ _ h2 => .pure ⟨_, _, _, _, rfl, rfl, h1, h2⟩) ?_
    rintro _ _ ⟨t, t', ss, ss', rfl, rfl, h1, h2⟩
    exact .pure (case' h1 h2)
  cases m with
  | logical b =>
    have hl : l = true := hm.resolve_left nofun
    show Sim (visitLogical cx _ b _) (visitLogical cx _ b _) (Veil cx false l)
    unfold visitLogical
    exact .ite Iff.rfl (fun _ => .frame fun _ => hgo _ _ (.logicalInner b) _ _ (.inr hl) hn) fun _ => hlog hl b
  | logicalInner b => exact hlog (hm.resolve_left nofun) b
  | coverage => exact .thinCase hgo hm ht hs
  | stmt => exact .thinCase hgo hm ht hs
  | switchCase b => exact .guarded hn (.thinVisitCase hgo ht hs)

theorem visit (cx : Ctx) (fuel : Nat) : ∀ fuel', Rec cx (visit cx fuel) (Visitor.visit cx fuel') := by
  induction fuel with
  | zero => intro fuel' w l m n n' _ _ st a s b s' h; cases h
  | succ fuel ih =>
    intro fuel' w l m n n' hm hn
    cases fuel' with
    | zero => intro st a s b s' _ h; cases h
    | succ fuel' =>
      obtain ⟨k, sp, cs⟩ := n
      obtain ⟨cs', rfl, hc | hh | ⟨rfl, hs⟩ | ⟨rfl, rfl, t, t', ss, ss', rfl, rfl, ht, hs⟩⟩ := hn.mk_inv
      · exact Sim.step (ih fuel') m hm hc
      · intro st a s b s' h1 h2
        obtain ⟨g1, -, -, -, g3, g4, -, g5⟩ := hh
        obtain ⟨rfl, rfl⟩ := stays g1 g3 hm (fun h => (g5 h).1) h1
        obtain ⟨rfl, rfl⟩ := stays (a := mk k sp cs') g1 g4 hm (fun h => (g5 h).2) h2
        exact ⟨rfl, hn⟩
      · exact thinStep (ih fuel') hs hn hm
      · exact caseStep (ih fuel') ht hs hn hm

end Veil
end Verif
