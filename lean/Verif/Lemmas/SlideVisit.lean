import Verif.Lemmas.Slide
/-
The visit functions, with and without other code registered before.
-/
namespace Verif
open Node Visitor RegOp

/-- The visitor with a moved branch. -/
def Mode.slide (d : Offset) : Mode → Mode
  | .switchCase b => .switchCase (d.b + b)
  | .logical b => .logical (d.b + b)
  | .logicalInner b => .logicalInner (d.b + b)
  | m => m

/-- What is registered before in the first of two visits. -/
structure Slide where make ::
  cx : Ctx
  fi : File
  pre : List RegOp
  legal : Legal pre

namespace Slide
variable (L : Slide)

/-- By how much the ids are moved. -/
abbrev d : Offset := offset L.pre

/-- Trees of the two visits. -/
abbrev In (n n' : Node) : Prop := Slid L.d n n'

/-- The two registries. -/
def Regs (c c' : SourceCoverage) : Prop :=
  ∃ t, Legal t ∧ Inv L.fi.path L.fi.rl L.fi.sm (L.pre ++ t.map (RegOp.slide L.d)) c ∧ Inv L.fi.path L.fi.rl L.fi.sm t c'

/-- The two states. -/
structure Near (st st' : St) : Prop where
  before : List.Forall₂ L.In st.before st'.before
  nodes : st.nodes = st'.nodes
  ignore : st.ignore = st'.ignore
  cov : L.Regs st.cov st'.cov

/-- If the first succeeds then so does the second, with a related result. -/
def Sim (x : M α) (y : M β) (P : α → β → Prop) : Prop :=
  ∀ st st', L.Near st st' → ∀ a s, x st = .ok (a, s) → ∃ b s', y st' = .ok (b, s') ∧ P a b ∧ L.Near s s'

variable {L}

theorem legal_all {t : List RegOp} (ht : Legal t) : Legal (L.pre ++ t.map (RegOp.slide L.d)) := legal_slide _ _ _ L.legal rfl ht

namespace Sim
variable {α β γ δ : Type} {P : α → β → Prop} {Q : γ → δ → Prop}

theorem pure {a : α} {b : β} (h : P a b) : L.Sim (Pure.pure a : M α) (Pure.pure b : M β) P := by
  intro st st' hn a' s hx
  cases hx
  exact ⟨b, st', rfl, h, hn⟩

theorem bind {x : M α} {y : M β} {f : α → M γ} {g : β → M δ} (hx : L.Sim x y P)
    (hf : ∀ a b, P a b → L.Sim (f a) (g b) Q) : L.Sim (x >>= f) (y >>= g) Q := by
  intro st st' hn c s h
  obtain ⟨a, s1, h1, h2⟩ := M.bind_ok h
  obtain ⟨b, s1', h3, h4, h5⟩ := hx st st' hn a s1 h1
  obtain ⟨e, s', h6, h7, h8⟩ := hf a b h4 s1 s1' h5 c s h2
  refine ⟨e, s', ?_, h7, h8⟩
  show M.bind y g st' = _
  unfold M.bind
  rw [h3]
  exact h6

theorem ite {p q : Prop} [Decidable p] [Decidable q] {x x' : M α} {y y' : M β} (hpq : p ↔ q) (hx : p → L.Sim x y P)
    (hy : ¬ p → L.Sim x' y' P) : L.Sim (if p then x else x') (if q then y else y') P := by
  by_cases h : p
  · rw [if_pos h, if_pos (hpq.1 h)]; exact hx h
  · rw [if_neg h, if_neg (fun hq => h (hpq.2 hq))]; exact hy h

theorem keepIf {p q : Prop} [Decidable p] [Decidable q] {a : α} {b : β} {x : M α} {y : M β} (hpq : p ↔ q) (ha : P a b)
    (hx : ¬ p → L.Sim x y P) : L.Sim (keepIf p a x) (Visitor.keepIf q b y) P :=
  ite hpq (fun _ => pure ha) hx

theorem push (t : Tag) : L.Sim (push t) (Visitor.push t) fun _ _ => True := by
  intro st st' hn a s h
  cases h
  exact ⟨(), _, rfl, trivial, ⟨hn.before, by dsimp only; rw [hn.nodes], hn.ignore, hn.cov⟩⟩

theorem pop : L.Sim pop Visitor.pop fun _ _ => True := by
  intro st st' hn a s h
  cases h
  exact ⟨(), _, rfl, trivial, ⟨hn.before, by dsimp only; rw [hn.nodes], hn.ignore, hn.cov⟩⟩

theorem enterSpan (sp : Span) : L.Sim (enterSpan L.cx sp) (Visitor.enterSpan L.cx sp) (· = ·) := by
  intro st st' hn a s h
  unfold Visitor.enterSpan at h ⊢
  rw [← hn.ignore]
  by_cases hi : st.ignore = some .next
  · rw [if_pos hi] at h ⊢
    cases h
    exact ⟨_, _, rfl, rfl, hn⟩
  · rw [if_neg hi] at h ⊢
    cases h
    exact ⟨_, _, rfl, rfl, ⟨hn.before, hn.nodes, rfl, hn.cov⟩⟩

theorem exit (old : Option IgnoreScope) : L.Sim (exit old) (Visitor.exit old) fun _ _ => True := by
  unfold Visitor.exit
  refine bind (P := fun _ _ => True) ?_ fun _ _ _ => pop
  intro st st' hn a s h
  cases h
  exact ⟨(), _, rfl, trivial, ⟨hn.before, hn.nodes, rfl, hn.cov⟩⟩

theorem frame {t : Tag} {sp : Span} {body : Option IgnoreScope → M α} {body' : Option IgnoreScope → M β}
    (hb : ∀ cur, L.Sim (body cur) (body' cur) P) :
    L.Sim (frame L.cx t sp body) (Visitor.frame L.cx t sp body') P := by
  unfold Visitor.frame Visitor.enter
  refine bind (bind (push t) fun _ _ _ => enterSpan sp) ?_
  rintro ⟨old, cur⟩ _ rfl
  exact bind (hb cur) fun a b h => bind (exit old) fun _ _ _ => pure h

theorem guarded {t : Tag} {n n' : Node} {body body' : M Node} (hn : L.In n n') (hb : L.Sim body body' L.In) :
    L.Sim (guarded L.cx t n body) (Visitor.guarded L.cx t n' body') L.In := by
  unfold Visitor.guarded
  rw [hn.span]
  exact frame fun _ => ite Iff.rfl (fun _ => pure hn) fun _ => hb

theorem fresh {ig : Option IgnoreScope} {x : M α} {y : M β} (hx : L.Sim x y P) :
    L.Sim (fresh ig x) (Visitor.fresh ig y) fun a b => P a.1 b.1 ∧ List.Forall₂ L.In a.2 b.2 := by
  intro st st' hn a s h
  unfold Visitor.fresh at h ⊢
  cases hxs : x { st with before := [], ignore := ig } with
  | error e => rw [hxs] at h; cases h
  | ok r =>
    obtain ⟨a1, s1⟩ := r
    rw [hxs] at h
    cases h
    obtain ⟨b, s', h1, h2, h3⟩ := hx { st with before := [], ignore := ig } { st' with before := [], ignore := ig } ⟨.nil, hn.nodes, rfl, hn.cov⟩ _ _ hxs
    rw [h1]
    exact ⟨_, _, rfl, ⟨h2, h3.before⟩, ⟨hn.before, hn.nodes, hn.ignore, h3.cov⟩⟩

theorem newStatement (r : Range) : L.Sim (newStatement r) (Visitor.newStatement r) fun i j => i = L.d.s + j := by
  intro st st' hn a s h
  cases h
  obtain ⟨t, ht, h1, h2⟩ := hn.cov
  obtain ⟨g1, g2⟩ := inv_newStatement h1 r
  obtain ⟨g3, g4⟩ := inv_newStatement h2 r
  refine ⟨_, _, rfl, ?_, ⟨hn.before, hn.nodes, hn.ignore, t ++ [.statement r], legal_concat ht nofun, ?_, g3⟩⟩
  · rw [g2, g4, statements_slide, List.length_append]
    rfl
  · rw [List.map_append, ← List.append_assoc]
    exact g1

theorem newFunction (n : Option String) (p r : Range) : L.Sim (newFunction n p r) (Visitor.newFunction n p r) fun i j => i = L.d.f + j := by
  intro st st' hn a s h
  cases h
  obtain ⟨t, ht, h1, h2⟩ := hn.cov
  obtain ⟨g1, g2⟩ := inv_newFunction h1 n p r
  obtain ⟨g3, g4⟩ := inv_newFunction h2 n p r
  refine ⟨_, _, rfl, ?_, ⟨hn.before, hn.nodes, hn.ignore, t ++ [.function n p r], legal_concat ht nofun, ?_, g3⟩⟩
  · rw [g2, g4, functions_slide, List.length_append]
    rfl
  · rw [List.map_append, ← List.append_assoc]
    exact g1

theorem newBranch (ty : BranchType) (r : Range) (g : Bool) : L.Sim (newBranch ty r g) (Visitor.newBranch ty r g) fun i j => i = L.d.b + j := by
  intro st st' hn a s h
  cases h
  obtain ⟨t, ht, h1, h2⟩ := hn.cov
  obtain ⟨g1, g2⟩ := inv_newBranch (legal_all ht) h1 ty r g
  obtain ⟨g3, g4⟩ := inv_newBranch ht h2 ty r g
  refine ⟨_, _, rfl, ?_, ⟨hn.before, hn.nodes, hn.ignore, t ++ [.branch ty r g], legal_concat ht nofun, ?_, g3⟩⟩
  · rw [g2, g4, branches_slide, List.length_append]
    rfl
  · rw [List.map_append, ← List.append_assoc]
    exact g1

theorem addPath (b : Nat) (r : Range) : L.Sim (addPath (L.d.b + b) r) (Visitor.addPath b r) (· = ·) := by
  intro st st' hn a s h
  obtain ⟨t, ht, h1, h2⟩ := hn.cov
  unfold Visitor.addPath at h ⊢
  by_cases hb : b < (branches t).length
  · have hb' : L.d.b + b < (branches (L.pre ++ t.map (RegOp.slide L.d))).length := by
      rw [branches_slide, List.length_append]
      show (branches L.pre).length + b < _
      omega
    obtain ⟨c1, g1, g2⟩ := inv_addBranchPath h1 _ r hb'
    obtain ⟨c2, g3, g4⟩ := inv_addBranchPath h2 _ r hb
    rw [g1] at h
    rw [g3]
    cases h
    refine ⟨_, _, rfl, ?_, ⟨hn.before, hn.nodes, hn.ignore, t ++ [.path b r], legal_concat ht ?_, ?_, g4⟩⟩
    · rw [arms_slide_high _ _ _ L.legal rfl]
    · rintro k l ⟨⟩
      exact hb
    · rw [List.map_append, ← List.append_assoc]
      exact g2
  · rw [addBranchPath_error h1] at h
    · cases h
    · rw [branches_slide, List.length_append]
      show (branches L.pre).length + _ ≤ (branches L.pre).length + b
      omega

theorem pushBefore {n n' : Node} (h : L.In n n') : L.Sim (pushBefore n) (Visitor.pushBefore n') fun _ _ => True := by
  intro st st' hn a s hs
  cases hs
  exact ⟨(), _, rfl, trivial, ⟨List.rel_append hn.before (.cons h .nil), hn.nodes, hn.ignore, hn.cov⟩⟩

theorem mark (sp : Span) : L.Sim (mark L.cx sp) (Visitor.mark L.cx sp) fun _ _ => True := by
  unfold Visitor.mark
  refine bind (newStatement _) ?_
  rintro _ i rfl
  exact pushBefore (.stmtC (.s i))

theorem replaceWithStmtCounter {e e' : Node} (h : L.In e e') :
    L.Sim (replaceWithStmtCounter L.cx e) (Visitor.replaceWithStmtCounter L.cx e') L.In := by
  unfold Visitor.replaceWithStmtCounter
  rw [h.span]
  refine bind (newStatement _) ?_
  rintro _ i rfl
  exact pure (.wrapC (.s i) h)

theorem replaceWithBranchCounter (b : Nat) {e e' : Node} (h : L.In e e') :
    L.Sim (replaceWithBranchCounter L.cx (L.d.b + b) e) (Visitor.replaceWithBranchCounter L.cx b e') L.In := by
  unfold Visitor.replaceWithBranchCounter
  rw [h.span]
  refine bind (addPath b _) ?_
  rintro i _ rfl
  exact pure (.wrapC (.b b i) h)

end Sim

/-- Recursive visits. -/
def Rec (L : Slide) (go go' : Mode → Node → M Node) : Prop := ∀ m n n', L.In n n' → L.Sim (go (m.slide L.d) n) (go' m n') L.In

namespace Sim
variable {α β γ δ : Type} {P : α → β → Prop} {Q : γ → δ → Prop}

section
variable {go go' : Mode → Node → M Node} (hgo : L.Rec go go')
include hgo

theorem mapList {m : Mode} {cs cs' : List Node} (hc : List.Forall₂ L.In cs cs') :
    L.Sim (M.mapList (go (m.slide L.d)) cs) (M.mapList (go' m) cs') (List.Forall₂ L.In) := by
  induction hc with
  | nil => exact pure .nil
  | cons h1 h2 ih => exact bind (hgo m _ _ h1) fun a b ha => bind ih fun as bs has => pure (.cons ha has)

theorem insertStmt {s s' : Node} (hs : L.In s s') :
    L.Sim (insertStmt L.cx go s) (Visitor.insertStmt L.cx go' s') (List.Forall₂ L.In) := by
  unfold Visitor.insertStmt
  refine ite (by rw [hs.isInjectedStmt]) (fun _ => pure (.cons hs .nil)) fun _ => ?_
  rw [hs.span]
  refine frame fun cur => ite Iff.rfl (fun _ => pure (.cons hs .nil)) fun _ => ?_
  refine bind (fresh (hgo .stmt _ _ hs)) ?_
  rintro ⟨a, bf⟩ ⟨b, bf'⟩ ⟨h1, h2⟩
  exact pure (List.rel_append h2 (.cons h1 .nil))

theorem insertStmts {ss ss' : List Node} (hs : List.Forall₂ L.In ss ss') :
    L.Sim (insertStmts L.cx go ss) (Visitor.insertStmts L.cx go' ss') (List.Forall₂ L.In) := by
  induction hs with
  | nil => exact pure .nil
  | cons h1 h2 ih => exact bind (insertStmt hgo h1) fun a b ha => bind ih fun as bs has => pure (List.rel_append ha has)

theorem visitStmts {ss ss' : List Node} (hs : List.Forall₂ L.In ss ss') :
    L.Sim (visitStmts L.cx go ss) (Visitor.visitStmts L.cx go' ss') (List.Forall₂ L.In) :=
  bind (push .stmts) fun _ _ _ => bind (insertStmts hgo hs) fun _ _ h => bind pop fun _ _ _ => pure h

theorem visitChildren {m : Mode} {k k' : Kind} {sp : Span} {cs cs' : List Node} (hk : Kind.Slid L.d k k')
    (hc : List.Forall₂ L.In cs cs') :
    L.Sim (visitChildren L.cx go (m.slide L.d) (mk k sp cs)) (Visitor.visitChildren L.cx go' m (mk k' sp cs')) L.In := by
  unfold Visitor.visitChildren
  split
  · next h =>
    cases h
    cases hk
    exact bind (visitStmts hgo hc) fun _ _ h => pure (.node (.refl (by nofun)) h)
  · next h =>
    cases h
    cases hk
    cases hc with
    | cons h1 h2 =>
      exact bind (hgo m _ _ h1) fun _ _ h1' => bind (visitStmts hgo h2) fun _ _ h => pure (.node (.refl (by nofun)) (.cons h1' h))
  · next h1 h2 h =>
    cases h
    split
    · next h =>
      cases h
      cases hk
      exact (h1 rfl).elim
    · next h =>
      cases h
      cases hk
      cases hc with
      | cons h3 h4 => exact (h2 _ _ rfl rfl).elim
    · next h =>
      cases h
      exact bind (mapList hgo hc) fun _ _ h => pure (.node hk h)

theorem logicalChildren {b : Nat} {k k' : Kind} {sp : Span} {cs cs' : List Node} (hk : Kind.Slid L.d k k')
    (hc : List.Forall₂ L.In cs cs') :
    L.Sim (logicalChildren go (L.d.b + b) (mk k sp cs)) (Visitor.logicalChildren go' b (mk k' sp cs')) L.In :=
  bind (mapList (m := .logical b) hgo hc) fun _ _ h => pure (.node hk h)

theorem wrapBin {m : Mode} (b : Nat) {e e' : Node} (he : L.In e e') :
    L.Sim (wrapBin L.cx go (m.slide L.d) (L.d.b + b) e) (Visitor.wrapBin L.cx go' m b e') L.In := by
  unfold Visitor.wrapBin
  dsimp only
  rw [he.span]
  refine ite Iff.rfl (fun _ => pure he) fun _ => ite (by rw [he.any_eq fun _ _ h => h.isLogical]) (fun _ => ?_) fun hl => ?_
  · refine bind (fresh (hgo (.logicalInner b) _ _ he)) ?_
    rintro ⟨a, bf⟩ ⟨b, bf'⟩ ⟨h1, h2⟩
    exact pure h1
  · refine ite Iff.rfl (fun _ => ?_) fun _ => bind (hgo m _ _ he) fun _ _ h => replaceWithBranchCounter b h
    refine bind (addPath b _) ?_
    rintro i _ rfl
    exact pure (.wrapT _ _ he)

omit hgo in
theorem prependFn {id : Nat} {body body' : Node} (hb : L.In body body') :
    L.Sim (prependFn (L.d.f + id) body) (Visitor.prependFn id body') L.In := by
  unfold Visitor.prependFn
  split
  · obtain ⟨cs', rfl, hc⟩ := hb.block
    exact pure (.node (.refl (by nofun)) (.cons (.stmtC (.f id)) hc))
  · intro st st' _ a s h; cases h

omit hgo in
theorem createFn (ident : Option (Span × String)) {n n' : Node} (hn : L.In n n') :
    L.Sim (createFn L.cx ident n) (Visitor.createFn L.cx ident n') L.In := by
  unfold Visitor.createFn
  split
  · next a sp ps ds body =>
    obtain ⟨k', cs', rfl, hk, hc⟩ := hn.mk_inv
    cases hk
    obtain ⟨ps', ds', body', rfl, h1, h2, h3⟩ := forall₂_three hc
    dsimp only
    rw [h3.isNone, h3.span]
    refine bind (newFunction _ _ _) ?_
    rintro _ i rfl
    exact bind (prependFn h3) fun _ _ h => pure (.node (.refl (by nofun)) (.cons h1 (.cons h2 (.cons h .nil))))
  · next h =>
    split
    · next a sp ps ds body =>
      cases n with
      | mk k sp1 cs =>
        obtain ⟨k', cs', h1, hk, hc⟩ := hn.mk_inv
        cases h1
        cases hk
        obtain ⟨ps', ds', body', rfl, -⟩ := forall₂_three hc.flip
        exact absurd rfl (h _ _ _ _ _)
    · exact pure hn

omit hgo in
theorem topNode : L.Sim topNode Visitor.topNode (· = ·) := by
  intro st st' hn a s h
  unfold Visitor.topNode at h ⊢
  rw [← hn.nodes]
  cases hs : st.nodes with
  | nil => rw [hs] at h; cases h
  | cons t ts => rw [hs] at h; cases h; exact ⟨_, _, rfl, rfl, hn⟩

omit hgo in
theorem allNodes : L.Sim allNodes Visitor.allNodes (· = ·) := by
  intro st st' hn a s h
  cases h
  exact ⟨_, _, rfl, by rw [hn.nodes], hn⟩

omit hgo in
theorem coverHoisted {e e' : Node} (he : L.In e e') : L.Sim (coverHoisted L.cx e) (Visitor.coverHoisted L.cx e') L.In := by
  unfold Visitor.coverHoisted
  rw [he.span]
  refine bind allNodes ?_
  rintro nodes _ rfl
  exact ite Iff.rfl (fun _ => bind (P := fun _ _ => True) (keepIf Iff.rfl trivial fun _ => mark _) fun _ _ _ => pure he)
    fun _ => replaceWithStmtCounter he

theorem coverStatement {m : Mode} {e e' : Node} (he : L.In e e') :
    L.Sim (coverStatement L.cx go (m.slide L.d) e) (Visitor.coverStatement L.cx go' m e') L.In := by
  unfold Visitor.coverStatement
  rw [he.span]
  refine ite he.kind.tagged_iff (fun hk => ?_) fun _ => ite (by rw [he.any_eq fun _ _ h => h.isBlock]) (fun _ => ?_) fun _ => ?_
  · exact bind (mark _) fun _ _ _ => hgo m _ _ he
  · exact bind (mark _) fun _ _ _ => pure he
  · refine bind (P := fun _ _ => True) (keepIf (by rw [he.any_eq fun _ _ h => h.isStmt]) trivial fun _ => mark _) ?_
    intro _ _ _
    refine bind topNode ?_
    rintro parent _ rfl
    exact ite (by rw [he.any_eq fun _ _ h => h.isHoisting]) (fun _ => coverHoisted he) fun _ =>
      ite (by rw [he.any_eq fun _ _ h => h.isExpr]) (fun _ => replaceWithStmtCounter he) fun _ => pure he

theorem visitArrow {a : String} {sp : Span} {params params' body body' : Node}
    (hp : L.In params params') (hb : L.In body body') :
    L.Sim (visitArrow L.cx go a sp params body) (Visitor.visitArrow L.cx go' a sp params' body') L.In := by
  unfold Visitor.visitArrow
  rw [hb.span]
  refine bind (newFunction _ _ _) ?_
  rintro _ i rfl
  split
  · obtain ⟨ss', rfl, h2⟩ := hb.block
    exact bind (insertStmts hgo h2) fun _ _ h =>
      pure (.node (.refl (by nofun)) (.cons hp (.cons (.node (.refl (by nofun)) (.cons (.stmtC (.f i)) h)) .nil)))
  · next h =>
    split
    · obtain ⟨_, rfl⟩ := hb.noBlock
      exact absurd rfl (h _ _)
    · rw [hb.span]
      exact bind (insertStmts hgo (.cons (.stmtC (.f i)) (.cons (.node (.refl (by nofun)) (.cons hb .nil)) .nil))) fun _ _ h =>
        pure (.node (.refl (by nofun)) (.cons hp (.cons (.node (.refl (by nofun)) h) .nil)))

omit hgo in
theorem createAccessor (name : String) (sp : Span) {body body' : Node} (hb : L.In body body') :
    L.Sim (createAccessor L.cx name sp body) (Visitor.createAccessor L.cx name sp body') L.In := by
  unfold Visitor.createAccessor
  split
  · obtain ⟨ss', rfl, h2⟩ := hb.block
    refine bind (newFunction _ _ _) ?_
    rintro _ i rfl
    exact pure (.node (.refl (by nofun)) (.cons (.stmtC (.f i)) h2))
  · next h =>
    split
    · obtain ⟨_, rfl⟩ := hb.noBlock
      exact absurd rfl (h _ _)
    · exact pure hb

omit hgo in
theorem visitAccessor {m : Mode} {n n' key key' body body' : Node} {rebuild rebuild' : Node → Node} (hn : L.In n n')
    (hkey : L.In key key') (hb : L.In body body')
    (hr : ∀ c c', L.In c c' → L.Sim (Visitor.visitChildren L.cx go (m.slide L.d) (rebuild c)) (Visitor.visitChildren L.cx go' m (rebuild' c')) L.In) :
    L.Sim (visitAccessor L.cx go (m.slide L.d) n key body rebuild) (Visitor.visitAccessor L.cx go' m n' key' body' rebuild') L.In := by
  unfold Visitor.visitAccessor
  rw [hkey.propName, hkey.span, hn.span]
  split
  · exact ite Iff.rfl (fun _ => pure hn) fun _ => bind (createAccessor _ _ hb) fun c c' hc => hr c c' hc
  · exact bind (createAccessor _ _ hb) fun c c' hc => hr c c' hc

theorem wrapArm {cur : Option IgnoreScope} {b : Nat} (r : Range) {s s' : Node} (hs : L.In s s') :
    L.Sim (wrapArm L.cx go cur (L.d.b + b) r s) (Visitor.wrapArm L.cx go' cur b r s') L.In := by
  unfold Visitor.wrapArm
  refine bind (addPath b r) ?_
  rintro i _ rfl
  split
  · obtain ⟨ss', rfl, h2⟩ := hs.block
    exact bind (insertStmts hgo h2) fun _ _ h => pure (.node (.refl (by nofun)) (.cons (.stmtC (.b b i)) h))
  · next h =>
    split
    · obtain ⟨_, rfl⟩ := hs.noBlock
      exact absurd rfl (h _ _)
    · refine bind (fresh (hgo .stmt _ _ hs)) ?_
      rintro ⟨a, bf⟩ ⟨c, bf'⟩ ⟨h1, h2⟩
      exact pure (.node (.refl (by nofun)) (.cons (.stmtC (.b b i)) (List.rel_append h2 (.cons h1 .nil))))

theorem visitIf {m : Mode} {cur : Option IgnoreScope} {sp : Span} {test test' cons cons' alt alt' : Node}
    (ht : L.In test test') (hc : L.In cons cons') (ha : L.In alt alt') :
    L.Sim (visitIf L.cx go (m.slide L.d) cur sp test cons alt) (Visitor.visitIf L.cx go' m cur sp test' cons' alt') L.In := by
  unfold Visitor.visitIf
  refine bind (mark _) fun _ _ _ => bind (newBranch _ _ _) ?_
  rintro _ b rfl
  refine bind (keepIf Iff.rfl hc fun _ => wrapArm hgo _ hc) fun _ _ h1 =>
    bind (keepIf Iff.rfl ha fun _ => wrapArm hgo _ ?_) fun _ _ h2 => bind (hgo m _ _ ht) fun _ _ h3 =>
      pure (.node (.refl (by nofun)) (.cons h3 (.cons h1 (.cons h2 .nil))))
  rw [ha.isNone]
  split
  · exact .node (.refl (by nofun)) .nil
  · exact ha

theorem visitCond {m : Mode} {cur : Option IgnoreScope} {sp : Span} {test test' cons cons' alt alt' : Node}
    (ht : L.In test test') (hc : L.In cons cons') (ha : L.In alt alt') :
    L.Sim (visitCond L.cx go (m.slide L.d) cur sp test cons alt) (Visitor.visitCond L.cx go' m cur sp test' cons' alt') L.In := by
  unfold Visitor.visitCond
  refine bind (P := fun x y => L.In x.1 y.1 ∧ L.In x.2 y.2) (keepIf Iff.rfl ⟨hc, ha⟩ fun _ => ?_) ?_
  · unfold Visitor.wrapCondArms
    refine bind (newBranch _ _ _) ?_
    rintro _ b rfl
    exact bind (keepIf (by rw [hc.span]) hc fun _ => replaceWithBranchCounter b hc) fun _ _ h1 =>
      bind (keepIf (by rw [ha.span]) ha fun _ => replaceWithBranchCounter b ha) fun _ _ h2 => pure ⟨h1, h2⟩
  · rintro ⟨c, a⟩ ⟨c', a'⟩ ⟨h1, h2⟩
    exact visitChildren hgo (.refl (by nofun)) (.cons ht (.cons h1 (.cons h2 .nil)))

theorem visitBin {m : Mode} {branch? : Option Nat} {children children' : Node → M Node}
    {op : BinOp} {sp : Span} {left right left' right' : Node} (hl : L.In left left') (hr : L.In right right')
    (hc : L.Sim (children (mk (.bin op) sp [left, right])) (children' (mk (.bin op) sp [left', right'])) L.In) :
    L.Sim (visitBin L.cx go (m.slide L.d) (branch?.map (L.d.b + ·)) children op sp left right)
      (Visitor.visitBin L.cx go' m branch? children' op sp left' right') L.In := by
  have he : ∀ (old : Option IgnoreScope) (t : Tag), L.Sim (do
      Visitor.push t
      let n ← children (mk (.bin op) sp [left, right])
      Visitor.exit old
      Pure.pure n) (do
      Visitor.push t
      let n ← children' (mk (.bin op) sp [left', right'])
      Visitor.exit old
      Pure.pure n) L.In := fun old t =>
    bind (push t) fun _ _ _ => bind hc fun _ _ h => bind (exit old) fun _ _ _ => pure h
  unfold Visitor.visitBin
  refine bind (enterSpan sp) ?_
  rintro ⟨old, cur⟩ _ rfl
  refine ite Iff.rfl (fun _ => he old _) fun _ => ite Iff.rfl (fun hlog => ?_) fun _ => he old _
  refine bind (push _) fun _ _ _ => bind (P := fun i j => i = L.d.b + j) ?_ ?_
  · unfold Visitor.logicalBranch
    cases branch? with
    | some b => exact pure rfl
    | none => exact newBranch _ _ _
  · rintro _ b rfl
    exact bind (wrapBin hgo b hl) fun _ _ h1 =>
      bind (wrapBin hgo b hr) fun _ _ h2 => pure (.node (.refl (by nofun)) (.cons h1 (.cons h2 .nil)))

theorem visitCase {b : Nat} {sp : Span} {test test' : Node} {cons cons' : List Node}
    (ht : L.In test test') (hc : List.Forall₂ L.In cons cons') :
    L.Sim (visitCase L.cx go (L.d.b + b) sp test cons) (Visitor.visitCase L.cx go' b sp test' cons') L.In := by
  unfold Visitor.visitCase
  refine bind (addPath b _) ?_
  rintro i _ rfl
  exact bind (hgo (.switchCase b) _ _ ht) fun _ _ h1 => bind (visitStmts hgo hc) fun _ _ h2 =>
    pure (.node (.refl (by nofun)) (.cons h1 (.cons (.stmtC (.b b i)) h2)))

theorem visitWithBody {cur : Option IgnoreScope} {body body' : Node} (hb : L.In body body') :
    L.Sim (visitWithBody L.cx go cur body) (Visitor.visitWithBody L.cx go' cur body') L.In := by
  unfold Visitor.visitWithBody
  split
  · obtain ⟨ss', rfl, h2⟩ := hb.block
    exact bind (insertStmts hgo h2) fun _ _ h => pure (.node (.refl (by nofun)) h)
  · next h =>
    split
    · obtain ⟨_, rfl⟩ := hb.noBlock
      exact absurd rfl (h _ _)
    · refine bind (fresh (hgo .stmt _ _ hb)) ?_
      rintro ⟨a, bf⟩ ⟨c, bf'⟩ ⟨h1, h2⟩
      exact pure (.node (.refl (by nofun)) (List.rel_append h2 (.cons h1 .nil)))

omit hgo in
theorem blockify {s s' : Node} (hs : L.In s s') : L.In (blockify s) (Visitor.blockify s') := by
  unfold Visitor.blockify
  split
  · obtain ⟨ss', rfl, h2⟩ := hs.block
    exact hs
  · next h =>
    split
    · obtain ⟨_, rfl⟩ := hs.noBlock
      exact absurd rfl (h _ _)
    · exact .node (.refl (by nofun)) (.cons hs .nil)

omit hgo in
theorem blockifyLast {cs cs' : List Node} (hc : List.Forall₂ L.In cs cs') :
    List.Forall₂ L.In (blockifyLast cs) (Visitor.blockifyLast cs') := by
  induction hc with
  | nil => exact .nil
  | cons h1 h2 ih =>
    cases h2 with
    | nil => exact .cons (blockify h1) .nil
    | cons h3 h4 => exact .cons h1 ih

/-- A function with its name. -/
theorem withFn {m : Mode} (i : Option (Span × String)) {kd : Kind} (hk : ∀ c, kd ≠ .counter c) {sp : Span} {id id' fn fn' : Node}
    (hid : L.In id id') (hf : L.In fn fn') :
    L.Sim (do
      let fn ← Visitor.createFn L.cx i fn
      Visitor.visitChildren L.cx go (m.slide L.d) (mk kd sp [id, fn])) (do
      let fn ← Visitor.createFn L.cx i fn'
      Visitor.visitChildren L.cx go' m (mk kd sp [id', fn])) L.In :=
  bind (createFn i hf) fun _ _ h => visitChildren hgo (.refl hk) (.cons hid (.cons h .nil))

/-- A statement that is marked before its children are visited. -/
theorem marked {m : Mode} {k k' : Kind} {sp : Span} {cs cs' : List Node} {p q : Prop} [Decidable p] [Decidable q]
    (hk : Kind.Slid L.d k k') (hc : List.Forall₂ L.In cs cs') (hpq : p ↔ q) :
    L.Sim (do
      Visitor.keepIf p () (Visitor.mark L.cx sp)
      Visitor.visitChildren L.cx go (m.slide L.d) (mk k sp cs)) (do
      Visitor.keepIf q () (Visitor.mark L.cx sp)
      Visitor.visitChildren L.cx go' m (mk k' sp cs')) L.In :=
  bind (P := fun _ _ => True) (keepIf hpq trivial fun _ => mark sp) fun _ _ _ => visitChildren hgo hk hc

theorem marked' {m : Mode} {k k' : Kind} {sp : Span} {cs cs' : List Node}
    (hk : Kind.Slid L.d k k') (hc : List.Forall₂ L.In cs cs') :
    L.Sim (do
      Visitor.mark L.cx sp
      Visitor.visitChildren L.cx go (m.slide L.d) (mk k sp cs)) (do
      Visitor.mark L.cx sp
      Visitor.visitChildren L.cx go' m (mk k' sp cs')) L.In :=
  bind (mark sp) fun _ _ _ => visitChildren hgo hk hc

theorem visitNode (m : Mode) {n n' : Node} (hn : L.In n n') :
    L.Sim (visitNode L.cx go (m.slide L.d) n) (Visitor.visitNode L.cx go' m n') L.In := by
  have hch : ∀ m : Mode, L.Sim (Visitor.visitChildren L.cx go (m.slide L.d) n) (Visitor.visitChildren L.cx go' m n') L.In := by
    intro m
    cases n with
    | mk kd sp cs =>
      obtain ⟨k', cs', rfl, hk, hc⟩ := hn.mk_inv
      exact visitChildren hgo hk hc
  cases n using visitCases
  -- block
  · obtain ⟨k', cs', rfl, hk, hc⟩ := hn.mk_inv
    cases hk
    unfold Visitor.visitNode
    dsimp only
    exact guarded hn (hch m)
  -- function declaration
  · obtain ⟨k', cs', rfl, hk, hc⟩ := hn.mk_inv
    cases hk
    obtain ⟨i', f', rfl, h1, h2⟩ := forall₂_two hc
    unfold Visitor.visitNode
    dsimp only
    rw [h1.identName, h1.span]
    exact guarded hn (withFn hgo _ (by nofun) h1 h2)
  -- arrow
  · obtain ⟨k', cs', rfl, hk, hc⟩ := hn.mk_inv
    cases hk
    obtain ⟨i', f', rfl, h1, h2⟩ := forall₂_two hc
    unfold Visitor.visitNode
    dsimp only
    exact guarded hn (visitArrow hgo h1 h2)
  -- function expression
  · obtain ⟨k', cs', rfl, hk, hc⟩ := hn.mk_inv
    cases hk
    obtain ⟨i', f', rfl, h1, h2⟩ := forall₂_two hc
    unfold Visitor.visitNode
    dsimp only
    rw [h1.identName, h1.span]
    exact guarded hn (ite Iff.rfl (fun _ => pure hn) fun _ => withFn hgo _ (by nofun) h1 h2)
  -- expression statement
  · obtain ⟨k', cs', rfl, hk, hc⟩ := hn.mk_inv
    cases hk
    obtain ⟨e', rfl, h1⟩ := forall₂_one hc
    unfold Visitor.visitNode
    dsimp only
    exact frame fun cur => ite (by rw [h1.isDirectiveLit]) (fun _ => pure hn) fun _ =>
      marked hgo (.refl (by nofun)) hc (by rw [h1.isInjectedExpr])
  -- break
  · obtain ⟨k', cs', rfl, hk, hc⟩ := hn.mk_inv
    cases hk
    unfold Visitor.visitNode
    dsimp only
    exact frame fun cur => marked hgo (.refl (by nofun)) hc Iff.rfl
  -- conditional
  · obtain ⟨k', cs', rfl, hk, hc⟩ := hn.mk_inv
    cases hk
    obtain ⟨t', c', a', rfl, h1, h2, h3⟩ := forall₂_three hc
    unfold Visitor.visitNode
    dsimp only
    exact frame fun cur => visitCond hgo h1 h2 h3
  -- tagged template
  · obtain ⟨k', cs', rfl, hk, hc⟩ := hn.mk_inv
    cases hk
    unfold Visitor.visitNode
    dsimp only
    exact guarded hn (marked' hgo (.refl (by nofun)) hc)
  -- return
  · obtain ⟨k', cs', rfl, hk, hc⟩ := hn.mk_inv
    cases hk
    unfold Visitor.visitNode
    dsimp only
    exact frame fun cur => marked hgo (.refl (by nofun)) hc Iff.rfl
  -- variable declaration
  · obtain ⟨k', cs', rfl, hk, hc⟩ := hn.mk_inv
    cases hk
    unfold Visitor.visitNode
    dsimp only
    exact frame fun cur => hch m
  -- class declaration
  · obtain ⟨k', cs', rfl, hk, hc⟩ := hn.mk_inv
    cases hk
    unfold Visitor.visitNode
    dsimp only
    exact guarded hn (hch m)
  -- class properties
  · obtain ⟨k', cs', rfl, hk, hc⟩ := hn.mk_inv
    cases hk
    obtain ⟨t', c', a', rfl, h1, h2, h3⟩ := forall₂_three hc
    unfold Visitor.visitNode
    dsimp only
    exact guarded hn (bind (keepIf (by rw [h2.isNone]) h2 fun _ => coverStatement hgo h2) fun _ _ h =>
      visitChildren hgo (.refl (by nofun)) (.cons h1 (.cons h (.cons h3 .nil))))
  · obtain ⟨k', cs', rfl, hk, hc⟩ := hn.mk_inv
    cases hk
    obtain ⟨t', c', a', rfl, h1, h2, h3⟩ := forall₂_three hc
    unfold Visitor.visitNode
    dsimp only
    exact guarded hn (bind (keepIf (by rw [h2.isNone]) h2 fun _ => coverStatement hgo h2) fun _ _ h =>
      visitChildren hgo (.refl (by nofun)) (.cons h1 (.cons h (.cons h3 .nil))))
  -- methods
  · obtain ⟨k', cs', rfl, hk, hc⟩ := hn.mk_inv
    cases hk
    obtain ⟨i', f', rfl, h1, h2⟩ := forall₂_two hc
    unfold Visitor.visitNode
    dsimp only
    refine guarded hn ?_
    rw [h1.propName, h1.span]
    split
    · exact ite Iff.rfl (fun _ => pure hn) fun _ => withFn hgo _ (by nofun) h1 h2
    · exact pure hn
  · obtain ⟨k', cs', rfl, hk, hc⟩ := hn.mk_inv
    cases hk
    obtain ⟨i', f', rfl, h1, h2⟩ := forall₂_two hc
    unfold Visitor.visitNode
    dsimp only
    refine guarded hn ?_
    rw [h1.propName, h1.span]
    split
    · exact ite Iff.rfl (fun _ => pure hn) fun _ => withFn hgo _ (by nofun) h1 h2
    · exact withFn hgo _ (by nofun) h1 h2
  -- accessors
  · obtain ⟨k', cs', rfl, hk, hc⟩ := hn.mk_inv
    cases hk
    obtain ⟨i', f', rfl, h1, h2⟩ := forall₂_two hc
    unfold Visitor.visitNode
    dsimp only
    exact guarded hn (visitAccessor hn h1 h2 fun c c' h => visitChildren hgo (.refl (by nofun)) (.cons h1 (.cons h .nil)))
  · obtain ⟨k', cs', rfl, hk, hc⟩ := hn.mk_inv
    cases hk
    obtain ⟨i', f', x', y', rfl, h1, h2, h3, h4⟩ := forall₂_four hc
    unfold Visitor.visitNode
    dsimp only
    exact guarded hn (visitAccessor hn h1 h4 fun c c' h =>
      visitChildren hgo (.refl (by nofun)) (.cons h1 (.cons h2 (.cons h3 (.cons h .nil)))))
  -- declarator
  · obtain ⟨k', cs', rfl, hk, hc⟩ := hn.mk_inv
    cases hk
    obtain ⟨t', c', rfl, h1, h2⟩ := forall₂_two hc
    unfold Visitor.visitNode
    dsimp only
    exact guarded hn (bind (keepIf (by rw [h2.isNone]) h2 fun _ => coverStatement hgo h2) fun _ _ h =>
      visitChildren hgo (.refl (by nofun)) (.cons h1 (.cons h .nil)))
  -- loop
  · obtain ⟨k', cs', rfl, hk, hc⟩ := hn.mk_inv
    cases hk
    unfold Visitor.visitNode
    dsimp only
    exact guarded hn (marked' hgo (.refl (by nofun)) (blockifyLast hc))
  -- labeled statement
  · obtain ⟨k', cs', rfl, hk, hc⟩ := hn.mk_inv
    cases hk
    unfold Visitor.visitNode
    dsimp only
    exact frame fun cur => marked hgo (.refl (by nofun)) hc Iff.rfl
  -- continue
  · obtain ⟨k', cs', rfl, hk, hc⟩ := hn.mk_inv
    cases hk
    unfold Visitor.visitNode
    dsimp only
    exact frame fun cur => marked hgo (.refl (by nofun)) hc Iff.rfl
  -- switch
  · obtain ⟨k', cs', rfl, hk, hc⟩ := hn.mk_inv
    cases hk
    unfold Visitor.visitNode
    dsimp only
    refine frame fun cur => ite Iff.rfl (fun _ => pure hn) fun _ => bind (mark _) fun _ _ _ =>
      bind (newBranch _ _ _) ?_
    rintro _ b rfl
    refine bind (fresh (visitChildren (m := .switchCase b) hgo (.refl (by nofun)) hc)) ?_
    rintro ⟨a, bf⟩ ⟨c, bf'⟩ ⟨h1, h2⟩
    exact pure h1
  -- if
  · obtain ⟨k', cs', rfl, hk, hc⟩ := hn.mk_inv
    cases hk
    obtain ⟨t', c', a', rfl, h1, h2, h3⟩ := forall₂_three hc
    unfold Visitor.visitNode
    dsimp only
    exact frame fun cur => ite Iff.rfl (fun _ => pure hn) fun _ => visitIf hgo h1 h2 h3
  -- binary
  · obtain ⟨k', cs', rfl, hk, hc⟩ := hn.mk_inv
    cases hk
    obtain ⟨i', f', rfl, h1, h2⟩ := forall₂_two hc
    unfold Visitor.visitNode
    exact visitBin hgo (branch? := none) h1 h2 (visitChildren hgo (.refl (by nofun)) hc)
  -- default value
  · obtain ⟨k', cs', rfl, hk, hc⟩ := hn.mk_inv
    cases hk
    obtain ⟨i', f', rfl, h1, h2⟩ := forall₂_two hc
    unfold Visitor.visitNode
    dsimp only
    refine guarded hn (bind (newBranch _ _ _) ?_)
    rintro _ b rfl
    exact bind (wrapBin hgo b h2) fun _ _ h => pure (.node (.refl (by nofun)) (.cons h1 (.cons h .nil)))
  -- try
  · obtain ⟨k', cs', rfl, hk, hc⟩ := hn.mk_inv
    cases hk
    unfold Visitor.visitNode
    dsimp only
    exact guarded hn (marked' hgo (.refl (by nofun)) hc)
  -- throw
  · obtain ⟨k', cs', rfl, hk, hc⟩ := hn.mk_inv
    cases hk
    unfold Visitor.visitNode
    dsimp only
    exact guarded hn (marked' hgo (.refl (by nofun)) hc)
  -- with
  · obtain ⟨k', cs', rfl, hk, hc⟩ := hn.mk_inv
    cases hk
    obtain ⟨i', f', rfl, h1, h2⟩ := forall₂_two hc
    unfold Visitor.visitNode
    dsimp only
    exact frame fun cur => ite Iff.rfl (fun _ => pure hn) fun _ => bind (mark _) fun _ _ _ =>
      bind (visitWithBody hgo h2) fun _ _ h => pure (.node (.refl (by nofun)) (.cons h1 (.cons h .nil)))
  -- switch case
  · obtain ⟨k', cs', rfl, hk, hc⟩ := hn.mk_inv
    cases hk
    cases hc with
    | cons h1 h2 =>
      unfold Visitor.visitNode
      dsimp only
      cases m with
      | switchCase b => exact guarded hn (visitCase hgo h1 h2)
      | coverage => exact hch .coverage
      | stmt => exact hch .stmt
      | logical b => exact hch (.logical b)
      | logicalInner b => exact hch (.logicalInner b)
  -- module declarations, debugger
  all_goals try
    obtain ⟨k', cs', rfl, hk, hc⟩ := hn.mk_inv
    cases hk
    unfold Visitor.visitNode
    dsimp only
    cases m with
    | coverage => exact guarded hn (hch .coverage)
    | switchCase b => exact hch (.switchCase b)
    | stmt => exact hch .stmt
    | logical b => exact hch (.logical b)
    | logicalInner b => exact hch (.logicalInner b)
  -- others
  · next k sp cs h =>
    obtain ⟨k', cs', rfl, hk, hc⟩ := hn.mk_inv
    rw [visitNode_default h, visitNode_default (by
      rw [← hc.length_eq, ← h]
      cases hk <;> rfl)]
    exact visitChildren hgo hk hc

theorem step (m : Mode) {n n' : Node} (hn : L.In n n') :
    L.Sim (step L.cx go (m.slide L.d) n) (Visitor.step L.cx go' m n') L.In := by
  cases n with
  | mk k sp cs =>
    obtain ⟨k', cs', rfl, hk, hc⟩ := hn.mk_inv
    cases m with
    | logical b =>
      show L.Sim (visitLogical L.cx go (L.d.b + b) _) (visitLogical L.cx go' b _) L.In
      unfold visitLogical
      exact ite (by rw [hn.kind.isExpr]) (fun _ => frame fun _ => hgo (.logicalInner b) _ _ hn) fun _ => logicalChildren hgo hk hc
    | logicalInner b =>
      show L.Sim (visitLogicalInner L.cx go (L.d.b + b) _) (visitLogicalInner L.cx go' b _) L.In
      unfold visitLogicalInner
      split
      · next h =>
        cases h
        obtain ⟨_, _, rfl, h1, h2⟩ := forall₂_two hc
        cases hk
        exact visitBin hgo (m := .logicalInner b) (branch? := some b) h1 h2 (logicalChildren hgo (.refl (by nofun)) hc)
      · next h =>
        split
        · next h2 =>
          cases h2
          obtain ⟨_, _, rfl, -⟩ := forall₂_two hc.flip
          cases hk <;> exact absurd rfl (h _ _ _ _)
        · exact logicalChildren hgo hk hc
    | coverage => exact visitNode hgo .coverage hn
    | stmt => exact visitNode hgo .stmt hn
    | switchCase b => exact visitNode hgo (.switchCase b) hn

end
end Sim

theorem visit (L : Slide) (fuel : Nat) : L.Rec (visit L.cx fuel) (Visitor.visit L.cx fuel) := by
  induction fuel with
  | zero => intro m n n' _ st st' _ a s h; cases h
  | succ fuel ih => exact fun m n n' hn => Sim.step ih m hn

end Slide
end Verif
