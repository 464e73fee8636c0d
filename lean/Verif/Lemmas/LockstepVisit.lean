import Verif.Lemmas.Lockstep
/-
The visit functions in lockstep.
-/
namespace Verif
open Node Visitor

/-! ### Tables -/

theorem forall₂_insert {V W : Type} {Q : V → W → Prop} {m : IndexMap Nat V} {m' : IndexMap Nat W} {k : Nat} {v : V} {w : W}
    (h : List.Forall₂ (fun x y => x.1 = y.1 ∧ Q x.2 y.2) m m') (hv : Q v w) :
    List.Forall₂ (fun x y => x.1 = y.1 ∧ Q x.2 y.2) (m.insert k v) (m'.insert k w) := by
  induction h with
  | nil => exact .cons ⟨rfl, hv⟩ .nil
  | @cons a b l l' h1 h2 ih =>
    obtain ⟨ka, va⟩ := a
    obtain ⟨kb, vb⟩ := b
    obtain ⟨h3, h4⟩ := h1
    dsimp only at h3 h4
    subst h3
    simp only [IndexMap.insert]
    split
    · exact .cons ⟨rfl, hv⟩ h2
    · exact .cons ⟨rfl, h4⟩ ih

theorem forall₂_modify {V W : Type} {Q : V → W → Prop} {m : IndexMap Nat V} {m' : IndexMap Nat W} {k : Nat} {f : V → V}
    {g : W → W} (h : List.Forall₂ (fun x y => x.1 = y.1 ∧ Q x.2 y.2) m m') (hf : ∀ v w, Q v w → Q (f v) (g w)) :
    List.Forall₂ (fun x y => x.1 = y.1 ∧ Q x.2 y.2) (m.modify k f) (m'.modify k g) := by
  induction h with
  | nil => exact .nil
  | @cons a b l l' h1 h2 ih =>
    obtain ⟨ka, va⟩ := a
    obtain ⟨kb, vb⟩ := b
    obtain ⟨h3, h4⟩ := h1
    dsimp only at h3 h4
    subst h3
    simp only [IndexMap.modify]
    split
    · exact .cons ⟨rfl, hf _ _ h4⟩ h2
    · exact .cons ⟨rfl, h4⟩ ih

theorem forall₂_get {V W : Type} {Q : V → W → Prop} {m : IndexMap Nat V} {m' : IndexMap Nat W}
    (h : List.Forall₂ (fun x y => x.1 = y.1 ∧ Q x.2 y.2) m m') (k : Nat) :
    (m.get k = none ∧ m'.get k = none) ∨ ∃ v w, m.get k = some v ∧ m'.get k = some w ∧ Q v w := by
  induction h with
  | nil => exact .inl ⟨rfl, rfl⟩
  | @cons a b l l' h1 h2 ih =>
    obtain ⟨ka, va⟩ := a
    obtain ⟨kb, vb⟩ := b
    obtain ⟨h3, h4⟩ := h1
    dsimp only at h3 h4
    subst h3
    simp only [IndexMap.get]
    split
    · exact .inr ⟨_, _, rfl, rfl, h4⟩
    · exact ih

namespace Lock
variable {L : Lock}

/-- The two registries. -/
structure Regs (L : Lock) (c c' : SourceCoverage) : Prop where
  lastS : c.lastS = c'.lastS
  lastF : c.lastF = c'.lastF
  lastB : c.lastB = c'.lastB
  inner : AkinReports L.d L.R L.t c.inner c'.inner

/-- The two states. -/
structure Near (L : Lock) (st st' : St) : Prop where
  before : List.Forall₂ L.Out st.before st'.before
  nodes : st.nodes = st'.nodes
  ignore : st.ignore = st'.ignore
  cov : L.Regs st.cov st'.cov

/-- If the first succeeds then so does the second, with a related result. -/
def Sim (L : Lock) (x : M α) (y : M β) (P : α → β → Prop) : Prop :=
  ∀ st st', L.Near st st' → ∀ a s, x st = .ok (a, s) → ∃ b s', y st' = .ok (b, s') ∧ P a b ∧ L.Near s s'

namespace Sim
variable {α β γ δ : Type} {P : α → β → Prop} {Q : γ → δ → Prop}

theorem pure {a : α} {b : β} (h : P a b) : L.Sim (Pure.pure a : M α) (Pure.pure b : M β) P := by
  intro st st' hn a' s hx
  cases hx
  exact ⟨b, st', rfl, h, hn⟩

theorem bind {x : M α} {y : M β} {f : α → M γ} {g : β → M δ} (hx : L.Sim x y P)
    (hf : ∀ a b, P a b → L.Sim (f a) (g b) Q) : L.Sim (x >>= f) (y >>= g) Q := by
  intro st st' hn c s h
  obtain ⟨a, s1, h1, h2⟩ := M.bind_ok h
  obtain ⟨b, s1', h3, h4, h5⟩ := hx st st' hn a s1 h1
  obtain ⟨e, s', h6, h7, h8⟩ := hf a b h4 s1 s1' h5 c s h2
  refine ⟨e, s', ?_, h7, h8⟩
  show M.bind y g st' = _
  unfold M.bind
  rw [h3]
  exact h6

theorem imp {x : M α} {y : M β} {P' : α → β → Prop} (hx : L.Sim x y P) (h : ∀ a b, P a b → P' a b) : L.Sim x y P' := by
  intro st st' hn a s hs
  obtain ⟨b, s', h1, h2, h3⟩ := hx st st' hn a s hs
  exact ⟨b, s', h1, h _ _ h2, h3⟩

theorem ite {p q : Prop} [Decidable p] [Decidable q] {x x' : M α} {y y' : M β} (hpq : p ↔ q) (hx : p → L.Sim x y P)
    (hy : ¬ p → L.Sim x' y' P) : L.Sim (if p then x else x') (if q then y else y') P := by
  by_cases h : p
  · rw [if_pos h, if_pos (hpq.1 h)]; exact hx h
  · rw [if_neg h, if_neg (fun hq => h (hpq.2 hq))]; exact hy h

theorem keepIf {p q : Prop} [Decidable p] [Decidable q] {a : α} {b : β} {x : M α} {y : M β} (hpq : p ↔ q) (ha : P a b)
    (hx : ¬ p → L.Sim x y P) : L.Sim (keepIf p a x) (Visitor.keepIf q b y) P :=
  ite hpq (fun _ => pure ha) hx

theorem push (t : Tag) : L.Sim (push t) (Visitor.push t) fun _ _ => True := by
  intro st st' hn a s h
  cases h
  exact ⟨(), _, rfl, trivial, ⟨hn.before, by dsimp only; rw [hn.nodes], hn.ignore, hn.cov⟩⟩

theorem pop : L.Sim pop Visitor.pop fun _ _ => True := by
  intro st st' hn a s h
  cases h
  exact ⟨(), _, rfl, trivial, ⟨hn.before, by dsimp only; rw [hn.nodes], hn.ignore, hn.cov⟩⟩

theorem enterSpan {sp sp' : Span} (hs : L.d.span sp sp') : L.Sim (enterSpan L.cx sp) (Visitor.enterSpan L.cx' sp') (· = ·) := by
  intro st st' hn a s h
  unfold Visitor.enterSpan at h ⊢
  rw [← hn.ignore, ← L.hint hs]
  by_cases hi : st.ignore = some .next
  · rw [if_pos hi] at h ⊢
    cases h
    exact ⟨_, _, rfl, rfl, hn⟩
  · rw [if_neg hi] at h ⊢
    cases h
    exact ⟨_, _, rfl, rfl, ⟨hn.before, hn.nodes, rfl, hn.cov⟩⟩

theorem exit (old : Option IgnoreScope) : L.Sim (exit old) (Visitor.exit old) fun _ _ => True := by
  unfold Visitor.exit
  refine bind (P := fun _ _ => True) ?_ fun _ _ _ => pop
  intro st st' hn a s h
  cases h
  exact ⟨(), _, rfl, trivial, ⟨hn.before, hn.nodes, rfl, hn.cov⟩⟩

theorem frame {t : Tag} {sp sp' : Span} {body : Option IgnoreScope → M α} {body' : Option IgnoreScope → M β}
    (hs : L.d.span sp sp') (hb : ∀ cur, L.Sim (body cur) (body' cur) P) :
    L.Sim (frame L.cx t sp body) (Visitor.frame L.cx' t sp' body') P := by
  unfold Visitor.frame Visitor.enter
  refine bind (bind (push t) fun _ _ _ => enterSpan hs) ?_
  rintro ⟨old, cur⟩ _ rfl
  exact bind (hb cur) fun a b h => bind (exit old) fun _ _ _ => pure h

theorem guarded {t : Tag} {n n' : Node} {body body' : M Node} (hn : L.In n n') (hb : L.Sim body body' L.Out) :
    L.Sim (guarded L.cx t n body) (Visitor.guarded L.cx' t n' body') L.Out :=
  frame hn.1.span fun _ => ite Iff.rfl (fun _ => pure hn.out) fun _ => hb

theorem fresh {ig : Option IgnoreScope} {x : M α} {y : M β} (hx : L.Sim x y P) :
    L.Sim (fresh ig x) (Visitor.fresh ig y) fun a b => P a.1 b.1 ∧ List.Forall₂ L.Out a.2 b.2 := by
  intro st st' hn a s h
  unfold Visitor.fresh at h ⊢
  cases hxs : x { st with before := [], ignore := ig } with
  | error e => rw [hxs] at h; cases h
  | ok r =>
    obtain ⟨a1, s1⟩ := r
    rw [hxs] at h
    cases h
    obtain ⟨b, s', h1, h2, h3⟩ := hx { st with before := [], ignore := ig } { st' with before := [], ignore := ig } ⟨.nil, hn.nodes, rfl, hn.cov⟩ _ _ hxs
    rw [h1]
    exact ⟨_, _, rfl, ⟨h2, h3.before⟩, ⟨hn.before, hn.nodes, hn.ignore, h3.cov⟩⟩

theorem newStatement {r r' : Range} (hr : L.R r r') : L.Sim (newStatement r) (Visitor.newStatement r') (· = ·) := by
  intro st st' hn a s h
  cases h
  have hc := hn.cov
  refine ⟨_, _, rfl, hc.lastS, ⟨hn.before, hn.nodes, hn.ignore, ⟨?_, hc.lastF, hc.lastB, ?_⟩⟩⟩
  · show _ + 1 = _ + 1
    rw [hc.lastS]
  · simp only [SourceCoverage.newStatement, hc.lastS]
    have hi := hc.inner
    exact { hi with s := by dsimp only; rw [hi.s], statementMap := forall₂_insert hi.statementMap hr }

theorem newFunction {n n' : Option String} {p p' r r' : Range}
    (hname : (n = none ∧ n' = none) ∨ ∃ x y, n = some x ∧ n' = some y ∧ L.d.names x y) (hp : L.R p p') (hr : L.R r r') :
    L.Sim (newFunction n p r) (Visitor.newFunction n' p' r') (· = ·) := by
  intro st st' hn a s h
  cases h
  have hc := hn.cov
  refine ⟨_, _, rfl, hc.lastF, ⟨hn.before, hn.nodes, hn.ignore, ⟨hc.lastS, ?_, hc.lastB, ?_⟩⟩⟩
  · show _ + 1 = _ + 1
    rw [hc.lastF]
  · simp only [SourceCoverage.newFunction, hc.lastF]
    have hi := hc.inner
    refine { hi with f := ?_, fnMap := ?_ }
    · dsimp only; rw [hi.f]
    refine forall₂_insert (Q := fun (x y : Function) => L.d.names x.name y.name ∧ L.R x.decl y.decl ∧ L.R x.loc y.loc ∧
        x.line = x.loc.start.line ∧ y.line = y.loc.start.line) hi.fnMap ⟨?_, hp, hr, rfl, rfl⟩
    rcases hname with ⟨rfl, rfl⟩ | ⟨x, y, rfl, rfl, h⟩
    · exact .inl rfl
    · exact h

theorem newBranch {ty : BranchType} {r r' : Range} {g g' : Bool} (hr : L.R r r') (hg : L.t = false → g = g') :
    L.Sim (newBranch ty r g) (Visitor.newBranch ty r' g') (· = ·) := by
  intro st st' hn a s h
  cases h
  have hc := hn.cov
  have hi := hc.inner
  have hb : ∀ (c : SourceCoverage) (i : Nat) (g : Bool), (SourceCoverage.maybeNewBranchTrue c ty i g).lastS = c.lastS ∧
      (SourceCoverage.maybeNewBranchTrue c ty i g).lastF = c.lastF ∧ (SourceCoverage.maybeNewBranchTrue c ty i g).lastB = c.lastB ∧
      ∃ bT, (SourceCoverage.maybeNewBranchTrue c ty i g).inner = { c.inner with bT := bT } := by
    intro c i g
    unfold SourceCoverage.maybeNewBranchTrue
    split
    · exact ⟨rfl, rfl, rfl, c.inner.bT, rfl⟩
    · split
      · exact ⟨rfl, rfl, rfl, _, rfl⟩
      · exact ⟨rfl, rfl, rfl, c.inner.bT, rfl⟩
  refine ⟨_, _, rfl, hc.lastB, ⟨hn.before, hn.nodes, hn.ignore, ?_⟩⟩
  simp only [SourceCoverage.newBranch]
  obtain ⟨h1, h2, h3, bT, h4⟩ := hb { st.cov with
      inner := { st.cov.inner with
        b := st.cov.inner.b.insert st.cov.lastB []
        branchMap := st.cov.inner.branchMap.insert st.cov.lastB ⟨some r, ty, [], some r.start.line⟩ }
      lastB := st.cov.lastB + 1 } st.cov.lastB g
  obtain ⟨h1', h2', h3', bT', h4'⟩ := hb { st'.cov with
      inner := { st'.cov.inner with
        b := st'.cov.inner.b.insert st'.cov.lastB []
        branchMap := st'.cov.inner.branchMap.insert st'.cov.lastB ⟨some r', ty, [], some r'.start.line⟩ }
      lastB := st'.cov.lastB + 1 } st'.cov.lastB g'
  refine ⟨by rw [h1, h1']; exact hc.lastS, by rw [h2, h2']; exact hc.lastF, by rw [h3, h3']; dsimp only; rw [hc.lastB], ?_⟩
  have hbT : L.t = false → bT = bT' := by
    intro ht
    have e1 : bT = (SourceCoverage.maybeNewBranchTrue { st.cov with
      inner := { st.cov.inner with
        b := st.cov.inner.b.insert st.cov.lastB []
        branchMap := st.cov.inner.branchMap.insert st.cov.lastB ⟨some r, ty, [], some r.start.line⟩ }
      lastB := st.cov.lastB + 1 } ty st.cov.lastB g).inner.bT := by rw [h4]
    have e2 : bT' = (SourceCoverage.maybeNewBranchTrue { st'.cov with
      inner := { st'.cov.inner with
        b := st'.cov.inner.b.insert st'.cov.lastB []
        branchMap := st'.cov.inner.branchMap.insert st'.cov.lastB ⟨some r', ty, [], some r'.start.line⟩ }
      lastB := st'.cov.lastB + 1 } ty st'.cov.lastB g').inner.bT := by rw [h4']
    rw [e1, e2, ← hg ht]
    unfold SourceCoverage.maybeNewBranchTrue
    have := hi.bT ht
    split
    · exact this
    · split
      · dsimp only; rw [this, hc.lastB]
      · exact this
  rw [h4, h4']
  refine { hi with b := ?_, bT := hbT, branchMap := ?_ }
  · dsimp only; rw [hi.b, hc.lastB]
  · dsimp only
    rw [hc.lastB]
    exact forall₂_insert (Q := fun (x y : Branch) => x.branchType = y.branchType ∧
      (∃ r r', x.loc = some r ∧ y.loc = some r' ∧ L.R r r' ∧ x.line = some r.start.line ∧ y.line = some r'.start.line) ∧
      List.Forall₂ L.R x.locations y.locations) hi.branchMap ⟨rfl, ⟨r, r', rfl, rfl, hr, rfl, rfl⟩, .nil⟩

theorem addPath (b : Nat) {r r' : Range} (hr : L.R r r') : L.Sim (addPath b r) (Visitor.addPath b r') (· = ·) := by
  intro st st' hn a s h
  have hc := hn.cov
  have hi := hc.inner
  have hb : ∀ (c : SourceCoverage) (i : Nat), (SourceCoverage.maybeAddBranchTrue c i).lastS = c.lastS ∧
      (SourceCoverage.maybeAddBranchTrue c i).lastF = c.lastF ∧ (SourceCoverage.maybeAddBranchTrue c i).lastB = c.lastB ∧
      ∃ bT, (SourceCoverage.maybeAddBranchTrue c i).inner = { c.inner with bT := bT } := by
    intro c i
    unfold SourceCoverage.maybeAddBranchTrue
    split
    · exact ⟨rfl, rfl, rfl, c.inner.bT, rfl⟩
    · split
      · exact ⟨rfl, rfl, rfl, c.inner.bT, rfl⟩
      · exact ⟨rfl, rfl, rfl, _, rfl⟩
  unfold Visitor.addPath SourceCoverage.addBranchPath at h ⊢
  rcases forall₂_get (Q := fun (x y : Branch) => x.branchType = y.branchType ∧
      (∃ r r', x.loc = some r ∧ y.loc = some r' ∧ L.R r r' ∧ x.line = some r.start.line ∧ y.line = some r'.start.line) ∧
      List.Forall₂ L.R x.locations y.locations) hi.branchMap b with ⟨h1, -⟩ | ⟨v, w, h1, h2, -⟩
  · rw [h1] at h; cases h
  rw [h1] at h
  rw [h2]
  dsimp only at h ⊢
  rw [← hi.b]
  cases h3 : st.cov.inner.b.get b with
  | none => rw [h3] at h; cases h
  | some counts =>
    rw [h3] at h
    dsimp only at h ⊢
    obtain ⟨e1, e2, e3, bT, e4⟩ := hb { st.cov with
        inner := { st.cov.inner with
          branchMap := IndexMap.modify st.cov.inner.branchMap b fun br =>
            { br with locations := br.locations ++ [r] }
          b := IndexMap.modify st.cov.inner.b b fun _ => counts ++ [0] } } b
    obtain ⟨e1', e2', e3', bT', e4'⟩ := hb { st'.cov with
        inner := { st'.cov.inner with
          branchMap := IndexMap.modify st'.cov.inner.branchMap b fun br =>
            { br with locations := br.locations ++ [r'] }
          b := IndexMap.modify st.cov.inner.b b fun _ => counts ++ [0] } } b
    have hbT : L.t = false → bT = bT' := by
      intro ht
      have f1 : bT = (SourceCoverage.maybeAddBranchTrue { st.cov with
        inner := { st.cov.inner with
          branchMap := IndexMap.modify st.cov.inner.branchMap b fun br =>
            { br with locations := br.locations ++ [r] }
          b := IndexMap.modify st.cov.inner.b b fun _ => counts ++ [0] } } b).inner.bT := by rw [e4]
      have f2 : bT' = (SourceCoverage.maybeAddBranchTrue { st'.cov with
        inner := { st'.cov.inner with
          branchMap := IndexMap.modify st'.cov.inner.branchMap b fun br =>
            { br with locations := br.locations ++ [r'] }
          b := IndexMap.modify st.cov.inner.b b fun _ => counts ++ [0] } } b).inner.bT := by rw [e4']
      rw [f1, f2]
      unfold SourceCoverage.maybeAddBranchTrue
      have := hi.bT ht
      dsimp only
      rw [← this]
      split
      · rfl
      · split
        · rfl
        · rfl
    rw [e4] at h
    rw [e4']
    dsimp only at h ⊢
    cases h5 : (IndexMap.modify st.cov.inner.b b fun _ => counts ++ [0]).get b with
    | none => rw [h5] at h; cases h
    | some cs =>
      rw [h5] at h
      cases h
      refine ⟨_, _, rfl, rfl, ⟨hn.before, hn.nodes, hn.ignore, ⟨?_, ?_, ?_, ?_⟩⟩⟩
      · dsimp only; rw [e1, e1']; exact hc.lastS
      · dsimp only; rw [e2, e2']; exact hc.lastF
      · dsimp only; rw [e3, e3']; exact hc.lastB
      · dsimp only
        rw [e4, e4']
        refine { hi with b := rfl, bT := hbT, branchMap := ?_ }
        refine forall₂_modify (Q := fun (x y : Branch) => x.branchType = y.branchType ∧
          (∃ r r', x.loc = some r ∧ y.loc = some r' ∧ L.R r r' ∧ x.line = some r.start.line ∧ y.line = some r'.start.line) ∧
          List.Forall₂ L.R x.locations y.locations) hi.branchMap ?_
        rintro v w ⟨g1, g2, g3⟩
        exact ⟨g1, g2, List.rel_append g3 (.cons hr .nil)⟩

theorem pushBefore {n n' : Node} (h : L.Out n n') : L.Sim (pushBefore n) (Visitor.pushBefore n') fun _ _ => True := by
  intro st st' hn a s hs
  cases hs
  exact ⟨(), _, rfl, trivial, ⟨List.rel_append hn.before (.cons h .nil), hn.nodes, hn.ignore, hn.cov⟩⟩

theorem mark {sp sp' : Span} (hs : L.d.span sp sp') : L.Sim (mark L.cx sp) (Visitor.mark L.cx' sp') fun _ _ => True := by
  unfold Visitor.mark
  refine bind (newStatement (L.range hs)) ?_
  rintro i _ rfl
  exact pushBefore (.stmtC L.dummy _)

theorem _root_.Verif.Lock.In.wrapC {c : Counter} {e e' : Node} (h : L.In e e') : L.In (wrapCounter c e) (wrapCounter c e') :=
  .node (.refl _) L.dummy rfl rfl (.cons (.node (.refl _) L.dummy rfl rfl (.cons (.node (.refl _) L.dummy rfl rfl .nil)
    (.cons h .nil))) .nil)

theorem _root_.Verif.Lock.In.stmtC (c : Counter) : L.In (counterStmt c) (counterStmt c) :=
  .node (.refl _) L.dummy rfl rfl (.cons (.node (.refl _) L.dummy rfl rfl .nil) .nil)

theorem replaceWithStmtCounter {e e' : Node} (h : L.In e e') :
    L.Sim (replaceWithStmtCounter L.cx e) (Visitor.replaceWithStmtCounter L.cx' e') L.In := by
  unfold Visitor.replaceWithStmtCounter
  refine bind (newStatement (L.range h.1.span)) ?_
  rintro i _ rfl
  exact pure h.wrapC

theorem replaceWithBranchCounter (b : Nat) {e e' : Node} (h : L.In e e') :
    L.Sim (replaceWithBranchCounter L.cx b e) (Visitor.replaceWithBranchCounter L.cx' b e') L.In := by
  unfold Visitor.replaceWithBranchCounter
  refine bind (addPath b (L.range h.1.span)) ?_
  rintro i _ rfl
  exact pure h.wrapC

end Sim
end Lock
end Verif
