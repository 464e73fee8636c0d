import Verif.Lemmas.SoundProgram
import Verif.Lemmas.StepsFrom
import Verif.Lemmas.Run
import Verif.Spec.Arms
/-
Which branches of the coverage data a visit can change: the branch of its mode and those it registers. With
this the arms of `if` branches are known exactly.
-/
namespace Verif
open Node

/-- If the branch is an `if`, it is that of an `if` statement at a span in `S`, and its arms are one or two
copies of the range of the statement, depending on the hint at it. -/
def IfBranch (cx : Ctx) (S : Span → Prop) (br : Branch) : Prop :=
  br.branchType = .if → ∃ sp, S sp ∧ br.loc = some (cx.range sp) ∧
    br.locations = List.replicate (ifArms (cx.hint sp)) (cx.range sp)

/-- All `if` statements of a tree are at spans in `S`. -/
def IfsIn (S : Span → Prop) (n : Node) : Prop := ∀ sp, (Kind.ifStmt, sp) ∈ n.tags → S sp

namespace IfsIn
variable {S : Span → Prop}

theorem mk_iff {k : Kind} {sp : Span} {cs : List Node} :
    IfsIn S (mk k sp cs) ↔ (k = .ifStmt → S sp) ∧ ∀ c ∈ cs, IfsIn S c := by
  constructor
  · intro h
    refine ⟨?_, fun c hc sp' h' => h sp' ((mem_tags ..).2 (.inr ⟨c, hc, h'⟩))⟩
    rintro rfl
    exact h sp ((mem_tags ..).2 (.inl rfl))
  · rintro ⟨h1, h2⟩ sp' h'
    rcases (mem_tags ..).1 h' with h' | ⟨c, hc, h'⟩
    · cases h'; exact h1 rfl
    · exact h2 c hc sp' h'

theorem child {k : Kind} {sp : Span} {cs : List Node} (h : IfsIn S (mk k sp cs)) {c : Node} (hc : c ∈ cs) :
    IfsIn S c := (mk_iff.1 h).2 c hc

theorem mk_of {k : Kind} {sp : Span} {cs : List Node} (hk : k ≠ .ifStmt) (h : ∀ c ∈ cs, IfsIn S c) :
    IfsIn S (mk k sp cs) := mk_iff.2 ⟨fun e => absurd e hk, h⟩

theorem counterExpr (c : Counter) : IfsIn S (counterExpr c) := mk_of (by simp) (by simp)

theorem counterStmt (c : Counter) : IfsIn S (counterStmt c) :=
  mk_of (by simp) (by simpa using counterExpr c)

theorem wrapCounter (c : Counter) {e : Node} (h : IfsIn S e) : IfsIn S (wrapCounter c e) := by
  refine mk_of (by simp) ?_
  intro x hx
  cases List.mem_singleton.1 hx
  refine mk_of (by simp) ?_
  intro x hx
  rcases List.mem_cons.1 hx with rfl | hx
  · exact counterExpr c
  · cases List.mem_singleton.1 hx; exact h

theorem none_of {n : Node} (h : n.tags.all (fun x => x.1 ≠ .ifStmt) = true) : IfsIn S n := by
  intro sp hsp
  have := List.all_eq_true.1 h _ hsp
  simp at this

theorem wrapTruth (b a : Nat) {e : Node} (h : IfsIn S e) : IfsIn S (wrapTruth b a e) := by
  refine mk_of (by simp) ?_
  intro x hx
  rcases List.mem_cons.1 hx with rfl | hx
  · exact counterExpr _
  cases List.mem_singleton.1 hx
  refine mk_of (by simp) ?_
  intro x hx
  rcases List.mem_cons.1 hx with rfl | hx
  · refine mk_of (by simp) ?_
    intro x hx
    rcases List.mem_cons.1 hx with rfl | hx
    · exact mk_of (by simp) (by simp)
    · cases List.mem_singleton.1 hx; exact h
  rcases List.mem_cons.1 hx with rfl | hx
  · exact none_of rfl
  · cases List.mem_singleton.1 hx
    exact mk_of (by simp) (by simp)

end IfsIn

/-- How coverage data may change: branches below the old number of branches stay the same unless in `B`,
and keep their type in any case; new ones are as `IfBranch` says. -/
structure Grown (cx : Ctx) (S : Span → Prop) (B : Nat → Prop) (c c' : SourceCoverage) : Prop where
  le : c.lastB ≤ c'.lastB
  same : ∀ k, k < c.lastB → ¬ B k → c'.inner.branchMap.get k = c.inner.branchMap.get k
  type : ∀ k br', k < c.lastB → c'.inner.branchMap.get k = some br' →
    ∃ br, c.inner.branchMap.get k = some br ∧ br'.branchType = br.branchType
  new : ∀ k br, c.lastB ≤ k → k < c'.lastB → c'.inner.branchMap.get k = some br → IfBranch cx S br

namespace Grown
variable {cx : Ctx} {S : Span → Prop} {B B' : Nat → Prop} {c c1 c2 : SourceCoverage}

/-- No branch changed. -/
theorem of_eq (h1 : c1.lastB = c.lastB) (h2 : c1.inner.branchMap = c.inner.branchMap) : Grown cx S B c c1 where
  le := by omega
  same k _ _ := by rw [h2]
  type k br _ h := ⟨br, by rw [← h2]; exact h, rfl⟩
  new k br h h' := by omega

theorem refl (c : SourceCoverage) : Grown cx S B c c := of_eq rfl rfl

theorem trans (hB : ∀ k, B k → k < c.lastB) (g1 : Grown cx S B c c1) (g2 : Grown cx S B c1 c2) :
    Grown cx S B c c2 where
  le := Nat.le_trans g1.le g2.le
  same k hk hb := (g2.same k (Nat.lt_of_lt_of_le hk g1.le) hb).trans (g1.same k hk hb)
  type k br hk h := by
    obtain ⟨br1, h1, e1⟩ := g2.type k br (Nat.lt_of_lt_of_le hk g1.le) h
    obtain ⟨br0, h0, e0⟩ := g1.type k br1 hk h1
    exact ⟨br0, h0, e1.trans e0⟩
  new k br hk hk' h := by
    rcases Nat.lt_or_ge k c1.lastB with h1 | h1
    · have hb : ¬ B k := fun hb => absurd (hB k hb) (by omega)
      rw [g2.same k h1 hb] at h
      exact g1.new k br hk h1 h
    · exact g2.new k br h1 hk' h

theorem mono (h : ∀ k, B k → B' k) (g : Grown cx S B c c1) : Grown cx S B' c c1 where
  le := g.le
  same k hk hb := g.same k hk fun hb' => hb (h k hb')
  type := g.type
  new := g.new

end Grown

theorem newBranch_lastB (c : SourceCoverage) (t : BranchType) (r : Range) (g : Bool) :
    (c.newBranch t r g).1.lastB = c.lastB + 1 ∧ (c.newBranch t r g).2 = c.lastB ∧
      (c.newBranch t r g).1.inner.branchMap =
        c.inner.branchMap.insert c.lastB ⟨some r, t, [], some r.start.line⟩ := by
  refine ⟨?_, rfl, ?_⟩ <;>
  · simp only [SourceCoverage.newBranch, SourceCoverage.maybeNewBranchTrue]
    split
    · rfl
    · split <;> rfl

theorem addBranchPath_ok {c c' : SourceCoverage} {k i : Nat} {r : Range}
    (h : c.addBranchPath k r = .ok (c', i)) :
    c'.lastB = c.lastB ∧ (∃ br, c.inner.branchMap.get k = some br) ∧
      c'.inner.branchMap = IndexMap.modify c.inner.branchMap k fun br =>
        { br with locations := br.locations ++ [r] } := by
  unfold SourceCoverage.addBranchPath at h
  cases h1 : c.inner.branchMap.get k with
  | none => rw [h1] at h; cases h
  | some br =>
    rw [h1] at h
    cases h2 : c.inner.b.get k with
    | none => rw [h2] at h; cases h
    | some counts =>
      rw [h2] at h
      simp only at h
      split at h
      · cases h
      · cases h
        refine ⟨?_, ⟨br, rfl⟩, ?_⟩ <;>
        · simp only [SourceCoverage.maybeAddBranchTrue]
          split
          · rfl
          · split <;> rfl

namespace Visitor

/-- `x` changes coverage data only as `Grown` says; its result has property `P`; `if` statements among
pending statements stay within `S`. -/
def Goes (cx : Ctx) (S : Span → Prop) (B : Nat → Prop) (x : M α) (P : α → Prop) : Prop :=
  ∀ st a st', (∀ k, B k → k < st.cov.lastB) → (∀ c ∈ st.before, IfsIn S c) → x st = .ok (a, st') →
    P a ∧ Grown cx S B st.cov st'.cov ∧ ∀ c ∈ st'.before, IfsIn S c

namespace Goes
variable {cx : Ctx} {S : Span → Prop} {B : Nat → Prop} {α β : Type} {P : α → Prop} {Q : β → Prop}

theorem pure {a : α} (h : P a) : Goes cx S B (Pure.pure a : M α) P := by
  intro st a' st' _ hb hx
  cases hx
  exact ⟨h, .refl _, hb⟩

theorem bind {x : M α} {f : α → M β} (hx : Goes cx S B x P) (hf : ∀ a, P a → Goes cx S B (f a) Q) :
    Goes cx S B (x >>= f) Q := by
  intro st b st' hB hb h
  obtain ⟨a, st1, h1, h2⟩ := M.bind_ok h
  obtain ⟨p, g, b1⟩ := hx st a st1 hB hb h1
  obtain ⟨p2, g2, b2⟩ := hf a p st1 b st' (fun k hk => Nat.lt_of_lt_of_le (hB k hk) g.le) b1 h2
  exact ⟨p2, g.trans hB g2, b2⟩

theorem conseq {x : M α} {P' : α → Prop} (hx : Goes cx S B x P) (h : ∀ a, P a → P' a) : Goes cx S B x P' := by
  intro st a st' hB hb hs
  obtain ⟨p, g, b⟩ := hx st a st' hB hb hs
  exact ⟨h a p, g, b⟩

theorem keepIf {p : Prop} [Decidable p] {a : α} {x : M α} (ha : P a) (hx : Goes cx S B x P) :
    Goes cx S B (keepIf p a x) P := by
  unfold Visitor.keepIf
  split
  · exact pure ha
  · exact hx

theorem ite {p : Prop} [Decidable p] {x y : M α} (hx : Goes cx S B x P) (hy : Goes cx S B y P) :
    Goes cx S B (if p then x else y) P := by
  split
  · exact hx
  · exact hy

/-- A computation that changes neither pending statements nor branches. -/
theorem neutral {x : M α} (hx : ∀ st a st', x st = .ok (a, st') → P a ∧ st'.before = st.before ∧
    st'.cov.lastB = st.cov.lastB ∧ st'.cov.inner.branchMap = st.cov.inner.branchMap) : Goes cx S B x P := by
  intro st a st' _ hb hs
  obtain ⟨p, h1, h2, h3⟩ := hx st a st' hs
  exact ⟨p, .of_eq h2 h3, by rw [h1]; exact hb⟩

theorem frame {t : Tag} {sp : Span} {body : Option IgnoreScope → M α}
    (hb : ∀ cur, (cur = some .next ∨ cur = cx.hint sp) → Goes cx S B (body cur) P) :
    Goes cx S B (frame cx t sp body) P := by
  unfold Visitor.frame
  refine bind (P := fun r => r.2 = some .next ∨ r.2 = cx.hint sp) (neutral fun st a st' h => ?_) ?_
  · simp only [enter, push, enterSpan, Bind.bind, M.bind] at h
    split at h
    · next hs => cases h; exact ⟨.inl hs, rfl, rfl, rfl⟩
    · cases h; exact ⟨.inr rfl, rfl, rfl, rfl⟩
  · rintro ⟨old, cur⟩ hc
    refine bind (hb cur hc) fun a ha => ?_
    refine bind (P := fun _ => True) (neutral fun st a st' h => ?_) fun _ _ => pure ha
    cases h; exact ⟨trivial, rfl, rfl, rfl⟩

theorem guarded {t : Tag} {n : Node} {body : M Node} (hn : IfsIn S n) (hb : Goes cx S B body (IfsIn S)) :
    Goes cx S B (guarded cx t n body) (IfsIn S) := by
  refine frame fun cur _ => ?_
  split
  · exact pure hn
  · exact hb

theorem fresh {ig : Option IgnoreScope} {x : M α} (hx : Goes cx S B x P) :
    Goes cx S B (fresh ig x) (fun r => P r.1 ∧ ∀ c ∈ r.2, IfsIn S c) := by
  intro st a st' hB hb h
  unfold Visitor.fresh at h
  cases hxs : x { st with before := [], ignore := ig } with
  | error e => rw [hxs] at h; cases h
  | ok r =>
    obtain ⟨a1, st1⟩ := r
    rw [hxs] at h
    cases h
    obtain ⟨p, g, b⟩ := hx { st with before := [], ignore := ig } _ _ hB (by simp) hxs
    exact ⟨⟨p, b⟩, g, hb⟩

theorem bracket {t : Tag} {x : M α} (hx : Goes cx S B x P) :
    Goes cx S B (do push t; let r ← x; pop; Pure.pure r) P := by
  refine bind (P := fun _ => True) (neutral fun st a st' h => ?_) fun _ _ => bind hx fun a ha =>
    bind (P := fun _ => True) (neutral fun st a st' h => ?_) fun _ _ => pure ha
  all_goals cases h; exact ⟨trivial, rfl, rfl, rfl⟩

theorem newStatement (r : Range) : Goes cx S B (newStatement r) (fun _ => True) :=
  neutral fun st a st' h => by cases h; exact ⟨trivial, rfl, rfl, rfl⟩

theorem newFunction (n : Option String) (d l : Range) : Goes cx S B (newFunction n d l) (fun _ => True) :=
  neutral fun st a st' h => by cases h; exact ⟨trivial, rfl, rfl, rfl⟩

theorem mark (sp : Span) : Goes cx S B (mark cx sp) (fun _ => True) := by
  refine bind (newStatement _) fun id _ => ?_
  intro st a st' _ hb h
  cases h
  refine ⟨trivial, .refl _, ?_⟩
  intro c hc
  rcases List.mem_append.1 hc with hc | hc
  · exact hb c hc
  · cases List.mem_singleton.1 hc
    exact .counterStmt _

theorem addPath {k : Nat} (hk : B k) (r : Range) : Goes cx S B (addPath k r) (fun _ => True) := by
  intro st a st' hB hb h
  unfold Visitor.addPath at h
  cases h1 : st.cov.addBranchPath k r with
  | error e => rw [h1] at h; cases h
  | ok x =>
    obtain ⟨c, i⟩ := x
    rw [h1] at h
    cases h
    obtain ⟨e1, -, e2⟩ := addBranchPath_ok h1
    refine ⟨trivial, ⟨by simp [e1], ?_, ?_, ?_⟩, hb⟩
    · intro k' _ hb'
      have : k' ≠ k := by rintro rfl; exact hb' hk
      simp only [e2]
      rw [IndexMap.get_modify, if_neg (Ne.symm this)]
    · intro k' br' _ h'
      simp only [e2] at h'
      rw [IndexMap.get_modify] at h'
      split at h'
      · next hk' =>
        subst hk'
        obtain ⟨br, h2, rfl⟩ := Option.map_eq_some_iff.1 h'
        exact ⟨br, h2, rfl⟩
      · exact ⟨br', h', rfl⟩
    · intro k' br h2 h3
      simp only [e1] at h3
      omega

/-- Registration of a branch other than an `if`. -/
theorem newBranch {t : BranchType} {r : Range} {g : Bool} {f : Nat → M β} (ht : t ≠ .if)
    (hf : ∀ b, Goes cx S (fun k => B k ∨ k = b) (f b) Q) : Goes cx S B (newBranch t r g >>= f) Q := by
  intro st b st' hB hb h
  obtain ⟨b0, st1, h1, h2⟩ := M.bind_ok h
  cases h1
  obtain ⟨e1, e2, e3⟩ := newBranch_lastB st.cov t r g
  rw [e2] at h2
  obtain ⟨q, gr, b'⟩ := hf _ _ _ _ (by
    rintro k (hk | rfl)
    · simp only [e1]; exact Nat.lt_succ_of_lt (hB k hk)
    · simp only [e1]; omega) (by exact hb) h2
  refine ⟨q, ⟨?_, ?_, ?_, ?_⟩, b'⟩
  · have := gr.le
    simp only [e1] at this
    omega
  · intro k hk hbk
    rw [gr.same k (by simp only [e1]; omega) (by rintro (h | h); exact hbk h; omega)]
    simp only [e3]
    rw [IndexMap.get_insert, if_neg (by omega)]
  · intro k br' hk h'
    obtain ⟨br, h3, h4⟩ := gr.type k br' (by simp only [e1]; omega) h'
    simp only [e3] at h3
    rw [IndexMap.get_insert, if_neg (by omega)] at h3
    exact ⟨br, h3, h4⟩
  · intro k br hk hk' h'
    rcases Nat.lt_or_ge k (st.cov.lastB + 1) with h3 | h3
    · have : k = st.cov.lastB := by omega
      subst this
      obtain ⟨br0, h4, h5⟩ := gr.type _ br (by simp only [e1]; omega) h'
      simp only [e3] at h4
      rw [IndexMap.get_insert, if_pos rfl] at h4
      cases h4
      intro h6
      exact absurd (h5.symm.trans h6) ht
    · exact gr.new k br (by simp only [e1]; omega) hk' h'

theorem mapList {f : Node → M Node} (cs : List Node) (hf : ∀ c ∈ cs, Goes cx S B (f c) (IfsIn S)) :
    Goes cx S B (M.mapList f cs) (fun out => ∀ c ∈ out, IfsIn S c) := by
  induction cs with
  | nil => exact pure (by simp)
  | cons c cs ih =>
    refine bind (hf c (by simp)) fun a ha => bind (ih fun d hd => hf d (by simp [hd])) fun as has => pure ?_
    intro x hx
    rcases List.mem_cons.1 hx with rfl | hx
    · exact ha
    · exact has x hx

section
variable {go : Mode → Node → M Node}

/-- The branch a mode adds arms to. -/
def _root_.Verif.Mode.adds : Mode → Nat → Prop
  | .switchCase b, k => k = b
  | .logical b, k => k = b
  | .logicalInner b, k => k = b
  | _, _ => False

/-- What is assumed of recursive visits. -/
def Rec (cx : Ctx) (S : Span → Prop) (go : Mode → Node → M Node) : Prop :=
  ∀ (B : Nat → Prop) m n, (∀ k, m.adds k → B k) → IfsIn S n → Goes cx S B (go m n) (IfsIn S)

variable (hgo : Rec cx S go)

theorem all_append {a b : List Node} (ha : ∀ c ∈ a, IfsIn S c) (hb : ∀ c ∈ b, IfsIn S c) :
    ∀ c ∈ a ++ b, IfsIn S c := by
  intro c hc
  rcases List.mem_append.1 hc with hc | hc
  · exact ha c hc
  · exact hb c hc

theorem all_cons {a : Node} {b : List Node} (ha : IfsIn S a) (hb : ∀ c ∈ b, IfsIn S c) :
    ∀ c ∈ a :: b, IfsIn S c := by
  intro c hc
  rcases List.mem_cons.1 hc with rfl | hc
  · exact ha
  · exact hb c hc

theorem all_nil : ∀ c ∈ ([] : List Node), IfsIn S c := by simp

include hgo

theorem insertStmt {s : Node} (hs : IfsIn S s) :
    Goes cx S B (insertStmt cx go s) (fun out => ∀ c ∈ out, IfsIn S c) := by
  unfold Visitor.insertStmt
  split
  · exact pure (all_cons hs all_nil)
  · refine frame fun cur _ => ?_
    split
    · exact pure (all_cons hs all_nil)
    · refine bind (fresh (hgo B .stmt s (by rintro k ⟨⟩) hs)) ?_
      rintro ⟨s', before⟩ ⟨h1, h2⟩
      exact pure (all_append h2 (all_cons h1 all_nil))

theorem insertStmts {ss : List Node} (hs : ∀ c ∈ ss, IfsIn S c) :
    Goes cx S B (insertStmts cx go ss) (fun out => ∀ c ∈ out, IfsIn S c) := by
  induction ss with
  | nil => exact pure all_nil
  | cons s ss ih =>
    exact bind (insertStmt hgo (hs s (by simp))) fun o ho =>
      bind (ih fun c hc => hs c (by simp [hc])) fun r hr => pure (all_append ho hr)

theorem visitStmts {ss : List Node} (hs : ∀ c ∈ ss, IfsIn S c) :
    Goes cx S B (visitStmts cx go ss) (fun out => ∀ c ∈ out, IfsIn S c) :=
  bracket (insertStmts hgo hs)

theorem visitChildren {m : Mode} (hm : ∀ k, m.adds k → B k) {n : Node} (hn : IfsIn S n) :
    Goes cx S B (visitChildren cx go m n) (IfsIn S) := by
  unfold Visitor.visitChildren
  split
  · exact bind (visitStmts hgo fun c hc => hn.child hc) fun cs hcs => pure (.mk_of (by simp) hcs)
  · exact bind (hgo B m _ hm (hn.child (by simp))) fun t ht =>
      bind (visitStmts hgo fun c hc => hn.child (by simp [hc])) fun cs hcs =>
        pure (.mk_of (by simp) (all_cons ht hcs))
  · exact bind (mapList _ fun c hc => hgo B m c hm (hn.child hc)) fun cs hcs =>
      pure (IfsIn.mk_iff.2 ⟨(IfsIn.mk_iff.1 hn).1, hcs⟩)

theorem logicalChildren {b : Nat} (hb : B b) {n : Node} (hn : IfsIn S n) :
    Goes cx S B (logicalChildren go b n) (IfsIn S) := by
  unfold Visitor.logicalChildren
  split
  exact bind (mapList _ fun c hc => hgo B (.logical b) c (by rintro k rfl; exact hb) (hn.child hc))
    fun cs hcs => pure (IfsIn.mk_iff.2 ⟨(IfsIn.mk_iff.1 hn).1, hcs⟩)

omit hgo in
theorem replaceWithStmtCounter {e : Node} (he : IfsIn S e) :
    Goes cx S B (replaceWithStmtCounter cx e) (IfsIn S) :=
  bind (newStatement _) fun _ _ => pure (.wrapCounter _ he)

omit hgo in
theorem replaceWithBranchCounter {b : Nat} (hb : B b) {e : Node} (he : IfsIn S e) :
    Goes cx S B (replaceWithBranchCounter cx b e) (IfsIn S) :=
  bind (addPath hb _) fun _ _ => pure (.wrapCounter _ he)

theorem wrapBin {m : Mode} (hm : ∀ k, m.adds k → B k) {b : Nat} (hb : B b) {e : Node} (he : IfsIn S e) :
    Goes cx S B (wrapBin cx go m b e) (IfsIn S) := by
  unfold Visitor.wrapBin
  simp only
  split
  · exact pure he
  · split
    · refine bind (fresh (hgo B (.logicalInner b) e (by rintro k rfl; exact hb) he)) ?_
      rintro ⟨e', _⟩ ⟨h, _⟩
      exact pure h
    · split
      · exact bind (addPath hb _) fun _ _ => pure (.wrapTruth _ _ he)
      · exact bind (hgo B m e hm he) fun e' he' => replaceWithBranchCounter hb he'

omit hgo in
theorem createFn (ident : Option (Span × String)) {n : Node} (hn : IfsIn S n) :
    Goes cx S B (createFn cx ident n) (IfsIn S) := by
  unfold Visitor.createFn
  split
  · next a sp params decorators body =>
    refine bind (newFunction _ _ _) fun id _ => ?_
    have hb : IfsIn S body := hn.child (by simp)
    refine bind (P := IfsIn S) ?_ fun body' hb' => pure (.mk_of (by simp)
      (all_cons (hn.child (by simp)) (all_cons (hn.child (by simp)) (all_cons hb' all_nil))))
    unfold Visitor.prependFn
    split
    · exact pure (.mk_of (by simp) (all_cons (.counterStmt _) fun c hc => hb.child hc))
    · intro st a st' _ _ h; cases h
  · exact pure hn

omit hgo in
theorem coverHoisted {e : Node} (he : IfsIn S e) : Goes cx S B (coverHoisted cx e) (IfsIn S) := by
  unfold Visitor.coverHoisted
  refine bind (P := fun _ => True) (neutral fun st a st' h => by cases h; exact ⟨trivial, rfl, rfl, rfl⟩) ?_
  intro nodes _
  exact ite (bind (keepIf trivial (mark _)) fun _ _ => pure he) (replaceWithStmtCounter he)

theorem coverStatement {m : Mode} (hm : ∀ k, m.adds k → B k) {e : Node} (he : IfsIn S e) :
    Goes cx S B (coverStatement cx go m e) (IfsIn S) := by
  unfold Visitor.coverStatement
  split
  · exact bind (mark _) fun _ _ => hgo B m e hm he
  · split
    · exact bind (mark _) fun _ _ => pure he
    · refine bind (keepIf trivial (mark _)) fun _ _ => ?_
      refine bind (P := fun _ => True) (neutral fun st a st' h => ?_) fun t _ => ?_
      · unfold topNode at h
        split at h
        · cases h
        · cases h; exact ⟨trivial, rfl, rfl, rfl⟩
      · split
        · exact coverHoisted he
        · split
          · exact replaceWithStmtCounter he
          · exact pure he

theorem visitArrow {a : String} {sp : Span} {params body : Node} (hp : IfsIn S params) (hb : IfsIn S body) :
    Goes cx S B (visitArrow cx go a sp params body) (IfsIn S) := by
  unfold Visitor.visitArrow
  refine bind (newFunction _ _ _) fun id _ => ?_
  split
  · exact bind (insertStmts hgo fun c hc => hb.child hc) fun ss hss =>
      pure (.mk_of (by simp) (all_cons hp (all_cons (.mk_of (by simp)
        (all_cons (.counterStmt _) hss)) all_nil)))
  · exact bind (insertStmts hgo (all_cons (.counterStmt _)
        (all_cons (.mk_of (by simp) (all_cons hb all_nil)) all_nil))) fun ss hss =>
      pure (.mk_of (by simp) (all_cons hp (all_cons (.mk_of (by simp) hss) all_nil)))

omit hgo in
theorem createAccessor {name : String} {sp : Span} {body : Node} (hb : IfsIn S body) :
    Goes cx S B (createAccessor cx name sp body) (IfsIn S) := by
  unfold Visitor.createAccessor
  split
  · exact bind (newFunction _ _ _) fun id _ =>
      pure (.mk_of (by simp) (all_cons (.counterStmt _) fun c hc => hb.child hc))
  · exact pure hb

theorem visitAccessor {m : Mode} (hm : ∀ k, m.adds k → B k) {n key body : Node} {rebuild : Node → Node}
    (hn : IfsIn S n) (hb : IfsIn S body) (hr : ∀ b, IfsIn S b → IfsIn S (rebuild b)) :
    Goes cx S B (visitAccessor cx go m n key body rebuild) (IfsIn S) := by
  unfold Visitor.visitAccessor
  split
  · split
    · exact pure hn
    · exact bind (createAccessor hb) fun b hb => visitChildren hgo hm (hr b hb)
  · exact bind (createAccessor hb) fun b hb => visitChildren hgo hm (hr b hb)

theorem visitCond {m : Mode} (hm : ∀ k, m.adds k → B k) {cur : Option IgnoreScope} {sp : Span}
    {test cons alt : Node} (ht : IfsIn S test) (hc : IfsIn S cons) (ha : IfsIn S alt) :
    Goes cx S B (visitCond cx go m cur sp test cons alt) (IfsIn S) := by
  unfold Visitor.visitCond
  refine bind (P := fun r => IfsIn S r.1 ∧ IfsIn S r.2) (keepIf ⟨hc, ha⟩ ?_) ?_
  · refine newBranch (by simp) fun b => ?_
    exact bind (keepIf hc (replaceWithBranchCounter (.inr rfl) hc)) fun c' hc' =>
      bind (keepIf ha (replaceWithBranchCounter (.inr rfl) ha)) fun a' ha' => pure ⟨hc', ha'⟩
  · rintro ⟨c', a'⟩ ⟨hc', ha'⟩
    exact visitChildren hgo hm (.mk_of (by simp) (all_cons ht (all_cons hc' (all_cons ha' all_nil))))

theorem visitBin {m : Mode} (hm : ∀ k, m.adds k → B k) {branch? : Option Nat}
    (hb : ∀ k, branch? = some k → B k) {children : Node → M Node}
    (hc : ∀ n, IfsIn S n → Goes cx S B (children n) (IfsIn S)) {op : BinOp} {sp : Span} {left right : Node}
    (hl : IfsIn S left) (hr : IfsIn S right) :
    Goes cx S B (visitBin cx go m branch? children op sp left right) (IfsIn S) := by
  have hn : IfsIn S (mk (.bin op) sp [left, right]) := .mk_of (by simp) (all_cons hl (all_cons hr all_nil))
  have he : ∀ (old : Option IgnoreScope) (t : Tag), Goes cx S B (do
      push t
      let n ← children (mk (.bin op) sp [left, right])
      exit old
      Pure.pure n) (IfsIn S) := by
    intro old t
    refine bind (P := fun _ => True) (neutral fun st a st' h => by cases h; exact ⟨trivial, rfl, rfl, rfl⟩)
      fun _ _ => bind (hc _ hn) fun n hn => bind (P := fun _ => True) (neutral fun st a st' h => by
        cases h; exact ⟨trivial, rfl, rfl, rfl⟩) fun _ _ => pure hn
  unfold Visitor.visitBin
  refine bind (P := fun _ => True) (neutral fun st a st' h => ?_) ?_
  · simp only [enterSpan] at h
    split at h <;> cases h <;> exact ⟨trivial, rfl, rfl, rfl⟩
  · rintro ⟨old, cur⟩ _
    simp only
    split
    · exact he old _
    · split
      · refine bind (P := fun _ => True) (neutral fun st a st' h => by
          cases h; exact ⟨trivial, rfl, rfl, rfl⟩) fun _ _ => ?_
        have hw : ∀ B' : Nat → Prop, ∀ b, B' b → (∀ k, B k → B' k) → Goes cx S B' (do
            let left ← Visitor.wrapBin cx go m b left
            let right ← Visitor.wrapBin cx go m b right
            Pure.pure (mk (.bin op) sp [left, right])) (IfsIn S) := by
          intro B' b hb' hB'
          exact bind (wrapBin hgo (fun k hk => hB' k (hm k hk)) hb' hl) fun l hl =>
            bind (wrapBin hgo (fun k hk => hB' k (hm k hk)) hb' hr) fun r hr =>
              pure (.mk_of (by simp) (all_cons hl (all_cons hr all_nil)))
        cases branch? with
        | some b => exact hw B b (hb b rfl) fun k hk => hk
        | none => exact newBranch (by simp) fun b => hw _ b (.inr rfl) fun k hk => .inl hk
      · exact he old _

theorem visitCase {b : Nat} (hb : B b) {sp : Span} {test : Node} {cons : List Node} (ht : IfsIn S test)
    (hc : ∀ c ∈ cons, IfsIn S c) : Goes cx S B (visitCase cx go b sp test cons) (IfsIn S) := by
  unfold Visitor.visitCase
  exact bind (addPath hb _) fun _ _ => bind (hgo B (.switchCase b) test (by rintro k rfl; exact hb) ht)
    fun t ht => bind (visitStmts hgo hc) fun cs hcs =>
      pure (.mk_of (by simp) (all_cons ht (all_cons (.counterStmt _) hcs)))

theorem visitWithBody {cur : Option IgnoreScope} {body : Node} (hb : IfsIn S body) :
    Goes cx S B (visitWithBody cx go cur body) (IfsIn S) := by
  unfold Visitor.visitWithBody
  split
  · exact bind (insertStmts hgo fun c hc => hb.child hc) fun ss hss => pure (.mk_of (by simp) hss)
  · refine bind (fresh (hgo B .stmt _ (by rintro k ⟨⟩) hb)) ?_
    rintro ⟨b', before⟩ ⟨h1, h2⟩
    exact pure (.mk_of (by simp) (all_append h2 (all_cons h1 all_nil)))

omit hgo in
theorem blockify {s : Node} (h : IfsIn S s) : IfsIn S (blockify s) := by
  unfold Visitor.blockify
  split
  · exact h
  · exact .mk_of (by simp) (all_cons h all_nil)

omit hgo in
theorem blockifyLast {cs : List Node} (h : ∀ c ∈ cs, IfsIn S c) : ∀ c ∈ blockifyLast cs, IfsIn S c := by
  fun_induction Visitor.blockifyLast cs with
  | case1 => exact h
  | case2 body => exact all_cons (blockify (h _ (by simp))) all_nil
  | case3 c cs _ ih => exact all_cons (h _ (by simp)) (ih fun d hd => h d (by simp [hd]))

/-- `x` adds `n` arms `r` to branch `b` and otherwise changes coverage data as `Grown` says. -/
def Adds (cx : Ctx) (S : Span → Prop) (B : Nat → Prop) (b : Nat) (r : Range) (n : Nat) (x : M α)
    (P : α → Prop) : Prop :=
  ∀ st a st', (∀ k, B k → k < b) → b < st.cov.lastB → (∀ c ∈ st.before, IfsIn S c) → x st = .ok (a, st') →
    P a ∧ Grown cx S (fun k => B k ∨ k = b) st.cov st'.cov ∧ (∀ c ∈ st'.before, IfsIn S c) ∧
    ∀ br, st.cov.inner.branchMap.get b = some br →
      st'.cov.inner.branchMap.get b = some { br with locations := br.locations ++ List.replicate n r }

namespace Adds
variable {b : Nat} {r : Range} {n n' : Nat}
omit hgo

theorem none {x : M α} (hx : Goes cx S B x P) : Adds cx S B b r 0 x P := by
  intro st a st' hB hb hbf h
  obtain ⟨p, g, bf⟩ := hx st a st' (fun k hk => Nat.lt_trans (hB k hk) hb) hbf h
  refine ⟨p, g.mono fun k hk => .inl hk, bf, ?_⟩
  intro br hbr
  rw [g.same b hb (fun h => absurd (hB b h) (by omega)), hbr]
  simp

theorem bind {x : M α} {f : α → M β} (hx : Adds cx S B b r n x P)
    (hf : ∀ a, P a → Adds cx S B b r n' (f a) Q) : Adds cx S B b r (n + n') (x >>= f) Q := by
  intro st c st' hB hb hbf h
  obtain ⟨a, st1, h1, h2⟩ := M.bind_ok h
  obtain ⟨p, g, bf, e⟩ := hx st a st1 hB hb hbf h1
  obtain ⟨p2, g2, bf2, e2⟩ := hf a p st1 c st' hB (Nat.lt_of_lt_of_le hb g.le) bf h2
  refine ⟨p2, g.trans ?_ g2, bf2, ?_⟩
  · rintro k (hk | rfl)
    · exact Nat.lt_trans (hB k hk) hb
    · exact hb
  · intro br hbr
    rw [e2 _ (e br hbr)]
    simp [List.replicate_append_replicate]

theorem addPath : Adds cx S B b r 1 (Visitor.addPath b r) (fun _ => True) := by
  intro st a st' hB hb hbf h
  have hg := Goes.addPath (cx := cx) (S := S) (B := fun k => B k ∨ k = b) (k := b) (.inr rfl) r st a st'
    (by rintro k (hk | rfl); exact Nat.lt_trans (hB k hk) hb; exact hb) hbf h
  refine ⟨trivial, hg.2.1, hg.2.2, ?_⟩
  intro br hbr
  unfold Visitor.addPath at h
  cases h1 : st.cov.addBranchPath b r with
  | error e => rw [h1] at h; cases h
  | ok x =>
    rw [h1] at h
    cases h
    obtain ⟨-, -, e2⟩ := addBranchPath_ok h1
    simp only [e2]
    rw [IndexMap.get_modify, if_pos rfl, hbr]
    rfl

theorem keepIf {p : Prop} [Decidable p] {a : α} {x : M α} (ha : P a) (hx : Adds cx S B b r n x P) :
    Adds cx S B b r (if p then 0 else n) (Visitor.keepIf p a x) P := by
  unfold Visitor.keepIf
  split
  · exact none (.pure ha)
  · exact hx

end Adds

theorem wrapArm {cur : Option IgnoreScope} {b : Nat} {r : Range} {s : Node} (hs : IfsIn S s) :
    Adds cx S B b r 1 (wrapArm cx go cur b r s) (IfsIn S) := by
  unfold Visitor.wrapArm
  refine Adds.bind (n' := 0) .addPath fun i _ => ?_
  split
  · exact .none (bind (insertStmts hgo fun c hc => hs.child hc) fun ss hss =>
      pure (.mk_of (by simp) (all_cons (.counterStmt _) hss)))
  · refine .none (bind (fresh (hgo B .stmt _ (by rintro k ⟨⟩) hs)) ?_)
    rintro ⟨s', before⟩ ⟨h1, h2⟩
    exact pure (.mk_of (by simp) (all_cons (.counterStmt _) (all_append h2 (all_cons h1 all_nil))))

/-- The arms of an `if` statement, after the branch is registered. -/
theorem visitIfArms {m : Mode} (hm : ∀ k, m.adds k → B k) {cur : Option IgnoreScope} {sp : Span}
    {test cons alt : Node} (hn : IfsIn S (mk .ifStmt sp [test, cons, alt])) (b : Nat) :
    Adds cx S B b (cx.range sp) ((if cur = some .if then 0 else 1) + ((if cur = some .else then 0 else 1) + 0)) (do
      let cons ← Visitor.keepIf (cur = some .if) cons (Visitor.wrapArm cx go cur b (cx.range sp) cons)
      let alt ← Visitor.keepIf (cur = some .else) alt
        (Visitor.wrapArm cx go cur b (cx.range sp) (if alt.isNone then mk .block Span.dummy [] else alt))
      let test ← go m test
      Pure.pure (mk .ifStmt sp [test, cons, alt])) (IfsIn S) := by
  refine .bind (.keepIf (hn.child (by simp)) (wrapArm hgo (hn.child (by simp)))) fun c hc => ?_
  refine .bind (.keepIf (hn.child (by simp)) (wrapArm hgo ?_)) fun a ha => ?_
  · split
    · exact .mk_of (by simp) all_nil
    · exact hn.child (by simp)
  · exact .none (Goes.bind (hgo B m test hm (hn.child (by simp))) fun t ht => pure (IfsIn.mk_iff.2
      ⟨(IfsIn.mk_iff.1 hn).1, all_cons ht (all_cons hc (all_cons ha all_nil))⟩))

omit hgo in
theorem ifArms_eq {cur : Option IgnoreScope} :
    ((if cur = some .if then 0 else 1) + ((if cur = some .else then 0 else 1) + 0)) = ifArms cur := by
  cases cur with
  | none => rfl
  | some c => cases c <;> rfl

theorem visitIf {m : Mode} (hm : ∀ k, m.adds k → B k) {cur : Option IgnoreScope} {sp : Span}
    {test cons alt : Node} (hcur : cur = cx.hint sp) (hn : IfsIn S (mk .ifStmt sp [test, cons, alt])) :
    Goes cx S B (visitIf cx go m cur sp test cons alt) (IfsIn S) := by
  unfold Visitor.visitIf
  refine bind (mark _) fun _ _ => ?_
  intro st n st' hB hb h
  obtain ⟨b0, st1, h1, h2⟩ := M.bind_ok h
  cases h1
  obtain ⟨e1, e2, e3⟩ := newBranch_lastB st.cov .if (cx.range sp) false
  rw [e2] at h2
  have ha := visitIfArms (cur := cur) hgo hm hn st.cov.lastB
  rw [ifArms_eq] at ha
  obtain ⟨q, gr, b', e⟩ := ha _ _ _ hB (by simp only [e1]; omega) (by exact hb) h2
  have e := e ⟨some (cx.range sp), .if, [], some (cx.range sp).start.line⟩ (by
    simp only [e3]
    rw [IndexMap.get_insert, if_pos rfl])
  refine ⟨q, ⟨?_, ?_, ?_, ?_⟩, b'⟩
  · have := gr.le
    simp only [e1] at this
    omega
  · intro k hk hbk
    rw [gr.same k (by simp only [e1]; omega) (by rintro (h | h); exact hbk h; omega)]
    simp only [e3]
    rw [IndexMap.get_insert, if_neg (by omega)]
  · intro k br' hk h'
    obtain ⟨br, h3, h4⟩ := gr.type k br' (by simp only [e1]; omega) h'
    simp only [e3] at h3
    rw [IndexMap.get_insert, if_neg (by omega)] at h3
    exact ⟨br, h3, h4⟩
  · intro k br hk hk' h'
    rcases Nat.lt_or_ge k (st.cov.lastB + 1) with h3 | h3
    · have : k = st.cov.lastB := by omega
      subst this
      rw [e] at h'
      cases h'
      intro _
      exact ⟨sp, (IfsIn.mk_iff.1 hn).1 rfl, rfl, by simp [hcur]⟩
    · exact gr.new k br (by simp only [e1]; omega) hk' h'

theorem visitNode {m : Mode} (hm : ∀ k, m.adds k → B k) {n : Node} (hn : IfsIn S n) :
    Goes cx S B (visitNode cx go m n) (IfsIn S) := by
  have hch := visitChildren (B := B) hgo hm hn
  unfold Visitor.visitNode
  split <;> first
    | exact guarded hn hch
    | exact guarded hn (bind (mark _) fun _ _ => hch)
    | exact frame fun _ _ => hch
    | exact frame fun _ _ => bind (keepIf trivial (mark _)) fun _ _ => hch
    | skip
  all_goals skip
  -- function declaration
  · exact guarded hn (bind (createFn _ (hn.child (by simp))) fun f hf => visitChildren hgo hm
      (.mk_of (by simp) (all_cons (hn.child (by simp)) (all_cons hf all_nil))))
  -- arrow
  · exact guarded hn (visitArrow hgo (hn.child (by simp)) (hn.child (by simp)))
  -- function expression
  · refine guarded hn ?_
    simp only
    refine ite (pure hn) (bind (createFn _ (hn.child (by simp))) fun f hf => visitChildren hgo hm
      (.mk_of (by simp) (all_cons (hn.child (by simp)) (all_cons hf all_nil))))
  -- expression statement
  · exact frame fun cur _ => ite (pure hn) (bind (keepIf trivial (mark _)) fun _ _ => hch)
  -- conditional
  · exact frame fun cur _ => visitCond hgo hm (hn.child (by simp)) (hn.child (by simp)) (hn.child (by simp))
  -- class properties
  · exact guarded hn (bind (keepIf (hn.child (by simp)) (coverStatement hgo hm (hn.child (by simp))))
      fun v hv => visitChildren hgo hm (.mk_of (by simp) (all_cons (hn.child (by simp))
        (all_cons hv (all_cons (hn.child (by simp)) all_nil)))))
  · exact guarded hn (bind (keepIf (hn.child (by simp)) (coverStatement hgo hm (hn.child (by simp))))
      fun v hv => visitChildren hgo hm (.mk_of (by simp) (all_cons (hn.child (by simp))
        (all_cons hv (all_cons (hn.child (by simp)) all_nil)))))
  -- methods
  · refine guarded hn ?_
    split
    · exact ite (pure hn) (bind (createFn _ (hn.child (by simp))) fun f hf => visitChildren hgo hm
        (.mk_of (by simp) (all_cons (hn.child (by simp)) (all_cons hf all_nil))))
    · exact pure hn
  · refine guarded hn ?_
    split
    · exact ite (pure hn) (bind (createFn _ (hn.child (by simp))) fun f hf => visitChildren hgo hm
        (.mk_of (by simp) (all_cons (hn.child (by simp)) (all_cons hf all_nil))))
    · exact bind (createFn _ (hn.child (by simp))) fun f hf => visitChildren hgo hm
        (.mk_of (by simp) (all_cons (hn.child (by simp)) (all_cons hf all_nil)))
  -- accessors
  · exact guarded hn (visitAccessor hgo hm hn (hn.child (by simp)) fun b hb =>
      .mk_of (by simp) (all_cons (hn.child (by simp)) (all_cons hb all_nil)))
  · exact guarded hn (visitAccessor hgo hm hn (hn.child (by simp)) fun b hb =>
      .mk_of (by simp) (all_cons (hn.child (by simp)) (all_cons (hn.child (by simp))
        (all_cons (hn.child (by simp)) (all_cons hb all_nil)))))
  -- declarator
  · exact guarded hn (bind (keepIf (hn.child (by simp)) (coverStatement hgo hm (hn.child (by simp))))
      fun v hv => visitChildren hgo hm (.mk_of (by simp) (all_cons (hn.child (by simp)) (all_cons hv all_nil))))
  -- loop
  · exact guarded hn (bind (mark _) fun _ _ => visitChildren hgo hm
      (.mk_of (by simp) (blockifyLast fun c hc => hn.child hc)))
  -- switch
  · refine frame fun cur _ => ite (pure hn) (bind (mark _) fun _ _ => newBranch (by simp) fun b => ?_)
    refine bind (fresh (visitChildren hgo (m := .switchCase b) (by rintro k rfl; exact .inr rfl) hn)) ?_
    rintro ⟨n', _⟩ ⟨h, _⟩
    exact pure h
  -- if
  · refine frame fun cur hcur => ?_
    split
    · exact pure hn
    · next hc => exact visitIf hgo hm (hcur.resolve_left hc) hn
  -- binary
  · exact visitBin hgo hm (by simp) (fun n hn => visitChildren hgo hm hn) (hn.child (by simp))
      (hn.child (by simp))
  -- default value
  · refine guarded hn (newBranch (by simp) fun b => ?_)
    exact bind (wrapBin hgo (fun k hk => .inl (hm k hk)) (.inr rfl) (hn.child (by simp))) fun r hr =>
      pure (.mk_of (by simp) (all_cons (hn.child (by simp)) (all_cons hr all_nil)))
  -- with
  · exact frame fun cur _ => ite (pure hn) (bind (mark _) fun _ _ => bind (visitWithBody hgo
      (hn.child (by simp))) fun b hb => pure (.mk_of (by simp)
        (all_cons (hn.child (by simp)) (all_cons hb all_nil))))
  -- switch case
  · split
    · exact guarded hn (visitCase hgo (hm _ rfl) (hn.child (by simp)) fun c hc => hn.child (by simp [hc]))
    · exact hch
  -- module declarations, debugger, others
  · split
    · exact guarded hn hch
    · exact hch
  · split
    · exact guarded hn hch
    · exact hch
  · split
    · exact guarded hn hch
    · exact hch
  · exact hch

theorem step {m : Mode} (hm : ∀ k, m.adds k → B k) {n : Node} (hn : IfsIn S n) :
    Goes cx S B (step cx go m n) (IfsIn S) := by
  unfold Visitor.step
  split
  · unfold visitLogical
    split
    · exact frame fun _ _ => hgo B _ _ hm hn
    · exact logicalChildren hgo (hm _ rfl) hn
  · unfold visitLogicalInner
    split
    · exact visitBin hgo hm (by rintro k ⟨⟩; exact hm _ rfl) (fun n hn => logicalChildren hgo (hm _ rfl) hn)
        (hn.child (by simp)) (hn.child (by simp))
    · exact logicalChildren hgo (hm _ rfl) hn
  · exact visitNode hgo hm hn

end

/-- Visits change branches as described. -/
theorem visit (cx : Ctx) (S : Span → Prop) (fuel : Nat) : Rec cx S (visit cx fuel) := by
  induction fuel with
  | zero => intro B m n _ _ st a st' _ _ h; cases h
  | succ fuel ih => intro B m n hm hn; exact step ih hm hn

/-! ### Programs -/

theorem withBefore {x : M Node} (hx : Goes cx S B x (IfsIn S)) :
    Goes cx S B (withBefore x) (fun out => ∀ c ∈ out, IfsIn S c) := by
  refine bind hx fun n hn => ?_
  intro st a st' _ hb h
  cases h
  exact ⟨all_append hb (all_cons hn all_nil), .refl _, by simp⟩

theorem visitItem {fuel : Nat} {item : Node} (hi : IfsIn S item) :
    Goes cx S B (visitItem cx fuel item) (fun out => ∀ c ∈ out, IfsIn S c) := by
  unfold Visitor.visitItem
  refine ite (pure (all_cons hi all_nil)) (frame fun _ _ => withBefore ?_)
  exact bind (keepIf trivial (mark _)) fun _ _ => visit cx S fuel B .coverage item (by rintro k ⟨⟩) hi

theorem visitItems {fuel : Nat} {items : List Node} (hi : ∀ c ∈ items, IfsIn S c) :
    Goes cx S B (visitItems cx fuel items) (fun out => ∀ c ∈ out, IfsIn S c) := by
  induction items with
  | nil => exact pure all_nil
  | cons i items ih =>
    exact bind (visitItem (hi i (by simp))) fun o ho => bind (ih fun c hc => hi c (by simp [hc])) fun r hr =>
      pure (all_append ho hr)

theorem visitScriptItems {fuel : Nat} {items : List Node} (hi : ∀ c ∈ items, IfsIn S c) :
    Goes cx S B (visitScriptItems cx fuel items) (fun out => ∀ c ∈ out, IfsIn S c) := by
  induction items with
  | nil => exact pure all_nil
  | cons i items ih =>
    exact bind (withBefore (visit cx S fuel B .coverage i (by rintro k ⟨⟩) (hi i (by simp)))) fun o ho =>
      bind (ih fun c hc => hi c (by simp [hc])) fun r hr => pure (all_append ho hr)

end Goes

/-- The branches of a finished program. -/
theorem instrument_ifs {cx : Ctx} {fuel : Nat} {path : String} {sm : Option SourceMap} {p p' : Node}
    {cov : SourceCoverage} (h : instrument cx fuel path sm p = .ok (p', cov)) {k : Nat} {br : Branch}
    (hb : (k, br) ∈ cov.inner.branchMap) : IfBranch cx (fun sp => (Kind.ifStmt, sp) ∈ p.tags) br := by
  have hfin : ∀ (h0 : List RegOp) (st : St), File.good ⟨path, cx.reportLogic, sm⟩ h0 st →
      Grown cx (fun sp => (Kind.ifStmt, sp) ∈ p.tags) (fun _ => False) (start cx path sm).cov st.cov →
      (k, br) ∈ st.cov.freeze.inner.branchMap → IfBranch cx (fun sp => (Kind.ifStmt, sp) ∈ p.tags) br := by
    intro h0 st hg gr hm
    have hmap : st.cov.inner.branchMap = RegOp.numbered (fun i x => (⟨some x.2.1, x.1, RegOp.arms h0 i,
        some x.2.1.start.line⟩ : Branch)) (RegOp.branches h0) := by
      rw [hg.1.inner]; rfl
    have hm' : (k, br) ∈ st.cov.inner.branchMap := by
      have : st.cov.freeze.inner.branchMap = (SourceCoverage.freezeLoop st.cov.inner.branchMap
        st.cov.inner.b st.cov.inner.bT).1 := rfl
      rw [this] at hm
      have : ∀ (rest : List (Nat × Branch)) b bT, (SourceCoverage.freezeLoop rest b bT).1 =
          rest.filter (fun e => !e.2.locations.isEmpty) := by
        intro rest
        induction rest with
        | nil => intro b bT; rfl
        | cons e rest ih =>
          intro b bT
          obtain ⟨k, br⟩ := e
          simp only [SourceCoverage.freezeLoop]
          split
          · next h0 => rw [ih]; simp [List.length_eq_zero_iff.1 h0]
          · next h0 => simp [ih, mt List.length_eq_zero_iff.2 h0]
      rw [this] at hm
      exact (List.mem_filter.1 hm).1
    have hget : st.cov.inner.branchMap.get k = some br := by
      rw [hmap] at hm' ⊢
      rw [RegOp.get_numbered]
      obtain ⟨e, he, h1⟩ := List.mem_map.1 hm'
      have := List.mem_zipIdx_iff_getElem?.1 he
      cases h1
      rw [this]
      rfl
    have hlt : k < st.cov.lastB := by
      rw [hg.1.lastB]
      rw [hmap, RegOp.get_numbered] at hget
      obtain ⟨x, hx, -⟩ := Option.map_eq_some_iff.1 hget
      exact (List.getElem?_eq_some_iff.1 hx).1
    exact gr.new k br (Nat.zero_le _) hlt hget
  have hgood : File.good ⟨path, cx.reportLogic, sm⟩ [] (start cx path sm) :=
    ⟨RegOp.inv_setInputSourceMap RegOp.inv_new sm, RegOp.legal_nil⟩
  have hself : ∀ k' sp cs, p = mk k' sp cs → ∀ c ∈ cs, IfsIn (fun sp => (Kind.ifStmt, sp) ∈ p.tags) c := by
    rintro k' sp cs rfl c hc sp' h'
    exact (mem_tags ..).2 (.inr ⟨c, hc, h'⟩)
  rcases Sound.instrument h with ⟨-, rfl, -⟩ | ⟨hf, n, h0, cov0, hst, ht, -⟩
  · cases hb
  · obtain ⟨kk, sp, cs⟩ := p
    have hk : kk = .module ∨ kk = .script := by
      have h1 := hst.root.1
      cases ht <;> simp_all [Node.kind]
    rcases hk with rfl | rfl
    · rw [instrument_module _ _ _ _ sp cs hf] at h
      cases hv : visitItems cx fuel cs (start cx path sm) with
      | error e => rw [hv] at h; cases h
      | ok r =>
        obtain ⟨out, st⟩ := r
        rw [hv] at h
        cases h
        obtain ⟨h', -, g, -⟩ := Sound.visitItems (sp := sp) (l := []) hgood rfl hv
        have := Goes.visitItems (B := fun _ => False) (hself _ _ _ rfl) _ _ _ (by simp) (by
          intro c hc; cases hc) hv
        exact hfin h' st g this.2.1 hb
    · rw [instrument_script _ _ _ _ sp cs hf] at h
      cases hv : visitScriptItems cx fuel cs (start cx path sm) with
      | error e => rw [hv] at h; cases h
      | ok r =>
        obtain ⟨out, st⟩ := r
        rw [hv] at h
        cases h
        obtain ⟨h', -, g, -⟩ := Sound.visitScriptItems (sp := sp) (l := []) hgood rfl hv
        have := Goes.visitScriptItems (B := fun _ => False) (hself _ _ _ rfl) _ _ _ (by simp) (by
          intro c hc; cases hc) hv
        exact hfin h' st g this.2.1 hb

end Visitor
end Verif
