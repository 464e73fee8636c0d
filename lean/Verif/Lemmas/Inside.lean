import Verif.Spec.Inside
import Verif.Lemmas.LockstepStep
import Verif.Lemmas.Sequence
import Verif.Lemmas.IndexMap
import Verif.Model.Program
/-
The arms of a branch lie in the branch.
-/
namespace Verif
open Node

namespace Inside

/-! ### Spans of trees -/

theorem in_self (sp : Span) : sp.In sp := fun _ _ => ⟨Nat.le_refl _, Nat.le_refl _⟩
theorem dummy_in (sp : Span) : Span.dummy.In sp := fun h => absurd rfl h.1
theorem in_dummy (sp : Span) : sp.In Span.dummy := fun _ h => absurd rfl h.1

theorem under_mk {k : Kind} {sp' sp : Span} {cs : List Node} : Under sp (mk k sp' cs) ↔ sp'.In sp ∧ ∀ c ∈ cs, Under sp c := by
  have h : ∀ cs : List Node, (∀ x ∈ eachList cs, x.span.In sp) ↔ ∀ c ∈ cs, Under sp c := by
    intro cs
    induction cs with
    | nil => simp [eachList]
    | cons c cs ih =>
      rw [eachList]
      simp only [List.mem_append, List.mem_cons, forall_eq_or_imp, ← ih]
      constructor
      · exact fun h => ⟨fun x hx => h x (.inl hx), fun x hx => h x (.inr hx)⟩
      · rintro ⟨h1, h2⟩ x (hx | hx)
        · exact h1 x hx
        · exact h2 x hx
  unfold Under
  rw [each]
  simp only [List.mem_cons, forall_eq_or_imp]
  rw [h]
  rfl

theorem nested_mk {k : Kind} {sp : Span} {cs : List Node} :
    Nested (mk k sp cs) ↔ (∀ c ∈ cs, Under sp c) ∧ ∀ c ∈ cs, Nested c := by
  have h : ∀ cs : List Node, (∀ x ∈ eachList cs, x.Under x.span) ↔ ∀ c ∈ cs, Nested c := by
    intro cs
    induction cs with
    | nil => simp [eachList]
    | cons c cs ih =>
      rw [eachList]
      simp only [List.mem_append, List.mem_cons, forall_eq_or_imp, ← ih]
      constructor
      · exact fun h => ⟨fun x hx => h x (.inl hx), fun x hx => h x (.inr hx)⟩
      · rintro ⟨h1, h2⟩ x (hx | hx)
        · exact h1 x hx
        · exact h2 x hx
  unfold Nested
  rw [each]
  simp only [List.mem_cons, forall_eq_or_imp]
  rw [h]
  show Under sp (mk k sp cs) ∧ _ ↔ _
  rw [under_mk]
  exact ⟨fun ⟨⟨_, h1⟩, h2⟩ => ⟨h1, h2⟩, fun ⟨h1, h2⟩ => ⟨⟨in_self sp, h1⟩, h2⟩⟩

theorem under_self {n : Node} (h : Nested n) : Under n.span n := by
  cases n with
  | mk k sp cs => exact under_mk.2 ⟨in_self sp, (nested_mk.1 h).1⟩

theorem span_in {sp : Span} {n : Node} (h : Under sp n) : n.span.In sp := by
  cases n with
  | mk k sp' cs => exact (under_mk.1 h).1

theorem under_dummy (n : Node) : Under Span.dummy n := fun _ _ => in_dummy _

/-- Lists of such trees. -/
abbrev Nesteds (l : List Node) : Prop := ∀ n ∈ l, Nested n

theorem Nesteds.cons {a : Node} {b : List Node} (ha : Nested a) (hb : Nesteds b) : Nesteds (a :: b) := fun n hn => by
  rcases List.mem_cons.1 hn with rfl | hn
  · exact ha
  · exact hb n hn

theorem Nesteds.one {a : Node} (ha : Nested a) : Nesteds [a] := fun n hn => by
  rw [List.mem_singleton.1 hn]
  exact ha

/-- Nodes without position may be put around and before others. -/
theorem nested_dummy {k : Kind} {cs : List Node} (h : Nesteds cs) : Nested (mk k Span.dummy cs) :=
  nested_mk.2 ⟨fun c _ => under_dummy c, h⟩

theorem nested_counterExpr (c : Counter) : Nested (counterExpr c) := nested_dummy nofun
theorem nested_counterStmt (c : Counter) : Nested (counterStmt c) := nested_dummy (Nesteds.one (nested_counterExpr c))
theorem under_counterExpr (sp : Span) (c : Counter) : Under sp (counterExpr c) := under_mk.2 ⟨dummy_in sp, nofun⟩

theorem under_counterStmt (sp : Span) (c : Counter) : Under sp (counterStmt c) :=
  under_mk.2 ⟨dummy_in sp, fun x hx => by rw [List.mem_singleton.1 hx]; exact under_counterExpr sp c⟩

/-! ### What becomes of trees -/

/-- The nodes of the second list of trees are among those of the first one, apart from nodes without position, and they are nested. -/
def Likes (cs cs' : List Node) : Prop := (∀ sp, (∀ c ∈ cs, Under sp c) → ∀ c ∈ cs', Under sp c) ∧ Nesteds cs'

/-- The same for single trees. -/
abbrev Like (n n' : Node) : Prop := Likes [n] [n']

theorem Likes.refl {cs : List Node} (h : Nesteds cs) : Likes cs cs := ⟨fun _ h => h, h⟩

theorem Likes.trans {a b c : List Node} (h : Likes a b) (h' : Likes b c) : Likes a c := ⟨fun sp hu => h'.1 sp (h.1 sp hu), h'.2⟩

theorem Likes.nil (cs : List Node) : Likes cs [] := ⟨fun _ _ => nofun, nofun⟩

theorem Likes.append {a b c d : List Node} (h : Likes a c) (h' : Likes b d) : Likes (a ++ b) (c ++ d) := by
  refine ⟨fun sp hu x hx => ?_, fun x hx => ?_⟩ <;> rcases List.mem_append.1 hx with hx | hx
  · exact h.1 sp (fun c hc => hu c (List.mem_append_left _ hc)) x hx
  · exact h'.1 sp (fun c hc => hu c (List.mem_append_right _ hc)) x hx
  · exact h.2 x hx
  · exact h'.2 x hx

theorem Likes.cons {a b : Node} {c d : List Node} (h : Like a b) (h' : Likes c d) : Likes (a :: c) (b :: d) := h.append h'

/-- Counters may be added. -/
theorem Likes.counters {cs ds l : List Node} (hl : ∀ x ∈ l, ∃ c, x = counterStmt c) (h : Likes cs ds) : Likes cs (l ++ ds) := by
  refine ⟨fun sp hu x hx => ?_, fun x hx => ?_⟩ <;> rcases List.mem_append.1 hx with hx | hx
  · obtain ⟨c, rfl⟩ := hl x hx
    exact under_counterStmt _ _
  · exact h.1 sp hu x hx
  · obtain ⟨c, rfl⟩ := hl x hx
    exact nested_counterStmt _
  · exact h.2 x hx

theorem Likes.counter {cs ds : List Node} (c : Counter) (h : Likes cs ds) : Likes cs (counterStmt c :: ds) :=
  Likes.counters (l := [counterStmt c]) (fun _ hx => ⟨c, List.mem_singleton.1 hx⟩) h

theorem Likes.node {k k' : Kind} {sp : Span} {cs cs' : List Node} (h : Likes cs cs') (hn : Nested (mk k sp cs)) :
    Like (mk k sp cs) (mk k' sp cs') := by
  refine ⟨fun s hu x hx => ?_, Nesteds.one (nested_mk.2 ⟨h.1 sp (nested_mk.1 hn).1, h.2⟩)⟩
  rw [List.mem_singleton.1 hx]
  have := under_mk.1 (hu _ (List.mem_singleton.2 rfl))
  exact under_mk.2 ⟨this.1, h.1 s this.2⟩

/-- Nodes without position around trees. -/
theorem Likes.around {k : Kind} {cs cs' : List Node} (h : Likes cs cs') : Likes cs [mk k Span.dummy cs'] := by
  refine ⟨fun s hu x hx => ?_, Nesteds.one (nested_dummy h.2)⟩
  rw [List.mem_singleton.1 hx]
  exact under_mk.2 ⟨dummy_in s, h.1 s hu⟩

theorem Likes.leaf {k : Kind} (cs : List Node) : Likes cs [mk k Span.dummy []] := (Likes.nil cs).around

theorem Likes.both {cs a b : List Node} (ha : Likes cs a) (hb : Likes cs b) : Likes cs (a ++ b) := by
  refine ⟨fun sp hu x hx => ?_, fun x hx => ?_⟩ <;> rcases List.mem_append.1 hx with hx | hx
  · exact ha.1 sp hu x hx
  · exact hb.1 sp hu x hx
  · exact ha.2 x hx
  · exact hb.2 x hx

theorem Likes.first {cs a : List Node} {b : Node} (hb : Likes cs [b]) (ha : Likes cs a) : Likes cs (b :: a) := hb.both ha

theorem like_wrapCounter (c : Counter) {e : Node} (h : Nested e) : Like e (wrapCounter c e) :=
  Likes.around (Likes.around (Likes.first (Likes.leaf _) (.refl (Nesteds.one h))))

/-- Trees without position. -/
theorem Likes.blank {n : Node} (cs : List Node) (h : ∀ x ∈ n.each, x.span = Span.dummy) : Likes cs [n] := by
  refine ⟨fun s _ x hx => ?_, Nesteds.one fun x hx y _ => ?_⟩
  · rw [List.mem_singleton.1 hx]
    exact fun y hy => h y hy ▸ dummy_in s
  · rw [h x hx]
    exact in_dummy _

theorem blank_truthCond (b i : Nat) : ∀ x ∈ (truthCond b i).each, x.span = Span.dummy := by
  simp [truthCond, validateTrue, callTemp, tempExpr, counterExpr, each, eachList, Node.span]

theorem like_wrapTruth (b i : Nat) {e : Node} (h : Nested e) : Like e (wrapTruth b i e) :=
  Likes.around (Likes.first (Likes.leaf _) (Likes.around (Likes.first (Likes.around (Likes.first (Likes.leaf _) (.refl (Nesteds.one h))))
    (Likes.first (Likes.around (Likes.blank _ (blank_truthCond b i))) (Likes.leaf _)))))

theorem Like.under {n n' : Node} {sp : Span} (h : Like n n') (hu : Under sp n) : Under sp n' :=
  h.1 sp (fun c hc => by rw [List.mem_singleton.1 hc]; exact hu) n' (List.mem_singleton.2 rfl)

theorem Like.nested {n n' : Node} (h : Like n n') : Nested n' := h.2 n' (List.mem_singleton.2 rfl)

/-! ### Branches of the tables -/

/-- The first range lies in the second one, if both are there. -/
def Lies (a l : Range) : Prop := a ≠ Range.zero → l ≠ Range.zero → a.Within l

/-- The arms of all branches lie in the branches, and only counters are waiting to be inserted. -/
def Good (st : St) : Prop :=
  (∀ e ∈ st.cov.inner.branchMap, e.1 < st.cov.lastB ∧ ∃ l, e.2.loc = some l ∧ ∀ a ∈ e.2.locations, Lies a l) ∧
  ∀ x ∈ st.before, ∃ c, x = counterStmt c

/-- The branch is the one of a node at this place. -/
def Has (cx : Ctx) (c : SourceCoverage) (f : Nat × Span) : Prop :=
  f.1 < c.lastB ∧ ∀ e ∈ c.inner.branchMap, e.1 = f.1 → e.2.loc = some (cx.range f.2)

/-- If these branches are the ones of these places, the arms that the computation adds lie in their branches; its result has the
property. -/
def Keeps (cx : Ctx) (A : List (Nat × Span)) (x : M α) (P : α → Prop) : Prop :=
  ∀ st a s, x st = .ok (a, s) → Good st → (∀ f ∈ A, Has cx st.cov f) →
    P a ∧ Good s ∧ ∀ f, Has cx st.cov f → Has cx s.cov f

theorem mem_modify {V : Type} {k : Nat} {f : V → V} : ∀ {m : IndexMap Nat V} {e : Nat × V}, e ∈ IndexMap.modify m k f →
    e ∈ m ∨ ∃ v, (k, v) ∈ m ∧ e = (k, f v)
  | [], e, h => .inl h
  | (k', v) :: m, e, h => by
    simp only [IndexMap.modify] at h
    split at h
    · rename_i hk
      subst hk
      rcases List.mem_cons.1 h with rfl | h
      · exact .inr ⟨v, by simp, rfl⟩
      · exact .inl (List.mem_cons_of_mem _ h)
    · rcases List.mem_cons.1 h with rfl | h
      · exact .inl (by simp)
      · rcases mem_modify h with h | ⟨w, h1, h2⟩
        · exact .inl (List.mem_cons_of_mem _ h)
        · exact .inr ⟨w, List.mem_cons_of_mem _ h1, h2⟩

namespace Keeps
open Visitor
variable {cx : Ctx} {α β : Type} {P : α → Prop} {Q : β → Prop} {A A' : List (Nat × Span)}

theorem quiet {x : M α} (h : ∀ st a s, x st = .ok (a, s) → (s.cov.inner.branchMap = st.cov.inner.branchMap ∧ s.cov.lastB = st.cov.lastB ∧
    ∀ y ∈ s.before, y ∈ st.before ∨ ∃ c, y = counterStmt c) ∧ P a) : Keeps cx A x P := by
  intro st a s hs hg _
  obtain ⟨⟨h1, h2, h4⟩, h3⟩ := h st a s hs
  refine ⟨h3, ?_⟩
  unfold Good Has
  rw [h1, h2]
  exact ⟨⟨hg.1, fun y hy => (h4 y hy).elim (hg.2 y) id⟩, fun _ h => h⟩

theorem pure {a : α} (h : P a) : Keeps cx A (Pure.pure a) P := quiet fun _ _ _ hs => by cases hs; exact ⟨⟨rfl, rfl, fun _ => .inl⟩, h⟩

theorem bind {x : M α} {f : α → M β} (hx : Keeps cx A x P) (hf : ∀ a, P a → Keeps cx A (f a) Q) : Keeps cx A (x >>= f) Q := by
  intro st b s h hg hA
  obtain ⟨a, s1, h1, h2⟩ := M.bind_ok h
  obtain ⟨h3, g1, g2⟩ := hx st a s1 h1 hg hA
  obtain ⟨h5, g3, g4⟩ := hf a h3 s1 b s h2 g1 fun f hf => g2 f (hA f hf)
  exact ⟨h5, g3, fun f hf => g4 f (g2 f hf)⟩

theorem imp {x : M α} {P' : α → Prop} (hx : Keeps cx A x P) (h : ∀ a, P a → P' a) : Keeps cx A x P' := fun st a s hs hg hA =>
  ⟨h a (hx st a s hs hg hA).1, (hx st a s hs hg hA).2⟩

theorem ite {p : Prop} [Decidable p] {x x' : M α} (hx : p → Keeps cx A x P) (hy : ¬p → Keeps cx A x' P) : Keeps cx A (if p then x else x') P := by
  split
  · exact hx ‹_›
  · exact hy ‹_›

theorem keepIf {p : Prop} [Decidable p] {a : α} {x : M α} (ha : P a) (hx : Keeps cx A x P) : Keeps cx A (keepIf p a x) P :=
  ite (fun _ => pure ha) fun _ => hx

theorem push (g : Tag) : Keeps cx A (push g) fun _ => True := quiet fun _ _ _ h => by cases h; exact ⟨⟨rfl, rfl, fun _ => .inl⟩, trivial⟩
theorem pop : Keeps cx A pop fun _ => True := quiet fun _ _ _ h => by cases h; exact ⟨⟨rfl, rfl, fun _ => .inl⟩, trivial⟩
theorem exit (old : Option IgnoreScope) : Keeps cx A (exit old) fun _ => True := quiet fun _ _ _ h => by cases h; exact ⟨⟨rfl, rfl, fun _ => .inl⟩, trivial⟩
theorem enterSpan (sp : Span) : Keeps cx A (enterSpan cx sp) fun _ => True :=
  quiet fun st a s h => by
    unfold Visitor.enterSpan at h
    split at h <;> (cases h; exact ⟨⟨rfl, rfl, fun _ => .inl⟩, trivial⟩)
theorem topNode : Keeps cx A topNode fun _ => True :=
  quiet fun _ _ _ h => by
    unfold Visitor.topNode at h
    split at h <;> cases h
    exact ⟨⟨rfl, rfl, fun _ => .inl⟩, trivial⟩
theorem allNodes : Keeps cx A allNodes fun _ => True := quiet fun _ _ _ h => by cases h; exact ⟨⟨rfl, rfl, fun _ => .inl⟩, trivial⟩
theorem panic (e : Panic) : Keeps cx A (M.panic e : M α) P := fun _ _ _ h => by cases h
theorem pushCounter (c : Counter) : Keeps cx A (pushBefore (counterStmt c)) fun _ => True := quiet fun _ _ _ h => by
  cases h
  refine ⟨⟨rfl, rfl, fun y hy => ?_⟩, trivial⟩
  rcases List.mem_append.1 hy with hy | hy
  · exact .inl hy
  · exact .inr ⟨c, List.mem_singleton.1 hy⟩
theorem newStatement (r : Range) : Keeps cx A (newStatement r) fun _ => True := quiet fun _ _ _ h => by cases h; exact ⟨⟨rfl, rfl, fun _ => .inl⟩, trivial⟩
theorem newFunction (name : Option String) (d l : Range) : Keeps cx A (newFunction name d l) fun _ => True :=
  quiet fun _ _ _ h => by cases h; exact ⟨⟨rfl, rfl, fun _ => .inl⟩, trivial⟩

theorem truth_map (c : SourceCoverage) (bt : BranchType) (k : Nat) (l : Bool) :
    (c.maybeNewBranchTrue bt k l).inner.branchMap = c.inner.branchMap ∧ (c.maybeNewBranchTrue bt k l).lastB = c.lastB := by
  unfold SourceCoverage.maybeNewBranchTrue
  split
  · exact ⟨rfl, rfl⟩
  · split <;> exact ⟨rfl, rfl⟩

/-- A new branch, and what comes after it. -/
theorem newBranch {bt : BranchType} {sp : Span} {l : Bool} {f : Nat → M β} (hf : ∀ b, Keeps cx ((b, sp) :: A) (f b) Q) :
    Keeps cx A (newBranch bt (cx.range sp) l >>= f) Q := by
  intro st r s h hg0 hA
  obtain ⟨b, s1, h1, h2⟩ := M.bind_ok h
  have h6 := hf b s1 r s h2
  have hg := hg0.1
  cases h1
  have hk : st.cov.lastB ∉ IndexMap.keys st.cov.inner.branchMap := by
    intro hm
    obtain ⟨e, he, heq⟩ := List.mem_map.1 hm
    have := (hg e he).1
    omega
  have m1 : (st.cov.newBranch bt (cx.range sp) l).1.inner.branchMap = st.cov.inner.branchMap ++
      [(st.cov.lastB, ⟨some (cx.range sp), bt, [], some (cx.range sp).start.line⟩)] :=
    (truth_map _ _ _ _).1.trans (IndexMap.insert_of_not_mem hk _)
  have m2 : (st.cov.newBranch bt (cx.range sp) l).1.lastB = st.cov.lastB + 1 := (truth_map _ _ _ _).2
  have h3 : Good { st with cov := (st.cov.newBranch bt (cx.range sp) l).1 } := by
    refine ⟨fun e he => ?_, hg0.2⟩
    dsimp only at he ⊢
    rw [m1] at he
    have hl : e.1 < st.cov.lastB + 1 ∧ ∃ l, e.2.loc = some l ∧ ∀ a ∈ e.2.locations, Lies a l := by
      rcases List.mem_append.1 he with he | he
      · exact ⟨Nat.lt_succ_of_lt (hg e he).1, (hg e he).2⟩
      · rw [List.mem_singleton.1 he]
        exact ⟨Nat.lt_succ_self _, _, rfl, nofun⟩
    exact ⟨by rw [m2]; exact hl.1, hl.2⟩
  have h4 : ∀ f, Has cx st.cov f → Has cx (st.cov.newBranch bt (cx.range sp) l).1 f := by
    intro f hf
    refine ⟨by rw [m2]; exact Nat.lt_succ_of_lt hf.1, fun e he heq => ?_⟩
    rw [m1] at he
    rcases List.mem_append.1 he with he | he
    · exact hf.2 e he heq
    · rw [List.mem_singleton.1 he] at heq
      have := hf.1
      simp only at heq
      omega
  have h7 : Has cx (st.cov.newBranch bt (cx.range sp) l).1 (st.cov.lastB, sp) := by
    refine ⟨by rw [m2]; exact Nat.lt_succ_self _, fun e he heq => ?_⟩
    rw [m1] at he
    rcases List.mem_append.1 he with he | he
    · have := (hg e he).1
      simp only at heq
      omega
    · rw [List.mem_singleton.1 he]
  obtain ⟨h5, g1, g2⟩ := h6 h3 fun f hf => by
    rcases List.mem_cons.1 hf with rfl | hf
    · exact h7
    · exact h4 f (hA f hf)
  exact ⟨h5, g1, fun f hf => g2 f (h4 f hf)⟩

/-- An arm. -/
theorem addPath {b : Nat} {sp : Span} {r : Range} (hA : (b, sp) ∈ A) (hr : Lies r (cx.range sp)) : Keeps cx A (addPath b r) fun _ => True := by
  intro st a s h hg0 hH
  have hg := hg0.1
  have hb := hH _ hA
  have key : s.before = st.before ∧ s.cov.inner.branchMap = IndexMap.modify st.cov.inner.branchMap b (fun br => { br with locations := br.locations ++ [r] }) ∧
      s.cov.lastB = st.cov.lastB := by
    unfold Visitor.addPath at h
    split at h
    · cases h
    · rename_i cov idx hp
      cases h
      unfold SourceCoverage.addBranchPath at hp
      split at hp
      · cases hp
      · split at hp
        · cases hp
        · dsimp only at hp
          split at hp
          · cases hp
          · cases hp
            unfold SourceCoverage.maybeAddBranchTrue
            split
            · exact ⟨rfl, rfl, rfl⟩
            · split <;> exact ⟨rfl, rfl, rfl⟩
  obtain ⟨hbf, key⟩ := key
  refine ⟨trivial, ⟨fun e he => ?_, hbf ▸ hg0.2⟩, fun f hf => ⟨key.2 ▸ hf.1, fun e he heq => ?_⟩⟩
  · rw [key.1] at he
    rw [key.2]
    rcases mem_modify he with he | ⟨v, hv, rfl⟩
    · exact hg e he
    · obtain ⟨h1, l, h2, h3⟩ := hg _ hv
      refine ⟨h1, l, h2, fun a ha => ?_⟩
      rcases List.mem_append.1 ha with ha | ha
      · exact h3 a ha
      · rw [List.mem_singleton.1 ha]
        have := hb.2 _ hv rfl
        rw [h2] at this
        cases this
        exact hr
  · rw [key.1] at he
    rcases mem_modify he with he | ⟨v, hv, rfl⟩
    · exact hf.2 e he heq
    · exact hf.2 (b, v) hv heq

theorem frame {g : Tag} {sp : Span} {b : Option IgnoreScope → M α} (hb : ∀ cur, Keeps cx A (b cur) P) : Keeps cx A (frame cx g sp b) P :=
  bind (bind (push g) fun _ _ => enterSpan sp) fun r _ => bind (hb r.2) fun _ h => bind (exit r.1) fun _ _ => pure h

/-- The result of the visit of a node. -/
def Out (n r : Node) : Prop := r.span = n.span ∧ Like n r

theorem Out.refl {n : Node} (h : Nested n) : Out n n := ⟨rfl, .refl (Nesteds.one h)⟩

theorem Out.node {k k' : Kind} {sp : Span} {cs cs' : List Node} (h : Likes cs cs') (hn : Nested (mk k sp cs)) : Out (mk k sp cs) (mk k' sp cs') :=
  ⟨rfl, h.node hn⟩

theorem guarded {g : Tag} {n : Node} {b : M Node} (hn : Nested n) (hb : Keeps cx A b (Out n)) : Keeps cx A (guarded cx g n b) (Out n) :=
  frame fun _ => ite (fun _ => pure (.refl hn)) fun _ => hb

theorem fresh {ig : Option IgnoreScope} {x : M α} (hx : Keeps cx A x P) :
    Keeps cx A (fresh ig x) fun r => P r.1 ∧ ∀ y ∈ r.2, ∃ c, y = counterStmt c := by
  intro st r s h hg hA
  unfold Visitor.fresh at h
  cases hxs : x { st with before := [], ignore := ig } with
  | error e => rw [hxs] at h; cases h
  | ok r =>
    obtain ⟨a1, st1⟩ := r
    rw [hxs] at h
    cases h
    obtain ⟨h1, h2, h3⟩ := hx _ _ _ hxs ⟨hg.1, nofun⟩ hA
    exact ⟨⟨h1, h2.2⟩, ⟨h2.1, hg.2⟩, h3⟩

theorem mark (sp : Span) : Keeps cx A (mark cx sp) fun _ => True := bind (newStatement _) fun _ _ => pushCounter _

theorem mapList {f : Node → M Node} : ∀ {l : List Node}, (∀ c ∈ l, Keeps cx A (f c) (Like c)) → Keeps cx A (M.mapList f l) (Likes l)
  | [], _ => pure (.nil _)
  | a :: l, h => bind (h a (by simp)) fun _ h1 => bind (mapList fun c hc => h c (by simp [hc])) fun _ h2 => pure (Likes.cons h1 h2)

/-- The branch that arms are added to in a mode, if any. -/
def target : Mode → Option Nat
  | .switchCase b | .logical b | .logicalInner b => some b
  | _ => none

/-- The tree lies in the branch that arms are added to. -/
def Owned (A : List (Nat × Span)) (m : Mode) (n : Node) : Prop := ∀ b, target m = some b → ∃ sp, (b, sp) ∈ A ∧ Under sp n

theorem Owned.stmt (n : Node) : Owned A .stmt n := nofun

theorem Owned.coverage (n : Node) : Owned A .coverage n := nofun

theorem Owned.cons {m : Mode} {n : Node} {f : Nat × Span} (h : Owned A m n) : Owned (f :: A) m n := fun b hb => by
  obtain ⟨sp, h1, h2⟩ := h b hb
  exact ⟨sp, List.mem_cons_of_mem _ h1, h2⟩

theorem Owned.of {m : Mode} {n n' : Node} (h : Owned A m n) (hf : Like n n') : Owned A m n' := fun b hb => by
  obtain ⟨sp, h1, h2⟩ := h b hb
  exact ⟨sp, h1, hf.under h2⟩

theorem Owned.child {m : Mode} {k : Kind} {sp : Span} {cs : List Node} {c : Node} (h : Owned A m (mk k sp cs)) (hc : c ∈ cs) : Owned A m c :=
  fun b hb => by
    obtain ⟨s, h1, h2⟩ := h b hb
    exact ⟨s, h1, (under_mk.1 h2).2 c hc⟩

theorem lies {a b : Span} (hpos : ∀ a b, a ≤ b → (cx.pos a).NotAfter (cx.pos b)) (h : a.In b) : Lies (cx.range a) (cx.range b) := by
  intro ha hb
  unfold Ctx.range at ha hb ⊢
  split at ha
  · exact absurd rfl ha
  · split at hb
    · exact absurd rfl hb
    · rename_i h1 h2
      rw [if_neg h1, if_neg h2]
      obtain ⟨h3, h4⟩ := h ⟨fun h => h1 (.inr h), fun h => h1 (.inl h)⟩ ⟨fun h => h2 (.inr h), fun h => h2 (.inl h)⟩
      exact ⟨hpos _ _ h3, hpos _ _ h4⟩

section
variable (hpos : ∀ a b, a ≤ b → (cx.pos a).NotAfter (cx.pos b)) {go : Mode → Node → M Node}
  (hgo : ∀ A m n, Nested n → Owned A m n → Keeps cx A (go m n) (Out n))
include hgo

theorem insertStmt {s : Node} (hs : Nested s) : Keeps cx A (insertStmt cx go s) (Likes [s]) :=
  ite (fun _ => pure (.refl (Nesteds.one hs))) fun _ => frame fun _ => ite (fun _ => pure (.refl (Nesteds.one hs))) fun _ =>
    bind (fresh (hgo A _ _ hs (.stmt _))) fun _ h => pure (Likes.counters h.2 h.1.2)

theorem insertStmts : ∀ {ss : List Node}, Nesteds ss → Keeps cx A (insertStmts cx go ss) (Likes ss)
  | [], _ => pure (.nil _)
  | s :: ss, h => bind (insertStmt hgo (h s (by simp))) fun _ h1 =>
    bind (insertStmts fun n hn => h n (by simp [hn])) fun _ h2 => pure (h1.append h2)

theorem visitStmts {ss : List Node} (h : Nesteds ss) : Keeps cx A (visitStmts cx go ss) (Likes ss) :=
  bind (push _) fun _ _ => bind (insertStmts hgo h) fun _ h => bind pop fun _ _ => pure h

theorem visitChildren {m : Mode} {n : Node} (hn : Nested n) (ho : Owned A m n) : Keeps cx A (visitChildren cx go m n) (Out n) := by
  unfold Visitor.visitChildren
  split
  · exact bind (visitStmts hgo (nested_mk.1 hn).2) fun _ h => pure (.node h hn)
  · exact bind (hgo A _ _ ((nested_mk.1 hn).2 _ (by simp)) (ho.child (by simp))) fun _ h1 =>
      bind (visitStmts hgo fun c hc => (nested_mk.1 hn).2 c (by simp [hc])) fun _ h2 => pure (.node (Likes.cons h1.2 h2) hn)
  · exact bind (mapList fun c hc => (hgo A _ _ ((nested_mk.1 hn).2 c hc) (ho.child hc)).imp fun _ h => h.2) fun _ h => pure (.node h hn)

theorem logicalChildren {b : Nat} {n : Node} (hn : Nested n) (ho : Owned A (.logical b) n) :
    Keeps cx A (logicalChildren go b n) (Out n) := by
  cases n
  exact bind (mapList fun c hc => (hgo A _ _ ((nested_mk.1 hn).2 c hc) (ho.child hc)).imp fun _ h => h.2) fun _ h => pure (.node h hn)

include hpos in
theorem wrapBin {m : Mode} {b : Nat} {sp : Span} {e : Node} (he : Nested e) (ho : Owned A m e) (hb : (b, sp) ∈ A) (hu : Under sp e) :
    Keeps cx A (wrapBin cx go m b e) (Like e) :=
  ite (fun _ => pure (.refl (Nesteds.one he))) fun _ =>
    ite (fun _ => bind (fresh (hgo A (.logicalInner b) e he fun b' h => ⟨sp, by cases h; exact hb, hu⟩)) fun _ h => pure h.1.2) fun _ =>
      ite (fun _ => bind (addPath hb (lies hpos (span_in hu))) fun _ _ => pure (like_wrapTruth _ _ he)) fun _ =>
        bind (hgo A _ _ he ho) fun r hr => bind (addPath (r := cx.range r.span) hb (by rw [hr.1]; exact lies hpos (span_in hu))) fun _ _ =>
          pure (hr.2.trans (like_wrapCounter _ hr.2.nested))

/-- The visit of a node with replaced parts. -/
theorem parts {m : Mode} {k : Kind} {sp : Span} {cs cs' : List Node} (h : Likes cs cs') (hn : Nested (mk k sp cs))
    (ho : Owned A m (mk k sp cs)) : Keeps cx A (Visitor.visitChildren cx go m (mk k sp cs')) (Out (mk k sp cs)) :=
  (visitChildren hgo (h.node hn).nested (ho.of (h.node hn))).imp fun _ h' => ⟨h'.1, (h.node hn).trans h'.2⟩

omit hgo in
theorem createFn (i : Option (Span × String)) {fn : Node} (h : Nested fn) : Keeps cx A (createFn cx i fn) (Like fn) := by
  unfold Visitor.createFn
  split
  · rename_i a sp params decorators body
    have hc := (nested_mk.1 h).2
    refine bind (newFunction _ _ _) fun id _ => ?_
    have hb : Keeps cx A (prependFn id body) (Like body) := by
      unfold prependFn
      split
      · exact pure (Likes.node (.counter _ (.refl (nested_mk.1 (hc (mk _ _ _) (by simp; exact .inr (.inr ⟨rfl, rfl⟩)))).2)) (hc _ (by simp)))
      · exact panic _
    exact bind hb fun b' h' => pure (Likes.node (Likes.cons (.refl (Nesteds.one (hc _ (by simp))))
      (Likes.cons (.refl (Nesteds.one (hc _ (by simp)))) h')) h)
  · exact pure (.refl (Nesteds.one h))

omit hgo in
theorem replaceWithStmtCounter {e : Node} (h : Nested e) : Keeps cx A (replaceWithStmtCounter cx e) (Like e) :=
  bind (newStatement _) fun _ _ => pure (like_wrapCounter _ h)

omit hgo in
include hpos in
theorem replaceWithBranchCounter {b : Nat} {sp : Span} {e : Node} (h : Nested e) (hb : (b, sp) ∈ A) (hu : Under sp e) :
    Keeps cx A (replaceWithBranchCounter cx b e) (Like e) :=
  bind (addPath hb (lies hpos (span_in hu))) fun _ _ => pure (like_wrapCounter _ h)

omit hgo in
theorem coverHoisted {e : Node} (h : Nested e) : Keeps cx A (coverHoisted cx e) (Like e) :=
  bind allNodes fun _ _ => ite (fun _ => bind (keepIf trivial (mark _)) fun _ _ => pure (.refl (Nesteds.one h))) fun _ => replaceWithStmtCounter h

theorem coverStatement {m : Mode} {e : Node} (h : Nested e) (ho : Owned A m e) : Keeps cx A (coverStatement cx go m e) (Like e) :=
  ite (fun _ => bind (mark _) fun _ _ => (hgo A _ _ h ho).imp fun _ h => h.2) fun _ =>
    ite (fun _ => bind (mark _) fun _ _ => pure (.refl (Nesteds.one h))) fun _ =>
    bind (keepIf trivial (mark _)) fun _ _ => bind topNode fun _ _ => ite (fun _ => coverHoisted h) fun _ =>
      ite (fun _ => replaceWithStmtCounter h) fun _ => pure (.refl (Nesteds.one h))

theorem wrapArm {cur : Option IgnoreScope} {b : Nat} {sp : Span} {s : Node} (h : Nested s) (hb : (b, sp) ∈ A) :
    Keeps cx A (wrapArm cx go cur b (cx.range sp) s) (Like s) := by
  unfold Visitor.wrapArm
  refine bind (addPath hb fun _ _ => ⟨.inr ⟨rfl, Nat.le_refl _⟩, .inr ⟨rfl, Nat.le_refl _⟩⟩) fun idx _ => ?_
  split
  · exact bind (insertStmts hgo (nested_mk.1 h).2) fun _ h' => pure (Likes.node (.counter _ h') h)
  · exact bind (fresh (hgo A _ _ h (.stmt _))) fun _ h' => pure (Likes.around (.counter _ (Likes.counters h'.2 h'.1.2)))

theorem visitArrow (a : String) {sp : Span} {params body : Node} (h : Nested (mk (.arrow a) sp [params, body])) :
    Keeps cx A (visitArrow cx go a sp params body) (Out (mk (.arrow a) sp [params, body])) := by
  have hc := (nested_mk.1 h).2
  have hp := Likes.refl (Nesteds.one (hc params (by simp)))
  have hb := hc body (by simp)
  unfold Visitor.visitArrow
  refine bind (newFunction _ _ _) fun idx _ => ?_
  split
  · exact bind (insertStmts hgo (nested_mk.1 hb).2) fun _ h' => pure (.node (Likes.cons hp (Likes.node (.counter _ h') hb)) h)
  · have hr : Nested (mk .returnStmt body.span [body]) := nested_mk.2 ⟨fun c hc => by rw [List.mem_singleton.1 hc]; exact under_self hb, Nesteds.one hb⟩
    have hl : Likes [body] [counterStmt (.f idx), mk .returnStmt body.span [body]] := by
      refine .counter _ ⟨fun s hu x hx => ?_, Nesteds.one hr⟩
      rw [List.mem_singleton.1 hx]
      exact under_mk.2 ⟨span_in (hu body (by simp)), hu⟩
    exact bind (insertStmts hgo hl.2) fun _ h' => pure (.node (Likes.cons hp (Likes.around (hl.trans h'))) h)

omit hgo in
theorem like_blockify {s : Node} (h : Nested s) : Like s (blockify s) := by
  unfold Visitor.blockify
  split
  · exact .refl (Nesteds.one h)
  · exact Likes.around (.refl (Nesteds.one h))

omit hgo in
theorem likes_blockifyLast : ∀ {cs : List Node}, Nesteds cs → Likes cs (blockifyLast cs)
  | [], _ => .nil _
  | [a], h => like_blockify (h a (by simp))
  | a :: b :: cs, h => Likes.cons (.refl (Nesteds.one (h a (by simp)))) (likes_blockifyLast fun n hn => h n (List.mem_cons_of_mem _ hn))

omit hgo in
theorem createAccessor (name : String) (sp : Span) {body : Node} (h : Nested body) : Keeps cx A (createAccessor cx name sp body) (Like body) := by
  unfold Visitor.createAccessor
  split
  · exact bind (newFunction _ _ _) fun _ _ => pure (Likes.node (.counter _ (.refl (nested_mk.1 h).2)) h)
  · exact pure (.refl (Nesteds.one h))

theorem visitAccessor {m : Mode} {k : Kind} {sp : Span} {key body : Node} {mid : List Node} (h : Nested (mk k sp (key :: mid ++ [body])))
    (ho : Owned A m (mk k sp (key :: mid ++ [body]))) :
    Keeps cx A (visitAccessor cx go m (mk k sp (key :: mid ++ [body])) key body fun b => mk k sp (key :: mid ++ [b]))
      (Out (mk k sp (key :: mid ++ [body]))) := by
  have hc := (nested_mk.1 h).2
  have hl : ∀ {b' : Node}, Like body b' → Likes (key :: mid ++ [body]) (key :: mid ++ [b']) := fun h' =>
    Likes.append (.refl fun n hn => hc n (List.mem_append_left _ hn)) h'
  have hb := hc body (by simp)
  unfold Visitor.visitAccessor
  split
  · exact ite (fun _ => pure (.refl h)) fun _ => bind (createAccessor _ _ hb) fun _ h' => parts hgo (hl h') h ho
  · exact bind (createAccessor _ _ hb) fun _ h' => parts hgo (hl h') h ho

theorem visitIf {m : Mode} {cur : Option IgnoreScope} {sp : Span} {test cons alt : Node} (h : Nested (mk .ifStmt sp [test, cons, alt]))
    (ho : Owned A m (mk .ifStmt sp [test, cons, alt])) :
    Keeps cx A (visitIf cx go m cur sp test cons alt) (Out (mk .ifStmt sp [test, cons, alt])) := by
  have hc := (nested_mk.1 h).2
  have halt := hc alt (by simp)
  refine bind (mark sp) fun _ _ => newBranch fun b => bind (P := Like cons) (keepIf (.refl (Nesteds.one (hc cons (by simp)))) (wrapArm hgo (hc cons (by simp)) (by simp)))
    fun cons' h1 => bind (P := Like alt) (keepIf (.refl (Nesteds.one halt)) ?_) fun alt' h2 =>
      bind (hgo _ _ _ (hc test (by simp)) (ho.child (by simp)).cons) fun test' h3 => pure (.node (Likes.cons h3.2 (Likes.cons h1 h2)) h)
  split
  · refine (wrapArm hgo (nested_dummy (cs := []) nofun) (by simp)).imp fun _ h' => ?_
    exact Likes.trans (Likes.leaf _) h'
  · exact wrapArm hgo halt (by simp)

include hpos in
theorem visitCond {m : Mode} {cur : Option IgnoreScope} {sp : Span} {test cons alt : Node} (h : Nested (mk .cond sp [test, cons, alt]))
    (ho : Owned A m (mk .cond sp [test, cons, alt])) :
    Keeps cx A (visitCond cx go m cur sp test cons alt) (Out (mk .cond sp [test, cons, alt])) := by
  obtain ⟨hu, hc⟩ := nested_mk.1 h
  have h1 := hc cons (by simp)
  have h2 := hc alt (by simp)
  refine bind (P := fun r => Like cons r.1 ∧ Like alt r.2) (keepIf ⟨.refl (Nesteds.one h1), .refl (Nesteds.one h2)⟩ ?_) fun r hr =>
    parts hgo (Likes.cons (.refl (Nesteds.one (hc test (by simp)))) (Likes.cons hr.1 hr.2)) h ho
  exact newBranch fun b =>
    bind (P := Like cons) (keepIf (.refl (Nesteds.one h1)) (replaceWithBranchCounter hpos h1 (by simp) (hu cons (by simp)))) fun _ g1 =>
    bind (P := Like alt) (keepIf (.refl (Nesteds.one h2)) (replaceWithBranchCounter hpos h2 (by simp) (hu alt (by simp)))) fun _ g2 => pure ⟨g1, g2⟩

include hpos in
theorem visitBin {m : Mode} {branch? : Option Nat} {ch : Node → M Node} {op : BinOp} {sp : Span} {l r : Node}
    (h : Nested (mk (.bin op) sp [l, r])) (ho : Owned A m (mk (.bin op) sp [l, r]))
    (hch : Keeps cx A (ch (mk (.bin op) sp [l, r])) (Out (mk (.bin op) sp [l, r])))
    (hb : ∀ b, branch? = some b → ∃ s, (b, s) ∈ A ∧ Under s (mk (.bin op) sp [l, r])) :
    Keeps cx A (visitBin cx go m branch? ch op sp l r) (Out (mk (.bin op) sp [l, r])) := by
  have hw : ∀ old : Option IgnoreScope, Keeps cx A (do
      Visitor.push .binExpr
      let n ← ch (mk (.bin op) sp [l, r])
      Visitor.exit old
      Pure.pure n) (Out (mk (.bin op) sp [l, r])) := fun old =>
    bind (push _) fun _ _ => bind hch fun _ h' => bind (exit _) fun _ _ => pure h'
  obtain ⟨hu, hc⟩ := nested_mk.1 h
  refine bind (enterSpan _) fun x _ => ite (fun _ => hw _) fun _ => ite (fun _ => bind (push _) fun _ _ => ?_) fun _ => hw _
  have hcont : ∀ {A' : List (Nat × Span)} {b : Nat} {s : Span}, (b, s) ∈ A' → Under s l → Under s r → Owned A' m (mk (.bin op) sp [l, r]) →
      Keeps cx A' (do
        let left ← Visitor.wrapBin cx go m b l
        let right ← Visitor.wrapBin cx go m b r
        Pure.pure (mk (.bin op) sp [left, right])) (Out (mk (.bin op) sp [l, r])) := fun hb h1 h2 ho =>
    bind (wrapBin hpos hgo (hc l (by simp)) (ho.child (by simp)) hb h1) fun _ g1 =>
      bind (wrapBin hpos hgo (hc r (by simp)) (ho.child (by simp)) hb h2) fun _ g2 => pure (.node (Likes.cons g1 g2) h)
  unfold logicalBranch
  split
  · rename_i b
    obtain ⟨s, h1, h2⟩ := hb b rfl
    refine bind (P := fun b' => b' = b) (pure rfl) fun b' hb' => ?_
    subst hb'
    exact hcont h1 ((under_mk.1 h2).2 l (by simp)) ((under_mk.1 h2).2 r (by simp)) ho
  · exact newBranch fun b => hcont (by simp) (hu l (by simp)) (hu r (by simp)) ho.cons

include hpos in
theorem visitCase {b : Nat} {sp : Span} {test : Node} {cons : List Node} (h : Nested (mk .switchCase sp (test :: cons)))
    (ho : Owned A (.switchCase b) (mk .switchCase sp (test :: cons))) :
    Keeps cx A (visitCase cx go b sp test cons) (Out (mk .switchCase sp (test :: cons))) := by
  obtain ⟨s, h1, h2⟩ := ho b rfl
  have hc := (nested_mk.1 h).2
  refine bind (addPath h1 (lies hpos (under_mk.1 h2).1)) fun _ _ => bind (hgo A _ _ (hc test (by simp)) (ho.child (by simp))) fun _ g1 =>
    bind (visitStmts hgo fun c hc' => hc c (by simp [hc'])) fun _ g2 => pure (.node ?_ h)
  exact Likes.cons g1.2 (.counter _ g2)

theorem visitWithBody {cur : Option IgnoreScope} {body : Node} (h : Nested body) : Keeps cx A (visitWithBody cx go cur body) (Like body) := by
  unfold Visitor.visitWithBody
  split
  · exact bind (insertStmts hgo (nested_mk.1 h).2) fun _ h' => pure (Likes.node h' h)
  · exact bind (fresh (hgo A _ _ h (.stmt _))) fun _ h' => pure (Likes.around (Likes.counters h'.2 h'.1.2))

theorem fnParts {m : Mode} {k : Kind} {sp : Span} {a fn : Node} (i : Option (Span × String)) (h : Nested (mk k sp [a, fn]))
    (ho : Owned A m (mk k sp [a, fn])) :
    Keeps cx A (do
      let fn ← Visitor.createFn cx i fn
      Visitor.visitChildren cx go m (mk k sp [a, fn])) (Out (mk k sp [a, fn])) :=
  bind (createFn i ((nested_mk.1 h).2 fn (by simp))) fun _ h' =>
    parts hgo (Likes.cons (.refl (Nesteds.one ((nested_mk.1 h).2 a (by simp)))) h') h ho

theorem initParts {m : Mode} {k : Kind} {sp : Span} {a e : Node} {r : List Node} (h : Nested (mk k sp (a :: e :: r)))
    (ho : Owned A m (mk k sp (a :: e :: r))) :
    Keeps cx A (do
      let e ← Visitor.keepIf e.isNone e (Visitor.coverStatement cx go m e)
      Visitor.visitChildren cx go m (mk k sp (a :: e :: r))) (Out (mk k sp (a :: e :: r))) := by
  have hc := (nested_mk.1 h).2
  exact bind (P := Like e) (keepIf (.refl (Nesteds.one (hc e (by simp)))) (coverStatement hgo (hc e (by simp)) (ho.child (by simp)))) fun _ h' =>
    parts hgo (Likes.cons (.refl (Nesteds.one (hc a (by simp)))) (Likes.cons h' (.refl fun n hn => hc n (by simp [hn])))) h ho

include hpos in
theorem visitNode {m : Mode} {n : Node} (hn : Nested n) (ho : Owned A m n) : Keeps cx A (visitNode cx go m n) (Out n) := by
  have hv : ∀ {n : Node}, Nested n → Owned A m n → Keeps cx A (Visitor.visitChildren cx go m n) (Out n) := fun h h' => visitChildren hgo h h'
  revert hn ho
  refine visitCases (p := fun n => Nested n → Owned A m n → Keeps cx A (Visitor.visitNode cx go m n) (Out n))
    ?_ ?_ ?_ ?_ ?_ ?_ ?_ ?_ ?_ ?_ ?_ ?_ ?_ ?_ ?_ ?_ ?_ ?_ ?_ ?_ ?_ ?_ ?_ ?_ ?_ ?_ ?_ ?_ ?_ ?_ ?_ ?_ ?_ n
  · exact fun sp cs hn ho => guarded hn (hv hn ho)
  · exact fun sp a b hn ho => guarded hn (fnParts hgo _ hn ho)
  · exact fun x sp a b hn ho => guarded hn (visitArrow hgo x hn)
  · exact fun sp a b hn ho => guarded hn (ite (fun _ => pure (.refl hn)) fun _ => fnParts hgo _ hn ho)
  · intro sp a hn ho
    unfold Visitor.visitNode
    dsimp only
    refine frame fun cur => ?_
    exact ite (fun _ => pure (.refl hn)) fun _ => bind (keepIf trivial (mark _)) fun _ _ => hv hn ho
  · intro sp cs hn ho
    unfold Visitor.visitNode
    dsimp only
    refine frame fun cur => ?_
    exact bind (keepIf trivial (mark _)) fun _ _ => hv hn ho
  · intro sp a b c hn ho
    unfold Visitor.visitNode
    dsimp only
    refine frame fun cur => ?_
    exact visitCond hpos hgo hn ho
  · exact fun sp cs hn ho => guarded hn (bind (mark _) fun _ _ => hv hn ho)
  · intro sp cs hn ho
    unfold Visitor.visitNode
    dsimp only
    refine frame fun cur => ?_
    exact bind (keepIf trivial (mark _)) fun _ _ => hv hn ho
  · intro x sp cs hn ho
    unfold Visitor.visitNode
    dsimp only
    refine frame fun cur => ?_
    exact hv hn ho
  · exact fun sp cs hn ho => guarded hn (hv hn ho)
  · exact fun sp a b c hn ho => guarded hn (initParts hgo hn ho)
  · exact fun sp a b c hn ho => guarded hn (initParts hgo hn ho)
  · intro sp a b hn ho
    refine guarded hn ?_
    split
    · exact ite (fun _ => pure (.refl hn)) fun _ => fnParts hgo _ hn ho
    · exact pure (.refl hn)
  · intro sp a b hn ho
    refine guarded hn ?_
    split
    · exact ite (fun _ => pure (.refl hn)) fun _ => fnParts hgo _ hn ho
    · exact fnParts hgo _ hn ho
  · exact fun sp a b hn ho => guarded hn (visitAccessor (mid := []) hgo hn ho)
  · exact fun sp a b c d hn ho => guarded hn (visitAccessor (mid := [b, c]) hgo hn ho)
  · exact fun sp a b hn ho => guarded hn (initParts hgo hn ho)
  · exact fun x sp cs hn ho => guarded hn (bind (mark _) fun _ _ => parts hgo (likes_blockifyLast (nested_mk.1 hn).2) hn ho)
  · intro sp cs hn ho
    unfold Visitor.visitNode
    dsimp only
    refine frame fun cur => ?_
    exact bind (keepIf trivial (mark _)) fun _ _ => hv hn ho
  · intro sp cs hn ho
    unfold Visitor.visitNode
    dsimp only
    refine frame fun cur => ?_
    exact bind (keepIf trivial (mark _)) fun _ _ => hv hn ho
  · intro sp cs hn ho
    unfold Visitor.visitNode
    dsimp only
    refine frame fun cur => ?_
    refine ite (fun _ => pure (.refl hn)) fun _ => bind (mark _) fun _ _ => newBranch fun b => ?_
    exact bind (fresh (visitChildren hgo hn fun b' h => ⟨sp, by cases h; exact List.mem_cons_self, under_self hn⟩)) fun _ h => pure h.1
  · intro sp a b c hn ho
    unfold Visitor.visitNode
    dsimp only
    refine frame fun cur => ?_
    exact ite (fun _ => pure (.refl hn)) fun _ => visitIf hgo hn ho
  · exact fun x sp a b hn ho => visitBin hpos hgo hn ho (visitChildren hgo hn ho) nofun
  · intro sp a b hn ho
    have hc := nested_mk.1 hn
    exact guarded hn (newBranch fun i => bind (wrapBin hpos hgo (hc.2 b (by simp)) (ho.child (by simp)).cons (List.mem_cons_self) (hc.1 b (by simp)))
      fun _ h => pure (.node (Likes.cons (.refl (Nesteds.one (hc.2 a (by simp)))) h) hn))
  · exact fun sp cs hn ho => guarded hn (bind (mark _) fun _ _ => hv hn ho)
  · exact fun sp cs hn ho => guarded hn (bind (mark _) fun _ _ => hv hn ho)
  · intro sp a b hn ho
    unfold Visitor.visitNode
    dsimp only
    refine frame fun cur => ?_
    have hc := nested_mk.1 hn
    exact ite (fun _ => pure (.refl hn)) fun _ => bind (mark _) fun _ _ => bind (visitWithBody hgo (hc.2 b (by simp))) fun _ h =>
      pure (.node (Likes.cons (.refl (Nesteds.one (hc.2 a (by simp)))) h) hn)
  · intro sp a cs hn ho
    unfold Visitor.visitNode
    simp only
    split
    · exact guarded hn (visitCase hpos hgo hn ho)
    · exact hv hn ho
  · intro sp cs hn ho
    unfold Visitor.visitNode
    simp only
    split
    · exact guarded hn (hv hn ho)
    · exact hv hn ho
  · intro sp cs hn ho
    unfold Visitor.visitNode
    simp only
    split
    · exact guarded hn (hv hn ho)
    · exact hv hn ho
  · intro sp cs hn ho
    unfold Visitor.visitNode
    simp only
    split
    · exact guarded hn (hv hn ho)
    · exact hv hn ho
  · intro k sp cs hk hn ho
    rw [visitNode_default hk]
    exact hv hn ho

include hpos in
theorem step {m : Mode} {n : Node} (hn : Nested n) (ho : Owned A m n) : Keeps cx A (step cx go m n) (Out n) := by
  obtain ⟨k, sp, cs⟩ := n
  unfold Visitor.step
  split
  · exact ite (fun _ => frame fun _ => hgo A _ _ hn ho) fun _ => logicalChildren hgo hn ho
  · unfold visitLogicalInner
    split
    · rename_i heq
      cases heq
      exact visitBin hpos hgo hn ho (logicalChildren hgo hn ho) fun b' h => ho b' h
    · exact logicalChildren hgo hn ho
  · exact visitNode hpos hgo hn ho

end

section
variable (hpos : ∀ a b, a ≤ b → (cx.pos a).NotAfter (cx.pos b))
include hpos

theorem visit : ∀ (fuel : Nat) (A : List (Nat × Span)) (m : Mode) (n : Node), Nested n → Owned A m n → Keeps cx A (visit cx fuel m n) (Out n)
  | 0, _, _, _, _, _ => panic _
  | fuel + 1, _, _, _, hn, ho => step hpos (visit fuel) hn ho

omit hpos in
theorem withBefore {x : M Node} {P : Node → Prop} (hx : Keeps cx A x P) : Keeps cx A (withBefore x) fun _ => True :=
  bind hx fun _ _ => bind (P := fun _ => True) (quiet fun _ _ _ h => by cases h; exact ⟨⟨rfl, rfl, nofun⟩, trivial⟩) fun _ _ => pure trivial

theorem visitItem (fuel : Nat) {n : Node} (hn : Nested n) : Keeps cx A (visitItem cx fuel n) fun _ => True := by
  refine ite (fun _ => pure trivial) fun _ => frame fun _ => withBefore (P := Out n) ?_
  exact bind (keepIf trivial (mark _)) fun _ _ => visit hpos fuel A _ _ hn (.coverage n)

theorem visitItems (fuel : Nat) : ∀ {ns : List Node}, Nesteds ns → Keeps cx A (visitItems cx fuel ns) fun _ => True
  | [], _ => pure trivial
  | n :: ns, h => bind (visitItem hpos fuel (h n (by simp))) fun _ _ => bind (visitItems fuel fun x hx => h x (by simp [hx])) fun _ _ => pure trivial

theorem visitScriptItems (fuel : Nat) : ∀ {ns : List Node}, Nesteds ns → Keeps cx A (visitScriptItems cx fuel ns) fun _ => True
  | [], _ => pure trivial
  | n :: ns, h => bind (withBefore (visit hpos fuel A _ _ (h n (by simp)) (Owned.coverage n))) fun _ _ =>
    bind (visitScriptItems fuel fun x hx => h x (by simp [hx])) fun _ _ => pure trivial

end
end Keeps

/-! ### The report -/

/-- The arms lie in the branches. -/
def Arms (c : FileCoverage) : Prop := ∀ e ∈ c.branchMap, ∃ l, e.2.loc = some l ∧ ∀ a ∈ e.2.locations, Lies a l

theorem Good.arms {st : St} (h : Good st) : Arms st.cov.freeze.inner := fun e he =>
  (h.1 e ((Sequence.freezeLoop_sub _ _ _).subset he)).2

theorem instrument_arms {cx : Ctx} {fuel : Nat} {path : String} {sm : Option SourceMap} {p p' : Node} {cov : SourceCoverage}
    (hpos : ∀ a b, a ≤ b → (cx.pos a).NotAfter (cx.pos b)) (hn : Nested p)
    (hr : Visitor.instrument cx fuel path sm p = .ok (p', cov)) : Arms cov.inner := by
  unfold Visitor.instrument at hr
  split at hr
  · cases hr
  · rename_i n st h
    cases hr
    unfold Visitor.visitProgram at h
    obtain ⟨_, s1, h1, h2⟩ := M.bind_ok h
    cases h1
    split at h2
    · cases h2
      exact nofun
    · obtain ⟨q, s2, h3, h4⟩ := M.bind_ok h2
      obtain ⟨_, s3, h5, h6⟩ := M.bind_ok h4
      cases h5
      cases h6
      unfold Visitor.programBody at h3
      split at h3
      · obtain ⟨items', s4, h7, h8⟩ := M.bind_ok h3
        cases h8
        obtain ⟨r, s5, g1, g2⟩ := M.bind_ok h7
        obtain ⟨is, s6, g3, g4⟩ := M.bind_ok g2
        obtain ⟨⟨d, c⟩, s7, g5, g6⟩ := M.bind_ok g4
        cases g5
        have hs5 : Good s5 := by
          unfold Visitor.ensureRoot at g1
          split at g1 <;> (cases g1; exact ⟨nofun, nofun⟩)
        have hs := (Keeps.visitItems (A := []) hpos fuel (nested_mk.1 hn).2 _ _ _ g3 hs5 nofun).2.1
        obtain ⟨_, s8, g7, g8⟩ := M.bind_ok g6
        cases g8
        have hs8 : s2.cov = s6.cov.freeze := by
          unfold Visitor.keepIf at g7
          split at g7 <;> (cases g7; rfl)
        show Arms s2.cov.inner
        rw [hs8]
        exact hs.arms
      · obtain ⟨items', s4, h7, h8⟩ := M.bind_ok h3
        cases h8
        obtain ⟨is, s6, g3, g4⟩ := M.bind_ok h7
        obtain ⟨⟨d, c⟩, s7, g5, g6⟩ := M.bind_ok g4
        cases g5
        cases g6
        exact (Keeps.visitScriptItems (A := []) hpos fuel (nested_mk.1 hn).2 _ _ _ g3 ⟨nofun, nofun⟩ nofun).2.1.arms
      · cases h3
        exact nofun

end Inside
end Verif
