import Verif.Spec.ArmsOf
import Verif.Lemmas.Operand
import Verif.Lemmas.Spans
/-
Every visit adds to the report only branches that are those of constructs of the source, with exactly their arms.
-/
namespace Verif
open Node Visitor

namespace Exact

/-- A branch that remains in the finished report was registered. -/
theorem frozen_branch {fi : File} {h0 : List RegOp} {st : St} (hg : File.good fi h0 st) {k : Nat} {br : Branch}
    (hm : (k, br) ∈ st.cov.freeze.inner.branchMap) : st.cov.inner.branchMap.get k = some br ∧ k < st.cov.lastB := by
  have hmap : st.cov.inner.branchMap = RegOp.numbered (fun i x => (⟨some x.2.1, x.1, RegOp.arms h0 i,
      some x.2.1.start.line⟩ : Branch)) (RegOp.branches h0) := by
    rw [hg.1.inner]; rfl
  have hm' : (k, br) ∈ st.cov.inner.branchMap := by
    have : st.cov.freeze.inner.branchMap = (SourceCoverage.freezeLoop st.cov.inner.branchMap
      st.cov.inner.b st.cov.inner.bT).1 := rfl
    rw [this] at hm
    have : ∀ (rest : List (Nat × Branch)) b bT, (SourceCoverage.freezeLoop rest b bT).1 =
        rest.filter (fun e => !e.2.locations.isEmpty) := by
      intro rest
      induction rest with
      | nil => intro b bT; rfl
      | cons e rest ih =>
        intro b bT
        obtain ⟨k, br⟩ := e
        simp only [SourceCoverage.freezeLoop]
        split
        · next h0 => rw [ih]; simp [List.length_eq_zero_iff.1 h0]
        · next h0 => simp [ih, mt List.length_eq_zero_iff.2 h0]
    rw [this] at hm
    exact (List.mem_filter.1 hm).1
  have hget : st.cov.inner.branchMap.get k = some br := by
    rw [hmap] at hm' ⊢
    rw [RegOp.get_numbered]
    obtain ⟨e, he, h1⟩ := List.mem_map.1 hm'
    have := List.mem_zipIdx_iff_getElem?.1 he
    cases h1
    rw [this]
    rfl
  refine ⟨hget, ?_⟩
  rw [hg.1.lastB]
  rw [hmap, RegOp.get_numbered] at hget
  obtain ⟨x, hx, -⟩ := Option.map_eq_some_iff.1 hget
  exact (List.getElem?_eq_some_iff.1 hx).1

variable {cx : Ctx} {S : Node → Prop}

theorem branch_if (sp : Span) (a b c : Node) : (mk .ifStmt sp [a, b, c]).branch? cx =
    some (.if, List.replicate (ifArms (cx.hint sp)) (cx.range sp)) := rfl

theorem branch_cond (sp : Span) (a b c : Node) : (mk .cond sp [a, b, c]).branch? cx =
    some (.condExpr, cx.ranges ([b, c].filter fun e => !cx.hinted e)) := rfl

theorem branch_switch (sp : Span) (cs : List Node) : (mk .switchStmt sp cs).branch? cx =
    some (.switch, cx.ranges (cs.filter fun c => c.isCase && !cx.hinted c)) := rfl

theorem branch_default (sp : Span) (a b : Node) : (mk .assignPat sp [a, b]).branch? cx =
    some (.defaultArg, cx.ranges (operands cx [b])) := rfl

theorem branch_bin {op : BinOp} (h : op.isLogical = true) (sp : Span) (a b : Node) : (mk (.bin op) sp [a, b]).branch? cx =
    some (.binaryExpr, cx.ranges (operands cx [a, b])) := by
  have h1 : (mk (.bin op) sp [a, b]).branchKind = some .binaryExpr := if_pos h
  have h2 : (mk (.bin op) sp [a, b]).choices cx = operands cx [a, b] := if_pos h
  unfold branch?
  rw [h1, h2]
  rfl

/-- The branching constructs of the tree are in `S`, no initialiser is a tagged template and cases are in `switch` statements. -/
def All (cx : Ctx) (S : Node → Prop) (n : Node) : Prop := ∀ x ∈ n.each,
  ((x.branch? cx).isSome = true → S x) ∧ (∀ init, initOf x = some init → init.kind ≠ .taggedTpl) ∧
    (x.kind ≠ .switchStmt → ∀ c ∈ x.children, c.isCase = false)

/-- The same for a tree that is no case. -/
def Good (cx : Ctx) (S : Node → Prop) (n : Node) : Prop := All cx S n ∧ n.isCase = false

theorem All.child {k : Kind} {sp : Span} {cs : List Node} (h : All cx S (mk k sp cs)) {c : Node} (hc : c ∈ cs) : All cx S c :=
  fun x hx => h x (mem_each_mk.2 (.inr ⟨c, hc, hx⟩))

/-- A `switch` statement. -/
def isSwitch : Kind → Bool
  | .switchStmt => true
  | _ => false

theorem ne_switch {k : Kind} (h : isSwitch k = false) : k ≠ .switchStmt := by
  rintro rfl
  cases h

theorem All.good {k : Kind} {sp : Span} {cs : List Node} (h : All cx S (mk k sp cs)) (hk : isSwitch k = false) {c : Node} (hc : c ∈ cs) :
    Good cx S c := ⟨h.child hc, (h _ (each_self _)).2.2 (ne_switch hk) c hc⟩

theorem All.self {n : Node} (h : All cx S n) {x} (hx : n.branch? cx = some x) : S n := (h _ (each_self _)).1 (by rw [hx]; rfl)

theorem Good.mk_of {k : Kind} {sp : Span} {cs : List Node} (hb : (mk k sp cs).branch? cx = none) (hi : initOf (mk k sp cs) = none)
    (hc : (mk k sp cs).isCase = false) (h : ∀ c ∈ cs, Good cx S c) : Good cx S (mk k sp cs) := by
  refine ⟨fun x hx => ?_, hc⟩
  rcases mem_each_mk.1 hx with rfl | ⟨c, hc, hx⟩
  · exact ⟨by rw [hb]; nofun, by rw [hi]; nofun, fun _ c hc => (h c hc).2⟩
  · exact (h c hc).1 x hx

theorem all_nil : ∀ c ∈ ([] : List Node), Good cx S c := nofun

theorem all_cons {a : Node} {b : List Node} (ha : Good cx S a) (hb : ∀ c ∈ b, Good cx S c) : ∀ c ∈ a :: b, Good cx S c := by
  intro c hc
  rcases List.mem_cons.1 hc with rfl | hc
  · exact ha
  · exact hb c hc

theorem Good.counterExpr (c : Counter) : Good cx S (counterExpr c) := .mk_of rfl rfl rfl all_nil

theorem Good.counterStmt (c : Counter) : Good cx S (counterStmt c) := .mk_of rfl rfl rfl (all_cons (.counterExpr c) all_nil)

theorem Good.wrapCounter (c : Counter) {e : Node} (h : Good cx S e) : Good cx S (wrapCounter c e) :=
  .mk_of rfl rfl rfl (all_cons (.mk_of rfl rfl rfl (all_cons (.counterExpr c) (all_cons h all_nil))) all_nil)

/-- The branch `b` got the arms `l`, other branches are as before, and new branches are those of constructs in `S`. -/
structure Grown (cx : Ctx) (S : Node → Prop) (b : Nat) (l : List Range) (c c' : SourceCoverage) : Prop where
  le : c.lastB ≤ c'.lastB
  old : ∀ k, k < c.lastB → c'.inner.branchMap.get k =
    (c.inner.branchMap.get k).map fun br => if k = b then { br with locations := br.locations ++ l } else br
  new : ∀ k br, c.lastB ≤ k → k < c'.lastB → c'.inner.branchMap.get k = some br → ∃ n, S n ∧ br.Of cx n

namespace Grown
variable {b : Nat} {l l' : List Range} {c c1 c2 : SourceCoverage}

theorem of_eq (h1 : c1.lastB = c.lastB) (h2 : c1.inner.branchMap = c.inner.branchMap) : Grown cx S b [] c c1 where
  le := by omega
  old k _ := by rw [h2]; cases c.inner.branchMap.get k <;> simp
  new k br h h' := by omega

theorem trans (hb : l' = [] ∨ b < c.lastB) (g1 : Grown cx S b l c c1) (g2 : Grown cx S b l' c1 c2) : Grown cx S b (l ++ l') c c2 where
  le := Nat.le_trans g1.le g2.le
  old k hk := by
    rw [g2.old k (Nat.lt_of_lt_of_le hk g1.le), g1.old k hk]
    cases c.inner.branchMap.get k with
    | none => rfl
    | some br =>
      by_cases h : k = b
      · simp [h, List.append_assoc]
      · simp [h]
  new k br hk hk' h := by
    rcases Nat.lt_or_ge k c1.lastB with h1 | h1
    · rw [g2.old k h1] at h
      obtain ⟨br1, h2, h3⟩ := Option.map_eq_some_iff.1 h
      have : br1 = br := by
        rcases hb with rfl | hb
        · simpa using h3
        · rwa [if_neg (by omega)] at h3
      exact this ▸ g1.new k br1 hk h1 h2
    · exact g2.new k br h1 hk' h

end Grown

/-- From a state in which not everything is ignored, the computation goes to such a state, and changes branches as `Grown` says. -/
def Goes (cx : Ctx) (S : Node → Prop) (b : Nat) (l : List Range) (x : M α) (P : α → Prop) : Prop :=
  ∀ st a s, st.ignore ≠ some .next → (l = [] ∨ b < st.cov.lastB) → x st = .ok (a, s) →
    P a ∧ s.ignore ≠ some .next ∧ Grown cx S b l st.cov s.cov

namespace Goes
variable {b : Nat} {l l' : List Range} {α β : Type} {P : α → Prop} {Q : β → Prop}

theorem pure {a : α} (h : P a) : Goes cx S b [] (Pure.pure a : M α) P := fun st a' s hi _ hs => by
  cases hs
  exact ⟨h, hi, .of_eq rfl rfl⟩

theorem bind {x : M α} {f : α → M β} (hx : Goes cx S b l x P) (hf : ∀ a, P a → Goes cx S b l' (f a) Q) :
    Goes cx S b (l ++ l') (x >>= f) Q := by
  intro st c s hi hb h
  obtain ⟨a, s1, h1, h2⟩ := M.bind_ok h
  obtain ⟨p, i1, g1⟩ := hx st a s1 hi (hb.imp_left fun h => (List.append_eq_nil_iff.1 h).1) h1
  have hb' := hb.imp_left fun h => (List.append_eq_nil_iff.1 h).2
  obtain ⟨q, i2, g2⟩ := hf a p s1 c s i1 (hb'.imp_right fun h => Nat.lt_of_lt_of_le h g1.le) h2
  exact ⟨q, i2, g1.trans hb' g2⟩

/-- First something that adds no arms. -/
theorem first {x : M α} {f : α → M β} (hx : Goes cx S b [] x P) (hf : ∀ a, P a → Goes cx S b l (f a) Q) :
    Goes cx S b l (x >>= f) Q := bind hx hf

/-- Finally something that adds no arms. -/
theorem last {x : M α} {f : α → M β} (hx : Goes cx S b l x P) (hf : ∀ a, P a → Goes cx S b [] (f a) Q) :
    Goes cx S b l (x >>= f) Q := by
  have := bind hx hf
  rwa [List.append_nil] at this

theorem imp {x : M α} {P' : α → Prop} (hx : Goes cx S b l x P) (h : ∀ a, P a → P' a) : Goes cx S b l x P' := fun st a s hi hb hs => by
  obtain ⟨p, g⟩ := hx st a s hi hb hs
  exact ⟨h a p, g⟩

theorem keepIf {p : Prop} [Decidable p] {a : α} {x : M α} (ha : P a) (hx : Goes cx S b l x P) :
    Goes cx S b (if p then [] else l) (keepIf p a x) P := by
  unfold Visitor.keepIf
  split
  · exact pure ha
  · exact hx

theorem keepIf' {p : Prop} [Decidable p] {a : α} {x : M α} (ha : P a) (hx : Goes cx S b [] x P) : Goes cx S b [] (Visitor.keepIf p a x) P := by
  have := keepIf (p := p) ha hx
  rwa [ite_self] at this

theorem ite {p : Prop} [Decidable p] {x y : M α} (hx : Goes cx S b l x P) (hy : Goes cx S b l y P) :
    Goes cx S b l (if p then x else y) P := by
  split
  · exact hx
  · exact hy

/-- A computation that changes neither the scope nor branches. -/
theorem neutral {x : M α} (hx : ∀ st a s, x st = .ok (a, s) → P a ∧ s.ignore = st.ignore ∧
    s.cov.lastB = st.cov.lastB ∧ s.cov.inner.branchMap = st.cov.inner.branchMap) : Goes cx S b [] x P := by
  intro st a s hi _ hs
  obtain ⟨p, h1, h2, h3⟩ := hx st a s hs
  exact ⟨p, h1 ▸ hi, .of_eq h2 h3⟩

theorem frame {t : Tag} {sp : Span} {body : Option IgnoreScope → M α} (hh : cx.hint sp ≠ some .next)
    (hb : Goes cx S b l (body (cx.hint sp)) P) : Goes cx S b l (frame cx t sp body) P := by
  intro st a s hi hl h
  unfold Visitor.frame at h
  obtain ⟨⟨old, cur⟩, s1, h1, h2⟩ := M.bind_ok h
  simp only [enter, Visitor.push, enterSpan, Bind.bind, M.bind] at h1
  rw [if_neg hi] at h1
  cases h1
  obtain ⟨r, s2, h3, h4⟩ := M.bind_ok h2
  cases h4
  obtain ⟨p, _, g⟩ := hb { st with nodes := t :: st.nodes, ignore := cx.hint sp } _ _ hh hl h3
  exact ⟨p, hi, g⟩

theorem guarded {t : Tag} {n : Node} {body : M Node} {P : Node → Prop} (hn : P n) (hb : Goes cx S b l body P) :
    Goes cx S b (if cx.hinted n then [] else l) (guarded cx t n body) P := by
  by_cases hh : cx.hint n.span = some .next
  · rw [if_pos (by simpa [Ctx.hinted] using hh)]
    intro st a s hi _ h
    obtain ⟨rfl, rfl⟩ := guarded_hinted hh h
    exact ⟨hn, hi, .of_eq rfl rfl⟩
  · rw [if_neg (by simpa [Ctx.hinted] using hh)]
    refine frame hh ?_
    rw [if_neg hh]
    exact hb

theorem guarded' {t : Tag} {n : Node} {body : M Node} {P : Node → Prop} (hn : P n) (hb : Goes cx S b [] body P) :
    Goes cx S b [] (Visitor.guarded cx t n body) P := by
  have := guarded (t := t) hn hb
  rwa [ite_self] at this

theorem fresh {ig : Option IgnoreScope} {x : M α} (hig : ig ≠ some .next) (hx : Goes cx S b l x P) :
    Goes cx S b l (fresh ig x) (fun r => P r.1) := by
  intro st a s hi hl h
  unfold Visitor.fresh at h
  cases hxs : x { st with before := [], ignore := ig } with
  | error e => rw [hxs] at h; cases h
  | ok r =>
    obtain ⟨a1, st1⟩ := r
    rw [hxs] at h
    cases h
    obtain ⟨p, _, g⟩ := hx { st with before := [], ignore := ig } _ _ hig hl hxs
    exact ⟨p, hi, g⟩

theorem bracket {t : Tag} {x : M α} (hx : Goes cx S b l x P) : Goes cx S b l (do push t; let r ← x; pop; Pure.pure r) P :=
  first (P := fun _ => True) (neutral fun st a st' h => by cases h; exact ⟨trivial, rfl, rfl, rfl⟩) fun _ _ => last hx fun a ha =>
    first (P := fun _ => True) (neutral fun st a st' h => by cases h; exact ⟨trivial, rfl, rfl, rfl⟩) fun _ _ => pure ha

theorem newStatement (r : Range) : Goes cx S b [] (newStatement r) (fun _ => True) :=
  neutral fun st a st' h => by cases h; exact ⟨trivial, rfl, rfl, rfl⟩

theorem newFunction (n : Option String) (d l : Range) : Goes cx S b [] (newFunction n d l) (fun _ => True) :=
  neutral fun st a st' h => by cases h; exact ⟨trivial, rfl, rfl, rfl⟩

theorem mark (sp : Span) : Goes cx S b [] (mark cx sp) (fun _ => True) :=
  first (newStatement _) fun id _ => neutral fun st a st' h => by cases h; exact ⟨trivial, rfl, rfl, rfl⟩

theorem addPath (r : Range) : Goes cx S b [r] (addPath b r) (fun _ => True) := by
  intro st a s hi hl h
  unfold Visitor.addPath at h
  cases h1 : st.cov.addBranchPath b r with
  | error e => rw [h1] at h; cases h
  | ok x =>
    obtain ⟨c, i⟩ := x
    rw [h1] at h
    cases h
    obtain ⟨e1, -, e2⟩ := addBranchPath_ok h1
    refine ⟨trivial, hi, by simp [e1], fun k _ => ?_, fun k br h2 h3 => ?_⟩
    · dsimp only
      rw [e2, IndexMap.get_modify]
      by_cases h : b = k
      · subst h; simp
      · rw [if_neg h]
        cases st.cov.inner.branchMap.get k <;> simp [Ne.symm h]
    · simp only [e1] at h3
      omega

/-- Registration of a branch, followed by what adds all its arms. -/
theorem newBranch {b0 : Nat} {t : BranchType} {r : Range} {g : Bool} {f : Nat → M β} {n : Node} (hS : S n)
    (hn : n.branch? cx = some (t, l)) (hr : r = cx.range n.span) (hf : ∀ b, Goes cx S b l (f b) Q) :
    Goes cx S b0 [] (newBranch t r g >>= f) Q := by
  intro st a s hi _ h
  obtain ⟨b', st1, h1, h2⟩ := M.bind_ok h
  cases h1
  obtain ⟨e1, e2, e3⟩ := newBranch_lastB st.cov t r g
  rw [e2] at h2
  obtain ⟨q, i, gr⟩ := hf _ _ _ _ (by exact hi) (.inr (by simp only [e1]; omega)) h2
  refine ⟨q, i, ?_, fun k hk => ?_, fun k br hk hk' h' => ?_⟩
  · have := gr.le
    simp only [e1] at this
    omega
  · rw [gr.old k (by simp only [e1]; omega)]
    simp only [e3]
    rw [IndexMap.get_insert, if_neg (by omega)]
    cases st.cov.inner.branchMap.get k with
    | none => rfl
    | some br => simp [show k ≠ st.cov.lastB by omega]
  · rcases Nat.lt_or_ge k (st.cov.lastB + 1) with h3 | h3
    · have : k = st.cov.lastB := by omega
      subst this
      rw [gr.old _ (by simp only [e1]; omega)] at h'
      simp only [e3] at h'
      rw [IndexMap.get_insert, if_pos rfl] at h'
      simp only [Option.map_some, if_true, List.nil_append, Option.some.injEq] at h'
      subst h'
      exact ⟨n, hS, hn, by rw [hr], by rw [hr]⟩
    · exact gr.new k br (by simp only [e1]; omega) hk' h'

theorem mapList {f : Node → M Node} {ls : Node → List Range} : ∀ {cs : List Node}, (∀ c ∈ cs, Goes cx S b (ls c) (f c) fun _ => True) →
    Goes cx S b (cs.flatMap ls) (M.mapList f cs) fun _ => True
  | [], _ => pure trivial
  | c :: cs, h => by
    rw [List.flatMap_cons]
    exact bind (h c (by simp)) fun _ _ => last (mapList (cs := cs) fun c hc => h c (by simp [hc])) fun _ _ => pure trivial

/-- What visits in the scope of expressions do, as far as branches are concerned. -/
theorem operand {P' : Node → Prop} {x : M Node} (hx : Operand.Adds b l P' x) : Goes cx S b l x fun _ => True := by
  intro st a s hi hl h
  obtain ⟨h1, ⟨_, h2⟩, h3, _⟩ := hx st a s h hi
  have h2 := (Prod.mk.inj h2).1
  exact ⟨trivial, h1, by omega, fun k _ => h3.branches k, fun k br h4 h5 => by omega⟩

section
variable {go : Mode → Node → M Node}

/-- What is assumed of recursive visits. -/
structure Rec (cx : Ctx) (S : Node → Prop) (go : Mode → Node → M Node) : Prop where
  any : ∀ b m n, m.emits = .any → Good cx S n → Goes cx S b [] (go m n) fun _ => True
  case : ∀ b n, All cx S n → n.isCase = true →
    Goes cx S b (if cx.hinted n then [] else [cx.range n.span]) (go (.switchCase b) n) fun _ => True
  operand : ∀ b n, cx.hinted n = false → Goes cx S b (cx.ranges (leaves cx n)) (go (.logicalInner b) n) fun _ => True
  span : ∀ m n, SpanOf (go m n) n.span

variable (hgo : Rec cx S go)
include hgo

theorem insertStmt {s : Node} (hs : Good cx S s) : Goes cx S b [] (insertStmt cx go s) fun _ => True := by
  unfold Visitor.insertStmt
  split
  · exact pure trivial
  · by_cases hh : cx.hint s.span = some .next
    · intro st a s' hi _ h
      obtain ⟨rfl, rfl⟩ := frame_hinted (a := [s]) hh (by rw [if_pos rfl]; exact Still.pure _) h
      exact ⟨trivial, hi, .of_eq rfl rfl⟩
    · refine frame hh ?_
      rw [if_neg hh]
      exact first (fresh hh (hgo.any b .stmt s rfl hs)) fun _ _ => pure trivial

theorem insertStmts {ss : List Node} (hs : ∀ c ∈ ss, Good cx S c) : Goes cx S b [] (insertStmts cx go ss) fun _ => True := by
  induction ss with
  | nil => exact pure trivial
  | cons s ss ih =>
    exact first (insertStmt hgo (hs s (by simp))) fun o _ => first (ih fun c hc => hs c (by simp [hc])) fun _ _ => pure trivial

theorem visitStmts {ss : List Node} (hs : ∀ c ∈ ss, Good cx S c) : Goes cx S b [] (visitStmts cx go ss) fun _ => True :=
  bracket (insertStmts hgo hs)

theorem visitChildren {m : Mode} (hm : m.emits = .any) {k : Kind} {sp : Span} {cs : List Node} (hc : ∀ c ∈ cs, Good cx S c) :
    Goes cx S b [] (visitChildren cx go m (mk k sp cs)) fun _ => True := by
  unfold Visitor.visitChildren
  split
  · rename_i heq
    cases heq
    exact first (visitStmts hgo hc) fun cs _ => pure trivial
  · rename_i heq
    cases heq
    exact first (hgo.any b m _ hm (hc _ (by simp))) fun t _ => first (visitStmts hgo fun c h => hc c (by simp [h])) fun _ _ => pure trivial
  · rename_i heq
    cases heq
    have := mapList (cx := cx) (S := S) (b := b) (f := go m) (ls := fun _ => []) (cs := cs) fun c h => hgo.any b m c hm (hc c h)
    rw [show cs.flatMap (fun _ => ([] : List Range)) = [] by simp] at this
    exact first this fun _ _ => pure trivial

omit hgo in
theorem replaceWithStmtCounter {e : Node} (he : Good cx S e) : Goes cx S b [] (replaceWithStmtCounter cx e) (Good cx S) :=
  first (newStatement _) fun _ _ => pure (.wrapCounter _ he)

omit hgo in
theorem replaceWithBranchCounter (e : Node) :
    Goes cx S b [cx.range e.span] (replaceWithBranchCounter cx b e) fun n => Good cx S e → Good cx S n :=
  last (addPath _) fun _ _ => pure fun he => .wrapCounter _ he

theorem wrapBin {m : Mode} (hm : m.emits = .any) {e : Node} (he : Good cx S e) :
    Goes cx S b (cx.ranges (operands cx [e])) (wrapBin cx go m b e) fun _ => True := by
  unfold Visitor.wrapBin
  rw [operands, operands, List.append_nil]
  by_cases hh : cx.hint e.span = some .next
  · rw [if_pos (by simpa [Ctx.hinted] using hh)]
    simp only [hh, if_true]
    exact pure trivial
  · have hh' : cx.hinted e = false := by simpa [Ctx.hinted] using hh
    simp only [hh, hh', if_false, Bool.false_eq_true]
    split
    · exact last (fresh hh (hgo.operand b e hh')) fun _ _ => pure trivial
    · split
      · exact last (addPath _) fun _ _ => pure trivial
      · intro st a s hi hl h
        obtain ⟨e', s1, h1, h2⟩ := M.bind_ok h
        have hs := hgo.span m e st e' s1 h1
        obtain ⟨_, i1, g1⟩ := hgo.any b m e hm he st e' s1 hi (.inl rfl) h1
        have h3 := replaceWithBranchCounter (cx := cx) (S := S) (b := b) e'
        rw [hs] at h3
        have hl' : [cx.range e.span] = [] ∨ b < st.cov.lastB := hl
        obtain ⟨_, i2, g2⟩ := h3 s1 a s i1 (hl'.imp_right fun h => Nat.lt_of_lt_of_le h g1.le) h2
        exact ⟨trivial, i2, g1.trans hl' g2⟩

omit hgo in
theorem createFn (ident : Option (Span × String)) {n : Node} (hn : Good cx S n) : Goes cx S b [] (createFn cx ident n) (Good cx S) := by
  unfold Visitor.createFn
  split
  · next a sp params decorators body =>
    have hg : ∀ c ∈ [params, decorators, body], Good cx S c := fun c hc => hn.1.good rfl hc
    refine first (newFunction _ _ _) fun id _ => ?_
    refine first (P := Good cx S) ?_ fun body' hb' => pure (.mk_of rfl rfl rfl
      (all_cons (hg _ (by simp)) (all_cons (hg _ (by simp)) (all_cons hb' all_nil))))
    unfold Visitor.prependFn
    split
    · next bsp ss => exact pure (.mk_of rfl rfl rfl (all_cons (.counterStmt _) fun c hc =>
        (hg (mk .block bsp ss) (by simp)).1.good rfl hc))
    · intro st a st' _ _ h; cases h
  · exact pure hn

omit hgo in
theorem coverHoisted {e : Node} (he : Good cx S e) : Goes cx S b [] (coverHoisted cx e) fun n => Good cx S n ∧ (n = e ∨ n.kind = .paren) := by
  unfold Visitor.coverHoisted
  refine first (P := fun _ => True) (neutral fun st a st' h => by cases h; exact ⟨trivial, rfl, rfl, rfl⟩) ?_
  intro nodes _
  exact ite (first (keepIf' trivial (mark _)) fun _ _ => pure ⟨he, .inl rfl⟩)
    (first (newStatement _) fun _ _ => pure ⟨.wrapCounter _ he, .inr rfl⟩)

omit hgo in
theorem coverStatement {m : Mode} {e : Node} (ht : e.kind ≠ .taggedTpl) (he : Good cx S e) :
    Goes cx S b [] (coverStatement cx go m e) (Good cx S) := by
  unfold Visitor.coverStatement
  rw [if_neg ht]
  split
  · exact first (mark _) fun _ _ => pure he
  · refine first (keepIf' trivial (mark _)) fun _ _ => ?_
    refine first (P := fun _ => True) (neutral fun st a st' h => ?_) fun t _ => ?_
    · unfold topNode at h
      split at h
      · cases h
      · cases h; exact ⟨trivial, rfl, rfl, rfl⟩
    · split
      · exact (coverHoisted he).imp fun _ h => h.1
      · split
        · exact replaceWithStmtCounter he
        · exact pure he

theorem visitArrow {a : String} {sp : Span} {params body : Node} (hb : Good cx S body) :
    Goes cx S b [] (visitArrow cx go a sp params body) fun _ => True := by
  unfold Visitor.visitArrow
  refine first (newFunction _ _ _) fun id _ => ?_
  split
  · exact first (insertStmts hgo fun c hc => hb.1.good rfl hc) fun _ _ => pure trivial
  · exact first (insertStmts hgo (all_cons (.counterStmt _) (all_cons (.mk_of rfl rfl rfl (all_cons hb all_nil)) all_nil)))
      fun _ _ => pure trivial

omit hgo in
theorem createAccessor {name : String} {sp : Span} {body : Node} (hb : Good cx S body) :
    Goes cx S b [] (createAccessor cx name sp body) (Good cx S) := by
  unfold Visitor.createAccessor
  split
  · exact first (newFunction _ _ _) fun id _ =>
      pure (.mk_of rfl rfl rfl (all_cons (.counterStmt _) fun c hc => hb.1.good rfl hc))
  · exact pure hb

theorem visitAccessor {m : Mode} (hm : m.emits = .any) {n key body : Node} {k : Kind} {sp : Span} {cs : Node → List Node}
    (hb : Good cx S body) (hr : ∀ b, Good cx S b → ∀ c ∈ cs b, Good cx S c) :
    Goes cx S b [] (visitAccessor cx go m n key body fun b => mk k sp (cs b)) fun _ => True := by
  unfold Visitor.visitAccessor
  split
  · split
    · exact pure trivial
    · exact first (createAccessor hb) fun b hb => visitChildren hgo hm (hr b hb)
  · exact first (createAccessor hb) fun b hb => visitChildren hgo hm (hr b hb)

omit hgo in
theorem blockify {s : Node} (h : Good cx S s) : Good cx S (blockify s) := by
  unfold Visitor.blockify
  split
  · exact h
  · exact .mk_of rfl rfl rfl (all_cons h all_nil)

omit hgo in
theorem blockifyLast {cs : List Node} (h : ∀ c ∈ cs, Good cx S c) : ∀ c ∈ blockifyLast cs, Good cx S c := by
  fun_induction Visitor.blockifyLast cs with
  | case1 => exact h
  | case2 body => exact all_cons (blockify (h _ (by simp))) all_nil
  | case3 c cs _ ih => exact all_cons (h _ (by simp)) (ih fun d hd => h d (by simp [hd]))

theorem wrapArm {cur : Option IgnoreScope} (hcur : cur ≠ some .next) {r : Range} {s : Node} (hs : Good cx S s) :
    Goes cx S b [r] (wrapArm cx go cur b r s) fun _ => True := by
  unfold Visitor.wrapArm
  refine last (addPath r) fun i _ => ?_
  split
  · exact first (insertStmts hgo fun c hc => hs.1.good rfl hc) fun _ _ => pure trivial
  · exact first (fresh hcur (hgo.any b .stmt _ rfl hs)) fun _ _ => pure trivial

theorem visitIf {m : Mode} (hm : m.emits = .any) {sp : Span} {test cons alt : Node} (hh : cx.hint sp ≠ some .next)
    (hn : All cx S (mk .ifStmt sp [test, cons, alt])) :
    Goes cx S b [] (visitIf cx go m (cx.hint sp) sp test cons alt) fun _ => True := by
  have hg : ∀ c ∈ [test, cons, alt], Good cx S c := fun c hc => hn.good rfl hc
  unfold Visitor.visitIf
  refine first (mark _) fun _ _ => newBranch (hn.self rfl) (branch_if ..) rfl fun b => ?_
  have hl : List.replicate (ifArms (cx.hint sp)) (cx.range sp) =
      (if cx.hint sp = some .if then [] else [cx.range sp]) ++ (if cx.hint sp = some .else then [] else [cx.range sp]) := by
    cases cx.hint sp with
    | none => rfl
    | some c => cases c <;> rfl
  rw [hl]
  refine bind (keepIf trivial (wrapArm hgo hh (hg _ (by simp)))) fun c _ => ?_
  refine last (keepIf trivial (wrapArm hgo hh ?_)) fun a _ => first (hgo.any b m test hm (hg _ (by simp))) fun _ _ => pure trivial
  split
  · exact .mk_of rfl rfl rfl all_nil
  · exact hg _ (by simp)

theorem visitCond {m : Mode} (hm : m.emits = .any) {sp : Span} {test cons alt : Node} (hh : cx.hint sp ≠ some .next)
    (hn : All cx S (mk .cond sp [test, cons, alt])) :
    Goes cx S b [] (visitCond cx go m (cx.hint sp) sp test cons alt) fun _ => True := by
  have hg : ∀ c ∈ [test, cons, alt], Good cx S c := fun c hc => hn.good rfl hc
  unfold Visitor.visitCond
  refine first (P := fun r => Good cx S r.1 ∧ Good cx S r.2) ?_ fun r hr =>
    visitChildren hgo hm (all_cons (hg _ (by simp)) (all_cons hr.1 (all_cons hr.2 all_nil)))
  unfold Visitor.keepIf
  rw [if_neg hh]
  unfold Visitor.wrapCondArms
  refine newBranch (hn.self rfl) (branch_cond ..) rfl fun b => ?_
  have hl : cx.ranges ([cons, alt].filter fun e => !cx.hinted e) =
      (if cx.hint cons.span = some .next then [] else [cx.range cons.span]) ++
      (if cx.hint alt.span = some .next then [] else [cx.range alt.span]) := by
    unfold Ctx.hinted Ctx.ranges
    by_cases h1 : cx.hint cons.span = some .next <;> by_cases h2 : cx.hint alt.span = some .next <;> simp [h1, h2]
  rw [hl]
  exact bind (keepIf (hg _ (by simp)) ((replaceWithBranchCounter _).imp fun _ h => h (hg _ (by simp)))) fun c hc =>
    last (keepIf (hg _ (by simp)) ((replaceWithBranchCounter _).imp fun _ h => h (hg _ (by simp)))) fun a ha => pure ⟨hc, ha⟩

theorem visitBin {m : Mode} (hm : m.emits = .any) {op : BinOp} {sp : Span} {left right : Node} (hh : cx.hint sp ≠ some .next)
    (hn : All cx S (mk (.bin op) sp [left, right])) :
    Goes cx S b [] (visitBin cx go m none (Visitor.visitChildren cx go m) op sp left right) fun _ => True := by
  have hg : ∀ c ∈ [left, right], Good cx S c := fun c hc => hn.good rfl hc
  intro st a s hi hl h
  unfold Visitor.visitBin at h
  obtain ⟨⟨old, cur⟩, s1, h1, h2⟩ := M.bind_ok h
  unfold enterSpan at h1
  rw [if_neg hi] at h1
  cases h1
  dsimp only at h2
  rw [if_neg hh] at h2
  have go' : ∀ {x : M Node}, Goes cx S b [] x (fun _ => True) → x { st with ignore := cx.hint sp } = .ok (a, s) →
      True ∧ s.ignore ≠ some .next ∧ Grown cx S b [] st.cov s.cov := fun hx hs => hx { st with ignore := cx.hint sp } _ _ hh hl hs
  split at h2
  · rename_i hop
    refine go' ?_ h2
    refine first (P := fun _ => True) (neutral fun st a s h => by cases h; exact ⟨trivial, rfl, rfl, rfl⟩) fun _ _ => ?_
    have hb := branch_bin (cx := cx) hop sp left right
    refine newBranch (hn.self hb) hb rfl fun b => ?_
    have hl : cx.ranges (operands cx [left, right]) = cx.ranges (operands cx [left]) ++ cx.ranges (operands cx [right]) := by
      simp [operands, Ctx.ranges]
    rw [hl]
    exact bind (wrapBin hgo hm (hg _ (by simp))) fun _ _ => last (wrapBin hgo hm (hg _ (by simp))) fun _ _ => pure trivial
  · refine go' ?_ h2
    refine first (P := fun _ => True) (neutral fun st a s h => by cases h; exact ⟨trivial, rfl, rfl, rfl⟩) fun _ _ => ?_
    refine first (visitChildren hgo hm hg) fun _ _ st a s h' _ h => ?_
    cases h
    exact ⟨trivial, hi, .of_eq rfl rfl⟩

theorem visitCase {sp : Span} {test : Node} {cons : List Node} (hc : ∀ c ∈ test :: cons, Good cx S c) :
    Goes cx S b [cx.range sp] (visitCase cx go b sp test cons) fun _ => True := by
  unfold Visitor.visitCase
  exact last (addPath _) fun _ _ => first (hgo.any b (.switchCase b) test rfl (hc _ (by simp))) fun _ _ =>
    first (visitStmts hgo fun c h => hc c (by simp [h])) fun _ _ => pure trivial

theorem visitWithBody {cur : Option IgnoreScope} (hcur : cur ≠ some .next) {body : Node} (hb : Good cx S body) :
    Goes cx S b [] (visitWithBody cx go cur body) fun _ => True := by
  unfold Visitor.visitWithBody
  split
  · exact first (insertStmts hgo fun c hc => hb.1.good rfl hc) fun _ _ => pure trivial
  · exact first (fresh hcur (hgo.any b .stmt _ rfl hb)) fun _ _ => pure trivial

theorem visitSwitch {sp : Span} {cs : List Node} (hc : ∀ c ∈ cs, All cx S c) :
    Goes cx S b (cx.ranges (cs.filter fun c => c.isCase && !cx.hinted c))
      (Visitor.visitChildren cx go (.switchCase b) (mk .switchStmt sp cs)) fun _ => True := by
  have : Visitor.visitChildren cx go (.switchCase b) (mk .switchStmt sp cs) = (do
      let cs ← M.mapList (go (.switchCase b)) cs
      Pure.pure (mk .switchStmt sp cs)) := by
    unfold Visitor.visitChildren
    rfl
  rw [this]
  have hl : cx.ranges (cs.filter fun c => c.isCase && !cx.hinted c) =
      cs.flatMap fun c => if c.isCase then (if cx.hinted c then [] else [cx.range c.span]) else [] := by
    clear this hc
    induction cs with
    | nil => rfl
    | cons c cs ih =>
      rw [List.flatMap_cons, ← ih, List.filter_cons]
      cases c.isCase <;> cases cx.hinted c <;> rfl
  rw [hl]
  refine last (mapList fun c h => ?_) fun _ _ => pure trivial
  by_cases h1 : c.isCase = true
  · rw [if_pos h1]
    exact hgo.case b c (hc c h) h1
  · rw [if_neg h1]
    exact hgo.any b (.switchCase b) c rfl ⟨hc c h, by simpa using h1⟩

seal Visitor.visitChildren Visitor.mark Visitor.keepIf Visitor.frame Visitor.guarded in
theorem visitNode {m : Mode} (hm : m.emits = .any) {n : Node} (hn : Good cx S n)
    (hh : n.hintable = true → cx.hint n.span ≠ some .next) : Goes cx S b [] (visitNode cx go m n) fun _ => True := by
  have hch : isSwitch n.kind = false → Goes cx S b [] (Visitor.visitChildren cx go m n) fun _ => True := by
    intro hk
    obtain ⟨k, sp, cs⟩ := n
    exact visitChildren hgo hm fun c hc => hn.1.good hk hc
  have hcase := hn.2
  replace hn := hn.1
  have hinit : ∀ init, initOf n = some init → init.kind ≠ .taggedTpl := (hn _ (each_self _)).2.1
  unfold Visitor.visitNode
  split <;> first
    | exact guarded' trivial (hch rfl)
    | exact guarded' trivial (first (mark _) fun _ _ => hch rfl)
    | exact frame (hh rfl) (hch rfl)
    | exact frame (hh rfl) (first (keepIf' trivial (mark _)) fun _ _ => hch rfl)
    | skip
  -- function declaration
  · exact guarded' trivial (first (createFn _ (hn.good rfl (by simp))) fun f hf => visitChildren hgo hm
      (all_cons (hn.good rfl (by simp)) (all_cons hf all_nil)))
  -- arrow
  · exact guarded' trivial (visitArrow hgo (hn.good rfl (by simp)))
  -- function expression
  · refine guarded' trivial ?_
    simp only
    refine ite (pure trivial) (first (createFn _ (hn.good rfl (by simp))) fun f hf => visitChildren hgo hm
      (all_cons (hn.good rfl (by simp)) (all_cons hf all_nil)))
  -- expression statement
  · exact frame (hh rfl) (ite (pure trivial) (first (keepIf' trivial (mark _)) fun _ _ => hch rfl))
  -- conditional
  · exact frame (hh rfl) (visitCond hgo hm (hh rfl) hn)
  -- class properties
  · exact guarded' trivial (first (keepIf' (hn.good rfl (by simp)) (coverStatement (hinit _ rfl) (hn.good rfl (by simp))))
      fun v hv => visitChildren hgo hm (all_cons (hn.good rfl (by simp))
        (all_cons hv (all_cons (hn.good rfl (by simp)) all_nil))))
  · exact guarded' trivial (first (keepIf' (hn.good rfl (by simp)) (coverStatement (hinit _ rfl) (hn.good rfl (by simp))))
      fun v hv => visitChildren hgo hm (all_cons (hn.good rfl (by simp))
        (all_cons hv (all_cons (hn.good rfl (by simp)) all_nil))))
  -- methods
  · refine guarded' trivial ?_
    split
    · exact ite (pure trivial) (first (createFn _ (hn.good rfl (by simp))) fun f hf => visitChildren hgo hm
        (all_cons (hn.good rfl (by simp)) (all_cons hf all_nil)))
    · exact pure trivial
  · refine guarded' trivial ?_
    split
    · exact ite (pure trivial) (first (createFn _ (hn.good rfl (by simp))) fun f hf => visitChildren hgo hm
        (all_cons (hn.good rfl (by simp)) (all_cons hf all_nil)))
    · exact first (createFn _ (hn.good rfl (by simp))) fun f hf => visitChildren hgo hm
        (all_cons (hn.good rfl (by simp)) (all_cons hf all_nil))
  -- accessors
  · exact guarded' trivial (visitAccessor hgo hm (cs := fun b => [_, b]) (hn.good rfl (by simp)) fun b hb =>
      all_cons (hn.good rfl (by simp)) (all_cons hb all_nil))
  · exact guarded' trivial (visitAccessor hgo hm (cs := fun b => [_, _, _, b]) (hn.good rfl (by simp)) fun b hb =>
      all_cons (hn.good rfl (by simp)) (all_cons (hn.good rfl (by simp))
        (all_cons (hn.good rfl (by simp)) (all_cons hb all_nil))))
  -- declarator
  · exact guarded' trivial (first (keepIf' (hn.good rfl (by simp)) (coverStatement (hinit _ rfl) (hn.good rfl (by simp))))
      fun v hv => visitChildren hgo hm (all_cons (hn.good rfl (by simp)) (all_cons hv all_nil)))
  -- loop
  · exact guarded' trivial (first (mark _) fun _ _ => visitChildren hgo hm (blockifyLast fun c hc => hn.good rfl hc))
  -- switch
  · have h0 := hh rfl
    dsimp only [Node.span] at h0
    refine frame h0 ?_
    rw [if_neg h0]
    refine first (mark _) fun _ _ => newBranch (hn.self rfl) (branch_switch ..) rfl fun b => ?_
    exact last (fresh (hh rfl) (visitSwitch hgo fun c hc => hn.child hc)) fun _ _ => pure trivial
  -- if
  · have h0 := hh rfl
    dsimp only [Node.span] at h0
    refine frame h0 ?_
    rw [if_neg h0]
    exact visitIf hgo hm (hh rfl) hn
  -- binary
  · exact visitBin hgo hm (hh rfl) hn
  -- default value
  · refine guarded' trivial (newBranch (hn.self rfl) (branch_default ..) rfl fun b => ?_)
    exact last (wrapBin hgo hm (hn.good rfl (by simp))) fun _ _ => pure trivial
  -- with
  · have h0 := hh rfl
    dsimp only [Node.span] at h0
    refine frame h0 ?_
    rw [if_neg h0]
    exact first (mark _) fun _ _ => first (visitWithBody hgo (hh rfl) (hn.good rfl (by simp))) fun _ _ => pure trivial
  -- switch case
  · cases hcase
  -- module declarations, debugger, others
  · split
    · exact guarded' trivial (hch rfl)
    · exact hch rfl
  · split
    · exact guarded' trivial (hch rfl)
    · exact hch rfl
  · split
    · exact guarded' trivial (hch rfl)
    · exact hch rfl
  · refine hch (Bool.eq_false_iff.2 fun hk => ?_)
    obtain ⟨k, sp, cs⟩ := n
    have hk' : k = .switchStmt := by cases k <;> first | rfl | cases hk
    subst hk'
    exact (by assumption : ∀ sp' cs', mk .switchStmt sp cs = mk .switchStmt sp' cs' → False) _ _ rfl

end

/-- Visits change branches as described. -/
theorem visit (cx : Ctx) (S : Node → Prop) (fuel : Nat) : Rec cx S (visit cx fuel) := by
  induction fuel with
  | zero =>
    exact ⟨fun b m n _ _ st a s _ _ (h : Except.error _ = _) => (nomatch h), fun b n _ _ st a s _ _ (h : Except.error _ = _) => (nomatch h),
      fun b n _ st a s _ _ (h : Except.error _ = _) => (nomatch h), visit_span cx 0⟩
  | succ fuel ih =>
    refine ⟨fun b m n hm hn => ?_, fun b n hn hc => ?_, fun b n hn => operand ((Operand.Adds.visit cx b (fuel + 1)).2 n hn), visit_span cx _⟩
    · by_cases hh : n.hintable = true ∧ cx.hint n.span = some .next
      · intro st a s hi _ h
        obtain ⟨rfl, rfl⟩ := visit_hinted hh.1 hm hh.2 h
        exact ⟨trivial, hi, .of_eq rfl rfl⟩
      · have key : Goes cx S b [] (Visitor.visitNode cx (Visitor.visit cx fuel) m n) fun _ => True :=
          visitNode ih hm hn fun h1 h2 => hh ⟨h1, h2⟩
        cases m <;> first | exact key | cases hm
    · unfold isCase at hc
      split at hc
      · exact guarded (P := fun _ => True) trivial (visitCase ih fun c h => hn.good rfl h)
      · cases hc

/-! ### Programs -/

theorem withBefore {x : M Node} (hx : Goes cx S b [] x fun _ => True) : Goes cx S b [] (withBefore x) fun _ => True :=
  first hx fun n _ => neutral fun st a st' h => by cases h; exact ⟨trivial, rfl, rfl, rfl⟩

theorem visitItem {fuel : Nat} {item : Node} (hi : Good cx S item) : Goes cx S b [] (visitItem cx fuel item) fun _ => True := by
  unfold Visitor.visitItem
  refine ite (pure trivial) ?_
  by_cases hh : cx.hint item.span = some .next
  · intro st a s h0 _ h
    obtain ⟨⟨old, cur⟩, s1, e1, e2⟩ := M.bind_ok h
    simp only [enter, push, enterSpan, Bind.bind, M.bind, hh] at e1
    rw [if_neg h0] at e1
    cases e1
    obtain ⟨r, s2, e3, e4⟩ := M.bind_ok e2
    cases e4
    obtain ⟨r1, s3, e5, e6⟩ := M.bind_ok e3
    cases e6
    obtain ⟨_, s4, e7, e8⟩ := M.bind_ok e5
    have e9 : s4.ignore = some .next ∧ s4.cov.lastB = st.cov.lastB ∧ s4.cov.inner.branchMap = st.cov.inner.branchMap := by
      unfold Visitor.keepIf at e7
      split at e7 <;> cases e7 <;> exact ⟨rfl, rfl, rfl⟩
    obtain ⟨rfl, rfl⟩ := Still.visit cx fuel .coverage item _ _ _ e9.1 e8
    exact ⟨trivial, h0, .of_eq e9.2.1 e9.2.2⟩
  · refine frame hh (withBefore ?_)
    exact first (keepIf' trivial (mark _)) fun _ _ => (visit cx S fuel).any b .coverage item rfl hi

theorem visitItems {fuel : Nat} {items : List Node} (hi : ∀ c ∈ items, Good cx S c) :
    Goes cx S b [] (visitItems cx fuel items) fun _ => True := by
  induction items with
  | nil => exact pure trivial
  | cons i items ih => exact first (visitItem (hi i (by simp))) fun o _ => first (ih fun c hc => hi c (by simp [hc])) fun _ _ => pure trivial

theorem visitScriptItems {fuel : Nat} {items : List Node} (hi : ∀ c ∈ items, Good cx S c) :
    Goes cx S b [] (visitScriptItems cx fuel items) fun _ => True := by
  induction items with
  | nil => exact pure trivial
  | cons i items ih =>
    exact first (withBefore ((visit cx S fuel).any b .coverage i rfl (hi i (by simp)))) fun o _ =>
      first (ih fun c hc => hi c (by simp [hc])) fun _ _ => pure trivial

end Goes

/-- The branches of a finished program. -/
theorem instrument {cx : Ctx} {fuel : Nat} {path : String} {sm : Option SourceMap} {p p' : Node}
    {cov : SourceCoverage} (h : instrument cx fuel path sm p = .ok (p', cov)) (hp : p.NoTaggedInits) (hc : p.CasesInSwitch) {k : Nat} {br : Branch}
    (hb : (k, br) ∈ cov.inner.branchMap) : ∃ n ∈ p.each, br.Of cx n := by
  have hfin : ∀ (h0 : List RegOp) (st : St), File.good ⟨path, cx.reportLogic, sm⟩ h0 st →
      Grown cx (· ∈ p.each) 0 [] (start cx path sm).cov st.cov →
      (k, br) ∈ st.cov.freeze.inner.branchMap → ∃ n ∈ p.each, br.Of cx n := by
    intro h0 st hg gr hm
    obtain ⟨hget, hlt⟩ := frozen_branch hg hm
    exact gr.new k br (Nat.zero_le _) hlt hget
  have hgood : File.good ⟨path, cx.reportLogic, sm⟩ [] (start cx path sm) :=
    ⟨RegOp.inv_setInputSourceMap RegOp.inv_new sm, RegOp.legal_nil⟩
  have hall : All cx (· ∈ p.each) p := fun x hx => ⟨fun _ => hx, fun init hi => hp x hx init hi, hc x hx⟩
  rcases Sound.instrument h with ⟨-, rfl, -⟩ | ⟨hf, n, h0, cov0, hst, ht, -⟩
  · cases hb
  · obtain ⟨kk, sp, cs⟩ := p
    have hk : kk = .module ∨ kk = .script := by
      have h1 := hst.root.1
      cases ht <;> simp_all [Node.kind]
    rcases hk with rfl | rfl
    · rw [instrument_module _ _ _ _ sp cs hf] at h
      cases hv : visitItems cx fuel cs (start cx path sm) with
      | error e => rw [hv] at h; cases h
      | ok r =>
        obtain ⟨out, st⟩ := r
        rw [hv] at h
        cases h
        obtain ⟨h', -, g, -⟩ := Sound.visitItems (sp := sp) (l := []) hgood rfl hv
        have := Goes.visitItems (b := 0) (fun c hc => hall.good rfl hc) _ _ _ (fun h => by cases h) (.inl rfl) hv
        exact hfin h' st g this.2.2 hb
    · rw [instrument_script _ _ _ _ sp cs hf] at h
      cases hv : visitScriptItems cx fuel cs (start cx path sm) with
      | error e => rw [hv] at h; cases h
      | ok r =>
        obtain ⟨out, st⟩ := r
        rw [hv] at h
        cases h
        obtain ⟨h', -, g, -⟩ := Sound.visitScriptItems (sp := sp) (l := []) hgood rfl hv
        have := Goes.visitScriptItems (b := 0) (fun c hc => hall.good rfl hc) _ _ _ (fun h => by cases h) (.inl rfl) hv
        exact hfin h' st g this.2.2 hb

end Exact
end Verif
