import Verif.Spec.Duty
import Verif.Lemmas.Each
import Verif.Lemmas.Arms
import Verif.Lemmas.Spans
/-
How many entries a visit can make: no more than the constructs of the visited tree account for.
-/
namespace Verif
open Node

theorem freeze_branchMap (c : SourceCoverage) : c.freeze.inner.branchMap.Sublist c.inner.branchMap := by
  have : ∀ (rest : List (Nat × Branch)) b bT, (SourceCoverage.freezeLoop rest b bT).1.Sublist rest := by
    intro rest
    induction rest with
    | nil => intro b bT; exact .slnil
    | cons e rest ih =>
      intro b bT
      obtain ⟨k, br⟩ := e
      simp only [SourceCoverage.freezeLoop]
      split
      · exact (ih _ _).cons _
      · exact (ih _ _).cons_cons _
  exact this _ _ _

namespace IndexMap
variable {V : Type} {m : IndexMap Nat V} {k : Nat} {v : V} {e : Nat × V}

theorem of_mem_insert (h : e ∈ m.insert k v) : e ∈ m ∨ e = (k, v) := by
  induction m with
  | nil => exact .inr (List.mem_singleton.1 h)
  | cons e' m ih =>
    obtain ⟨k', v'⟩ := e'
    simp only [insert] at h
    split at h
    · next hk =>
      rcases List.mem_cons.1 h with rfl | h
      · exact .inr (by rw [hk])
      · exact .inl (List.mem_cons_of_mem _ h)
    · rcases List.mem_cons.1 h with rfl | h
      · exact .inl (List.mem_cons_self ..)
      · exact (ih h).imp_left (List.mem_cons_of_mem _)

theorem of_mem_modify {f : V → V} (h : e ∈ IndexMap.modify m k f) :
    ∃ v, (e.1, v) ∈ m ∧ (e.2 = v ∨ e.2 = f v) := by
  induction m with
  | nil => cases h
  | cons e' m ih =>
    obtain ⟨k', v'⟩ := e'
    simp only [modify] at h
    split at h
    · rcases List.mem_cons.1 h with rfl | h
      · exact ⟨v', List.mem_cons_self .., .inr rfl⟩
      · exact ⟨e.2, List.mem_cons_of_mem _ h, .inl rfl⟩
    · rcases List.mem_cons.1 h with rfl | h
      · exact ⟨v', List.mem_cons_self .., .inl rfl⟩
      · obtain ⟨v, hv, hv'⟩ := ih h
        exact ⟨v, List.mem_cons_of_mem _ hv, hv'⟩

end IndexMap

/-- The next branch gets an id that no entry has. -/
def SourceCoverage.Fresh (c : SourceCoverage) : Prop := ∀ e ∈ c.inner.branchMap, e.1 < c.lastB

/-- `b` has been given to a branch, which is an `if` with range `r` as long as there is an entry for it. -/
def SourceCoverage.IfAt (c : SourceCoverage) (b : Nat) (r : Range) : Prop :=
  b < c.lastB ∧ ∀ e ∈ c.inner.branchMap, e.1 = b → e.2.branchType = .if ∧ e.2.loc = some r

/-- A way to count some of the entries of the coverage data, and what a new entry adds to the count. -/
structure Meter where
  size : SourceCoverage → Nat
  stmt : Range → Nat
  fn : Range → Range → Nat
  br : BranchType → Range → Nat
  arm : Range → Nat
  newStatement : ∀ c r, size (c.newStatement r).1 ≤ size c + stmt r
  newFunction : ∀ c n d l, size (c.newFunction n d l).1 ≤ size c + fn d l
  newBranch : ∀ c t r g, size (c.newBranch t r g).1 ≤ size c + br t r
  addPath : ∀ c k r c' i, c.addBranchPath k r = .ok (c', i) → size c' ≤ size c + arm r
  addOwn : ∀ c k r c' i, c.addBranchPath k r = .ok (c', i) → c.IfAt k r → size c' ≤ size c
  freeze : ∀ c, size c.freeze ≤ size c
  new : ∀ path g sm, size ((SourceCoverage.new path g).setInputSourceMap sm) = 0

namespace Meter
variable (mt : Meter) (cx : Ctx)

/-- What a node itself may add. -/
def own (n : Node) : Nat :=
  (n.stmtSpans.map fun sp => mt.stmt (cx.range sp)).sum +
  ((n.fnSpans cx).map fun x => mt.fn (cx.range x.1) (cx.range x.2)).sum +
  (n.branchSpans.map fun x => mt.br x.1 (cx.range x.2)).sum +
  (n.armSpans.map fun sp => mt.arm (cx.range sp)).sum

/-- What the nodes of a tree may add. -/
def weight (n : Node) : Nat := (n.each.map (mt.own cx)).sum

/-- What the nodes of a list of trees may add. -/
def weights (ns : List Node) : Nat := (ns.map (mt.weight cx)).sum

theorem weight_mk (k : Kind) (sp : Span) (cs : List Node) :
    mt.weight cx (Node.mk k sp cs) = mt.own cx (Node.mk k sp cs) + mt.weights cx cs := by
  have : ∀ cs : List Node, ((cs.flatMap each).map (mt.own cx)).sum = mt.weights cx cs := by
    intro cs
    induction cs with
    | nil => rfl
    | cons c cs ih => simp only [List.flatMap_cons, List.map_append, List.sum_append, ih, weights, List.map_cons,
        List.sum_cons, weight]
  simp only [weight, each, List.map_cons, List.sum_cons, eachList_eq, this]

@[simp] theorem weights_nil : mt.weights cx [] = 0 := rfl

@[simp] theorem weights_cons (n : Node) (ns : List Node) :
    mt.weights cx (n :: ns) = mt.weight cx n + mt.weights cx ns := by simp [weights]

/-- A node that stands for nothing. -/
theorem own_zero {n : Node} (h1 : n.stmtSpans = []) (h2 : n.fnSpans cx = []) (h3 : n.branchSpans = [])
    (h4 : n.armSpans = []) : mt.own cx n = 0 := by simp [own, h1, h2, h3, h4]

theorem block (sp : Span) (ss : List Node) : mt.weight cx (Node.mk .block sp ss) = mt.weights cx ss := by
  rw [weight_mk, own_zero mt cx rfl rfl rfl rfl, Nat.zero_add]

theorem counterStmt_f (id : Nat) : mt.weight cx (counterStmt (.f id)) = 0 := by
  rw [counterStmt, weight_mk, own_zero mt cx rfl rfl rfl rfl, weights_cons, counterExpr, weight_mk,
    own_zero mt cx rfl rfl rfl rfl]
  rfl

theorem wrapCounter (c : Counter) (e : Node) : mt.weight cx (wrapCounter c e) = mt.weight cx e := by
  simp [Node.wrapCounter, weight_mk, own, stmtSpans, initOf, fnSpans, fnHead, branchSpans, armSpans, counterExpr]

theorem blockify (s : Node) : mt.weight cx (Visitor.blockify s) = mt.weight cx s := by
  unfold Visitor.blockify
  split
  · rfl
  · rw [block]; simp

theorem blockifyLast (cs : List Node) : mt.weights cx (Visitor.blockifyLast cs) = mt.weights cx cs := by
  fun_induction Visitor.blockifyLast cs with
  | case1 => rfl
  | case2 body => simp [blockify]
  | case3 c cs _ ih => simp [ih]

end Meter

namespace Node.PlainInits

theorem mk_iff {k : Kind} {sp : Span} {cs : List Node} :
    PlainInits (mk k sp cs) ↔ (∀ init, initOf (mk k sp cs) = some init →
      init.kind ≠ .taggedTpl ∧ (init.any Kind.isStmt = true → init.any Kind.isBlock = true)) ∧
      ∀ c ∈ cs, PlainInits c := by
  constructor
  · intro h
    exact ⟨h _ (each_self _), fun c hc m hm => h m (mem_each_mk.2 (.inr ⟨c, hc, hm⟩))⟩
  · rintro ⟨h1, h2⟩ m hm
    rcases mem_each_mk.1 hm with rfl | ⟨c, hc, hm⟩
    · exact h1
    · exact h2 c hc m hm

theorem child {k : Kind} {sp : Span} {cs : List Node} (h : PlainInits (mk k sp cs)) {c : Node} (hc : c ∈ cs) :
    PlainInits c := (mk_iff.1 h).2 c hc

theorem mk_of {k : Kind} {sp : Span} {cs : List Node} (hk : initOf (mk k sp cs) = none)
    (h : ∀ c ∈ cs, PlainInits c) : PlainInits (mk k sp cs) :=
  mk_iff.2 ⟨fun _ e => absurd (hk.symm.trans e) (by simp), h⟩

theorem counterStmt (c : Counter) : PlainInits (counterStmt c) :=
  mk_of rfl (by simp only [List.mem_singleton, forall_eq]; exact mk_of rfl (by simp))

theorem wrapCounter {c : Counter} {e : Node} (h : PlainInits e) : PlainInits (wrapCounter c e) := by
  refine mk_of rfl ?_
  simp only [List.mem_singleton, forall_eq]
  refine mk_of rfl ?_
  intro x hx
  rcases List.mem_cons.1 hx with rfl | hx
  · exact mk_of rfl (by simp)
  · cases List.mem_singleton.1 hx; exact h

end Node.PlainInits

namespace Visitor

/-- What is an `if` stays one, and ids stay distinct. -/
def Keeps (c c' : SourceCoverage) : Prop := c'.Fresh ∧ ∀ b r, c.IfAt b r → c'.IfAt b r

namespace Keeps

theorem trans {a b c : SourceCoverage} (h : Keeps a b) (h' : Keeps b c) : Keeps a c :=
  ⟨h'.1, fun k r hk => h'.2 k r (h.2 k r hk)⟩

theorem of_eq {a b : SourceCoverage} (ha : a.Fresh) (h : b = a) : Keeps a b := by
  rw [h]
  exact ⟨ha, fun _ _ h => h⟩

theorem newStatement {c : SourceCoverage} (hc : c.Fresh) (r : Range) : Keeps c (c.newStatement r).1 :=
  ⟨hc, fun _ _ h => h⟩

theorem newFunction {c : SourceCoverage} (hc : c.Fresh) (n : Option String) (d l : Range) :
    Keeps c (c.newFunction n d l).1 := ⟨hc, fun _ _ h => h⟩

theorem newBranch {c : SourceCoverage} (hc : c.Fresh) (t : BranchType) (r : Range) (g : Bool) :
    Keeps c (c.newBranch t r g).1 := by
  obtain ⟨e1, -, e3⟩ := newBranch_lastB c t r g
  constructor
  · intro e he
    rw [e1]
    rw [e3] at he
    rcases IndexMap.of_mem_insert he with he | rfl
    · exact Nat.lt_succ_of_lt (hc e he)
    · exact Nat.lt_succ_self _
  rintro b r' ⟨h1, h2⟩
  refine ⟨by rw [e1]; omega, ?_⟩
  rw [e3]
  intro e he hb
  rcases IndexMap.of_mem_insert he with he | rfl
  · exact h2 e he hb
  · simp only at hb
    omega

/-- A new `if`, whose id has not been given before. -/
theorem newIf {c : SourceCoverage} (hc : c.Fresh) (r : Range) (g : Bool) :
    (c.newBranch .if r g).1.IfAt (c.newBranch .if r g).2 r := by
  obtain ⟨e1, e2, e3⟩ := newBranch_lastB c .if r g
  rw [e2]
  refine ⟨by rw [e1]; omega, ?_⟩
  rw [e3]
  intro e he hb
  rcases IndexMap.of_mem_insert he with he | rfl
  · have := hc e he
    omega
  · exact ⟨rfl, rfl⟩

theorem addPath {c c' : SourceCoverage} {k i : Nat} {r : Range} (hc : c.Fresh)
    (h : c.addBranchPath k r = .ok (c', i)) : Keeps c c' := by
  obtain ⟨e1, -, e3⟩ := addBranchPath_ok h
  constructor
  · intro e he
    rw [e1]
    rw [e3] at he
    obtain ⟨v, hv, -⟩ := IndexMap.of_mem_modify he
    exact hc (e.1, v) hv
  rintro b r' ⟨h1, h2⟩
  refine ⟨by rw [e1]; exact h1, ?_⟩
  rw [e3]
  intro e he hb
  obtain ⟨v, hv, h | h⟩ := IndexMap.of_mem_modify he
  · rw [h]; exact h2 _ hv hb
  · rw [h]; exact h2 _ hv hb

theorem freeze {c : SourceCoverage} (hc : c.Fresh) : Keeps c c.freeze :=
  ⟨fun e he => hc e ((freeze_branchMap c).subset he),
    fun _ _ h => ⟨h.1, fun e he => h.2 e ((freeze_branchMap c).subset he)⟩⟩

end Keeps

/-- `x` adds at most `k` to the count; its result has property `P`. -/
def Costs (mt : Meter) (x : M α) (k : Nat) (P : α → Prop) : Prop :=
  ∀ st a st', st.cov.Fresh → x st = .ok (a, st') →
    mt.size st'.cov ≤ mt.size st.cov + k ∧ P a ∧ Keeps st.cov st'.cov

/-- The same where `b` is an `if` with range `r`. -/
def CostsIn (mt : Meter) (b : Nat) (r : Range) (x : M α) (k : Nat) (P : α → Prop) : Prop :=
  ∀ st a st', st.cov.Fresh → st.cov.IfAt b r → x st = .ok (a, st') →
    mt.size st'.cov ≤ mt.size st.cov + k ∧ P a ∧ Keeps st.cov st'.cov

namespace Costs
variable {mt : Meter} {cx : Ctx} {α β : Type} {P : α → Prop} {Q : β → Prop} {k j : Nat}

theorem pure {a : α} (h : P a) : Costs mt (Pure.pure a : M α) k P := by
  intro st a' st' hs hx
  cases hx
  exact ⟨Nat.le_add_right .., h, .of_eq hs rfl⟩

theorem bind {x : M α} {f : α → M β} (hx : Costs mt x k P) (hf : ∀ a, P a → Costs mt (f a) j Q) :
    Costs mt (x >>= f) (k + j) Q := by
  intro st b st' hs h
  obtain ⟨a, st1, h1, h2⟩ := M.bind_ok h
  obtain ⟨l1, p, k1⟩ := hx st a st1 hs h1
  obtain ⟨l2, q, k2⟩ := hf a p st1 b st' k1.1 h2
  exact ⟨by omega, q, k1.trans k2⟩

theorem le {x : M α} (hx : Costs mt x k P) (h : k ≤ j) : Costs mt x j P := by
  intro st a st' hc hs
  obtain ⟨l, p, t⟩ := hx st a st' hc hs
  exact ⟨by omega, p, t⟩

/-- The result does not matter. -/
theorem drop {x : M α} (hx : Costs mt x k P) : Costs mt x k (fun _ => True) := by
  intro st a st' hc hs
  obtain ⟨l, -, t⟩ := hx st a st' hc hs
  exact ⟨l, trivial, t⟩

/-- More is known about the result. -/
theorem result {x : M α} {R : α → Prop} (hx : Costs mt x k P)
    (hr : ∀ st a st', x st = .ok (a, st') → R a) : Costs mt x k R := by
  intro st a st' hc hs
  obtain ⟨l, -, t⟩ := hx st a st' hc hs
  exact ⟨l, hr st a st' hs, t⟩

theorem within {x : M α} (hx : Costs mt x k P) (b : Nat) (r : Range) : CostsIn mt b r x k P :=
  fun st a st' hc _ hs => hx st a st' hc hs

theorem keepIf {p : Prop} [Decidable p] {a : α} {x : M α} (ha : P a) (hx : Costs mt x k P) :
    Costs mt (keepIf p a x) k P := by
  unfold Visitor.keepIf
  split
  · exact pure ha
  · exact hx

theorem ite {p : Prop} [Decidable p] {x y : M α} (hx : Costs mt x k P) (hy : Costs mt y k P) :
    Costs mt (if p then x else y) k P := by
  split
  · exact hx
  · exact hy

theorem ite' {p : Prop} [Decidable p] {x y : M α} (hx : p → Costs mt x k P) (hy : ¬ p → Costs mt y k P) :
    Costs mt (if p then x else y) k P := by
  split
  · next h => exact hx h
  · next h => exact hy h

/-- A computation that leaves coverage data alone. -/
theorem neutral {x : M α} (hx : ∀ st a st', x st = .ok (a, st') → P a ∧ st'.cov = st.cov) : Costs mt x 0 P := by
  intro st a st' hc hs
  obtain ⟨p, h⟩ := hx st a st' hs
  exact ⟨by rw [h]; omega, p, .of_eq hc h⟩

theorem frame {t : Tag} {sp : Span} {body : Option IgnoreScope → M α}
    (hb : ∀ cur, Costs mt (body cur) k P) : Costs mt (frame cx t sp body) k P := by
  unfold Visitor.frame
  refine (bind (k := 0) (j := k) (P := fun _ => True) (neutral fun st a st' h => ?_) ?_).le (by omega)
  · simp only [enter, push, enterSpan, Bind.bind, M.bind] at h
    split at h <;> cases h <;> exact ⟨trivial, rfl⟩
  · rintro ⟨old, cur⟩ _
    exact bind (k := k) (j := 0) (hb cur) fun a ha =>
      bind (k := 0) (j := 0) (P := fun _ => True) (neutral fun st a st' h => by cases h; exact ⟨trivial, rfl⟩)
        fun _ _ => pure ha

theorem guarded {t : Tag} {n : Node} {body : M Node} (hb : Costs mt body k fun _ => True) :
    Costs mt (guarded cx t n body) k fun _ => True :=
  frame fun _ => ite (pure trivial) hb

theorem fresh {ig : Option IgnoreScope} {x : M α} (hx : Costs mt x k P) :
    Costs mt (fresh ig x) k (fun _ => True) := by
  intro st a st' hc h
  unfold Visitor.fresh at h
  cases hxs : x { st with before := [], ignore := ig } with
  | error e => rw [hxs] at h; cases h
  | ok r =>
    obtain ⟨a1, st1⟩ := r
    rw [hxs] at h
    cases h
    obtain ⟨l, -, t⟩ := hx { st with before := [], ignore := ig } _ _ hc hxs
    exact ⟨l, trivial, t⟩

theorem bracket {t : Tag} {x : M α} (hx : Costs mt x k P) :
    Costs mt (do push t; let r ← x; pop; Pure.pure r) k P := by
  refine (bind (k := 0) (j := k) (P := fun _ => True) (neutral fun st a st' h => ?_) fun _ _ =>
    bind (k := k) (j := 0) hx fun a ha =>
    bind (k := 0) (j := 0) (P := fun _ => True) (neutral fun st a st' h => ?_) fun _ _ => pure ha).le (by omega)
  all_goals cases h; exact ⟨trivial, rfl⟩

theorem newStatement (r : Range) : Costs mt (newStatement r) (mt.stmt r) (fun _ => True) := by
  intro st a st' hc h
  cases h
  exact ⟨mt.newStatement .., trivial, .newStatement hc ..⟩

theorem newFunction (n : Option String) (d l : Range) :
    Costs mt (newFunction n d l) (mt.fn d l) (fun _ => True) := by
  intro st a st' hc h
  cases h
  exact ⟨mt.newFunction .., trivial, .newFunction hc ..⟩

theorem newBranch (t : BranchType) (r : Range) (g : Bool) :
    Costs mt (newBranch t r g) (mt.br t r) (fun _ => True) := by
  intro st a st' hc h
  cases h
  exact ⟨mt.newBranch .., trivial, .newBranch hc ..⟩

theorem addPath (b : Nat) (r : Range) : Costs mt (addPath b r) (mt.arm r) (fun _ => True) := by
  intro st a st' hc h
  unfold Visitor.addPath at h
  cases h1 : st.cov.addBranchPath b r with
  | error e => rw [h1] at h; cases h
  | ok x =>
    rw [h1] at h
    cases h
    exact ⟨mt.addPath _ _ _ _ _ h1, trivial, .addPath hc h1⟩

/-- A new `if`, and what follows. -/
theorem newIf {r : Range} {f : Nat → M α} (hf : ∀ b, CostsIn mt b r (f b) k P) :
    Costs mt (Visitor.newBranch .if r false >>= f) (mt.br .if r + k) P := by
  intro st a st' hc h
  obtain ⟨b, st1, h1, h2⟩ := M.bind_ok h
  cases h1
  have k1 := Keeps.newBranch hc .if r false
  obtain ⟨l, p, t⟩ := hf _ _ _ _ k1.1 (Keeps.newIf hc r false) h2
  have : mt.size { st with cov := (st.cov.newBranch .if r false).1 }.cov ≤ mt.size st.cov + mt.br .if r :=
    mt.newBranch st.cov .if r false
  exact ⟨by omega, p, k1.trans t⟩

end Costs

namespace CostsIn
variable {mt : Meter} {cx : Ctx} {α β : Type} {P : α → Prop} {Q : β → Prop} {k j b : Nat} {r : Range}

theorem bind {x : M α} {f : α → M β} (hx : CostsIn mt b r x k P) (hf : ∀ a, P a → CostsIn mt b r (f a) j Q) :
    CostsIn mt b r (x >>= f) (k + j) Q := by
  intro st y st' hs hb h
  obtain ⟨a, st1, h1, h2⟩ := M.bind_ok h
  obtain ⟨l1, p, k1⟩ := hx st a st1 hs hb h1
  obtain ⟨l2, q, k2⟩ := hf a p st1 y st' k1.1 (k1.2 b r hb) h2
  exact ⟨by omega, q, k1.trans k2⟩

theorem le {x : M α} (hx : CostsIn mt b r x k P) (h : k ≤ j) : CostsIn mt b r x j P := by
  intro st a st' hc hb hs
  obtain ⟨l, p, t⟩ := hx st a st' hc hb hs
  exact ⟨by omega, p, t⟩

theorem keepIf {p : Prop} [Decidable p] {a : α} {x : M α} (ha : P a) (hx : CostsIn mt b r x k P) :
    CostsIn mt b r (keepIf p a x) k P := by
  unfold Visitor.keepIf
  split
  · exact (Costs.pure ha).within b r
  · exact hx

/-- An arm of an `if` with the range of the `if`. -/
theorem addOwn (b : Nat) (r : Range) : CostsIn mt b r (addPath b r) 0 (fun _ => True) := by
  intro st a st' hc hb h
  unfold Visitor.addPath at h
  cases h1 : st.cov.addBranchPath b r with
  | error e => rw [h1] at h; cases h
  | ok x =>
    rw [h1] at h
    cases h
    exact ⟨mt.addOwn _ _ _ _ _ h1 hb, trivial, .addPath hc h1⟩

end CostsIn

namespace Costs
variable {mt : Meter} {cx : Ctx} {α β : Type} {P : α → Prop} {Q : β → Prop} {k j : Nat}

theorem mark (sp : Span) : Costs mt (mark cx sp) (mt.stmt (cx.range sp)) (fun _ => True) :=
  bind (j := 0) (newStatement _) fun _ _ => neutral fun st a st' h => by cases h; exact ⟨trivial, rfl⟩

/-- A tree that is as good as `e` for the visits that follow. -/
def Like (mt : Meter) (cx : Ctx) (e n : Node) : Prop := PlainInits n ∧ mt.weight cx n = mt.weight cx e

theorem replaceWithStmtCounter {e : Node} (he : PlainInits e) :
    Costs mt (replaceWithStmtCounter cx e) (mt.stmt (cx.range e.span)) (Like mt cx e) :=
  bind (j := 0) (newStatement _) fun _ _ => pure ⟨he.wrapCounter, mt.wrapCounter ..⟩

theorem replaceWithBranchCounter (b : Nat) {e : Node} (he : PlainInits e) :
    Costs mt (replaceWithBranchCounter cx b e) (mt.arm (cx.range e.span)) (Like mt cx e) :=
  bind (j := 0) (addPath _ _) fun _ _ => pure ⟨he.wrapCounter, mt.wrapCounter ..⟩

section
variable {go : Mode → Node → M Node}

/-- What is assumed of recursive visits. -/
def Rec (mt : Meter) (cx : Ctx) (go : Mode → Node → M Node) : Prop :=
  ∀ m n, PlainInits n → Costs mt (go m n) (mt.weight cx n) fun a => a.span = n.span

variable (hgo : Rec mt cx go)
include hgo

theorem mapList (m : Mode) {cs : List Node} (hc : ∀ c ∈ cs, PlainInits c) :
    Costs mt (M.mapList (go m) cs) (mt.weights cx cs) fun _ => True := by
  induction cs with
  | nil => exact pure trivial
  | cons c cs ih =>
    rw [Meter.weights_cons]
    exact bind (hgo m c (hc c (by simp))) fun _ _ =>
      bind (j := 0) (ih fun d hd => hc d (by simp [hd])) fun _ _ => pure trivial

theorem insertStmt {s : Node} (hs : PlainInits s) :
    Costs mt (insertStmt cx go s) (mt.weight cx s) fun _ => True := by
  unfold Visitor.insertStmt
  split
  · exact pure trivial
  · exact frame fun cur => ite (pure trivial) (bind (j := 0) (fresh (hgo .stmt s hs)) fun _ _ => pure trivial)

theorem insertStmts {ss : List Node} (hs : ∀ s ∈ ss, PlainInits s) :
    Costs mt (insertStmts cx go ss) (mt.weights cx ss) fun _ => True := by
  induction ss with
  | nil => exact pure trivial
  | cons c cs ih =>
    rw [Meter.weights_cons]
    exact bind (insertStmt hgo (hs c (by simp))) fun _ _ =>
      bind (j := 0) (ih fun d hd => hs d (by simp [hd])) fun _ _ => pure trivial

theorem visitStmts {ss : List Node} (hs : ∀ s ∈ ss, PlainInits s) :
    Costs mt (visitStmts cx go ss) (mt.weights cx ss) fun _ => True := bracket (insertStmts hgo hs)

theorem visitChildren {m : Mode} {k : Kind} {sp : Span} {cs : List Node} (hc : ∀ c ∈ cs, PlainInits c) :
    Costs mt (visitChildren cx go m (mk k sp cs)) (mt.weights cx cs) fun _ => True := by
  unfold Visitor.visitChildren
  split
  · next h => injection h with _ _ h; subst h
              exact bind (j := 0) (visitStmts hgo hc) fun _ _ => pure trivial
  · next h =>
    injection h with _ _ h; subst h
    rw [Meter.weights_cons]
    exact bind (hgo m _ (hc _ (by simp))) fun _ _ =>
      bind (j := 0) (visitStmts hgo fun d hd => hc d (by simp [hd])) fun _ _ => pure trivial
  · next h => injection h with _ _ h; subst h
              exact bind (j := 0) (mapList hgo m hc) fun _ _ => pure trivial

theorem logicalChildren {b : Nat} {k : Kind} {sp : Span} {cs : List Node} (hc : ∀ c ∈ cs, PlainInits c) :
    Costs mt (logicalChildren go b (mk k sp cs)) (mt.weights cx cs) fun _ => True :=
  bind (j := 0) (mapList hgo _ hc) fun _ _ => pure trivial

theorem wrapBin {m : Mode} (b : Nat) {e : Node} (he : PlainInits e) :
    Costs mt (wrapBin cx go m b e) (mt.weight cx e + (e.operandSpans.map fun sp => mt.arm (cx.range sp)).sum)
      fun _ => True := by
  unfold Visitor.wrapBin Node.operandSpans
  refine ite (pure trivial) (ite' (fun _ => ?_) fun hl => ?_)
  · exact (bind (j := 0) (fresh (hgo _ e he)) fun _ _ => pure trivial).le (by omega)
  rw [if_neg hl]
  simp only [List.map_cons, List.map_nil, List.sum_cons, List.sum_nil, Nat.add_zero]
  refine ite ?_ ?_
  · exact (bind (j := 0) (addPath _ _) fun _ _ => pure trivial).le (by omega)
  · refine bind (hgo m e he) fun e' he' => bind (P := fun _ => True) (j := 0) ?_ fun _ _ => pure trivial
    rw [← he']
    exact addPath _ _

omit hgo in
theorem prependFn {id : Nat} {body : Node} (hb : PlainInits body) :
    Costs mt (prependFn id body) 0 (Like mt cx body) := by
  unfold Visitor.prependFn
  split
  · refine pure ⟨.mk_of rfl ?_, ?_⟩
    · intro c hc
      rcases List.mem_cons.1 hc with rfl | hc
      · exact .counterStmt _
      · exact hb.child hc
    · rw [Meter.block, Meter.block, Meter.weights_cons, Meter.counterStmt_f, Nat.zero_add]
  · intro st a st' _ h; cases h

omit hgo in
/-- What the function counter of a `function` node may add. -/
theorem createFn {ident : Option (Span × String)} {n : Node} (hn : PlainInits n)
    (hk : ∀ a sp ps ds body, n = mk (.function a) sp [ps, ds, body] →
      mt.fn (cx.range ((ident.map (·.1)).getD sp)) (cx.range body.span) ≤ k) :
    Costs mt (createFn cx ident n) k (Like mt cx n) := by
  unfold Visitor.createFn
  split
  · next a sp params decorators body =>
    have hb : PlainInits body := hn.child (by simp)
    by_cases h0 : body.isNone
    · intro st r st' _ h
      obtain ⟨id, st1, -, h2⟩ := M.bind_ok h
      obtain ⟨b', st2, h3, -⟩ := M.bind_ok h2
      cases body with
      | mk kk bsp bcs =>
        unfold Node.isNone at h0
        split at h0
        · next e => cases e; cases h3
        · cases h0
    · rw [if_neg h0]
      refine (bind (newFunction _ _ _) fun id _ => bind (j := 0) (prependFn (cx := cx) hb) fun b' hb' => pure ⟨?_, ?_⟩).le
        (hk _ _ _ _ _ rfl)
      · refine .mk_of rfl ?_
        intro c hc
        simp only [List.mem_cons, List.not_mem_nil, or_false] at hc
        rcases hc with rfl | rfl | rfl
        · exact hn.child (by simp)
        · exact hn.child (by simp)
        · exact hb'.1
      · simp only [Meter.weight_mk, Meter.weights_cons, hb'.2]
        congr 1
  · exact pure ⟨hn, rfl⟩

omit hgo in
theorem coverHoisted {e : Node} (he : PlainInits e) :
    Costs mt (coverHoisted cx e) (mt.stmt (cx.range e.span)) (Like mt cx e) := by
  unfold Visitor.coverHoisted
  refine (bind (k := 0) (P := fun _ => True) (neutral fun st a st' h => by cases h; exact ⟨trivial, rfl⟩)
    fun nodes _ => ?_).le (Nat.le_of_eq (Nat.zero_add _))
  exact ite (bind (j := 0) (keepIf trivial (mark _)) fun _ _ => pure ⟨he, rfl⟩) (replaceWithStmtCounter he)

omit hgo in
theorem coverStatement {m : Mode} {e : Node} (he : PlainInits e) (h1 : e.kind ≠ .taggedTpl)
    (h2 : e.any Kind.isStmt = true → e.any Kind.isBlock = true) :
    Costs mt (coverStatement cx go m e) (mt.stmt (cx.range e.span)) (Like mt cx e) := by
  unfold Visitor.coverStatement
  rw [if_neg h1]
  split
  · exact bind (j := 0) (mark _) fun _ _ => pure ⟨he, rfl⟩
  · next hb =>
    have hs : e.any Kind.isStmt = false := by
      cases h : e.any Kind.isStmt with
      | false => rfl
      | true => exact absurd (h2 h) hb
    unfold Visitor.keepIf
    rw [if_pos hs]
    refine (bind (k := 0) (P := fun _ => True) (pure trivial) fun _ _ =>
      bind (k := 0) (P := fun _ => True) (neutral fun st a st' h => ?_) fun t _ => ?_).le
        (Nat.le_of_eq (by rw [Nat.zero_add, Nat.zero_add]))
    · unfold topNode at h
      split at h
      · cases h
      · cases h; exact ⟨trivial, rfl⟩
    · exact ite (coverHoisted he) (ite (replaceWithStmtCounter he) (pure ⟨he, rfl⟩))

theorem visitArrow {a : String} {sp : Span} {params body : Node} (hb : PlainInits body) :
    Costs mt (visitArrow cx go a sp params body) (mt.weight cx (mk (.arrow a) sp [params, body])) fun _ => True := by
  unfold Visitor.visitArrow
  have hw : mt.fn (cx.range sp) (cx.range body.span) + (mt.weight cx body +
      if body.kind = .block then 0 else mt.stmt (cx.range body.span)) ≤
      mt.weight cx (mk (.arrow a) sp [params, body]) := by
    rw [Meter.weight_mk]
    simp only [Meter.own, stmtSpans, fnSpans, fnHead, bodyOf, branchSpans, armSpans, Meter.weights_cons]
    split
    · simp
    · simp
      omega
  refine (bind (newFunction _ _ _) fun id _ => ?_).le hw
  split
  · next bsp ss =>
    rw [Meter.block]
    exact (bind (j := 0) (insertStmts hgo fun c hc => hb.child hc) fun _ _ => pure trivial).le (by simp)
  · next hk =>
    have hk' : body.kind ≠ .block := by
      cases body with
      | mk k bsp ss => intro e; cases e; exact hk _ _ rfl
    rw [if_neg hk']
    refine (bind (j := 0) (insertStmts hgo ?_) fun _ _ => pure trivial).le ?_
    · intro c hc
      rcases List.mem_cons.1 hc with rfl | hc
      · exact .counterStmt _
      · cases List.mem_singleton.1 hc
        exact .mk_of rfl (by simpa using hb)
    · simp only [Meter.weights_cons, Meter.counterStmt_f, Meter.weight_mk, Meter.own, stmtSpans, fnSpans, fnHead,
        branchSpans, armSpans, Meter.weights_nil]
      simp
      omega

omit hgo in
theorem createAccessor {name : String} {sp : Span} {body : Node} (hb : PlainInits body) :
    Costs mt (createAccessor cx name sp body) (mt.fn (cx.range sp) (cx.range body.span)) (Like mt cx body) := by
  unfold Visitor.createAccessor
  split
  · refine bind (j := 0) (newFunction _ _ _) fun id _ => pure ⟨.mk_of rfl ?_, ?_⟩
    · intro c hc
      rcases List.mem_cons.1 hc with rfl | hc
      · exact .counterStmt _
      · exact hb.child hc
    · rw [Meter.block, Meter.block, Meter.weights_cons, Meter.counterStmt_f, Nat.zero_add]
  · exact pure ⟨hb, rfl⟩

theorem visitAccessor {m : Mode} {n key body : Node} {rebuild : Node → Node} {k : Kind} {sp : Span}
    {pre : List Node} (hn : n = mk k sp (key :: pre ++ [body]))
    (hf : fnSpans cx n = if cx.excludes key.propName? then []
      else [(if key.propName?.isSome then key.span else sp, body.span)])
    (hr : rebuild = fun b => mk k sp (key :: pre ++ [b])) (hp : PlainInits n) :
    Costs mt (visitAccessor cx go m n key body rebuild) (mt.weight cx n) fun _ => True := by
  subst hr
  have hb : PlainInits body := by rw [hn] at hp; exact hp.child (by simp)
  have hw : ∀ b, Like mt cx body b → mt.weights cx (key :: pre ++ [b]) = mt.weights cx (key :: pre ++ [body]) := by
    intro b hb
    simp [Meter.weights, hb.2]
  have hpl : ∀ b, Like mt cx body b → ∀ c ∈ key :: pre ++ [b], PlainInits c := by
    intro b hb c hc
    rw [hn] at hp
    rcases List.mem_append.1 hc with hc | hc
    · exact hp.child (List.mem_append_left _ hc)
    · cases List.mem_singleton.1 hc; exact hb.1
  have hown : (if cx.excludes key.propName? then 0
      else mt.fn (cx.range (if key.propName?.isSome then key.span else sp)) (cx.range body.span)) +
      mt.weights cx (key :: pre ++ [body]) ≤ mt.weight cx n := by
    have : mt.weight cx n = mt.own cx n + mt.weights cx (key :: pre ++ [body]) := by
      rw [hn, Meter.weight_mk]
    rw [this]
    unfold Meter.own
    rw [hf]
    split
    · omega
    · simp only [List.map_cons, List.map_nil, List.sum_cons, List.sum_nil]
      omega
  unfold Visitor.visitAccessor
  cases hname : key.propName? with
  | some name =>
    simp only
    rw [hname] at hown
    split
    · exact pure trivial
    · next hx =>
      have hx' : cx.excludes (some name) = false := by simpa [Ctx.excludes] using hx
      rw [hx'] at hown
      refine (bind (createAccessor hb) fun b hb' => (visitChildren hgo (hpl b hb')).le (Nat.le_of_eq (hw b hb'))).le ?_
      simpa using hown
  | none =>
    simp only
    rw [hname] at hown
    refine (bind (createAccessor hb) fun b hb' => (visitChildren hgo (hpl b hb')).le (Nat.le_of_eq (hw b hb'))).le ?_
    have hsp : n.span = sp := by rw [hn]; rfl
    rw [hsp]
    simpa [Ctx.excludes] using hown

theorem visitCond {m : Mode} {cur : Option IgnoreScope} {sp : Span} {test cons alt : Node}
    (hn : PlainInits (mk .cond sp [test, cons, alt])) :
    Costs mt (visitCond cx go m cur sp test cons alt) (mt.weight cx (mk .cond sp [test, cons, alt])) fun _ => True := by
  have ht : PlainInits test := hn.child (by simp)
  have hc : PlainInits cons := hn.child (by simp)
  have ha : PlainInits alt := hn.child (by simp)
  unfold Visitor.visitCond
  refine (bind (k := mt.br .condExpr (cx.range sp) + (mt.arm (cx.range cons.span) + mt.arm (cx.range alt.span))) (P := fun r => Like mt cx cons r.1 ∧ Like mt cx alt r.2)
    (keepIf ⟨⟨hc, rfl⟩, ⟨ha, rfl⟩⟩ ?_) (j := mt.weights cx [test, cons, alt]) ?_).le ?_
  · exact (bind (newBranch _ _ _) fun b _ => bind (keepIf ⟨hc, rfl⟩ (replaceWithBranchCounter b hc)) fun c' hc' =>
      bind (j := 0) (keepIf ⟨ha, rfl⟩ (replaceWithBranchCounter b ha)) fun a' ha' => pure ⟨hc', ha'⟩).le (by omega)
  · rintro ⟨c', a'⟩ ⟨hc', ha'⟩
    refine (visitChildren hgo ?_).le ?_
    · simp [ht, hc'.1, ha'.1]
    · simp [hc'.2, ha'.2]
  · rw [Meter.weight_mk]
    simp [Meter.own, stmtSpans, initOf, fnSpans, fnHead, branchSpans, armSpans]

theorem visitBin {m : Mode} {branch? : Option Nat} {children : Node → M Node} {op : BinOp} {sp : Span}
    {left right : Node} (hn : PlainInits (mk (.bin op) sp [left, right]))
    (hc : Costs mt (children (mk (.bin op) sp [left, right])) (mt.weights cx [left, right]) fun _ => True) :
    Costs mt (visitBin cx go m branch? children op sp left right) (mt.weight cx (mk (.bin op) sp [left, right]))
      fun _ => True := by
  have he : ∀ (old : Option IgnoreScope) (t : Tag), Costs mt (do
      push t
      let n ← children (mk (.bin op) sp [left, right])
      exit old
      Pure.pure n) (mt.weight cx (mk (.bin op) sp [left, right])) fun _ => True := by
    intro old t
    refine (bind (k := 0) (P := fun _ => True) (neutral fun st a st' h => by cases h; exact ⟨trivial, rfl⟩)
      fun _ _ => bind hc fun n _ => bind (k := 0) (j := 0) (P := fun _ => True) (neutral fun st a st' h => by
        cases h; exact ⟨trivial, rfl⟩) fun _ _ => pure trivial).le ?_
    rw [Meter.weight_mk]
    omega
  unfold Visitor.visitBin
  refine (bind (k := 0) (P := fun _ => True) (neutral fun st a st' h => ?_) ?_).le (Nat.le_of_eq (Nat.zero_add _))
  · simp only [enterSpan] at h
    split at h <;> cases h <;> exact ⟨trivial, rfl⟩
  · rintro ⟨old, cur⟩ _
    simp only
    split
    · exact he old _
    · split
      · next hl =>
        have hw : mt.br .binaryExpr (cx.range sp) + (mt.weights cx [left, right] +
            ((left.operandSpans ++ right.operandSpans).map fun sp => mt.arm (cx.range sp)).sum) ≤
            mt.weight cx (mk (.bin op) sp [left, right]) := by
          rw [Meter.weight_mk]
          simp [Meter.own, stmtSpans, initOf, fnSpans, fnHead, branchSpans, armSpans, hl]
          omega
        refine (bind (k := 0) (P := fun _ => True) (neutral fun st a st' h => by
          cases h; exact ⟨trivial, rfl⟩) fun _ _ => bind (k := mt.br .binaryExpr (cx.range sp)) (P := fun _ => True) ?_
            fun b _ => ?_).le (by rw [Nat.zero_add]; exact hw)
        · unfold logicalBranch
          split
          · exact pure trivial
          · exact newBranch _ _ _
        · exact (bind (wrapBin hgo b (hn.child (by simp))) fun _ _ => bind (j := 0) (wrapBin hgo b (hn.child (by simp)))
            fun _ _ => pure trivial).le (by simp; omega)
      · exact he old _

theorem visitCase {b : Nat} {sp : Span} {test : Node} {cons : List Node}
    (hn : PlainInits (mk .switchCase sp (test :: cons))) :
    Costs mt (visitCase cx go b sp test cons) (mt.weight cx (mk .switchCase sp (test :: cons))) fun _ => True := by
  unfold Visitor.visitCase
  refine (bind (addPath _ _) fun _ _ => bind (hgo _ test (hn.child (by simp))) fun _ _ =>
    bind (j := 0) (visitStmts hgo fun c hc => hn.child (by simp [hc])) fun _ _ => pure trivial).le ?_
  rw [Meter.weight_mk, Meter.weights_cons]
  simp only [Meter.own, armSpans, List.map_cons, List.map_nil, List.sum_cons, List.sum_nil]
  omega

theorem visitWithBody {cur : Option IgnoreScope} {body : Node} (hb : PlainInits body) :
    Costs mt (visitWithBody cx go cur body) (mt.weight cx body) fun _ => True := by
  unfold Visitor.visitWithBody
  split
  · rw [Meter.block]
    exact bind (j := 0) (insertStmts hgo fun c hc => hb.child hc) fun _ _ => pure trivial
  · exact bind (j := 0) (fresh (hgo _ _ hb)) fun _ _ => pure trivial

theorem wrapArm {cur : Option IgnoreScope} {b : Nat} {r : Range} {s : Node} (hs : PlainInits s) :
    CostsIn mt b r (wrapArm cx go cur b r s) (mt.weight cx s) fun _ => True := by
  unfold Visitor.wrapArm
  refine (CostsIn.bind (P := fun _ => True) (.addOwn b r) fun i _ => within ?_ b r).le (Nat.le_of_eq (Nat.zero_add _))
  split
  · rw [Meter.block]
    exact bind (j := 0) (insertStmts hgo fun c hc => hs.child hc) fun _ _ => pure trivial
  · exact bind (j := 0) (fresh (hgo _ _ hs)) fun _ _ => pure trivial

theorem visitIf {m : Mode} {cur : Option IgnoreScope} {sp : Span} {test cons alt : Node}
    (hn : PlainInits (mk .ifStmt sp [test, cons, alt])) :
    Costs mt (visitIf cx go m cur sp test cons alt) (mt.weight cx (mk .ifStmt sp [test, cons, alt])) fun _ => True := by
  unfold Visitor.visitIf
  refine (bind (mark _) fun _ _ => newIf fun b =>
    CostsIn.bind (P := fun _ => True) (k := mt.weight cx cons) (.keepIf trivial (wrapArm hgo (hn.child (by simp)))) fun _ _ =>
    CostsIn.bind (P := fun _ => True) (k := mt.weight cx alt) (.keepIf trivial ?_) fun _ _ =>
    within (bind (j := 0) (hgo m test (hn.child (by simp))) fun _ _ => pure trivial) _ _).le ?_
  · split
    · refine (wrapArm hgo (.mk_of rfl (by simp))).le ?_
      rw [Meter.block]; simp
    · exact wrapArm hgo (hn.child (by simp))
  · rw [Meter.weight_mk]
    simp [Meter.own, stmtSpans, fnSpans, fnHead, branchSpans, armSpans]
    omega

omit hgo in
theorem le_sum_of_mem {a : Nat} {l : List Nat} (h : a ∈ l) : a ≤ l.sum := by
  induction l with
  | nil => cases h
  | cons b l ih =>
    rw [List.sum_cons]
    rcases List.mem_cons.1 h with rfl | h
    · omega
    · have := ih h
      omega

omit hgo in
theorem declared {o : Option String} {sp fsp : Span} :
    ((o.map fun x => (sp, x)).map (·.1)).getD fsp = if o.isSome then sp else fsp := by
  cases o <;> rfl

omit hgo in
theorem stmtSpans_exprStmt {sp : Span} {e : Node} (hd : isDirectiveLit e = false) (hi : isInjectedExpr e = false) :
    stmtSpans (mk .exprStmt sp [e]) = [sp] := by
  unfold stmtSpans
  split
  · next h =>
    cases h
    simp only [isDirectiveLit, directives, List.contains_eq_mem, decide_eq_false_iff_not] at hd
    rw [if_neg hd]
  · next h => cases h; cases hi
  · next h => cases h; cases hi
  · next h => cases h; rfl
  all_goals first
    | (next h => cases h)
    | skip
  next h _ _ _ _ _ _ _ _ _ _ _ _ _ => exact absurd rfl (h _ _)

/-- A function with its name. -/
theorem withFn {m : Mode} {ident : Option (Span × String)} {kd : Kind} {sp : Span} {id fn : Node}
    (hn : PlainInits (mk kd sp [id, fn]))
    (hf : ∀ a fsp ps ds body, fn = mk (.function a) fsp [ps, ds, body] →
      ((ident.map (·.1)).getD fsp, body.span) ∈ fnSpans cx (mk kd sp [id, fn])) :
    Costs mt (do
      let fn ← Visitor.createFn cx ident fn
      Visitor.visitChildren cx go m (mk kd sp [id, fn])) (mt.weight cx (mk kd sp [id, fn])) fun _ => True := by
  refine (bind (k := mt.own cx (mk kd sp [id, fn])) (createFn (cx := cx) (hn.child (by simp)) ?_) fun f hf' =>
    (visitChildren hgo ?_).le (j := mt.weights cx [id, fn]) ?_).le ?_
  · intro a fsp ps ds body e
    have := hf a fsp ps ds body e
    unfold Meter.own
    have h2 : mt.fn (cx.range ((ident.map (·.1)).getD fsp)) (cx.range body.span) ≤
        ((fnSpans cx (mk kd sp [id, fn])).map fun x => mt.fn (cx.range x.1) (cx.range x.2)).sum :=
      le_sum_of_mem (List.mem_map.2 ⟨_, this, rfl⟩)
    omega
  · intro c hc
    simp only [List.mem_cons, List.not_mem_nil, or_false] at hc
    rcases hc with rfl | rfl
    · exact hn.child (by simp)
    · exact hf'.1
  · simp [hf'.2]
  · exact Nat.le_of_eq (mt.weight_mk ..).symm

/-- An initialiser. -/
theorem withInit {m : Mode} {init : Node} {kd : Kind} {sp : Span} {pre post : List Node}
    (hn : PlainInits (mk kd sp (pre ++ init :: post))) (hi : initOf (mk kd sp (pre ++ init :: post)) = some init)
    (hs : stmtSpans (mk kd sp (pre ++ init :: post)) = if init.isNone then [] else [init.span]) :
    Costs mt (do
      let v ← Visitor.keepIf init.isNone init (Visitor.coverStatement cx go m init)
      Visitor.visitChildren cx go m (mk kd sp (pre ++ v :: post))) (mt.weight cx (mk kd sp (pre ++ init :: post)))
      fun _ => True := by
  have hinit := hn.child (c := init) (by simp)
  obtain ⟨h1, h2⟩ := (PlainInits.mk_iff.1 hn).1 init hi
  refine (bind (k := mt.own cx (mk kd sp (pre ++ init :: post))) (P := Like mt cx init) ?_ fun v hv =>
    (visitChildren hgo ?_).le (j := mt.weights cx (pre ++ init :: post)) ?_).le ?_
  · unfold Visitor.keepIf
    split
    · exact pure ⟨hinit, rfl⟩
    · next h0 =>
      refine (coverStatement hinit h1 h2).le ?_
      unfold Meter.own
      rw [hs, if_neg h0]
      simp only [List.map_cons, List.map_nil, List.sum_cons, List.sum_nil]
      omega
  · intro c hc
    rcases List.mem_append.1 hc with hc | hc
    · exact hn.child (List.mem_append_left _ hc)
    · rcases List.mem_cons.1 hc with rfl | hc
      · exact hv.1
      · exact hn.child (List.mem_append_right _ (List.mem_cons_of_mem _ hc))
  · simp [Meter.weights, hv.2]
  · exact Nat.le_of_eq (mt.weight_mk ..).symm

/-- A statement that is marked before its children are visited. -/
theorem marked {m : Mode} {kd : Kind} {sp : Span} {cs : List Node} {p : Prop} [Decidable p]
    (hn : PlainInits (mk kd sp cs)) (hs : ¬ p → stmtSpans (mk kd sp cs) = [sp]) :
    Costs mt (do
      Visitor.keepIf p () (Visitor.mark cx sp)
      Visitor.visitChildren cx go m (mk kd sp cs)) (mt.weight cx (mk kd sp cs)) fun _ => True := by
  refine (bind (k := mt.own cx (mk kd sp cs)) (P := fun _ => True) ?_ fun _ _ =>
    visitChildren hgo fun c hc => hn.child hc).le ?_
  · unfold Visitor.keepIf
    split
    · exact pure trivial
    · next h =>
      refine (mark _).le ?_
      unfold Meter.own
      rw [hs h]
      simp only [List.map_cons, List.map_nil, List.sum_cons, List.sum_nil]
      omega
  · exact Nat.le_of_eq (mt.weight_mk ..).symm

theorem marked' {m : Mode} {kd : Kind} {sp : Span} {cs : List Node}
    (hn : PlainInits (mk kd sp cs)) (hs : stmtSpans (mk kd sp cs) = [sp]) :
    Costs mt (do
      Visitor.mark cx sp
      Visitor.visitChildren cx go m (mk kd sp cs)) (mt.weight cx (mk kd sp cs)) fun _ => True :=
  marked (p := False) hgo hn fun _ => hs

theorem visitNode (m : Mode) {n : Node} (hn : PlainInits n) :
    Costs mt (visitNode cx go m n) (mt.weight cx n) fun _ => True := by
  have hch : ∀ m, Costs mt (Visitor.visitChildren cx go m n) (mt.weight cx n) fun _ => True := by
    intro m
    cases n with
    | mk kd sp cs =>
      refine (visitChildren hgo fun c hc => hn.child hc).le ?_
      rw [Meter.weight_mk]
      omega
  unfold Visitor.visitNode
  split <;> first
    | exact guarded (hch m)
    | exact guarded (marked' hgo hn rfl)
    | exact frame fun _ => hch m
    | exact frame fun _ => marked hgo hn fun _ => rfl
    | skip
  -- function declaration
  · refine guarded (withFn hgo hn ?_)
    rintro a fsp ps ds body rfl
    rw [declared]
    exact List.mem_singleton.2 rfl
  -- arrow
  · exact guarded (visitArrow hgo (hn.child (by simp)))
  -- function expression
  · refine guarded ?_
    simp only
    refine ite' (fun _ => pure trivial) fun hx => ?_
    · refine withFn hgo hn ?_
      rintro a fsp ps ds body rfl
      rw [declared]
      simp only [fnSpans, fnHead, bodyOf]
      rw [if_neg (by exact hx)]
      exact List.mem_singleton.2 rfl
  -- expression statement
  · next sp e =>
    refine frame fun cur => ?_
    split
    · exact pure trivial
    · next hd =>
      refine marked hgo hn fun hi => stmtSpans_exprStmt (by simpa using hd) ?_
      have := fun h => hi (.inr h)
      simpa using this
  -- conditional
  · exact frame fun cur => visitCond hgo hn
  -- class properties
  · exact guarded (withInit hgo (pre := [_]) (post := [_]) hn rfl rfl)
  · exact guarded (withInit hgo (pre := [_]) (post := [_]) hn rfl rfl)
  -- methods
  · refine guarded ?_
    split
    · next name hname =>
      split
      · exact pure trivial
      · refine withFn hgo hn ?_
        rintro a fsp ps ds body rfl
        simp_all [fnSpans, fnHead, bodyOf, Ctx.excludes]
    · exact pure trivial
  · refine guarded ?_
    split
    · next name hname =>
      split
      · exact pure trivial
      · refine withFn hgo hn ?_
        rintro a fsp ps ds body rfl
        simp_all [fnSpans, fnHead, bodyOf, Ctx.excludes]
    · refine withFn hgo hn ?_
      rintro a fsp ps ds body rfl
      simp_all [fnSpans, fnHead, bodyOf, Ctx.excludes]
  -- accessors
  · next key _ =>
    refine guarded (visitAccessor hgo (pre := []) rfl ?_ rfl hn)
    simp only [fnSpans, fnHead, bodyOf]
    by_cases hx : cx.excludes key.propName? = true
    · rw [if_pos hx, if_pos hx]
    · rw [if_neg hx, if_neg hx]
      cases key.propName?.isSome <;> rfl
  · next key _ _ _ =>
    refine guarded (visitAccessor hgo (pre := [_, _]) rfl ?_ rfl hn)
    simp only [fnSpans, fnHead, bodyOf]
    by_cases hx : cx.excludes key.propName? = true
    · rw [if_pos hx, if_pos hx]
    · rw [if_neg hx, if_neg hx]
      cases key.propName?.isSome <;> rfl
  -- declarator
  · exact guarded (withInit hgo (pre := [_]) (post := []) hn rfl rfl)
  -- loop
  · next kd sp cs =>
    refine guarded ((bind (mark _) fun _ _ => visitChildren hgo ?_).le ?_)
    · have : ∀ cs : List Node, (∀ c ∈ cs, PlainInits c) → ∀ c ∈ blockifyLast cs, PlainInits c := by
        intro cs h
        fun_induction Visitor.blockifyLast cs with
        | case1 => exact h
        | case2 body =>
          intro c hc
          cases List.mem_singleton.1 hc
          unfold Visitor.blockify
          split
          · exact h _ (by simp)
          · refine .mk_of rfl ?_
            intro c hc
            cases List.mem_singleton.1 hc
            exact h _ (by simp)
        | case3 c cs _ ih =>
          intro d hd
          rcases List.mem_cons.1 hd with rfl | hd
          · exact h _ (by simp)
          · exact ih (fun d hd => h d (by simp [hd])) d hd
      exact this cs fun c hc => hn.child hc
    · rw [Meter.weight_mk, Meter.blockifyLast]
      simp [Meter.own, stmtSpans, fnSpans, fnHead, branchSpans, armSpans]
  -- switch
  · next sp cs =>
    refine frame fun cur => ite (pure trivial) ((bind (mark _) fun _ _ => bind (newBranch _ _ _) fun b _ =>
      bind (j := 0) (fresh (visitChildren hgo fun c hc => hn.child hc)) fun _ _ => pure trivial).le ?_)
    rw [Meter.weight_mk]
    simp [Meter.own, stmtSpans, fnSpans, fnHead, branchSpans, armSpans]
    omega
  -- if
  · exact frame fun cur => ite (pure trivial) (visitIf hgo hn)
  -- binary
  · exact visitBin hgo hn (visitChildren hgo fun c hc => hn.child hc)
  -- default value
  · refine guarded ((bind (newBranch _ _ _) fun b _ => bind (j := 0) (wrapBin hgo b (hn.child (by simp))) fun _ _ =>
      pure trivial).le ?_)
    rw [Meter.weight_mk]
    simp [Meter.own, stmtSpans, initOf, fnSpans, fnHead, branchSpans, armSpans]
    omega
  -- with
  · refine frame fun cur => ite (pure trivial) ((bind (mark _) fun _ _ => bind (j := 0) (visitWithBody hgo
      (hn.child (by simp))) fun _ _ => pure trivial).le ?_)
    rw [Meter.weight_mk]
    simp [Meter.own, stmtSpans, fnSpans, fnHead, branchSpans, armSpans]
  -- switch case
  · split
    · exact guarded (visitCase hgo hn)
    · exact hch _
  -- module declarations, debugger, others
  · split
    · exact guarded (hch _)
    · exact hch _
  · split
    · exact guarded (hch _)
    · exact hch _
  · split
    · exact guarded (hch _)
    · exact hch _
  · exact hch _

theorem step (m : Mode) {n : Node} (hn : PlainInits n) :
    Costs mt (step cx go m n) (mt.weight cx n) fun _ => True := by
  have hch : ∀ b, Costs mt (Visitor.logicalChildren go b n) (mt.weight cx n) fun _ => True := by
    intro b
    cases n with
    | mk kd sp cs =>
      refine (logicalChildren hgo fun c hc => hn.child hc).le ?_
      rw [Meter.weight_mk]
      omega
  unfold Visitor.step
  split
  · unfold visitLogical
    split
    · exact frame fun _ => (hgo _ _ hn).drop
    · exact hch _
  · unfold visitLogicalInner
    split
    · exact visitBin hgo hn (logicalChildren hgo fun c hc => hn.child hc)
    · exact hch _
  · exact visitNode hgo _ hn

end

/-- A visit makes no more entries than the tree accounts for. -/
theorem visit (mt : Meter) (cx : Ctx) (fuel : Nat) : Rec mt cx (visit cx fuel) := by
  induction fuel with
  | zero => intro m n _ st a st' _ h; cases h
  | succ fuel ih => intro m n hn; exact (step ih m hn).result (visit_span cx (fuel + 1) m n)

/-! ### Programs -/

theorem withBefore {x : M Node} (hx : Costs mt x k fun _ => True) :
    Costs mt (withBefore x) k fun _ => True :=
  bind (j := 0) hx fun _ _ => bind (k := 0) (j := 0) (P := fun _ => True)
    (neutral fun st a st' h => by cases h; exact ⟨trivial, rfl⟩) fun _ _ => pure trivial

theorem itemBody {fuel : Nat} {item : Node} (hi : PlainInits item) :
    Costs mt (itemBody cx fuel item) (mt.weight cx item) fun _ => True := by
  unfold Visitor.itemBody Visitor.keepIf
  split
  · exact (bind (k := 0) (P := fun _ => True) (pure trivial) fun _ _ => (visit mt cx fuel .coverage item hi).drop).le
      (Nat.le_of_eq (Nat.zero_add _))
  · next h =>
    unfold isExportConst at h
    split at h
    · next sp dsp ds =>
      refine (bind (mark _) fun _ _ => (?_ : Costs mt _ (mt.weights cx [mk (.varDecl .const) dsp ds]) _)).le ?_
      · cases fuel with
        | zero => intro st a st' _ h; cases h
        | succ fuel =>
          exact guarded (visitChildren (visit mt cx fuel) fun c hc => hi.child hc)
      · rw [Meter.weight_mk]
        simp [Meter.own, stmtSpans, fnSpans, fnHead, branchSpans, armSpans, Node.span]
    · exact absurd rfl h

theorem visitItem {fuel : Nat} {item : Node} (hi : PlainInits item) :
    Costs mt (visitItem cx fuel item) (mt.weight cx item) fun _ => True := by
  unfold Visitor.visitItem
  exact ite (pure trivial) (frame fun _ => withBefore (itemBody hi))

theorem visitItems {fuel : Nat} {items : List Node} (hi : ∀ i ∈ items, PlainInits i) :
    Costs mt (visitItems cx fuel items) (mt.weights cx items) fun _ => True := by
  induction items with
  | nil => exact pure trivial
  | cons i items ih =>
    rw [Meter.weights_cons]
    exact bind (visitItem (hi i (by simp))) fun _ _ => bind (j := 0) (ih fun c hc => hi c (by simp [hc]))
      fun _ _ => pure trivial

theorem visitScriptItems {fuel : Nat} {items : List Node} (hi : ∀ i ∈ items, PlainInits i) :
    Costs mt (visitScriptItems cx fuel items) (mt.weights cx items) fun _ => True := by
  induction items with
  | nil => exact pure trivial
  | cons i items ih =>
    rw [Meter.weights_cons]
    exact bind (withBefore (visit mt cx fuel .coverage i (hi i (by simp))).drop) fun _ _ =>
      bind (j := 0) (ih fun c hc => hi c (by simp [hc])) fun _ _ => pure trivial

theorem coverageTemplates : Costs mt coverageTemplates 0 fun _ => True := by
  intro st a st' hc h
  cases h
  exact ⟨mt.freeze _, trivial, .freeze hc⟩

theorem programBody {fuel : Nat} {p : Node} (hp : PlainInits p) :
    Costs mt (programBody cx fuel p) (mt.weight cx p) fun _ => True := by
  unfold Visitor.programBody
  split
  · unfold Visitor.moduleItems
    refine (bind (P := fun _ => True) (j := 0) (bind (k := 0) (P := fun _ => True) (neutral fun st a st' h => ?_) fun _ _ =>
      bind (visitItems fun i hi => hp.child hi) fun _ _ => bind (j := 0) coverageTemplates fun x _ => ?_)
      fun _ _ => pure trivial).le (j := mt.weight cx _) ?_
    · unfold ensureRoot at h
      split at h <;> cases h <;> exact ⟨trivial, rfl⟩
    · obtain ⟨d, c⟩ := x
      exact bind (k := 0) (j := 0) (P := fun _ => True) (keepIf trivial (neutral fun st a st' h => by
        cases h; exact ⟨trivial, rfl⟩)) fun _ _ => pure trivial
    · rw [Meter.weight_mk]
      omega
  · unfold Visitor.scriptBody
    refine (bind (P := fun _ => True) (j := 0) (bind (visitScriptItems fun i hi => hp.child hi) fun _ _ =>
      bind (j := 0) coverageTemplates fun x _ => pure trivial) fun _ _ => pure trivial).le (j := mt.weight cx _) ?_
    rw [Meter.weight_mk]
    omega
  · exact pure trivial

theorem visitProgram {fuel : Nat} {p : Node} (hp : PlainInits p) :
    Costs mt (visitProgram cx fuel p) (mt.weight cx p) fun _ => True := by
  unfold Visitor.visitProgram
  refine (bind (k := 0) (P := fun _ => True) (neutral fun st a st' h => by cases h; exact ⟨trivial, rfl⟩) fun _ _ =>
    ite (pure trivial) (bind (j := 0) (programBody hp) fun _ _ => bind (k := 0) (j := 0) (P := fun _ => True)
      (neutral fun st a st' h => by cases h; exact ⟨trivial, rfl⟩) fun _ _ => pure trivial)).le
      (Nat.le_of_eq (Nat.zero_add _))

/-- The report of a program has no more entries than the program accounts for. -/
theorem instrument {fuel : Nat} {path : String} {sm : Option SourceMap} {p p' : Node} {cov : SourceCoverage}
    (hp : PlainInits p) (h : instrument cx fuel path sm p = .ok (p', cov)) : mt.size cov ≤ mt.weight cx p := by
  unfold Visitor.instrument at h
  split at h
  · cases h
  · next st hv =>
    cases h
    have := (visitProgram (mt := mt) hp _ _ _ (by intro e he; cases he) hv).1
    unfold initial at this
    rw [mt.new] at this
    omega

end Costs
end Visitor
end Verif
