import Verif.Lemmas.SoundProgram
import Verif.Lemmas.StepsCount
import Verif.Lemmas.Fuel
import Verif.Lemmas.Run
import Verif.Spec.Bodied
/-
Visits end. `Ends` is total correctness: with a large enough bound the computation gives a
result that does not depend on the bound.
-/
namespace Verif
open Node RegOp

/-- From the given state `x` gives a result, the same for every large enough bound. -/
def EndsAt (fi : File) (x : Nat → M α) (h : List RegOp) (P : α → List RegOp → Prop) (st : St) : Prop :=
  ∃ F a st' h', (∀ f, F ≤ f → x f st = .ok (a, st')) ∧ h <+: h' ∧ fi.good h' st' ∧
    st.nodes.length ≤ st'.nodes.length ∧ P a h'

/-- From every state for the history, with a nonempty node stack. -/
def Ends (fi : File) (x : Nat → M α) (h : List RegOp) (P : α → List RegOp → Prop) : Prop :=
  ∀ st, fi.good h st → st.nodes ≠ [] → EndsAt fi x h P st

namespace Ends
variable {fi : File} {h : List RegOp} {α β : Type} {P : α → List RegOp → Prop}

theorem pure {a : α} (hp : P a h) : Ends fi (fun _ => (Pure.pure a : M α)) h P :=
  fun st hg _ => ⟨0, a, st, h, fun _ _ => rfl, List.prefix_refl _, hg, Nat.le_refl _, hp⟩

theorem bindAt {x : Nat → M α} {k : Nat → α → M β} {Q : β → List RegOp → Prop} {st : St}
    (hx : EndsAt fi x h P st) (hn : st.nodes ≠ [])
    (hk : ∀ a h', h <+: h' → P a h' → Ends fi (fun f => k f a) h' Q) :
    EndsAt fi (fun f => x f >>= k f) h Q st := by
  obtain ⟨F, a, st1, h1, e1, p1, g1, l1, q1⟩ := hx
  have hn1 : st1.nodes ≠ [] := by
    intro h0; rw [h0] at l1; exact hn (List.length_eq_zero_iff.1 (Nat.le_zero.1 l1))
  obtain ⟨G, b, st2, h2, e2, p2, g2, l2, q2⟩ := hk a h1 p1 q1 st1 g1 hn1
  refine ⟨max F G, b, st2, h2, ?_, p1.trans p2, g2, Nat.le_trans l1 l2, q2⟩
  intro f hf
  show M.bind (x f) (k f) st = _
  rw [M.bind, e1 f (by omega)]
  exact e2 f (by omega)

theorem bind {x : Nat → M α} {k : Nat → α → M β} {Q : β → List RegOp → Prop}
    (hx : Ends fi x h P) (hk : ∀ a h', h <+: h' → P a h' → Ends fi (fun f => k f a) h' Q) :
    Ends fi (fun f => x f >>= k f) h Q :=
  fun st hg hn => bindAt (hx st hg hn) hn hk

theorem conseq {x : Nat → M α} {Q : α → List RegOp → Prop} (hx : Ends fi x h P)
    (hp : ∀ a h', P a h' → Q a h') : Ends fi x h Q := by
  intro st hg hn
  obtain ⟨F, a, st1, h1, e1, p1, g1, l1, q1⟩ := hx st hg hn
  exact ⟨F, a, st1, h1, e1, p1, g1, l1, hp _ _ q1⟩

theorem ite {p : Prop} [Decidable p] {x y : Nat → M α} (hx : Ends fi x h P) (hy : Ends fi y h P) :
    Ends fi (fun f => if p then x f else y f) h P := by
  by_cases hp : p
  · simpa only [hp, if_true] using hx
  · simpa only [hp, if_false] using hy

theorem keepIf {p : Prop} [Decidable p] {a : α} {x : Nat → M α} (ha : p → P a h)
    (hx : ¬ p → Ends fi x h P) : Ends fi (fun f => Visitor.keepIf p a (x f)) h P := by
  unfold Visitor.keepIf
  by_cases hp : p
  · simpa only [hp, if_true] using pure (ha hp)
  · simpa only [hp, if_false] using hx hp

/-- `on_enter`, body, `on_exit`. -/
theorem frame {cx : Ctx} {t : Tag} {sp : Span} {body : Nat → Option IgnoreScope → M α}
    (hb : ∀ cur, Ends fi (fun f => body f cur) h P) :
    Ends fi (fun f => Visitor.frame cx t sp (body f)) h P := by
  intro st hg hn
  have hkey : ∀ st1 old cur, st1.nodes = t :: st.nodes → st1.cov = st.cov →
      Visitor.enter cx t sp st = .ok ((old, cur), st1) →
      EndsAt fi (fun f => Visitor.frame cx t sp (body f)) h P st := by
    intro st1 old cur hn1 hc1 he
    have hg1 : fi.good h st1 := by unfold File.good; rw [hc1]; exact hg
    obtain ⟨F, a, st2, h2, e2, p2, g2, l2, q2⟩ := hb cur st1 hg1 (by rw [hn1]; simp)
    refine ⟨F, a, { st2 with ignore := old, nodes := st2.nodes.tail }, h2, ?_, p2, g2, ?_, q2⟩
    · intro f hf
      show M.bind (Visitor.enter cx t sp) _ st = _
      rw [M.bind, he]
      show M.bind (body f cur) _ st1 = _
      have e3 : body f cur st1 = .ok (a, st2) := e2 f hf
      rw [M.bind, e3]
      rfl
    · rw [hn1] at l2
      simp only [List.length_cons, List.length_tail] at l2 ⊢
      omega
  by_cases hig : st.ignore = some .next
  · exact hkey { st with nodes := t :: st.nodes } st.ignore st.ignore rfl rfl (by
      simp [Visitor.enter, Visitor.push, Visitor.enterSpan, Bind.bind, M.bind, hig])
  · exact hkey { st with nodes := t :: st.nodes, ignore := cx.hint sp } st.ignore (cx.hint sp) rfl rfl (by
      simp [Visitor.enter, Visitor.push, Visitor.enterSpan, Bind.bind, M.bind, hig])

theorem guarded {cx : Ctx} {t : Tag} {n : Node} {body : Nat → M Node} {P : Node → List RegOp → Prop}
    (hp : P n h) (hb : Ends fi body h P) :
    Ends fi (fun f => Visitor.guarded cx t n (body f)) h P :=
  frame fun _ => ite (pure hp) hb

/-- A new visitor. -/
theorem fresh {ig : Option IgnoreScope} {x : Nat → M α} (hx : Ends fi x h P) :
    Ends fi (fun f => Visitor.fresh ig (x f)) h (fun a => P a.1) := by
  intro st hg hn
  obtain ⟨F, a, st1, h1, e1, p1, g1, l1, q1⟩ := hx { st with before := [], ignore := ig } hg hn
  refine ⟨F, (a, st1.before), { st with cov := st1.cov }, h1, ?_, p1, g1, Nat.le_refl _, q1⟩
  intro f hf
  simp only [Visitor.fresh]
  rw [e1 f hf]

/-- A computation that only looks at the state, or changes what is pending. -/
theorem neutral {x : M α} (hx : ∀ st, st.nodes ≠ [] → ∃ a st', x st = .ok (a, st') ∧ st'.cov = st.cov ∧
    st.nodes.length ≤ st'.nodes.length) : Ends fi (fun _ => x) h anyH := by
  intro st hg hn
  obtain ⟨a, st', h1, h2, h3⟩ := hx st hn
  refine ⟨0, a, st', h, fun _ _ => h1, List.prefix_refl _, ?_, h3, trivial⟩
  unfold File.good; rw [h2]; exact hg

theorem register {x : M Nat} (op : RegOp) (hk : ∀ k l, op = .path k l → k < (branches h).length)
    (hr : ∀ st, x st = match op.run st.cov with
      | .error er => .error er
      | .ok (cov, id) => .ok (id, { st with cov := cov })) :
    Ends fi (fun _ => x) h (fun a h' => a = expectedId h op ∧ h' = h ++ [op]) := by
  intro st hg hn
  obtain ⟨c', h1, h2⟩ := inv_run hg.2 hg.1 op hk
  refine ⟨0, expectedId h op, { st with cov := c' }, h ++ [op], ?_, List.prefix_append _ _,
    ⟨h2, legal_concat hg.2 hk⟩, Nat.le_refl _, rfl, rfl⟩
  intro f _
  show x st = _
  rw [hr, h1]

theorem newStatement (r : Range) : Ends fi (fun _ => Visitor.newStatement r) h anyH :=
  (register (.statement r) (by intro k l h; cases h) fun _ => rfl).conseq fun _ _ _ => trivial

theorem newFunction (n : Option String) (d l : Range) :
    Ends fi (fun _ => Visitor.newFunction n d l) h anyH :=
  (register (.function n d l) (by intro k l h; cases h) fun _ => rfl).conseq fun _ _ _ => trivial

theorem newBranch (t : BranchType) (l : Range) (g : Bool) :
    Ends fi (fun _ => Visitor.newBranch t l g) h (fun a h' => (branches h')[a]? = some (t, l, g)) :=
  (register (.branch t l g) (by intro k l h; cases h) fun _ => rfl).conseq fun a h' hp => by
    obtain ⟨rfl, rfl⟩ := hp
    rw [branches_append]
    simp [branches, expectedId]

theorem addPath (k : Nat) (l : Range) (hk : k < (branches h).length) :
    Ends fi (fun _ => Visitor.addPath k l) h anyH :=
  (register (.path k l) (by rintro k l ⟨⟩; exact hk) fun _ => rfl).conseq fun _ _ _ => trivial

theorem mark (cx : Ctx) (sp : Span) : Ends fi (fun _ => Visitor.mark cx sp) h anyH :=
  bind (newStatement _) fun _ _ _ _ => neutral fun _ _ => ⟨_, _, rfl, rfl, Nat.le_refl _⟩

/-- `self.nodes.push(..)`, body, `self.nodes.pop()`. -/
theorem bracket {t : Tag} {x : Nat → M α} (hx : Ends fi x h P) :
    Ends fi (fun f => do Visitor.push t; let a ← x f; Visitor.pop; Pure.pure a) h P := by
  intro st hg hn
  obtain ⟨F, a, st1, h1, e1, p1, g1, l1, q1⟩ := hx { st with nodes := t :: st.nodes } hg (by simp)
  refine ⟨F, a, { st1 with nodes := st1.nodes.tail }, h1, ?_, p1, g1, ?_, q1⟩
  · intro f hf
    show M.bind (x f) _ _ = _
    rw [M.bind, e1 f hf]
    rfl
  · simp only [List.length_cons, List.length_tail] at l1 ⊢
    omega

/-- `self.nodes.push(..)`, body, `on_exit`. -/
theorem bracketExit {t : Tag} {old : Option IgnoreScope} {x : Nat → M α} (hx : Ends fi x h P) :
    Ends fi (fun f => do Visitor.push t; let a ← x f; Visitor.exit old; Pure.pure a) h P := by
  intro st hg hn
  obtain ⟨F, a, st1, h1, e1, p1, g1, l1, q1⟩ := hx { st with nodes := t :: st.nodes } hg (by simp)
  refine ⟨F, a, { st1 with nodes := st1.nodes.tail, ignore := old }, h1, ?_, p1, g1, ?_, q1⟩
  · intro f hf
    show M.bind (x f) _ _ = _
    rw [M.bind, e1 f hf]
    rfl
  · simp only [List.length_cons, List.length_tail] at l1 ⊢
    omega

end Ends

namespace Node

/-- Nodes with an initialiser. -/
def initCount (n : Node) : Nat := countKinds Kind.inits n

theorem bodiedList_iff (cs : List Node) : bodiedList cs = true ↔ ∀ c ∈ cs, bodied c = true := by
  induction cs with
  | nil => simp [bodiedList]
  | cons c cs ih => simp [bodiedList, ih]

theorem bodied_mk (k : Kind) (sp : Span) (cs : List Node) :
    bodied (mk k sp cs) = true ↔ hasBody (mk k sp cs) = true ∧ ∀ c ∈ cs, bodied c = true := by
  rw [bodied, Bool.and_eq_true, bodiedList_iff]

/-- The extra weight of nodes whose children are rewritten before they are visited. -/
def heavy : Kind → Nat
  | .cond | .loop _ | .fnDecl | .fnExpr | .classMethod | .methodProp | .getterProp | .setterProp
  | .arrow _ => 10
  | _ => 1

mutual
/-- A measure that decreases from a node to what is visited below it. -/
def weight : Node → Nat
  | mk k _ cs => heavy k + weightList cs

/-- `weight` of a list. -/
def weightList : List Node → Nat
  | [] => 0
  | c :: cs => weight c + weightList cs
end

theorem heavy_pos (k : Kind) : 0 < heavy k := by cases k <;> simp [heavy]

theorem weight_pos (n : Node) : 0 < weight n := by
  cases n with
  | mk k sp cs => rw [weight]; have := heavy_pos k; omega

theorem weight_le_of_mem {c : Node} {cs : List Node} (h : c ∈ cs) : weight c ≤ weightList cs := by
  induction cs with
  | nil => cases h
  | cons d cs ih =>
    rw [weightList]
    rcases List.mem_cons.1 h with rfl | h
    · omega
    · have := ih h; omega

theorem count_le_of_mem {p : Kind → Bool} {c : Node} {cs : List Node} (h : c ∈ cs) :
    countKinds p c ≤ countKindsList p cs := by
  induction cs with
  | nil => cases h
  | cons d cs ih =>
    rw [countKindsList]
    rcases List.mem_cons.1 h with rfl | h
    · omega
    · have := ih h; omega

/-- The order in which visits descend. -/
def Below (c n : Node) : Prop :=
  initCount c < initCount n ∨ (initCount c ≤ initCount n ∧ weight c < weight n)

theorem below_child {k : Kind} {sp : Span} {cs : List Node} {c : Node} (h : c ∈ cs) :
    Below c (mk k sp cs) := by
  right
  have h1 := weight_le_of_mem h
  have h2 := count_le_of_mem (p := Kind.inits) h
  have := heavy_pos k
  simp only [initCount, countKinds_mk, weight]
  omega

theorem Below.trans {a b c : Node} (h1 : Below a b) (h2 : Below b c) : Below a c := by
  unfold Below at *; omega

end Node

/-- Steps keep the bodies of functions. -/
theorem Steps.bodied {cx : Ctx} {n q h n' q' h' o} (s : Steps cx n q h n' q' h' o)
    (hb : n.bodied = true) : n'.bodied = true := by
  have hc : ∀ c, (counterStmt c).bodied = true := fun c => rfl
  induction s with
  | refl => exact hb
  | trans _ _ ih1 ih2 => exact ih2 (ih1 hb)
  | @child c q h c' q' h' o k sp l r _ s ih =>
    rw [bodied_mk] at hb ⊢
    refine ⟨?_, ?_⟩
    · have hr := s.root.1
      cases k <;> try rfl
      have h1 := hb.1
      simp only [hasBody] at h1 ⊢
      cases r with
      | nil => simpa [hr] using h1
      | cons d r =>
        rw [List.getLast?_append, List.getLast?_cons_cons] at h1 ⊢
        simpa using h1
    · intro x hx
      have h2 := hb.2
      simp only [List.mem_append, List.mem_cons] at hx h2
      rcases hx with hx | rfl | hx
      · exact h2 x (.inl hx)
      · exact ih (h2 c (.inr (.inl rfl)))
      · exact h2 x (.inr (.inr hx))
  | @insert s q h s' q' h' o k sp l r hk st ih =>
    rw [bodied_mk] at hb ⊢
    refine ⟨?_, ?_⟩
    · cases k <;> first | rfl | simp [Kind.listPos] at hk
    · intro x hx
      have h2 := hb.2
      simp only [List.mem_append, List.mem_cons] at hx h2
      rcases hx with (hx | hx) | rfl | hx
      · exact h2 x (.inl hx)
      · obtain ⟨c, rfl⟩ := st.out_counters x hx; exact hc c
      · exact ih (h2 s (.inr (.inl rfl)))
      · exact h2 x (.inr (.inr hx))
  | @lose c q h c' q' h' o sp l r st ih =>
    rw [bodied_mk] at hb ⊢
    refine ⟨rfl, ?_⟩
    intro x hx
    have h2 := hb.2
    simp only [List.mem_append, List.mem_cons] at hx h2
    rcases hx with hx | rfl | hx
    · exact h2 x (.inl hx)
    · exact ih (h2 c (.inr (.inl rfl)))
    · exact h2 x (.inr (.inr hx))
  | register => exact hb
  | emit => exact hb
  | headBlock sp ss q1 c q2 h =>
    rw [bodied_mk] at hb ⊢
    refine ⟨rfl, ?_⟩
    intro x hx
    rcases List.mem_cons.1 hx with rfl | hx
    · exact hc c
    · exact hb.2 x hx
  | headCase sp test ss q1 c q2 h =>
    rw [bodied_mk] at hb ⊢
    refine ⟨rfl, ?_⟩
    intro x hx
    simp only [List.mem_cons] at hx
    rcases hx with rfl | rfl | hx
    · exact hb.2 x (by simp)
    · exact hc c
    · exact hb.2 x (by simp [hx])
  | wrap k sp l e r q1 c q2 h hw =>
    rw [bodied_mk] at hb ⊢
    refine ⟨?_, ?_⟩
    · cases k <;> first | rfl | simp [Kind.wraps] at hw
    · intro x hx
      have h2 := hb.2
      simp only [List.mem_append, List.mem_cons] at hx h2
      rcases hx with hx | rfl | hx
      · exact h2 x (.inl hx)
      · have := h2 e (.inr (.inl rfl))
        simp [wrapCounter, counterExpr, Node.bodied, bodiedList, hasBody, this]
      · exact h2 x (.inr (.inr hx))
  | truth k sp l e r q1 b a q2 h hw =>
    rw [bodied_mk] at hb ⊢
    refine ⟨?_, ?_⟩
    · cases k <;> first | rfl | simp [Kind.wraps] at hw
    · intro x hx
      have h2 := hb.2
      simp only [List.mem_append, List.mem_cons] at hx h2
      rcases hx with hx | rfl | hx
      · exact h2 x (.inl hx)
      · have := h2 e (.inr (.inl rfl))
        simp [wrapTruth, increaseTrue, truthCond, validateTrue, callTemp, tempExpr, tempTarget, counterExpr,
          Node.bodied, bodiedList, hasBody, this]
      · exact h2 x (.inr (.inr hx))
  | body k sp l e r q h hk =>
    rw [bodied_mk] at hb ⊢
    refine ⟨?_, ?_⟩
    · cases k <;> first | rfl | simp [Kind.bodyPos] at hk
    · intro x hx
      have h2 := hb.2
      simp only [List.mem_append, List.mem_cons] at hx h2
      rcases hx with hx | rfl | hx
      · exact h2 x (.inl hx)
      · have := h2 e (.inr (.inl rfl))
        simp [Node.bodied, bodiedList, hasBody, this]
      · exact h2 x (.inr (.inr hx))
  | addElse sp test cons alt q h =>
    simp only [Node.bodied, bodiedList, hasBody, Bool.and_eq_true, Bool.true_and, Bool.and_true] at hb ⊢
    exact ⟨hb.1, hb.2.1⟩
  | arrow a sp params e q h =>
    simp only [Node.bodied, bodiedList, hasBody, Bool.and_eq_true, Bool.true_and, Bool.and_true] at hb ⊢
    exact hb

namespace Halts
open Visitor
variable {cx : Ctx} {fi : File}

/-- Every visit of the node, by any visitor, ends. -/
def All (cx : Ctx) (fi : File) (n : Node) : Prop :=
  ∀ m h, m.ok cx h → Ends fi (fun f => visit cx f m n) h anyH

theorem lt_of_typed {t : BranchType} {h : List RegOp} {b : Nat} (hb : TypedBranch t h b) :
    b < (branches h).length := by
  obtain ⟨l, g, h1⟩ := hb
  rcases Nat.lt_or_ge b (branches h).length with h2 | h2
  · exact h2
  · rw [List.getElem?_eq_none h2] at h1; cases h1

theorem lt_of_logical {h : List RegOp} {b : Nat} (hb : LogicalBranch cx h b) :
    b < (branches h).length := by
  obtain ⟨t, l, g, h1, _⟩ := hb
  exact lt_of_typed ⟨l, g, h1⟩

theorem mapList {f : Nat → Node → M Node} {I : List RegOp → Prop} (hI : ∀ h h', h <+: h' → I h → I h')
    (cs : List Node) (hf : ∀ c ∈ cs, ∀ h, I h → Ends fi (fun k => f k c) h anyH) (h : List RegOp)
    (hi : I h) : Ends fi (fun k => M.mapList (f k) cs) h anyH := by
  induction cs generalizing h with
  | nil => exact .pure trivial
  | cons c cs ih =>
    refine .bind (hf c (by simp) h hi) fun a h1 hp _ => ?_
    refine .bind (ih (fun c hc => hf c (by simp [hc])) h1 (hI _ _ hp hi)) fun as h2 _ _ => ?_
    exact .pure trivial

theorem insertStmt (s : Node) (hs : isInjectedStmt s = false → All cx fi s) (h : List RegOp) :
    Ends fi (fun f => insertStmt cx (visit cx f) s) h anyH := by
  unfold Visitor.insertStmt
  cases hi : isInjectedStmt s with
  | true => exact .pure trivial
  | false =>
    simp only [Bool.false_eq_true, if_false]
    refine .frame fun cur => ?_
    refine .ite (.pure trivial) ?_
    refine .bind (.fresh (hs hi .stmt h trivial)) ?_
    rintro ⟨s', before⟩ h1 _ _
    exact .pure trivial

theorem insertStmts (ss : List Node) (hs : ∀ s ∈ ss, isInjectedStmt s = false → All cx fi s)
    (h : List RegOp) : Ends fi (fun f => insertStmts cx (visit cx f) ss) h anyH := by
  induction ss generalizing h with
  | nil => exact .pure trivial
  | cons s ss ih =>
    unfold Visitor.insertStmts
    refine .bind (insertStmt s (hs s (by simp)) h) fun out h1 _ _ => ?_
    refine .bind (ih (fun s hm => hs s (by simp [hm])) h1) fun rest h2 _ _ => ?_
    exact .pure trivial

theorem visitStmts (ss : List Node) (hs : ∀ s ∈ ss, isInjectedStmt s = false → All cx fi s)
    (h : List RegOp) : Ends fi (fun f => visitStmts cx (visit cx f) ss) h anyH := by
  unfold Visitor.visitStmts
  exact .bracket (insertStmts ss hs h)

theorem visitChildren (m : Mode) (n : Node) (hn : ∀ c ∈ n.children, All cx fi c) (h : List RegOp)
    (hm : m.ok cx h) : Ends fi (fun f => visitChildren cx (visit cx f) m n) h anyH := by
  cases n with
  | mk k sp cs =>
    have hmap : ∀ k', Ends fi (fun f => do
        let cs ← M.mapList (visit cx f m) cs
        Pure.pure (mk k' sp cs)) h anyH := fun k' =>
      .bind (mapList (I := fun h => m.ok cx h) (fun _ _ hp => Mode.ok.mono hp) cs
        (fun c hc h' hm' => hn c hc m h' hm') h hm) fun _ _ _ _ => .pure trivial
    by_cases hk : k = .block
    · subst hk
      unfold Visitor.visitChildren
      exact .bind (visitStmts cs (fun s hs _ => hn s hs) h) fun _ _ _ _ => .pure trivial
    · by_cases hk2 : k = .switchCase
      · subst hk2
        cases cs with
        | nil => exact hmap .switchCase
        | cons t cs =>
          unfold Visitor.visitChildren
          refine .bind (hn t (by simp [children]) m h hm) fun _ h1 _ _ => ?_
          exact .bind (visitStmts cs (fun s hs _ => hn s (by simp [children, hs])) h1) fun _ _ _ _ =>
            .pure trivial
      · have : ∀ f, Visitor.visitChildren cx (visit cx f) m (mk k sp cs) =
            (do let cs ← M.mapList (visit cx f m) cs; Pure.pure (mk k sp cs)) := by
          intro f
          unfold Visitor.visitChildren
          split
          · next h0 => cases h0; exact absurd rfl hk
          · next h0 => cases h0; exact absurd rfl hk2
          · next h0 => cases h0; rfl
        simp only [this]
        exact hmap k

theorem replaceWithStmtCounter (e : Node) (h : List RegOp) :
    Ends fi (fun _ => replaceWithStmtCounter cx e) h (fun a _ => ∃ c, a = wrapCounter c e) :=
  .bind (.newStatement _) fun _ _ _ _ => .pure ⟨_, rfl⟩

theorem replaceWithBranchCounter (b : Nat) (e : Node) (h : List RegOp) (hb : b < (branches h).length) :
    Ends fi (fun _ => replaceWithBranchCounter cx b e) h (fun a _ => ∃ c, a = wrapCounter c e) :=
  .bind (.addPath _ _ hb) fun _ _ _ _ => .pure ⟨_, rfl⟩

theorem branches_length_le {h h' : List RegOp} (hp : h <+: h') :
    (branches h).length ≤ (branches h').length := by
  obtain ⟨t, rfl⟩ := hp
  rw [branches_append, List.length_append]; omega

theorem wrapBin (m : Mode) (b : Nat) (e : Node) (he : All cx fi e) (h : List RegOp) (hm : m.ok cx h)
    (hb : LogicalBranch cx h b) : Ends fi (fun f => wrapBin cx (visit cx f) m b e) h anyH := by
  have hlt := lt_of_logical hb
  unfold Visitor.wrapBin
  refine .ite (.pure trivial) (.ite ?_ (.ite ?_ ?_))
  · refine .bind (.fresh (he (.logicalInner b) h hb)) ?_
    rintro ⟨a, _⟩ _ _ _
    exact .pure trivial
  · exact .bind (.addPath _ _ hlt) fun _ _ _ _ => .pure trivial
  · refine .bind (he m h hm) fun a h1 hp _ => ?_
    exact (replaceWithBranchCounter b a h1 (Nat.lt_of_lt_of_le hlt (branches_length_le hp))).conseq
      fun _ _ _ => trivial

theorem createFn (ident : Option (Span × String)) (fn : Node) (hf : fn.bodied = true) (h : List RegOp) :
    Ends fi (fun _ => createFn cx ident fn) h (fun a _ => a.bodied = true ∧
      initCount a = initCount fn ∧ weight a ≤ weight fn + 2) := by
  have hsame : Ends fi (fun _ => (Pure.pure fn : M Node)) h (fun a _ => a.bodied = true ∧
      initCount a = initCount fn ∧ weight a ≤ weight fn + 2) := .pure ⟨hf, rfl, by omega⟩
  unfold Visitor.createFn
  split
  · next at' sp params dec body =>
    have h1 := (bodied_mk _ _ _).1 hf
    obtain ⟨bk, bsp, bs⟩ := body
    have hbk : bk = .block := by
      have := h1.1
      simp only [hasBody, List.getLast?_cons_cons, List.getLast?_singleton, Option.any_some, kind] at this
      cases bk <;> simp_all [Kind.isBlock]
    subst hbk
    refine .bind (.newFunction _ _ _) fun id h2 _ _ => ?_
    refine .pure ⟨?_, ?_, ?_⟩
    · rw [bodied_mk]
      refine ⟨rfl, ?_⟩
      intro x hx
      have h3 := h1.2
      simp only [List.mem_cons, List.not_mem_nil, or_false] at hx h3
      rcases hx with rfl | rfl | rfl
      · exact h3 _ (.inl rfl)
      · exact h3 _ (.inr (.inl rfl))
      · have := (bodied_mk _ _ _).1 (h3 _ (.inr (.inr rfl)))
        rw [bodied_mk]
        refine ⟨rfl, ?_⟩
        intro y hy
        rcases List.mem_cons.1 hy with rfl | hy
        · rfl
        · exact this.2 y hy
    · simp [initCount, countKinds, countKindsList, counterStmt, counterExpr, Kind.inits]
    · simp [weight, weightList, counterStmt, counterExpr, heavy]; omega
  · exact hsame

/-- What visits keep. -/
def Keeps (n a : Node) : Prop := initCount a = initCount n ∧ (n.bodied = true → a.bodied = true)

theorem keeps_wrapCounter (c : Counter) (e : Node) : Keeps e (wrapCounter c e) := by
  constructor
  · exact countKinds_wrapCounter (fun k hk => by cases k <;> simp_all [Kind.added, Kind.inits]) c e
  · intro h
    simp [wrapCounter, counterExpr, Node.bodied, bodiedList, hasBody, h]

theorem visited (m : Mode) (n : Node) (hn : All cx fi n) (h : List RegOp) (hm : m.ok cx h) :
    Ends fi (fun f => visit cx f m n) h (fun a _ => Keeps n a) := by
  intro st hg hnn
  obtain ⟨F, a, st1, h1, e1, p1, g1, l1, _⟩ := hn m h hm st hg hnn
  refine ⟨F, a, st1, h1, e1, p1, g1, l1, ?_⟩
  obtain ⟨h', o, s, _⟩ := Sound.visit cx fi F m n [] h hm st a st1 hg (e1 F (Nat.le_refl _))
  exact ⟨s.countKinds_eq fun k hk => by cases k <;> simp_all [Kind.added, Kind.inits], s.bodied⟩

theorem coverHoisted (e : Node) (h : List RegOp) :
    Ends fi (fun _ => coverHoisted cx e) h (fun a _ => Keeps e a) := by
  unfold Visitor.coverHoisted
  refine .bind (P := anyH) (.neutral fun st _ => ⟨_, _, rfl, rfl, Nat.le_refl _⟩) fun nodes h1 _ _ => ?_
  refine .ite ?_ ?_
  · refine .bind (P := anyH) (.keepIf (fun _ => trivial) fun _ => .mark _ _) fun _ _ _ _ => ?_
    exact .pure ⟨rfl, id⟩
  · exact (replaceWithStmtCounter e h1).conseq fun a _ ⟨c, hc⟩ => hc ▸ keeps_wrapCounter c e

theorem coverStatement (m : Mode) (e : Node) (he : All cx fi e) (h : List RegOp) (hm : m.ok cx h) :
    Ends fi (fun f => coverStatement cx (visit cx f) m e) h (fun a _ => Keeps e a) := by
  unfold Visitor.coverStatement
  refine .ite ?_ (.ite ?_ ?_)
  · exact .bind (.mark _ _) fun _ h1 hp _ => visited m e he h1 (hm.mono hp)
  · exact .bind (.mark _ _) fun _ h1 hp _ => .pure ⟨rfl, id⟩
  · refine .bind (P := anyH) (.keepIf (fun _ => trivial) fun _ => .mark _ _) fun _ h1 _ _ => ?_
    refine .bind (P := anyH) (.neutral fun st hn => ?_) fun t h2 _ _ => ?_
    · unfold topNode
      cases hs : st.nodes with
      | nil => exact absurd hs hn
      | cons t ts => exact ⟨t, st, rfl, rfl, by simp [hs]⟩
    · refine .ite (coverHoisted e h2) (.ite ?_ (.pure ⟨rfl, id⟩))
      exact (replaceWithStmtCounter e h2).conseq fun a _ ⟨c, hc⟩ => hc ▸ keeps_wrapCounter c e

theorem wrapArm (cur : Option IgnoreScope) (b : Nat) (r : Range) (s : Node)
    (hs : s.kind ≠ .block → All cx fi s)
    (hc : ∀ c ∈ s.children, All cx fi c) (h : List RegOp) (hb : b < (branches h).length) :
    Ends fi (fun f => wrapArm cx (visit cx f) cur b r s) h anyH := by
  unfold Visitor.wrapArm
  refine .bind (.addPath _ _ hb) fun idx h1 _ _ => ?_
  split
  · next sp ss =>
    exact .bind (insertStmts ss (fun x hx _ => hc x hx) h1) fun _ _ _ _ => .pure trivial
  · next hne =>
    refine .bind (.fresh (hs ?_ .stmt h1 trivial)) ?_
    · intro hk
      cases s with
      | mk k sp ss =>
        cases hk
        exact hne sp ss rfl
    · rintro ⟨a, _⟩ _ _ _
      exact .pure trivial

theorem visitWithBody (cur : Option IgnoreScope) (s : Node) (hs : All cx fi s)
    (hc : ∀ c ∈ s.children, All cx fi c) (h : List RegOp) :
    Ends fi (fun f => visitWithBody cx (visit cx f) cur s) h anyH := by
  unfold Visitor.visitWithBody
  split
  · next sp ss =>
    exact .bind (insertStmts ss (fun x hx _ => hc x hx) h) fun _ _ _ _ => .pure trivial
  · refine .bind (.fresh (hs .stmt h trivial)) ?_
    rintro ⟨a, _⟩ _ _ _
    exact .pure trivial

/-- The hypothesis of the induction: what is below the node, and has bodies, is visited to the end. -/
def Rec (cx : Ctx) (fi : File) (n : Node) : Prop := ∀ c, Below c n → c.bodied = true → All cx fi c

theorem visitArrow (a : String) (sp : Span) (params body : Node)
    (hr : Rec cx fi (mk (.arrow a) sp [params, body])) (hb : body.bodied = true) (h : List RegOp) :
    Ends fi (fun f => visitArrow cx (visit cx f) a sp params body) h anyH := by
  unfold Visitor.visitArrow
  refine .bind (.newFunction _ _ _) fun id h1 _ _ => ?_
  have hexpr : Ends fi (fun f => do
      let ss ← Visitor.insertStmts cx (visit cx f) [counterStmt (.f id), mk .returnStmt body.span [body]]
      Pure.pure (mk (.arrow a) sp [params, mk .block Span.dummy ss])) h1 anyH := by
    refine .bind (insertStmts _ ?_ h1) fun _ _ _ _ => .pure trivial
    intro s hs hi
    simp only [List.mem_cons, List.not_mem_nil, or_false] at hs
    rcases hs with rfl | rfl
    · simp [isInjectedStmt, counterStmt, counterExpr, isInjectedExpr] at hi
    · refine hr _ (.inr ⟨?_, ?_⟩) ?_
      · simp [initCount, countKinds, countKindsList, Kind.inits]
      · simp [weight, weightList, heavy]; omega
      · simp [Node.bodied, bodiedList, hasBody, hb]
  split
  · next bsp ss =>
    refine .bind (insertStmts _ ?_ h1) fun _ _ _ _ => .pure trivial
    intro s hs _
    refine hr s ((below_child (sp := bsp) (k := .block) hs).trans (below_child (by simp))) ?_
    exact ((bodied_mk _ _ _).1 hb).2 s hs
  · exact hexpr

theorem createAccessor (name : String) (dsp : Span) (body : Node) (hb : body.bodied = true)
    (h : List RegOp) : Ends fi (fun _ => createAccessor cx name dsp body) h (fun a _ => a.bodied = true ∧
      initCount a = initCount body ∧ weight a ≤ weight body + 2) := by
  unfold Visitor.createAccessor
  split
  · next bsp ss =>
    refine .bind (.newFunction _ _ _) fun id h1 _ _ => .pure ⟨?_, ?_, ?_⟩
    · have := (bodied_mk _ _ _).1 hb
      rw [bodied_mk]
      refine ⟨rfl, ?_⟩
      intro y hy
      rcases List.mem_cons.1 hy with rfl | hy
      · rfl
      · exact this.2 y hy
    · simp [initCount, countKinds, countKindsList, counterStmt, counterExpr, Kind.inits]
    · simp [weight, weightList, counterStmt, counterExpr, heavy]; omega
  · exact .pure ⟨hb, rfl, by omega⟩

/-- Visiting the children of a node one of whose children was rewritten. -/
theorem rewritten (m : Mode) (k : Kind) (sp : Span) (l r : List Node) (x y : Node)
    (hr : Rec cx fi (mk k sp (l ++ x :: r))) (hb : (mk k sp (l ++ x :: r)).bodied = true)
    (hy : y.bodied = true ∧ initCount y = initCount x ∧ weight y ≤ weight x + 2) (hk : heavy k = 10)
    (h : List RegOp) (hm : m.ok cx h) :
    Ends fi (fun f => Visitor.visitChildren cx (visit cx f) m (mk k sp (l ++ y :: r))) h anyH := by
  have hb2 := ((bodied_mk _ _ _).1 hb).2
  refine visitChildren m _ ?_ h hm
  intro c hc
  simp only [children, List.mem_append, List.mem_cons] at hc
  have hx : x ∈ l ++ x :: r := by simp
  have h1 := weight_le_of_mem hx
  have h2 := count_le_of_mem (p := Kind.inits) hx
  rcases hc with hc | rfl | hc
  · exact hr c (below_child (by simp [hc])) (hb2 c (by simp [hc]))
  · refine hr _ (.inr ?_) hy.1
    simp only [initCount] at hy ⊢
    rw [countKinds_mk, weight, hk]
    omega
  · exact hr c (below_child (by simp [hc])) (hb2 c (by simp [hc]))

/-- Visiting the children of a node. -/
theorem same (m : Mode) (n : Node) (hr : Rec cx fi n) (hb : n.bodied = true) (h : List RegOp)
    (hm : m.ok cx h) : Ends fi (fun f => Visitor.visitChildren cx (visit cx f) m n) h anyH := by
  cases n with
  | mk k sp cs =>
    refine visitChildren m _ (fun c hc => ?_) h hm
    exact hr c (below_child hc) (((bodied_mk _ _ _).1 hb).2 c hc)

theorem child (n : Node) (hr : Rec cx fi n) (hb : n.bodied = true) {c : Node} (hc : c ∈ n.children) :
    All cx fi c := by
  cases n with
  | mk k sp cs => exact hr c (below_child hc) (((bodied_mk _ _ _).1 hb).2 c hc)

theorem grandchild (n : Node) (hr : Rec cx fi n) (hb : n.bodied = true) {c d : Node}
    (hc : c ∈ n.children) (hd : d ∈ c.children) : All cx fi d := by
  cases n with
  | mk k sp cs =>
    cases c with
    | mk k' sp' ds =>
      exact hr d ((below_child (k := k') (sp := sp') hd).trans (below_child hc))
        (((bodied_mk _ _ _).1 (((bodied_mk _ _ _).1 hb).2 _ hc)).2 d hd)

theorem visitAccessor (m : Mode) (k : Kind) (sp : Span) (key : Node) (l : List Node) (body : Node)
    (hr : Rec cx fi (mk k sp (key :: l ++ [body]))) (hb : (mk k sp (key :: l ++ [body])).bodied = true)
    (hk : heavy k = 10) (h : List RegOp) (hm : m.ok cx h) :
    Ends fi (fun f => visitAccessor cx (visit cx f) m (mk k sp (key :: l ++ [body])) key body
      fun body => mk k sp (key :: l ++ [body])) h anyH := by
  have hbb : body.bodied = true := ((bodied_mk _ _ _).1 hb).2 body (by simp)
  unfold Visitor.visitAccessor
  split
  · refine .ite (.pure trivial) ?_
    refine .bind (createAccessor _ _ body hbb h) fun a h1 hp ha => ?_
    exact rewritten m k sp (key :: l) [] body a hr hb ha hk h1 (hm.mono hp)
  · refine .bind (createAccessor _ _ body hbb h) fun a h1 hp ha => ?_
    exact rewritten m k sp (key :: l) [] body a hr hb ha hk h1 (hm.mono hp)

theorem withFn (m : Mode) (k : Kind) (sp : Span) (first fn : Node) (ident : Option (Span × String))
    (hr : Rec cx fi (mk k sp [first, fn])) (hb : (mk k sp [first, fn]).bodied = true)
    (hk : heavy k = 10) (h : List RegOp) (hm : m.ok cx h) :
    Ends fi (fun f => do
        let fn ← Visitor.createFn cx ident fn
        Visitor.visitChildren cx (visit cx f) m (mk k sp [first, fn])) h anyH := by
  refine .bind (createFn _ fn (((bodied_mk _ _ _).1 hb).2 fn (by simp)) h) fun a h1 hp ha => ?_
  exact rewritten m k sp [first] [] fn a hr hb ha hk h1 (hm.mono hp)

theorem withInit (m : Mode) (k : Kind) (sp : Span) (key x : Node) (r : List Node)
    (hr : Rec cx fi (mk k sp (key :: x :: r))) (hb : (mk k sp (key :: x :: r)).bodied = true)
    (hk : k.inits = true) (h : List RegOp) (hm : m.ok cx h) :
    Ends fi (fun f => do
        let value ← Visitor.keepIf x.isNone x (Visitor.coverStatement cx (visit cx f) m x)
        Visitor.visitChildren cx (visit cx f) m (mk k sp (key :: value :: r))) h anyH := by
  have hb2 := ((bodied_mk _ _ _).1 hb).2
  refine .bind (P := fun a _ => Keeps x a) (.keepIf (fun _ => ⟨rfl, id⟩) fun _ =>
    coverStatement m x (child _ hr hb (by simp [children])) h hm) fun a h1 hp ha => ?_
  refine visitChildren m _ ?_ h1 (hm.mono hp)
  intro c hc
  simp only [children, List.mem_cons] at hc
  rcases hc with rfl | rfl | hc
  · exact child _ hr hb (by simp [children])
  · refine hr _ (.inl ?_) (ha.2 (hb2 x (by simp)))
    have h2 := ha.1
    simp only [initCount, countKinds_mk, countKindsList, hk, if_true] at h2 ⊢
    omega
  · exact child _ hr hb (by simp [children, hc])

theorem visitIf (m : Mode) (cur : Option IgnoreScope) (sp : Span) (test cons alt : Node)
    (hr : Rec cx fi (mk .ifStmt sp [test, cons, alt]))
    (hb : (mk .ifStmt sp [test, cons, alt]).bodied = true) (h : List RegOp) (hm : m.ok cx h) :
    Ends fi (fun f => visitIf cx (visit cx f) m cur sp test cons alt) h anyH := by
  unfold Visitor.visitIf
  refine .bind (.mark _ _) fun _ h1 hp1 _ => ?_
  refine .bind (.newBranch _ _ _) fun b h2 hp2 hbr => ?_
  have hlt : b < (branches h2).length := lt_of_typed ⟨_, _, hbr⟩
  refine .bind (P := anyH) (.keepIf (fun _ => trivial) fun _ => wrapArm cur b _ cons
    (fun _ => child _ hr hb (by simp [children]))
    (fun c hc => grandchild _ hr hb (by simp [children]) hc) h2 hlt) fun cons' h3 hp3 _ => ?_
  refine .bind (P := anyH) (.keepIf (fun _ => trivial) fun _ => ?_) fun alt' h4 hp4 _ => ?_
  · have hlt3 := Nat.lt_of_lt_of_le hlt (branches_length_le hp3)
    split
    · exact wrapArm cur b _ _ (fun hk => absurd rfl hk) (by simp [children]) h3 hlt3
    · exact wrapArm cur b _ alt (fun _ => child _ hr hb (by simp [children]))
        (fun c hc => grandchild _ hr hb (by simp [children]) hc) h3 hlt3
  · refine .bind (child _ hr hb (c := test) (by simp [children]) m h4
      ((((hm.mono hp1).mono hp2).mono hp3).mono hp4)) fun _ _ _ _ => .pure trivial

theorem visitCond (m : Mode) (cur : Option IgnoreScope) (sp : Span) (test cons alt : Node)
    (hr : Rec cx fi (mk .cond sp [test, cons, alt]))
    (hb : (mk .cond sp [test, cons, alt]).bodied = true) (h : List RegOp) (hm : m.ok cx h) :
    Ends fi (fun f => visitCond cx (visit cx f) m cur sp test cons alt) h anyH := by
  have hb2 := ((bodied_mk _ _ _).1 hb).2
  have hw : ∀ x c, weight (wrapCounter c x) = weight x + 3 := by
    intro x c
    simp [wrapCounter, counterExpr, weight, weightList, heavy]; omega
  unfold Visitor.visitCond
  refine .bind (P := fun a _ => (a.1 = cons ∨ ∃ c, a.1 = wrapCounter c cons) ∧
    (a.2 = alt ∨ ∃ c, a.2 = wrapCounter c alt)) (.keepIf (fun _ => ⟨.inl rfl, .inl rfl⟩) fun _ => ?_) ?_
  · unfold Visitor.wrapCondArms
    refine .bind (.newBranch _ _ _) fun b h2 hp2 hbr => ?_
    have hlt : b < (branches h2).length := lt_of_typed ⟨_, _, hbr⟩
    refine .bind (P := fun a _ => a = cons ∨ ∃ c, a = wrapCounter c cons) (.keepIf (fun _ => .inl rfl)
      fun _ => (replaceWithBranchCounter b cons h2 hlt).conseq fun _ _ hc => .inr hc) fun c1 h3 hp3 hc1 => ?_
    refine .bind (P := fun a _ => a = alt ∨ ∃ c, a = wrapCounter c alt) (.keepIf (fun _ => .inl rfl)
      fun _ => (replaceWithBranchCounter b alt h3
        (Nat.lt_of_lt_of_le hlt (branches_length_le hp3))).conseq fun _ _ hc => .inr hc) fun c2 h4 _ hc2 => ?_
    exact .pure ⟨hc1, hc2⟩
  · rintro ⟨c1, c2⟩ h1 hp ⟨hc1, hc2⟩
    have harm : ∀ x y, x ∈ [test, cons, alt] → (y = x ∨ ∃ c, y = wrapCounter c x) → All cx fi y := by
      intro x y hx hy
      rcases hy with rfl | ⟨c, rfl⟩
      · exact child _ hr hb hx
      · have h1 := weight_le_of_mem hx
        have h2 := count_le_of_mem (p := Kind.inits) hx
        have h3 := (keeps_wrapCounter c x).1
        refine hr _ (.inr ?_) ((keeps_wrapCounter c x).2 (hb2 x hx))
        simp only [initCount] at h3 ⊢
        rw [countKinds_mk, weight, hw]
        simp only [heavy]
        omega
    refine visitChildren m _ ?_ h1 (hm.mono hp)
    intro c hc
    simp only [children, List.mem_cons, List.not_mem_nil, or_false] at hc
    rcases hc with rfl | rfl | rfl
    · exact harm c c (by simp) (.inl rfl)
    · exact harm cons _ (by simp) hc1
    · exact harm alt _ (by simp) hc2

theorem visitBin (m : Mode) (branch? : Option Nat) (ch : Nat → Node → M Node) (op : BinOp) (sp : Span)
    (left right : Node) (hl : All cx fi left) (hr : All cx fi right) (h : List RegOp) (hm : m.ok cx h)
    (hb : ∀ b, branch? = some b → LogicalBranch cx h b)
    (hc : ∀ h', h <+: h' → Ends fi (fun f => ch f (mk (.bin op) sp [left, right])) h' anyH) :
    Ends fi (fun f => visitBin cx (visit cx f) m branch? (ch f) op sp left right) h anyH := by
  unfold Visitor.visitBin
  refine .bind (P := anyH) (.neutral fun st _ => ?_) ?_
  · unfold enterSpan
    split
    · exact ⟨_, _, rfl, rfl, Nat.le_refl _⟩
    · exact ⟨_, _, rfl, rfl, Nat.le_refl _⟩
  · rintro ⟨old, cur⟩ h0 hp0 _
    refine .ite ?_ (.ite ?_ ?_)
    · exact .bracketExit (hc h0 hp0)
    · refine .bind (P := anyH) (.neutral fun st _ => ⟨_, _, rfl, rfl, by simp⟩) fun _ h1 hp1 _ => ?_
      refine .bind (P := fun b h' => LogicalBranch cx h' b) ?_ fun b h2 hp2 hb2 => ?_
      · unfold Visitor.logicalBranch
        cases branch? with
        | some b => exact .pure (((hb b rfl).mono hp0).mono hp1)
        | none =>
          exact (Ends.newBranch _ _ _).conseq fun a h' hb => ⟨_, _, _, hb, .inl ⟨rfl, rfl⟩⟩
      · refine .bind (wrapBin m b left hl h2 (((hm.mono hp0).mono hp1).mono hp2) hb2) fun _ h3 hp3 _ => ?_
        refine .bind (wrapBin m b right hr h3 ((((hm.mono hp0).mono hp1).mono hp2).mono hp3)
          (hb2.mono hp3)) fun _ _ _ _ => .pure trivial
    · exact .bracketExit (hc h0 hp0)

theorem visitCase (b : Nat) (sp : Span) (test : Node) (cs : List Node) (ht : All cx fi test)
    (hc : ∀ c ∈ cs, All cx fi c) (h : List RegOp) (hm : (Mode.switchCase b).ok cx h) :
    Ends fi (fun f => visitCase cx (visit cx f) b sp test cs) h anyH := by
  unfold Visitor.visitCase
  refine .bind (.addPath _ _ (lt_of_typed hm)) fun _ h1 hp1 _ => ?_
  refine .bind (ht (.switchCase b) h1 (Mode.ok.mono hp1 hm)) fun _ h2 _ _ => ?_
  exact .bind (visitStmts cs (fun s hs _ => hc s hs) h2) fun _ _ _ _ => .pure trivial

theorem mem_blockifyLast {c : Node} {cs : List Node} (h : c ∈ blockifyLast cs) :
    c ∈ cs ∨ ∃ s ∈ cs, c = mk .block Span.dummy [s] := by
  induction cs with
  | nil => cases h
  | cons d cs ih =>
    cases cs with
    | nil =>
      simp only [blockifyLast, List.mem_singleton] at h
      subst h
      unfold blockify
      split
      · exact .inl (by simp)
      · exact .inr ⟨_, by simp, rfl⟩
    | cons d' cs =>
      rw [blockifyLast] at h
      · rcases List.mem_cons.1 h with rfl | h
        · exact .inl (by simp)
        · rcases ih h with hd | ⟨s, hd, rfl⟩
          · exact .inl (List.mem_cons_of_mem _ hd)
          · exact .inr ⟨s, List.mem_cons_of_mem _ hd, rfl⟩
      · simp

theorem loopBody (m : Mode) (k : LoopKind) (sp : Span) (cs : List Node)
    (hr : Rec cx fi (mk (.loop k) sp cs)) (hb : (mk (.loop k) sp cs).bodied = true) (h : List RegOp)
    (hm : m.ok cx h) :
    Ends fi (fun f => Visitor.visitChildren cx (visit cx f) m (mk (.loop k) sp (blockifyLast cs))) h
      anyH := by
  refine visitChildren m _ (fun c hc => ?_) h hm
  rcases mem_blockifyLast hc with hs | ⟨s, hs, rfl⟩
  · exact child _ hr hb hs
  · clear hc
    have hc := hs
    have h1 := weight_le_of_mem hc
    have h2 := count_le_of_mem (p := Kind.inits) hc
    refine hr _ (.inr ?_) ?_
    · simp only [initCount, countKinds_mk, weight, heavy, countKindsList, weightList, Kind.inits]
      simp only [Bool.false_eq_true, if_false]
      omega
    · have := ((bodied_mk _ _ _).1 hb).2 s hc
      simp [Node.bodied, bodiedList, hasBody, this]

theorem visitNode (m : Mode) (n : Node) (hr : Rec cx fi n) (hb : n.bodied = true) (h : List RegOp)
    (hm : m.ok cx h) : Ends fi (fun f => visitNode cx (visit cx f) m n) h anyH := by
  have hch : ∀ h', h <+: h' → Ends fi (fun f => Visitor.visitChildren cx (visit cx f) m n) h' anyH :=
    fun h' hp => same m n hr hb h' (hm.mono hp)
  have hch0 := hch h (List.prefix_refl _)
  have hmarked : ∀ sp, Ends fi (fun f => do
      mark cx sp; Visitor.visitChildren cx (visit cx f) m n) h anyH := fun sp =>
    .bind (.mark _ _) fun _ h1 hp _ => hch h1 hp
  have hkept : ∀ (p : Prop) [Decidable p] sp, Ends fi (fun f => do
      keepIf p () (mark cx sp); Visitor.visitChildren cx (visit cx f) m n) h anyH := fun p _ sp =>
    .bind (P := anyH) (.keepIf (fun _ => trivial) fun _ => .mark _ _) fun _ h1 hp _ => hch h1 hp
  unfold Visitor.visitNode
  split
  -- block
  · exact .guarded trivial hch0
  -- function declaration
  · exact .guarded trivial (withFn m _ _ _ _ _ hr hb rfl h hm)
  -- arrow function
  · exact .guarded trivial (visitArrow _ _ _ _ hr (((bodied_mk _ _ _).1 hb).2 _ (by simp)) h)
  -- function expression
  · refine .guarded trivial ?_
    exact .ite (.pure trivial) (withFn m _ _ _ _ _ hr hb rfl h hm)
  -- expression statement
  · refine .frame fun cur => .ite (.pure trivial) (hkept _ _)
  -- break
  · exact .frame fun cur => hkept _ _
  -- conditional
  · exact .frame fun cur => visitCond m cur _ _ _ _ hr hb h hm
  -- tagged template
  · exact .guarded trivial (hmarked _)
  -- return
  · exact .frame fun cur => hkept _ _
  -- variables
  · exact .frame fun cur => hch0
  -- class declaration
  · exact .guarded trivial hch0
  -- fields
  · exact .guarded trivial (withInit m _ _ _ _ _ hr hb rfl h hm)
  · exact .guarded trivial (withInit m _ _ _ _ _ hr hb rfl h hm)
  -- class method
  · refine .guarded trivial ?_
    split
    · exact .ite (.pure trivial) (withFn m _ _ _ _ _ hr hb rfl h hm)
    · exact .pure trivial
  -- method
  · refine .guarded trivial ?_
    split
    · exact .ite (.pure trivial) (withFn m _ _ _ _ _ hr hb rfl h hm)
    · exact withFn m _ _ _ _ _ hr hb rfl h hm
  -- accessors
  · next sp key body =>
    exact .guarded trivial (visitAccessor m .getterProp sp key [] body hr hb rfl h hm)
  · next sp key a b body =>
    exact .guarded trivial (visitAccessor m .setterProp sp key [a, b] body hr hb rfl h hm)
  -- declarator
  · exact .guarded trivial (withInit m _ _ _ _ [] hr hb rfl h hm)
  -- loop
  · refine .guarded trivial ?_
    exact .bind (.mark _ _) fun _ h1 hp _ => loopBody m _ _ _ hr hb h1 (hm.mono hp)
  -- labelled
  · exact .frame fun cur => hkept _ _
  -- continue
  · exact .frame fun cur => hkept _ _
  -- switch
  · next sp cs =>
    refine .frame fun cur => .ite (.pure trivial) ?_
    refine .bind (.mark _ _) fun _ h1 hp1 _ => ?_
    refine .bind (.newBranch _ _ _) fun b h2 hp2 hbr => ?_
    refine .bind (.fresh (same (.switchCase b) _ hr hb h2 ⟨_, _, hbr⟩)) ?_
    rintro ⟨a, _⟩ _ _ _
    exact .pure trivial
  -- if
  · exact .frame fun cur => .ite (.pure trivial) (visitIf m cur _ _ _ _ hr hb h hm)
  -- binary
  · next op sp left right =>
    exact visitBin m none _ op sp left right (child _ hr hb (by simp [children]))
      (child _ hr hb (by simp [children])) h hm (by rintro _ ⟨⟩) hch
  -- default value
  · next sp left right =>
    refine .guarded trivial ?_
    refine .bind (.newBranch _ _ _) fun b h1 hp hbr => ?_
    exact .bind (wrapBin m b right (child _ hr hb (by simp [children])) h1 (hm.mono hp)
      ⟨_, _, _, hbr, .inr rfl⟩) fun _ _ _ _ => .pure trivial
  -- try, throw
  · exact .guarded trivial (hmarked _)
  · exact .guarded trivial (hmarked _)
  -- with
  · next sp obj body =>
    refine .frame fun cur => .ite (.pure trivial) ?_
    refine .bind (.mark _ _) fun _ h1 hp1 _ => ?_
    exact .bind (visitWithBody cur body (child _ hr hb (by simp [children]))
      (fun c hc => grandchild _ hr hb (by simp [children]) hc) h1) fun _ _ _ _ => .pure trivial
  -- switch case
  · next sp test cs =>
    split
    · exact .guarded trivial (visitCase _ sp test cs (child _ hr hb (by simp [children]))
        (fun c hc => child _ hr hb (by simp [children, hc])) h hm)
    · exact hch0
  -- exports
  · split
    · exact .guarded trivial hch0
    · exact hch0
  · split
    · exact .guarded trivial hch0
    · exact hch0
  · split
    · exact .guarded trivial hch0
    · exact hch0
  · exact hch0

theorem logicalChildren (b : Nat) (n : Node) (hr : Rec cx fi n) (hb : n.bodied = true)
    (h : List RegOp) (hm : LogicalBranch cx h b) :
    Ends fi (fun f => logicalChildren (visit cx f) b n) h anyH := by
  cases n with
  | mk k sp cs =>
    unfold Visitor.logicalChildren
    exact .bind (mapList (I := fun h => LogicalBranch cx h b) (fun _ _ hp => LogicalBranch.mono hp) cs
      (fun c hc h' hm' => child _ hr hb hc (.logical b) h' hm') h hm) fun _ _ _ _ => .pure trivial

theorem visitLogicalInner (b : Nat) (n : Node) (hr : Rec cx fi n) (hb : n.bodied = true)
    (h : List RegOp) (hm : LogicalBranch cx h b) :
    Ends fi (fun f => visitLogicalInner cx (visit cx f) b n) h anyH := by
  unfold Visitor.visitLogicalInner
  split
  · exact visitBin (.logicalInner b) (some b) _ _ _ _ _ (child _ hr hb (by simp [children]))
      (child _ hr hb (by simp [children])) h hm (by rintro _ ⟨⟩; exact hm)
      fun h' hp => logicalChildren b _ hr hb h' (hm.mono hp)
  · exact logicalChildren b _ hr hb h hm

/-- One visit more. -/
theorem shift {m : Mode} {n : Node} {h : List RegOp} {P : Node → List RegOp → Prop}
    (hs : Ends fi (fun f => step cx (visit cx f) m n) h P) :
    Ends fi (fun f => visit cx f m n) h P := by
  intro st hg hn
  obtain ⟨F, a, st1, h1, e1, p1, g1, l1, q1⟩ := hs st hg hn
  refine ⟨F + 1, a, st1, h1, ?_, p1, g1, l1, q1⟩
  intro f hf
  obtain ⟨g, rfl⟩ : ∃ g, f = g + 1 := ⟨f - 1, by omega⟩
  exact e1 g (by omega)

theorem all_of_rec (n : Node) (hr : Rec cx fi n) (hb : n.bodied = true) : All cx fi n := by
  have hin : ∀ b h, LogicalBranch cx h b → Ends fi (fun f => visit cx f (.logicalInner b) n) h anyH :=
    fun b h hm => shift (visitLogicalInner b n hr hb h hm)
  intro m h hm
  cases m with
  | coverage => exact shift (visitNode .coverage n hr hb h hm)
  | stmt => exact shift (visitNode .stmt n hr hb h hm)
  | switchCase b => exact shift (visitNode (.switchCase b) n hr hb h hm)
  | logicalInner b => exact hin b h hm
  | logical b =>
    refine shift ?_
    show Ends fi (fun f => visitLogical cx (visit cx f) b n) h anyH
    unfold Visitor.visitLogical
    exact .ite (.frame fun _ => hin b h hm) (logicalChildren b n hr hb h hm)

/-- All visits end. -/
theorem all (n : Node) (hb : n.bodied = true) : All cx fi n := by
  have key : ∀ I W (n : Node), initCount n < I → weight n < W → n.bodied = true → All cx fi n := by
    intro I
    induction I with
    | zero => intro W n h; omega
    | succ I ihI =>
      intro W
      induction W with
      | zero => intro n _ h; omega
      | succ W ihW =>
        intro n h1 h2 hb
        refine all_of_rec n ?_ hb
        intro c hc hcb
        rcases hc with hc | ⟨hc1, hc2⟩
        · exact ihI (weight c + 1) c (by omega) (by omega) hcb
        · exact ihW c (by omega) (by omega) hcb
  exact key _ _ n (Nat.lt_succ_self _) (Nat.lt_succ_self _) hb

/-! ### Programs -/

theorem itemBody (item : Node) (hb : item.bodied = true) (h : List RegOp) :
    Ends fi (fun f => itemBody cx f item) h anyH := by
  unfold Visitor.itemBody
  exact .bind (P := anyH) (.keepIf (fun _ => trivial) fun _ => .mark _ _) fun _ h1 _ _ =>
    all item hb .coverage h1 trivial

theorem withBefore {x : Nat → M Node} {h : List RegOp} (hx : Ends fi x h anyH) :
    Ends fi (fun f => withBefore (x f)) h anyH := by
  unfold Visitor.withBefore
  refine .bind hx fun a h1 _ _ => ?_
  exact .bind (P := anyH) (.neutral fun st _ => ⟨_, _, rfl, rfl, Nat.le_refl _⟩) fun _ _ _ _ =>
    .pure trivial

theorem visitItem (item : Node) (hb : item.bodied = true) (h : List RegOp) :
    Ends fi (fun f => visitItem cx f item) h anyH := by
  unfold Visitor.visitItem
  exact .ite (.pure trivial) (.frame fun _ => withBefore (itemBody item hb h))

theorem visitItems (items : List Node) (hb : ∀ i ∈ items, i.bodied = true) (h : List RegOp) :
    Ends fi (fun f => visitItems cx f items) h anyH := by
  induction items generalizing h with
  | nil => exact .pure trivial
  | cons i items ih =>
    unfold Visitor.visitItems
    refine .bind (visitItem i (hb i (by simp)) h) fun _ h1 _ _ => ?_
    exact .bind (ih (fun i hi => hb i (by simp [hi])) h1) fun _ _ _ _ => .pure trivial

theorem visitScriptItems (items : List Node) (hb : ∀ i ∈ items, i.bodied = true) (h : List RegOp) :
    Ends fi (fun f => visitScriptItems cx f items) h anyH := by
  induction items generalizing h with
  | nil => exact .pure trivial
  | cons i items ih =>
    unfold Visitor.visitScriptItems
    refine .bind (withBefore (all i (hb i (by simp)) .coverage h trivial)) fun _ h1 _ _ => ?_
    exact .bind (ih (fun i hi => hb i (by simp [hi])) h1) fun _ _ _ _ => .pure trivial

/-- Instrumentation ends. -/
theorem instrument (cx : Ctx) (path : String) (sm : Option SourceMap) (p : Node)
    (hb : p.bodied = true) :
    ∃ F p' cov, ∀ f, F ≤ f → instrument cx f path sm p = .ok (p', cov) := by
  let fi : File := ⟨path, cx.reportLogic, sm⟩
  have hg : fi.good [] (start cx path sm) := ⟨inv_setInputSourceMap inv_new sm, legal_nil⟩
  have hnn : (start cx path sm).nodes ≠ [] := by simp [start]
  obtain ⟨k, sp, cs⟩ := p
  have hb2 := ((bodied_mk _ _ _).1 hb).2
  cases hig : Hint.shouldIgnoreFile cx.cc cx.comments sp with
  | true =>
    refine ⟨0, mk k sp cs, (initial cx path sm).cov, fun f _ => ?_⟩
    simp [Visitor.instrument, visitProgram, Bind.bind, M.bind, push, span, hig, Pure.pure, M.pure]
  | false =>
    by_cases hk : k = .module
    · subst hk
      obtain ⟨F, a, st1, h1, e1, _⟩ := visitItems (cx := cx) (fi := fi) cs hb2 [] _ hg hnn
      refine ⟨F, mk .module sp (insertModuleTemplates declItem callItem a), st1.cov.freeze, fun f hf => ?_⟩
      have e2 : Visitor.visitItems cx f cs (start cx path sm) = .ok (a, st1) := e1 f hf
      rw [instrument_module _ _ _ _ _ _ hig, e2]
    · by_cases hk2 : k = .script
      · subst hk2
        obtain ⟨F, a, st1, h1, e1, _⟩ := visitScriptItems (cx := cx) (fi := fi) cs hb2 [] _ hg hnn
        refine ⟨F, mk .script sp (declItem :: callItem :: a), st1.cov.freeze, fun f hf => ?_⟩
        have e2 : Visitor.visitScriptItems cx f cs (start cx path sm) = .ok (a, st1) := e1 f hf
        rw [instrument_script _ _ _ _ _ _ hig, e2]
      · refine ⟨0, mk k sp cs, (start cx path sm).cov, fun f _ => ?_⟩
        have : programBody cx f (mk k sp cs) = Pure.pure (mk k sp cs) := by
          cases k <;> first | rfl | exact absurd rfl hk | exact absurd rfl hk2
        rw [instrument_eq _ _ _ _ _ hig, this]
        rfl

end Halts
end Verif
