import Verif.Lemmas.Steps
import Verif.Lemmas.Registry
/-
A small program logic: `Does` says that a visitor computation, whenever it does not abort, performs
steps (`Lemmas/Steps.lean`) from one tree to another.
-/
namespace Verif
open Node RegOp

namespace Steps
variable {cx : Ctx}

/-- Histories only grow. -/
theorem pre {n q h n' q' h' o} (s : Steps cx n q h n' q' h' o) : h <+: h' := by
  induction s with
  | trans _ _ ih1 ih2 => exact ih1.trans ih2
  | child _ _ _ _ _ _ ih => exact ih
  | insert _ _ _ _ _ _ ih => exact ih
  | lose _ _ _ _ ih => exact ih
  | register => exact List.prefix_append _ _
  | _ => exact List.prefix_refl _

end Steps

theorem branches_append (a b : List RegOp) : branches (a ++ b) = branches a ++ branches b := by
  simp [branches]

theorem getElem?_prefix {h h' : List RegOp} (hp : h <+: h') {k : Nat} {x : BranchType × Range × Bool}
    (hk : (branches h)[k]? = some x) : (branches h')[k]? = some x := by
  obtain ⟨t, rfl⟩ := hp
  rw [branches_append]
  have hlt : k < (branches h).length := by
    rcases Nat.lt_or_ge k (branches h).length with h1 | h1
    · exact h1
    · rw [List.getElem?_eq_none h1] at hk; cases hk
  rw [List.getElem?_append_left hlt]
  exact hk

theorem LogicalBranch.mono {cx : Ctx} {h h' : List RegOp} {b : Nat} (hp : h <+: h')
    (hb : LogicalBranch cx h b) : LogicalBranch cx h' b := by
  obtain ⟨t, l, g, h1, h2⟩ := hb
  exact ⟨t, l, g, getElem?_prefix hp h1, h2⟩

/-- A branch of a given type. -/
def TypedBranch (t : BranchType) (h : List RegOp) (b : Nat) : Prop :=
  ∃ l g, (branches h)[b]? = some (t, l, g)

theorem TypedBranch.mono {t : BranchType} {h h' : List RegOp} {b : Nat} (hp : h <+: h')
    (hb : TypedBranch t h b) : TypedBranch t h' b := by
  obtain ⟨l, g, h1⟩ := hb
  exact ⟨l, g, getElem?_prefix hp h1⟩

/-- The branch of a mode is registered and of the right type. -/
def Mode.ok (cx : Ctx) (h : List RegOp) : Mode → Prop
  | .coverage => True
  | .stmt => True
  | .switchCase b => TypedBranch .switch h b
  | .logical b => LogicalBranch cx h b
  | .logicalInner b => LogicalBranch cx h b

theorem Mode.ok.mono {cx : Ctx} {h h' : List RegOp} {m : Mode} (hp : h <+: h') (hm : m.ok cx h) :
    m.ok cx h' := by
  cases m with
  | coverage => trivial
  | stmt => trivial
  | switchCase b => exact TypedBranch.mono hp hm
  | logical b => exact LogicalBranch.mono hp hm
  | logicalInner b => exact LogicalBranch.mono hp hm

/-- What a computation does to the pending statements. -/
inductive Emit where
  /-- it may add some -/
  | any
  /-- it adds none -/
  | none
  /-- they are dropped afterwards -/
  | lost
deriving DecidableEq

/-- The pending statements before and after. -/
def Emit.fits (e : Emit) (st st' : St) (out : List Node) : Prop :=
  match e with
  | .any => st'.before = st.before ++ out
  | .none => out = [] ∧ st'.before = st.before
  | .lost => out = []

/-- Logical modes emit nothing. -/
def Mode.emits : Mode → Emit
  | .logical _ => .none
  | .logicalInner _ => .none
  | _ => .any

/-- What identifies the coverage data. -/
structure File where
  path : String
  rl : Bool
  sm : Option SourceMap

/-- The coverage data of a state is that of a history. -/
def File.good (fi : File) (h : List RegOp) (st : St) : Prop :=
  Inv fi.path fi.rl fi.sm h st.cov ∧ Legal h

/-- `x`, started on tree `n` with unplaced counters `q` after history `h`, and returning `a`, takes
the tree to `F a` and the unplaced counters to `Q a`. -/
def Does (cx : Ctx) (fi : File) (e : Emit) (x : M α) (n : Node) (q : List Counter) (h : List RegOp)
    (F : α → Node) (Q : α → List Counter) (P : α → List RegOp → Prop) : Prop :=
  ∀ st a st', fi.good h st → x st = .ok (a, st') →
    ∃ h' out, Steps cx n q h (F a) (Q a) h' out ∧ fi.good h' st' ∧ e.fits st st' out ∧ P a h'

/-- No further claim. -/
def anyH {α : Type} : α → List RegOp → Prop := fun _ _ => True

namespace Does
variable {cx : Ctx} {fi : File} {e : Emit} {n : Node} {q : List Counter} {h : List RegOp} {α β : Type}
  {F : α → Node} {Q : α → List Counter} {P : α → List RegOp → Prop}

theorem fits_nil (e : Emit) (st st' : St) (hb : st'.before = st.before) : e.fits st st' [] := by
  cases e with
  | any => simpa [Emit.fits] using hb
  | none => exact ⟨rfl, hb⟩
  | lost => rfl

theorem pure {a : α} (hF : F a = n) (hQ : Q a = q) (hP : P a h) :
    Does cx fi e (Pure.pure a : M α) n q h F Q P := by
  intro st a' st' hg hx
  cases hx
  refine ⟨h, [], ?_, hg, fits_nil e _ _ rfl, hP⟩
  rw [hF, hQ]; exact .refl _ _ _

theorem bind {x : M α} {f : α → M β} {G : β → Node} {R : β → List Counter}
    {S : β → List RegOp → Prop} (hx : Does cx fi e x n q h F Q P)
    (hf : ∀ a h', h <+: h' → P a h' → Does cx fi e (f a) (F a) (Q a) h' G R S) :
    Does cx fi e (x >>= f) n q h G R S := by
  intro st b st' hg hb
  simp only [Bind.bind, M.bind] at hb
  cases hxs : x st with
  | error er => rw [hxs] at hb; cases hb
  | ok r =>
    obtain ⟨a, st1⟩ := r
    rw [hxs] at hb
    obtain ⟨h1, o1, s1, g1, f1, p1⟩ := hx st a st1 hg hxs
    obtain ⟨h2, o2, s2, g2, f2, p2⟩ := hf a h1 s1.pre p1 st1 b st' g1 hb
    refine ⟨h2, o1 ++ o2, s1.trans s2, g2, ?_, p2⟩
    cases e with
    | any =>
      simp only [Emit.fits] at f1 f2 ⊢
      rw [f2, f1, List.append_assoc]
    | none =>
      obtain ⟨rfl, f1⟩ := f1
      obtain ⟨rfl, f2⟩ := f2
      exact ⟨rfl, f2.trans f1⟩
    | lost =>
      simp only [Emit.fits] at f1 f2 ⊢
      rw [f1, f2]; rfl

/-- Weaken the claim. -/
theorem conseq {x : M α} {P' : α → List RegOp → Prop} (hx : Does cx fi e x n q h F Q P)
    (hP : ∀ a h', P a h' → P' a h') : Does cx fi e x n q h F Q P' := by
  intro st a st' hg hs
  obtain ⟨h', o, s, g, f, p⟩ := hx st a st' hg hs
  exact ⟨h', o, s, g, f, hP a h' p⟩

/-- A computation without emissions anywhere. -/
theorem silent {x : M α} (hx : Does cx fi .none x n q h F Q P) : Does cx fi e x n q h F Q P := by
  intro st a st' hg hs
  obtain ⟨h', o, s, g, ⟨rfl, f⟩, p⟩ := hx st a st' hg hs
  exact ⟨h', [], s, g, fits_nil e _ _ f, p⟩

/-- Steps taken in the proof only, before the computation. -/
theorem step {x : M α} {n1 : Node} {q1 : List Counter} (s : Steps cx n q h n1 q1 h [])
    (hx : Does cx fi e x n1 q1 h F Q P) : Does cx fi e x n q h F Q P := by
  intro st a st' hg hs
  obtain ⟨h', o, s', g, f, p⟩ := hx st a st' hg hs
  exact ⟨h', o, by simpa using s.trans s', g, f, p⟩

/-- Steps taken in the proof only, after the computation. -/
theorem then_ {x : M α} {F' : α → Node} {Q' : α → List Counter} (hx : Does cx fi e x n q h F Q P)
    (s : ∀ a h', P a h' → Steps cx (F a) (Q a) h' (F' a) (Q' a) h' []) :
    Does cx fi e x n q h F' Q' P := by
  intro st a st' hg hs
  obtain ⟨h', o, s', g, f, p⟩ := hx st a st' hg hs
  exact ⟨h', o, by simpa using s'.trans (s a h' p), g, f, p⟩

/-- Below a child. -/
theorem child {x : M α} {c : Node} (k : Kind) (sp : Span) (l r : List Node)
    (hc : e ≠ .any ∨ k.carries l.isEmpty = true) (hx : Does cx fi e x c q h F Q P) :
    Does cx fi e x (mk k sp (l ++ c :: r)) q h (fun a => mk k sp (l ++ F a :: r)) Q P := by
  intro st a st' hg hs
  obtain ⟨h', o, s, g, f, p⟩ := hx st a st' hg hs
  refine ⟨h', o, .child k sp l r ?_ s, g, f, p⟩
  rcases hc with hc | hc
  · left
    cases e with
    | any => exact absurd rfl hc
    | none => exact f.1
    | lost => exact f
  · exact Or.inr hc

/-- Below a child of a switch statement. -/
theorem lose {x : M α} {c : Node} (sp : Span) (l r : List Node)
    (hx : Does cx fi .any x c q h F Q P) :
    Does cx fi .lost x (mk .switchStmt sp (l ++ c :: r)) q h
      (fun a => mk .switchStmt sp (l ++ F a :: r)) Q P := by
  intro st a st' hg hs
  obtain ⟨h', o, s, g, f, p⟩ := hx st a st' hg hs
  exact ⟨h', [], .lose sp l r s, g, rfl, p⟩

/-- A new visitor whose pending statements are dropped. -/
theorem fresh {x : M α} (ig : Option IgnoreScope) (hx : Does cx fi .lost x n q h F Q P) :
    Does cx fi e (Visitor.fresh ig x) n q h (fun a => F a.1) (fun a => Q a.1) (fun a => P a.1) := by
  intro st a st' hg hs
  simp only [Visitor.fresh] at hs
  cases hxs : x { st with before := [], ignore := ig } with
  | error er => rw [hxs] at hs; cases hs
  | ok r =>
    obtain ⟨a1, st1⟩ := r
    rw [hxs] at hs
    cases hs
    obtain ⟨h', o, s, g, f, p⟩ := hx _ _ _ (by exact hg) hxs
    cases f
    exact ⟨h', [], s, g, fits_nil e _ _ rfl, p⟩

/-- A new visitor for an element of a statement list; its pending statements are inserted. -/
theorem fresh_insert {x : M α} {s : Node} (ig : Option IgnoreScope) (k : Kind) (sp : Span)
    (l r : List Node) (hk : k.listPos l = true) (hx : Does cx fi .any x s q h F Q P) :
    Does cx fi e (Visitor.fresh ig x) (mk k sp (l ++ s :: r)) q h
      (fun a => mk k sp (l ++ a.2 ++ F a.1 :: r)) (fun a => Q a.1) (fun a => P a.1) := by
  intro st a st' hg hs
  simp only [Visitor.fresh] at hs
  cases hxs : x { st with before := [], ignore := ig } with
  | error er => rw [hxs] at hs; cases hs
  | ok r =>
    obtain ⟨a1, st1⟩ := r
    rw [hxs] at hs
    cases hs
    obtain ⟨h', o, s, g, f, p⟩ := hx _ _ _ (by exact hg) hxs
    simp only [Emit.fits, List.nil_append] at f
    refine ⟨h', [], ?_, g, fits_nil e _ _ rfl, p⟩
    simp only [f]
    exact .insert k sp l _ hk s

/-- A computation that changes neither pending statements nor coverage data. -/
theorem neutral {x : M α} (hx : ∀ st a st', x st = .ok (a, st') → st'.before = st.before ∧ st'.cov = st.cov) :
    Does cx fi e x n q h (fun _ => n) (fun _ => q) (fun _ h' => h' = h) := by
  intro st a st' hg hs
  obtain ⟨h1, h2⟩ := hx st a st' hs
  refine ⟨h, [], .refl _ _ _, ?_, fits_nil e _ _ h1, rfl⟩
  unfold File.good at hg ⊢
  rw [h2]; exact hg

theorem push (t : Tag) : Does cx fi e (Visitor.push t) n q h (fun _ => n) (fun _ => q) (fun _ h' => h' = h) :=
  neutral fun st a st' hs => by cases hs; exact ⟨rfl, rfl⟩

theorem pop : Does cx fi e Visitor.pop n q h (fun _ => n) (fun _ => q) (fun _ h' => h' = h) :=
  neutral fun st a st' hs => by cases hs; exact ⟨rfl, rfl⟩

theorem enterSpan (sp : Span) :
    Does cx fi e (Visitor.enterSpan cx sp) n q h (fun _ => n) (fun _ => q) (fun _ h' => h' = h) :=
  neutral fun st a st' hs => by
    simp only [Visitor.enterSpan] at hs
    split at hs <;> cases hs <;> exact ⟨rfl, rfl⟩

theorem exit (old : Option IgnoreScope) :
    Does cx fi e (Visitor.exit old) n q h (fun _ => n) (fun _ => q) (fun _ h' => h' = h) :=
  neutral fun st a st' hs => by cases hs; exact ⟨rfl, rfl⟩

theorem enter (t : Tag) (sp : Span) :
    Does cx fi e (Visitor.enter cx t sp) n q h (fun _ => n) (fun _ => q) (fun _ h' => h' = h) :=
  bind (push t) fun _ _ _ hh => by subst hh; exact enterSpan sp

/-- The frame of a visit function. -/
theorem frame (t : Tag) (sp : Span) {body : Option IgnoreScope → M α}
    (hb : ∀ cur, Does cx fi e (body cur) n q h F Q P) :
    Does cx fi e (Visitor.frame cx t sp body) n q h F Q P := by
  unfold Visitor.frame
  refine bind (enter t sp) ?_
  rintro ⟨old, cur⟩ h1 _ rfl
  refine bind (hb cur) ?_
  intro a h2 _ hp
  refine bind (exit old) ?_
  rintro _ _ _ rfl
  exact pure rfl rfl hp

/-- A visit that does nothing under a hint. -/
theorem guarded (t : Tag) {body : M Node} (hb : Does cx fi e body n q h id (fun _ => q) anyH) :
    Does cx fi e (Visitor.guarded cx t n body) n q h id (fun _ => q) anyH := by
  apply frame
  intro cur
  split
  · exact pure rfl rfl trivial
  · exact hb

/-- The same, for a body that is only run with this visit on top of the node stack. -/
theorem guarded_top (t : Tag) {body body' : M Node} (hb : Does cx fi e body' n q h id (fun _ => q) anyH)
    (heq : ∀ st, st.nodes.head? = some t → body st = body' st) :
    Does cx fi e (Visitor.guarded cx t n body) n q h id (fun _ => q) anyH := by
  have : Visitor.guarded cx t n body = Visitor.guarded cx t n body' := by
    funext st
    unfold Visitor.guarded Visitor.frame
    simp only [Visitor.enter, Visitor.push, Visitor.enterSpan, Bind.bind, M.bind]
    by_cases h1 : st.ignore = some .next
    · simp only [h1, if_true]
    · simp only [h1, if_false]
      by_cases h2 : cx.hint n.span = some .next
      · simp only [h2, if_true]
      · simp only [h2, if_false]
        rw [heq _ rfl]
  rw [this]
  exact guarded t hb

/-- A registration. -/
theorem register {x : M Nat} (op : RegOp) (hs : Sourced cx h n op)
    (hr : ∀ st, x st = match op.run st.cov with
      | .error er => .error er
      | .ok (cov, id) => .ok (id, { st with cov := cov })) :
    Does cx fi e x n q h (fun _ => n) (fun _ => q ++ op.counters h)
      (fun a h' => a = expectedId h op ∧ h' = h ++ [op]) := by
  intro st a st' hg hx
  have hk : ∀ k l, op = .path k l → k < (branches h).length := by
    rintro k l rfl
    obtain ⟨⟨t, l', g, h1, _⟩, _⟩ := hs
    rcases Nat.lt_or_ge k (branches h).length with h2 | h2
    · exact h2
    · rw [List.getElem?_eq_none h2] at h1; cases h1
  obtain ⟨c', h1, h2⟩ := inv_run hg.2 hg.1 op hk
  rw [hr, h1] at hx
  cases hx
  exact ⟨h ++ [op], [], .register n q h op hs, ⟨h2, legal_concat hg.2 hk⟩, fits_nil e _ _ rfl, rfl, rfl⟩

theorem newStatement (r : Range) (hs : Sourced cx h n (.statement r)) :
    Does cx fi e (Visitor.newStatement r) n q h (fun _ => n) (fun a => q ++ [.s a]) anyH := by
  have := register (cx := cx) (fi := fi) (e := e) (q := q) (x := Visitor.newStatement r) _ hs (fun st => rfl)
  intro st a st' hg hx
  obtain ⟨h', o, s, g, f, p1, p2⟩ := this st a st' hg hx
  refine ⟨h', o, ?_, g, f, trivial⟩
  subst p1; exact s

/-- `newStatement`, with what is registered. -/
theorem newStatement' (r : Range) (hs : Sourced cx h n (.statement r)) :
    Does cx fi e (Visitor.newStatement r) n q h (fun _ => n) (fun a => q ++ [.s a])
      (fun a h' => (statements h')[a]? = some r) := by
  have := register (cx := cx) (fi := fi) (e := e) (q := q) (x := Visitor.newStatement r) _ hs (fun st => rfl)
  intro st a st' hg hx
  obtain ⟨h', o, s, g, f, p1, p2⟩ := this st a st' hg hx
  refine ⟨h', o, ?_, g, f, ?_⟩
  · subst p1; exact s
  · subst p1 p2
    rw [statements_concat]
    simp [expectedId]

theorem newFunction (name : Option String) (d l : Range) (hs : Sourced cx h n (.function name d l)) :
    Does cx fi e (Visitor.newFunction name d l) n q h (fun _ => n) (fun a => q ++ [.f a]) anyH := by
  have := register (cx := cx) (fi := fi) (e := e) (q := q) (x := Visitor.newFunction name d l) _ hs
    (fun st => rfl)
  intro st a st' hg hx
  obtain ⟨h', o, s, g, f, p1, p2⟩ := this st a st' hg hx
  refine ⟨h', o, ?_, g, f, trivial⟩
  subst p1; exact s

theorem newBranch (t : BranchType) (l : Range) (g : Bool) (hs : Sourced cx h n (.branch t l g)) :
    Does cx fi e (Visitor.newBranch t l g) n q h (fun _ => n) (fun _ => q)
      (fun a h' => (branches h')[a]? = some (t, l, g)) := by
  have := register (cx := cx) (fi := fi) (e := e) (q := q) (x := Visitor.newBranch t l g) _ hs
    (fun st => rfl)
  intro st a st' hg hx
  obtain ⟨h', o, s, g, f, p1, p2⟩ := this st a st' hg hx
  refine ⟨h', o, ?_, g, f, ?_⟩
  · simpa [RegOp.counters] using s
  · subst p1 p2
    rw [branches_append]
    simp [branches, expectedId]

theorem addPath (k : Nat) (l : Range) (hs : Sourced cx h n (.path k l)) :
    Does cx fi e (Visitor.addPath k l) n q h (fun _ => n) (fun a => q ++ [.b k a]) anyH := by
  have := register (cx := cx) (fi := fi) (e := e) (q := q) (x := Visitor.addPath k l) _ hs
    (fun st => rfl)
  intro st a st' hg hx
  obtain ⟨h', o, s, g, f, p1, p2⟩ := this st a st' hg hx
  refine ⟨h', o, ?_, g, f, trivial⟩
  subst p1; exact s

theorem pushBefore (i : Nat) (hn : n.quiet = false) (ha : Asked cx h n i) :
    Does cx fi .any (Visitor.pushBefore (counterStmt (.s i))) n (q ++ [.s i]) h (fun _ => n) (fun _ => q) anyH := by
  intro st a st' hg hx
  cases hx
  refine ⟨h, [counterStmt (.s i)], ?_, hg, rfl, trivial⟩
  simpa using Steps.emit n q i [] h hn ha

theorem mark (sp : Span) (hn : n.quiet = false) (hs : Sourced cx h n (.statement (cx.range sp))) :
    Does cx fi .any (Visitor.mark cx sp) n q h (fun _ => n) (fun _ => q) anyH :=
  bind (newStatement' _ hs) fun a _ _ h1 => pushBefore a hn ⟨_, h1, hs⟩

end Does
end Verif
