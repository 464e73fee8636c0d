import Verif.Spec.Instrumented
import Verif.Spec.Provenance
import Verif.Spec.Registry
/-
A small set of rewriting steps that every visitor is composed of. The invariants of instrumentation are
proved for these steps; `Lemmas/Sound.lean` shows that the visitors only perform such steps.
-/
namespace Verif
open Node RegOp

/-- The counters a registration gives rise to. -/
def RegOp.counters (h : List RegOp) : RegOp → List Counter
  | .statement _ => [.s (statements h).length]
  | .function .. => [.f (functions h).length]
  | .branch .. => []
  | .path k _ => [.b k (arms h k).length]

/-- A registration made on behalf of node `n`: what is registered fits the kind of the node, and the
ranges are those of the node or of its parts. -/
def Sourced (cx : Ctx) (h : List RegOp) (n : Node) : RegOp → Prop
  | .statement r => (n.kind.marks = true ∧ r = cx.range n.span) ∨
      (n.kind.inits = true ∧ ∃ e ∈ n.children, r = cx.range e.span)
  | .function name d l => (∃ sp, (sp = n.span ∨ sp = Span.dummy ∨ ∃ e ∈ n.children, sp = e.span) ∧
      d = cx.range sp) ∧ ∃ b, n.fnBody? = some b ∧ l = cx.range b.span ∧
        name = n.called
  | .branch t l g => n.kind.branchType = some t ∧ l = cx.range n.span ∧
      g = (t == .binaryExpr && cx.reportLogic)
  | .path k l => (∃ t l g, (branches h)[k]? = some (t, l, g) ∧ n.kind.armOf t = true) ∧
      (l = cx.range n.span ∨ ∃ e ∈ n.children, l = cx.range e.span)

/-- Statement `i` was registered on behalf of node `n`. -/
def Asked (cx : Ctx) (h : List RegOp) (n : Node) (i : Nat) : Prop :=
  ∃ r, (statements h)[i]? = some r ∧ ((n.kind.marks = true ∧ r = cx.range n.span) ∨
    (n.kind.inits = true ∧ ∃ e ∈ n.children, r = cx.range e.span))

/-- A branch whose arms are operands of logical operators. -/
def LogicalBranch (cx : Ctx) (h : List RegOp) (b : Nat) : Prop :=
  ∃ t l g, (branches h)[b]? = some (t, l, g) ∧ ((t = .binaryExpr ∧ g = cx.reportLogic) ∨ t = .defaultArg)

/-- Positions of statement lists (`l` are the children before). -/
def Kind.listPos (k : Kind) (l : List Node) : Bool :=
  match k, l with
  | .block, _ => true
  | .module, _ => true
  | .script, _ => true
  | .switchCase, _ :: _ => true
  | _, _ => false

/-- Positions of bodies that are made blocks. -/
def Kind.bodyPos (k : Kind) (l r : List Node) : Bool :=
  match k, l, r with
  | .ifStmt, [_], [_] => true
  | .ifStmt, [_, _], [] => true
  | .loop _, _, [] => true
  | .withStmt, [_], [] => true
  | _, _, _ => false

/-- `Steps cx n q h n' q' h' out`: from tree `n`, registered but unplaced counters `q` and
history `h`, instrumentation can reach tree `n'`, unplaced counters `q'`, history `h'`, asking for the
statements `out` to be put before the enclosing statement. -/
inductive Steps (cx : Ctx) : Node → List Counter → List RegOp → Node → List Counter → List RegOp →
    List Node → Prop
  | refl (n q h) : Steps cx n q h n q h []
  | trans {a q h b q1 h1 o1 c q2 h2 o2} : Steps cx a q h b q1 h1 o1 → Steps cx b q1 h1 c q2 h2 o2 →
      Steps cx a q h c q2 h2 (o1 ++ o2)
  /-- below a child -/
  | child {c q h c' q' h' o} (k sp l r) : (o = [] ∨ k.carries l.isEmpty = true) → Steps cx c q h c' q' h' o →
      Steps cx (mk k sp (l ++ c :: r)) q h (mk k sp (l ++ c' :: r)) q' h' o
  /-- below an element of a statement list; the statements asked for are inserted -/
  | insert {s q h s' q' h' o} (k sp l r) : k.listPos l = true → Steps cx s q h s' q' h' o →
      Steps cx (mk k sp (l ++ s :: r)) q h (mk k sp (l ++ o ++ s' :: r)) q' h' []
  /-- below a child of a switch statement; the statements asked for are lost -/
  | lose {c q h c' q' h' o} (sp l r) : Steps cx c q h c' q' h' o →
      Steps cx (mk .switchStmt sp (l ++ c :: r)) q h (mk .switchStmt sp (l ++ c' :: r)) q' h' []
  /-- a registration -/
  | register (n q h) (op : RegOp) : Sourced cx h n op →
      Steps cx n q h n (q ++ op.counters h) (h ++ [op]) []
  /-- ask for a statement counter before the enclosing statement -/
  | emit (n q1 i q2 h) : n.quiet = false → Asked cx h n i →
      Steps cx n (q1 ++ .s i :: q2) h n (q1 ++ q2) h [counterStmt (.s i)]
  /-- put a counter at the start of a block -/
  | headBlock (sp ss q1 c q2 h) :
      Steps cx (mk .block sp ss) (q1 ++ c :: q2) h (mk .block sp (counterStmt c :: ss)) (q1 ++ q2) h []
  /-- put a counter at the start of a switch case -/
  | headCase (sp test ss q1 c q2 h) :
      Steps cx (mk .switchCase sp (test :: ss)) (q1 ++ c :: q2) h
        (mk .switchCase sp (test :: counterStmt c :: ss)) (q1 ++ q2) h []
  /-- wrap an expression with a counter; not an initialiser that contains a block, and not that of a variable if it
  contains functions or classes -/
  | wrap (k sp l e r q1 c q2 h) : k.wraps = true → (k.inits = true → e.any Kind.isBlock = false ∧
        (k = .varDeclarator → e.any Kind.isHoisting = false)) →
      Steps cx (mk k sp (l ++ e :: r)) (q1 ++ c :: q2) h
        (mk k sp (l ++ wrapCounter c e :: r)) (q1 ++ q2) h []
  /-- wrap an expression with a counter and a truthiness counter -/
  | truth (k sp l e r q1 branch arm q2 h) : k.wraps = true → k.inits = false → cx.reportLogic = true →
      LogicalBranch cx h branch →
      Steps cx (mk k sp (l ++ e :: r)) (q1 ++ .b branch arm :: q2) h
        (mk k sp (l ++ wrapTruth branch arm e :: r)) (q1 ++ q2) h []
  /-- make a body a block -/
  | body (k sp l s r q h) : k.bodyPos l r = true → s.kind ≠ .block →
      (k = .ifStmt → r = [] → s.isNone = false) →
      Steps cx (mk k sp (l ++ s :: r)) q h (mk k sp (l ++ mk .block Span.dummy [s] :: r)) q h []
  /-- add an empty else -/
  | addElse (sp test cons alt q h) : alt.isNone = true →
      Steps cx (mk .ifStmt sp [test, cons, alt]) q h
        (mk .ifStmt sp [test, cons, mk .block Span.dummy []]) q h []
  /-- give an arrow function a block body -/
  | arrow (a sp params e q h) : e.kind ≠ .block →
      Steps cx (mk (.arrow a) sp [params, e]) q h
        (mk (.arrow a) sp [params, mk .block Span.dummy [mk .returnStmt e.span [e]]]) q h []

namespace Steps
variable {cx : Ctx}

/-- Steps keep the kind and the span of the root. -/
theorem root {n q h n' q' h' o} (s : Steps cx n q h n' q' h' o) :
    n'.kind = n.kind ∧ n'.span = n.span := by
  induction s with
  | trans _ _ ih1 ih2 => exact ⟨ih2.1.trans ih1.1, ih2.2.trans ih1.2⟩
  | _ => exact ⟨rfl, rfl⟩

/-- Everything asked for is a statement counter. -/
theorem out_statements {n q h n' q' h' o} (s : Steps cx n q h n' q' h' o) :
    ∀ x ∈ o, ∃ i, x = counterStmt (.s i) := by
  induction s with
  | trans _ _ ih1 ih2 =>
    intro x hx
    rcases List.mem_append.1 hx with hx | hx
    · exact ih1 x hx
    · exact ih2 x hx
  | child _ _ _ _ _ _ ih => exact ih
  | emit _ _ c _ _ _ =>
    intro x hx
    exact ⟨c, by simpa using hx⟩
  | _ => intro x hx; cases hx

/-- Everything asked for is a counter. -/
theorem out_counters {n q h n' q' h' o} (s : Steps cx n q h n' q' h' o) :
    ∀ x ∈ o, ∃ c, x = counterStmt c := by
  intro x hx
  obtain ⟨i, rfl⟩ := s.out_statements x hx
  exact ⟨_, rfl⟩

end Steps

/-! ### Lists -/

namespace Node

theorem sitesList_append (a b : List Node) : sitesList (a ++ b) = sitesList a ++ sitesList b := by
  induction a with
  | nil => rfl
  | cons c a ih => simp [sitesList, ih]

theorem spansList_append (a b : List Node) : spansList (a ++ b) = spansList a ++ spansList b := by
  induction a with
  | nil => rfl
  | cons c a ih => simp [spansList, ih]

theorem stripList_eq (a : List Node) : stripList a = a.map strip := by
  induction a with
  | nil => rfl
  | cons c a ih => simp [stripList, ih]

theorem normList_eq (a : List Node) : normList a = a.map norm := by
  induction a with
  | nil => rfl
  | cons c a ih => simp [normList, ih]

theorem anyList_eq (p : Kind → Bool) (a : List Node) : anyList p a = a.any (any p) := by
  induction a with
  | nil => rfl
  | cons c a ih => simp [anyList, ih]

theorem any_mk (p : Kind → Bool) (k : Kind) (sp : Span) (cs : List Node) :
    any p (mk k sp cs) = (p k || cs.any (any p)) := by
  rw [any, anyList_eq]

theorem anyList_append (p : Kind → Bool) (a b : List Node) :
    anyList p (a ++ b) = (anyList p a || anyList p b) := by
  rw [anyList_eq, anyList_eq, anyList_eq, List.any_append]

theorem strip_mk (k : Kind) (sp : Span) (cs : List Node) :
    strip (mk k sp cs) = mk k sp (tidy k (cs.map strip)) := by
  rw [strip, stripList_eq]

theorem strip_kind (n : Node) : (strip n).kind = n.kind := by
  cases n; rfl

theorem strip_span (n : Node) : (strip n).span = n.span := by
  cases n; rfl

theorem strip_isNone (n : Node) : (strip n).isNone = n.isNone := by
  cases n with
  | mk k sp cs => cases k <;> cases cs <;> rfl

end Node
end Verif
