import Verif.Spec.Slide
import Verif.Lemmas.LockstepStep
import Mathlib.Data.List.Induction
/-
Two visits of the same code, the first of them with other code registered before it.
-/
namespace Verif
open Node Visitor RegOp

/-- Counters. -/
def Kind.isCount : Kind → Bool
  | .counter _ => true
  | _ => false

/-- The second kind with moved ids is the first. -/
inductive Kind.Slid (d : Offset) : Kind → Kind → Prop
  | refl {k : Kind} (h : ∀ c, k ≠ .counter c) : Kind.Slid d k k
  | counter (c : Counter) : Kind.Slid d (.counter (c.slide d)) (.counter c)

/-- The second tree with moved ids is the first. -/
inductive Slid (d : Offset) : Node → Node → Prop
  | node {k k' : Kind} {sp : Span} {cs cs' : List Node} (hk : Kind.Slid d k k') (hc : List.Forall₂ (Slid d) cs cs') :
      Slid d (mk k sp cs) (mk k' sp cs')

namespace Kind.Slid
variable {d : Offset} {k k' : Kind}

theorem isLogical (h : Kind.Slid d k k') : k.isLogical = k'.isLogical := by cases h <;> rfl
theorem isBlock (h : Kind.Slid d k k') : k.isBlock = k'.isBlock := by cases h <;> rfl
theorem isStmt (h : Kind.Slid d k k') : k.isStmt = k'.isStmt := by cases h <;> rfl
theorem isExpr (h : Kind.Slid d k k') : k.isExpr = k'.isExpr := by cases h <;> rfl
theorem isHoisting (h : Kind.Slid d k k') : k.isHoisting = k'.isHoisting := by cases h <;> rfl
theorem isModuleDecl (h : Kind.Slid d k k') : k.isModuleDecl = k'.isModuleDecl := by cases h <;> rfl
theorem tagged_iff (h : Kind.Slid d k k') : k = .taggedTpl ↔ k' = .taggedTpl := by cases h <;> simp
theorem slide (h : Kind.Slid d k k') : k = k'.slide d := by
  cases h with
  | refl h => cases k <;> first | rfl | exact absurd rfl (h _)
  | counter => rfl

end Kind.Slid

namespace Slid
variable {d : Offset}

theorem mk_inv {k : Kind} {sp : Span} {cs : List Node} {n : Node} (h : Slid d (mk k sp cs) n) :
    ∃ k' cs', n = mk k' sp cs' ∧ Kind.Slid d k k' ∧ List.Forall₂ (Slid d) cs cs' := by
  cases h with
  | node hk hc => exact ⟨_, _, rfl, hk, hc⟩

theorem span {a b : Node} (h : Slid d a b) : a.span = b.span := by
  cases h
  rfl

theorem kind {a b : Node} (h : Slid d a b) : Kind.Slid d a.kind b.kind := by
  cases h with
  | node hk hc => exact hk

theorem slideList_eq {cs : List Node} : slideList d cs = cs.map (slide d) := by
  induction cs with
  | nil => rfl
  | cons c cs ih => rw [slideList, ih]; rfl

/-- The first tree is determined by the second. -/
theorem eq : ∀ {a b : Node}, Slid d a b → a = b.slide d := by
  intro a
  induction a using Node.ind with
  | h k sp cs ih =>
    intro b h
    obtain ⟨k', cs', rfl, hk, hc⟩ := h.mk_inv
    rw [slide, ← hk.slide, slideList_eq]
    congr 1
    clear h
    induction hc with
    | nil => rfl
    | cons h1 h2 ih2 => rw [List.map_cons, ← ih _ (by simp) h1, ← ih2 fun c hc => ih c (by simp [hc])]

theorem eqs {cs cs' : List Node} (h : List.Forall₂ (Slid d) cs cs') : cs = cs'.map (slide d) := by
  induction h with
  | nil => rfl
  | cons h1 h2 ih => rw [List.map_cons, ← h1.eq, ← ih]

/-- Trees without counters stay as they are. -/
theorem none : ∀ {n : Node}, n.any Kind.isCount = false → Slid d n n := by
  intro n
  induction n using Node.ind with
  | h k sp cs ih =>
    intro h
    rw [any_mk, Bool.or_eq_false_iff, List.any_eq_false] at h
    refine .node (.refl fun c hc => ?_) ?_
    · subst hc; cases h.1
    · have h1 : ∀ c ∈ cs, Slid d c c := fun c hc => ih c hc (by simpa using h.2 c hc)
      clear h ih
      induction cs with
      | nil => exact .nil
      | cons c cs ih2 => exact .cons (h1 c (by simp)) (ih2 fun c hc => h1 c (by simp [hc]))

theorem clean {n : Node} (h : n.any Kind.injected = false) : Slid d n n := by
  refine none ?_
  induction n using Node.ind with
  | h k sp cs ih =>
    rw [any_mk, Bool.or_eq_false_iff, List.any_eq_false] at h ⊢
    refine ⟨?_, fun c hc => by simpa using ih c hc (by simpa using h.2 c hc)⟩
    cases k <;> first | rfl | cases h.1

theorem any_eq {p : Kind → Bool} (hp : ∀ k k', Kind.Slid d k k' → p k = p k') :
    ∀ {a b : Node}, Slid d a b → a.any p = b.any p := by
  intro a
  induction a using Node.ind with
  | h k sp cs ih =>
    intro b h
    obtain ⟨k', cs', rfl, hk, hc⟩ := h.mk_inv
    rw [Node.any, Node.any, hp k k' hk]
    congr 1
    clear h
    induction hc with
    | nil => rfl
    | cons h1 h2 ih2 =>
      rw [Node.anyList, Node.anyList, ih _ (by simp) h1, ih2 fun c hc => ih c (by simp [hc])]

theorem exprC (c : Counter) : Slid d (counterExpr (c.slide d)) (counterExpr c) := .node (.counter _) .nil

theorem stmtC (c : Counter) : Slid d (counterStmt (c.slide d)) (counterStmt c) := .node (.refl nofun) (.cons (exprC c) .nil)

theorem wrapC (c : Counter) {e e' : Node} (h : Slid d e e') : Slid d (wrapCounter (c.slide d) e) (wrapCounter c e') :=
  .node (.refl nofun) (.cons (.node (.refl nofun) (.cons (exprC c) (.cons h .nil))) .nil)

theorem truthC (b i : Nat) : Slid d (truthCond (d.b + b) i) (truthCond b i) :=
  .node (.refl nofun) (.cons (none rfl) (.cons (exprC (.bT b i)) (.cons (none rfl) .nil)))

theorem wrapT (b i : Nat) {e e' : Node} (h : Slid d e e') : Slid d (wrapTruth (d.b + b) i e) (wrapTruth b i e') :=
  .node (.refl nofun) (.cons (exprC (.b b i)) (.cons (.node (.refl nofun)
    (.cons (.node (.refl nofun) (.cons (.node (.refl nofun) .nil) (.cons h .nil)))
      (.cons (.node (.refl nofun) (.cons (truthC b i) .nil)) (.cons (.node (.refl nofun) .nil) .nil)))) .nil))

theorem isInjectedExpr {a b : Node} (h : Slid d a b) : isInjectedExpr a = isInjectedExpr b := by
  cases h with
  | @node k k' sp cs cs' hk hc =>
    cases hk with
    | refl h => cases k <;> first | rfl | exact absurd rfl (h _)
    | counter c => cases c <;> rfl

theorem isInjectedStmt {a b : Node} (h : Slid d a b) : isInjectedStmt a = isInjectedStmt b := by
  cases h with
  | @node k k' sp cs cs' hk hc =>
    cases hc with
    | nil =>
      cases hk with
      | refl h => cases k <;> rfl
      | counter c => rfl
    | cons h1 h2 =>
      cases h2 with
      | nil =>
        cases hk with
        | refl h => cases k <;> first | rfl | exact h1.isInjectedExpr
        | counter c => rfl
      | cons h2 h3 =>
        cases hk with
        | refl h => cases k <;> rfl
        | counter c => rfl

theorem isDirectiveLit {a b : Node} (h : Slid d a b) : Visitor.isDirectiveLit a = Visitor.isDirectiveLit b := by
  cases h with
  | @node k k' sp cs cs' hk hc =>
    cases hk with
    | refl h => cases k <;> rfl
    | counter c => rfl

theorem isNone {a b : Node} (h : Slid d a b) : a.isNone = b.isNone := by
  cases h with
  | @node k k' sp cs cs' hk hc =>
    cases hk with
    | refl h => cases hc <;> (cases k <;> rfl)
    | counter c => rfl

theorem identName {a b : Node} (h : Slid d a b) : a.identName? = b.identName? := by
  cases h with
  | @node k k' sp cs cs' hk hc =>
    cases hk with
    | refl h => cases k <;> rfl
    | counter c => rfl

theorem propName {a b : Node} (h : Slid d a b) : a.propName? = b.propName? := by
  cases h with
  | @node k k' sp cs cs' hk hc =>
    cases hk with
    | refl h => cases k <;> rfl
    | counter c => rfl

/-- A block stays a block. -/
theorem block {sp : Span} {ss : List Node} {n : Node} (h : Slid d (mk .block sp ss) n) :
    ∃ ss', n = mk .block sp ss' ∧ List.Forall₂ (Slid d) ss ss' := by
  obtain ⟨k', cs', rfl, hk, hc⟩ := h.mk_inv
  cases hk
  exact ⟨_, rfl, hc⟩

/-- What is no block does not become one. -/
theorem noBlock {n : Node} {sp : Span} {ss' : List Node} (h : Slid d n (mk .block sp ss')) : ∃ ss, n = mk .block sp ss := by
  cases h with
  | node hk hc => cases hk; exact ⟨_, rfl⟩

end Slid

/-! ### Histories -/

namespace RegOp

/-- The registration with moved ids. -/
def slide (d : Offset) : RegOp → RegOp
  | .path k l => .path (d.b + k) l
  | op => op

/-- How many there are of each sort. -/
def offset (h : List RegOp) : Offset := ⟨(statements h).length, (functions h).length, (branches h).length⟩

variable (d : Offset) (h t : List RegOp)

theorem statements_slide : statements (h ++ t.map (slide d)) = statements h ++ statements t := by
  unfold statements
  rw [List.filterMap_append, List.filterMap_map]
  congr 2
  funext op
  cases op <;> rfl

theorem functions_slide : functions (h ++ t.map (slide d)) = functions h ++ functions t := by
  unfold functions
  rw [List.filterMap_append, List.filterMap_map]
  congr 2
  funext op
  cases op <;> rfl

theorem branches_slide : branches (h ++ t.map (slide d)) = branches h ++ branches t := by
  unfold branches
  rw [List.filterMap_append, List.filterMap_map]
  congr 2
  funext op
  cases op <;> rfl

theorem arms_slide_low {k : Nat} (hk : k < d.b) : arms (h ++ t.map (slide d)) k = arms h k := by
  unfold arms
  rw [List.filterMap_append, List.filterMap_map]
  refine (congrArg _ ?_).trans (List.append_nil _)
  rw [List.filterMap_eq_nil_iff]
  intro op _
  cases op <;> simp [slide]
  omega

theorem arms_slide_high (hl : Legal h) {k : Nat} (hd : d.b = (branches h).length) : arms (h ++ t.map (slide d)) (d.b + k) = arms t k := by
  have h1 : arms h (d.b + k) = [] := arms_eq_nil hl (by omega)
  unfold arms at h1 ⊢
  rw [List.filterMap_append, List.filterMap_map, h1, List.nil_append]
  congr 1
  funext op
  cases op <;> simp [slide]

theorem legal_slide (hl : Legal h) (hd : d.b = (branches h).length) (ht : Legal t) : Legal (h ++ t.map (slide d)) := by
  induction t using List.reverseRecOn with
  | nil => simpa using hl
  | append_singleton t op ih =>
    have h1 := ih (legal_prefix ht)
    rw [List.map_append, ← List.append_assoc]
    refine legal_concat h1 fun k l he => ?_
    rw [branches_slide, List.length_append]
    cases op with
    | path k' l' =>
      cases he
      have := legal_last ht
      omega
    | _ => cases he

end RegOp
end Verif
