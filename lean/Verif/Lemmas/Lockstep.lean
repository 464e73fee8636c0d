import Verif.Spec.Akin
import Verif.Lemmas.Each
import Verif.Lemmas.SoundProgram
/-
Two visits in lockstep: of trees that differ in layout and names, in contexts that agree on the hints.
-/
namespace Verif
open Node

/-! ### Trees -/

namespace Change.Kinds
variable {d : Change} {k k' : Kind}

theorem isLogical (h : d.Kinds k k') : k.isLogical = k'.isLogical := by cases h <;> rfl
theorem isBlock (h : d.Kinds k k') : k.isBlock = k'.isBlock := by cases h <;> rfl
theorem isStmt (h : d.Kinds k k') : k.isStmt = k'.isStmt := by cases h <;> first | rfl | (rename_i c _ _; cases c <;> rfl)
theorem isExpr (h : d.Kinds k k') : k.isExpr = k'.isExpr := by cases h <;> first | rfl | (rename_i c _ _; cases c <;> rfl)
theorem isHoisting (h : d.Kinds k k') : k.isHoisting = k'.isHoisting := by cases h <;> rfl
theorem isModuleDecl (h : d.Kinds k k') : k.isModuleDecl = k'.isModuleDecl := by
  cases h <;> first | rfl | (rename_i c _ _; cases c <;> rfl)

end Change.Kinds

namespace Akin
variable {d : Change} {t : Bool}

/-- The parts of a tree like `mk k sp cs`. -/
theorem mk_inv {k : Kind} {sp : Span} {cs : List Node} {n : Node} (h : Akin d false (mk k sp cs) n) :
    ∃ k' sp' cs', n = mk k' sp' cs' ∧ d.Kinds k k' ∧ d.span sp sp' ∧ List.Forall₂ (Akin d false) cs cs' := by
  cases h with
  | node hk hs hc => exact ⟨_, _, _, rfl, hk, hs, hc⟩
  | truth ht => cases ht

theorem span {a b : Node} (h : Akin d false a b) : d.span a.span b.span := by
  cases h with
  | node hk hs hc => exact hs
  | truth ht => cases ht

theorem kind {a b : Node} (h : Akin d false a b) : d.Kinds a.kind b.kind := by
  cases h with
  | node hk hs hc => exact hk
  | truth ht => cases ht

theorem mono : ∀ {a b : Node}, Akin d false a b → Akin d t a b := by
  intro a
  induction a using Node.ind with
  | h k sp cs ih =>
    intro b h
    obtain ⟨k', sp', cs', rfl, hk, hs, hc⟩ := h.mk_inv
    refine .node hk hs ?_
    clear h
    induction hc with
    | nil => exact .nil
    | cons h1 h2 ih2 =>
      exact .cons (ih _ (by simp) h1) (ih2 fun c hc => ih c (by simp [hc]))

theorem any_eq {p : Kind → Bool} (hp : ∀ k k', d.Kinds k k' → p k = p k') :
    ∀ {a b : Node}, Akin d false a b → a.any p = b.any p := by
  intro a
  induction a using Node.ind with
  | h k sp cs ih =>
    intro b h
    obtain ⟨k', sp', cs', rfl, hk, hs, hc⟩ := h.mk_inv
    rw [Node.any, Node.any, hp k k' hk]
    congr 1
    clear h
    induction hc with
    | nil => rfl
    | cons h1 h2 ih2 =>
      rw [Node.anyList, Node.anyList, ih _ (by simp) h1, ih2 fun c hc => ih c (by simp [hc])]

/-- Injected trees are like themselves. -/
theorem dummy (hd : d.span Span.dummy Span.dummy) : ∀ {n : Node}, (∀ m ∈ n.each, m.span = Span.dummy) → Akin d t n n := by
  intro n
  induction n using Node.ind with
  | h k sp cs ih =>
    intro h
    have h0 : sp = Span.dummy := h _ (each_self _)
    subst h0
    refine .node (.refl _) hd ?_
    have h1 : ∀ c ∈ cs, Akin d t c c := fun c hc => ih c hc fun m hm => h m (mem_each_mk.2 (.inr ⟨c, hc, hm⟩))
    clear h ih
    induction cs with
    | nil => exact .nil
    | cons c cs ih2 => exact .cons (h1 c (by simp)) (ih2 fun c hc => h1 c (by simp [hc]))

theorem exprC (hd : d.span Span.dummy Span.dummy) (c : Counter) :
    Akin d t (counterExpr c) (counterExpr c) := .node (.refl _) hd .nil

theorem stmtC (hd : d.span Span.dummy Span.dummy) (c : Counter) :
    Akin d t (counterStmt c) (counterStmt c) := .node (.refl _) hd (.cons (exprC hd c) .nil)

theorem wrapC (hd : d.span Span.dummy Span.dummy) (c : Counter) {e e' : Node} (h : Akin d t e e') :
    Akin d t (wrapCounter c e) (wrapCounter c e') :=
  .node (.refl _) hd (.cons (.node (.refl _) hd (.cons (exprC hd c) (.cons h .nil))) .nil)

theorem wrapT (hd : d.span Span.dummy Span.dummy) (b i : Nat) {e e' : Node} (h : Akin d t e e') :
    Akin d t (wrapTruth b i e) (wrapTruth b i e') := by
  have h1 : Akin d t (mk .paren Span.dummy [truthCond b i]) (mk .paren Span.dummy [truthCond b i]) :=
    dummy hd (by
      have h : ((mk .paren Span.dummy [truthCond b i]).each.all fun m => decide (m.span = Span.dummy)) = true := rfl
      intro m hm
      exact of_decide_eq_true (List.all_eq_true.1 h m hm))
  exact .node (.refl _) hd (.cons (exprC hd _) (.cons (.node (.refl _) hd
    (.cons (.node (.refl _) hd (.cons (.node (.refl _) hd .nil) (.cons h .nil))) (.cons h1 (.cons (.node (.refl _) hd .nil) .nil))))
      .nil))

theorem isInjectedExpr {a b : Node} (h : Akin d false a b) : isInjectedExpr a = isInjectedExpr b := by
  cases a with
  | mk k sp cs =>
    obtain ⟨k', sp', cs', rfl, hk, -, -⟩ := h.mk_inv
    cases hk <;> first | rfl | (cases k <;> first | rfl | (rename_i c; cases c <;> rfl))

theorem isInjectedStmt {a b : Node} (h : Akin d false a b) : isInjectedStmt a = isInjectedStmt b := by
  cases a with
  | mk k sp cs =>
    obtain ⟨k', sp', cs', rfl, hk, -, hc⟩ := h.mk_inv
    cases hc with
    | nil => cases hk <;> first | rfl | (cases k <;> rfl)
    | cons h1 h2 =>
      cases h2 with
      | nil => cases hk <;> first | rfl | (cases k <;> first | rfl | exact h1.isInjectedExpr)
      | cons h2 h3 => cases hk <;> first | rfl | (cases k <;> rfl)

theorem isDirectiveLit {a b : Node} (h : Akin d false a b) : Visitor.isDirectiveLit a = Visitor.isDirectiveLit b := by
  cases a with
  | mk k sp cs =>
    obtain ⟨k', sp', cs', rfl, hk, -, -⟩ := h.mk_inv
    cases hk with
    | refl => cases k <;> rfl
    | str _ hv =>
      show Visitor.directives.contains _ = Visitor.directives.contains _
      rw [Bool.eq_iff_iff]
      simpa [Visitor.directives, directiveTexts] using hv
    | _ => rfl

theorem isDirectiveStmt {a b : Node} (h : Akin d false a b) : Visitor.isDirectiveStmt a = Visitor.isDirectiveStmt b := by
  have hs : ∀ {x y : Node}, Akin d false x y → (∃ v sp cs, x = mk (.strLit v) sp cs) → ∃ v sp cs, y = mk (.strLit v) sp cs := by
    rintro x y h ⟨v, sp, cs, rfl⟩
    obtain ⟨k', sp', cs', rfl, hk, -, -⟩ := h.mk_inv
    cases hk <;> exact ⟨_, _, _, rfl⟩
  have hs' : ∀ {x y : Node}, Akin d false x y → (∃ v sp cs, y = mk (.strLit v) sp cs) → ∃ v sp cs, x = mk (.strLit v) sp cs := by
    rintro x y h ⟨v, sp, cs, rfl⟩
    cases x with
    | mk k sp cs =>
      obtain ⟨k', sp', cs', h1, hk, -, -⟩ := h.mk_inv
      cases h1
      cases hk <;> exact ⟨_, _, _, rfl⟩
  have key : ∀ n : Node, Visitor.isDirectiveStmt n = true ↔ ∃ sp c, n = mk .exprStmt sp [c] ∧ ∃ v sp cs, c = mk (.strLit v) sp cs := by
    intro n
    unfold Visitor.isDirectiveStmt
    split
    · simp
    · next h =>
      refine ⟨fun h => (by cases h), ?_⟩
      rintro ⟨sp, c, rfl, v, sp', cs, rfl⟩
      exact absurd rfl (h _ _ _ _)
  rw [Bool.eq_iff_iff, key, key]
  constructor
  · rintro ⟨sp, c, rfl, hv⟩
    obtain ⟨k', sp', cs', rfl, hk, -, hc⟩ := h.mk_inv
    cases hc with
    | cons h1 h2 => cases h2; cases hk; exact ⟨_, _, rfl, hs h1 hv⟩
  · rintro ⟨sp, c, rfl, hv⟩
    cases a with
    | mk k sp cs =>
      obtain ⟨k', sp', cs', h1, hk, -, hc⟩ := h.mk_inv
      cases h1
      cases hc with
      | cons h1 h2 => cases h2; cases hk; exact ⟨_, _, rfl, hs' h1 hv⟩

theorem isExportConst {a b : Node} (h : Akin d false a b) : Visitor.isExportConst a = Visitor.isExportConst b := by
  cases a with
  | mk k sp cs =>
    obtain ⟨k', sp', cs', rfl, hk, -, hc⟩ := h.mk_inv
    cases hc with
    | nil => cases hk <;> first | rfl | (cases k <;> rfl)
    | cons h1 h2 =>
      cases h2 with
      | nil =>
        rename_i x y
        cases x with
        | mk xk xsp xcs =>
          obtain ⟨yk, ysp, ycs, rfl, hk1, -, -⟩ := h1.mk_inv
          cases hk <;> first | rfl | (cases k <;> first | rfl | (cases hk1 <;> first | rfl | (rename_i v w hv; cases v <;> cases w <;> first | rfl | (simp at hv)) |
            (cases xk <;> first | rfl | (rename_i vk; cases vk <;> rfl))))
      | cons h2 h3 => cases hk <;> first | rfl | (cases k <;> first | rfl | simp [Visitor.isExportConst])

theorem isNone {a b : Node} (h : Akin d false a b) : a.isNone = b.isNone := by
  cases a with
  | mk k sp cs =>
    obtain ⟨k', sp', cs', rfl, hk, -, hc⟩ := h.mk_inv
    cases hc <;> cases hk <;> first | rfl | (cases k <;> rfl)

/-- Names of identifiers. -/
theorem identName {a b : Node} (h : Akin d false a b) :
    (a.identName? = none ∧ b.identName? = none) ∨ ∃ x y, a.identName? = some x ∧ b.identName? = some y ∧ d.names x y := by
  cases a with
  | mk k sp cs =>
    obtain ⟨k', sp', cs', rfl, hk, -, -⟩ := h.mk_inv
    cases hk with
    | refl => cases k <;> first | exact .inl ⟨rfl, rfl⟩ | exact .inr ⟨_, _, rfl, rfl, .inl rfl⟩
    | ident hn => exact .inr ⟨_, _, rfl, rfl, .inr hn⟩
    | _ => exact .inl ⟨rfl, rfl⟩

theorem propName {a b : Node} (h : Akin d false a b) :
    (a.propName? = none ∧ b.propName? = none) ∨ ∃ x y, a.propName? = some x ∧ b.propName? = some y ∧ d.names x y := by
  cases a with
  | mk k sp cs =>
    obtain ⟨k', sp', cs', rfl, hk, -, -⟩ := h.mk_inv
    cases hk with
    | refl => cases k <;> first | exact .inl ⟨rfl, rfl⟩ | exact .inr ⟨_, _, rfl, rfl, .inl rfl⟩
    | prop hn => exact .inr ⟨_, _, rfl, rfl, .inr hn⟩
    | _ => exact .inl ⟨rfl, rfl⟩

end Akin

/-! ### Two contexts -/

/-- The ranges of related spans. -/
def Change.ranges (d : Change) (cx cx' : Ctx) (r r' : Range) : Prop :=
  ∃ a b, d.span a b ∧ r = cx.range a ∧ r' = cx'.range b

/-- Two contexts in which related spans have the same hints. -/
structure Lock where make ::
  d : Change
  t : Bool
  cx : Ctx
  cx' : Ctx
  dummy : d.span Span.dummy Span.dummy
  hint : ∀ {a b}, d.span a b → cx.hint a = cx'.hint b
  ignore : ∀ {x y}, d.names x y → cx.ignoreMethods.contains x = cx'.ignoreMethods.contains y
  same : t = false → cx.reportLogic = cx'.reportLogic
  off : t = true → cx.reportLogic = false

theorem Node.calm_mk {k : Kind} {sp : Span} {cs : List Node} :
    Calm (mk k sp cs) ↔ ((∀ init, initOf (mk k sp cs) = some init → init.kind ≠ .taggedTpl) ∧
      ∀ e ∈ operands (mk k sp cs), e.any Kind.isLogical = true ∨ Passive e) ∧ ∀ c ∈ cs, Calm c := by
  constructor
  · intro h
    exact ⟨h _ (each_self _), fun c hc m hm => h m (mem_each_mk.2 (.inr ⟨c, hc, hm⟩))⟩
  · rintro ⟨h1, h2⟩ m hm
    rcases mem_each_mk.1 hm with rfl | ⟨c, hc, hm⟩
    · exact h1
    · exact h2 c hc m hm

namespace Lock
open Visitor
variable (L : Lock)

/-- Ranges in the two contexts. -/
abbrev R : Range → Range → Prop := L.d.ranges L.cx L.cx'

theorem range {a b : Span} (h : L.d.span a b) : L.R (L.cx.range a) (L.cx'.range b) := ⟨a, b, h, rfl, rfl⟩

/-- Trees that may be visited. -/
def In (n n' : Node) : Prop := Akin L.d false n n' ∧ (L.t = true → Calm n)

/-- Trees that come out of visits. -/
abbrev Out (n n' : Node) : Prop := Akin L.d L.t n n'

variable {L}

theorem In.out {n n' : Node} (h : L.In n n') : L.Out n n' := h.1.mono

theorem Out.in {n n' : Node} (ht : L.t = false) (h : L.Out n n') : L.In n n' := by
  refine ⟨?_, fun h => by rw [ht] at h; cases h⟩
  unfold Lock.Out at h
  rw [ht] at h
  exact h

/-- The parts of a tree that may be visited. -/
theorem In.inv {k : Kind} {sp : Span} {cs : List Node} {n : Node} (h : L.In (mk k sp cs) n) :
    ∃ k' sp' cs', n = mk k' sp' cs' ∧ L.d.Kinds k k' ∧ L.d.span sp sp' ∧ List.Forall₂ L.In cs cs' := by
  obtain ⟨k', sp', cs', rfl, hk, hs, hc⟩ := h.1.mk_inv
  refine ⟨k', sp', cs', rfl, hk, hs, ?_⟩
  have h2 := fun ht => (calm_mk.1 (h.2 ht)).2
  clear h
  induction hc with
  | nil => exact .nil
  | cons h1 h3 ih => exact .cons ⟨h1, fun ht => h2 ht _ (by simp)⟩ (ih fun ht c hc => h2 ht c (by simp [hc]))

theorem In.node {k k' : Kind} {sp sp' : Span} {cs cs' : List Node} (hk : L.d.Kinds k k') (hs : L.d.span sp sp')
    (hi : initOf (mk k sp cs) = none) (ho : Node.operands (mk k sp cs) = []) (hc : List.Forall₂ L.In cs cs') :
    L.In (mk k sp cs) (mk k' sp' cs') := by
  constructor
  · exact .node hk hs (hc.imp fun _ _ h => h.1)
  · intro ht
    refine calm_mk.2 ⟨⟨fun i h => (by rw [hi] at h; cases h), fun e h => (by rw [ho] at h; cases h)⟩, ?_⟩
    intro c hc'
    have : ∀ {cs cs' : List Node}, List.Forall₂ L.In cs cs' → ∀ c ∈ cs, Calm c := by
      intro cs cs' h
      induction h with
      | nil => intro c h; cases h
      | cons h1 h2 ih =>
        intro c h
        rcases List.mem_cons.1 h with rfl | h
        · exact h1.2 ht
        · exact ih c h
    exact this hc c hc'

end Lock
end Verif
