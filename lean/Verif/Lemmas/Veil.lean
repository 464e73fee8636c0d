import Verif.Spec.Veil
import Verif.Lemmas.LockstepStep
import Verif.Lemmas.Ignored
/-
Trees that are the same except inside constructs with an ignore-next hint.
-/
namespace Verif
open Node Visitor

theorem forall₂_of_getElem {α β : Type} {R : α → β → Prop} : ∀ {l : List α} {l' : List β}, l.length = l'.length →
    (∀ (i : Nat) a b, l[i]? = some a → l'[i]? = some b → R a b) → List.Forall₂ R l l'
  | [], [], _, _ => .nil
  | [], b :: l', h, _ => by cases h
  | a :: l, [], h, _ => by cases h
  | a :: l, b :: l', h, hr => .cons (hr 0 a b rfl rfl) (forall₂_of_getElem (by simpa using h) fun i => hr (i + 1))

theorem getElem_of_forall₂ {α β : Type} {R : α → β → Prop} {l : List α} {l' : List β} (h : List.Forall₂ R l l') :
    ∀ (i : Nat) a b, l[i]? = some a → l'[i]? = some b → R a b := by
  induction h with
  | nil => intro i a b h; cases h
  | cons h1 h2 ih =>
    intro i a b ha hb
    cases i with
    | zero => cases ha; cases hb; exact h1
    | succ i => exact ih i a b ha hb

namespace Veil
variable {cx : Ctx} {w l : Bool}

/-- Statements of a block. -/
abbrev Stmts (cx : Ctx) (l : Bool) : List Node → List Node → Prop := Thin (Veil cx false l) (Spare cx l)

/-- Two constructs with an ignore-next hint. -/
def Hinted (cx : Ctx) (w l : Bool) (a b : Node) : Prop :=
  cx.hint a.span = some .next ∧ a.kind = b.kind ∧ a.span = b.span ∧ a.kind ≠ .block ∧ a.hintable = true ∧ b.hintable = true ∧
    (w = true → a.any Kind.isBlock = true ∧ b.any Kind.isBlock = true) ∧
    (l = true → a.any Kind.isLogical = false ∧ b.any Kind.isLogical = false)

theorem mk' {k : Kind} {sp : Span} {cs cs' : List Node} (hc : List.Forall₂ (Veil cx (k.inInit w) (k.inOperand l)) cs cs') :
    Veil cx w l (mk k sp cs) (mk k sp cs') := .node hc.length_eq (getElem_of_forall₂ hc)

theorem thin_pairs {ss ss' : List Node} (h : Stmts cx l ss ss') :
    ∃ os : List (Option Node × Option Node), ss = os.filterMap Prod.fst ∧ ss' = os.filterMap Prod.snd ∧
      (∀ a b, (some a, some b) ∈ os → Veil cx false l a b) ∧ ∀ a, (some a, none) ∈ os ∨ (none, some a) ∈ os → Spare cx l a := by
  induction h with
  | nil => exact ⟨[], rfl, rfl, nofun, nofun⟩
  | @keep a b _ _ h t ih =>
    obtain ⟨os, rfl, rfl, h3, h4⟩ := ih
    refine ⟨(some a, some b) :: os, rfl, rfl, fun c d hm => ?_, fun c hm => ?_⟩
    · rcases List.mem_cons.1 hm with e | hm
      · cases e; exact h
      · exact h3 c d hm
    · rcases hm with hm | hm
      · exact h4 c (.inl ((List.mem_cons.1 hm).resolve_left nofun))
      · exact h4 c (.inr ((List.mem_cons.1 hm).resolve_left nofun))
  | @left a _ _ h t ih =>
    obtain ⟨os, rfl, rfl, h3, h4⟩ := ih
    refine ⟨(some a, none) :: os, rfl, rfl, fun c d hm => h3 c d ((List.mem_cons.1 hm).resolve_left nofun), fun c hm => ?_⟩
    rcases hm with hm | hm
    · rcases List.mem_cons.1 hm with e | hm
      · cases e; exact h
      · exact h4 c (.inl hm)
    · exact h4 c (.inr ((List.mem_cons.1 hm).resolve_left nofun))
  | @right a _ _ h t ih =>
    obtain ⟨os, rfl, rfl, h3, h4⟩ := ih
    refine ⟨(none, some a) :: os, rfl, rfl, fun c d hm => h3 c d ((List.mem_cons.1 hm).resolve_left nofun), fun c hm => ?_⟩
    rcases hm with hm | hm
    · exact h4 c (.inl ((List.mem_cons.1 hm).resolve_left nofun))
    · rcases List.mem_cons.1 hm with e | hm
      · cases e; exact h
      · exact h4 c (.inr hm)

theorem block' {sp : Span} {ss ss' : List Node} (h : Stmts cx l ss ss') : Veil cx w l (mk .block sp ss) (mk .block sp ss') := by
  obtain ⟨os, h1, h2, h3, h4⟩ := thin_pairs h
  exact .block os h1 h2 h3 h4

theorem case' {sp : Span} {t t' : Node} {ss ss' : List Node} (ht : Veil cx false l t t') (h : Stmts cx l ss ss') :
    Veil cx false l (mk .switchCase sp (t :: ss)) (mk .switchCase sp (t' :: ss')) := by
  obtain ⟨os, h1, h2, h3, h4⟩ := thin_pairs h
  exact .case os h1 h2 ht h3 h4

theorem thin_of {R : Node → Node → Prop} {D : Node → Prop} : ∀ {os : List (Option Node × Option Node)},
    (∀ a b, (some a, some b) ∈ os → R a b) → (∀ a, (some a, none) ∈ os ∨ (none, some a) ∈ os → D a) →
    Thin R D (os.filterMap Prod.fst) (os.filterMap Prod.snd)
  | [], _, _ => .nil
  | (a, b) :: os, hc, hd => by
    have ih := thin_of (fun a b h => hc a b (List.mem_cons_of_mem _ h))
      fun a h => hd a (h.imp (List.mem_cons_of_mem _) (List.mem_cons_of_mem _))
    cases a with
    | none =>
      cases b with
      | none => exact ih
      | some b => exact .right (hd b (.inr (by simp))) ih
    | some a =>
      cases b with
      | none => exact .left (hd a (.inl (by simp))) ih
      | some b => exact .keep (hc a b (by simp)) ih

theorem thin_forall₂ {R : Node → Node → Prop} {D : Node → Prop} {as bs : List Node} (h : List.Forall₂ R as bs) : Thin R D as bs := by
  induction h with
  | nil => exact .nil
  | cons h1 h2 ih => exact .keep h1 ih

theorem thin_append {R : Node → Node → Prop} {D : Node → Prop} {as bs cs ds : List Node} (h : Thin R D as bs) (h' : Thin R D cs ds) :
    Thin R D (as ++ cs) (bs ++ ds) := by
  induction h with
  | nil => exact h'
  | keep h t ih => exact .keep h ih
  | left h t ih => exact .left h ih
  | right h t ih => exact .right h ih

theorem mk_inv {k : Kind} {sp : Span} {cs : List Node} {n : Node} (h : Veil cx w l (mk k sp cs) n) :
    ∃ cs', n = mk k sp cs' ∧ (List.Forall₂ (Veil cx (k.inInit w) (k.inOperand l)) cs cs' ∨ Hinted cx w l (mk k sp cs) n ∨
      k = .block ∧ Stmts cx l cs cs' ∨
      k = .switchCase ∧ w = false ∧ ∃ t t' ss ss', cs = t :: ss ∧ cs' = t' :: ss' ∧ Veil cx false l t t' ∧ Stmts cx l ss ss') := by
  cases h with
  | node hl hc => exact ⟨_, rfl, .inl (forall₂_of_getElem hl hc)⟩
  | hinted hh hk h1 h2 hw hg => exact ⟨_, rfl, .inr (.inl ⟨hh, rfl, rfl, hk, h1, h2, hw, hg⟩)⟩
  | block os h1 h2 hc hd => exact ⟨_, rfl, .inr (.inr (.inl ⟨rfl, h1 ▸ h2 ▸ thin_of hc hd⟩))⟩
  | case os h1 h2 ht hc hd => exact ⟨_, rfl, .inr (.inr (.inr ⟨rfl, rfl, _, _, _, _, rfl, rfl, ht, h1 ▸ h2 ▸ thin_of hc hd⟩))⟩

theorem hinted' {a b : Node} (h : Hinted cx w l a b) : Veil cx w l a b := by
  obtain ⟨k, sp, cs⟩ := a
  obtain ⟨k', sp', cs'⟩ := b
  obtain ⟨h1, h2, h3, h4, h5, h6, h7, h8⟩ := h
  cases h2
  cases h3
  exact .hinted h1 h4 h5 h6 h7 h8

theorem span {a b : Node} (h : Veil cx w l a b) : a.span = b.span := by cases h <;> rfl

theorem kind {a b : Node} (h : Veil cx w l a b) : a.kind = b.kind := by cases h <;> rfl

theorem refl (n : Node) : ∀ w l, Veil cx w l n n := by
  induction n using Node.ind with
  | h k sp cs ih =>
    intro w l
    exact .mk' (List.forall₂_same.2 fun c hc => ih c hc _ _)

theorem refls (ns : List Node) : List.Forall₂ (Veil cx w l) ns ns := List.forall₂_same.2 fun c _ => refl c w l

/-- What is the same in a strict sense is the same in a less strict sense. -/
theorem weaken {a b : Node} (h : Veil cx w l a b) : ∀ {w'}, (w' = true → w = true) → Veil cx w' l a b := by
  induction h with
  | @node w l k sp cs cs' hl hc ih =>
    intro w' hw
    refine .node hl fun i c c' h1 h2 => ih i c c' h1 h2 ?_
    cases k <;> first | exact fun h => h | exact hw
  | hinted hh hk h1 h2 hw hg => exact fun hw' => .hinted hh hk h1 h2 (fun h => hw (hw' h)) hg
  | block os h1 h2 hc hd ih => exact fun _ => .block os h1 h2 hc hd
  | case os h1 h2 ht hc hd ih1 ih =>
    intro w' hw
    cases w' with
    | false => exact .case os h1 h2 ht hc hd
    | true => cases hw rfl

theorem bare {a b : Node} (h : Veil cx w l a b) : Veil cx false l a b := h.weaken nofun

theorem bares {as bs : List Node} (h : List.Forall₂ (Veil cx w l) as bs) : List.Forall₂ (Veil cx false l) as bs := h.imp fun _ _ => bare

theorem inOperand_true (k : Kind) : k.inOperand true = true := by cases k <;> rfl

theorem any_thin {os : List (Option Node × Option Node)} {ss ss' : List Node} (hl : l = true) (h1 : ss = os.filterMap Prod.fst)
    (h2 : ss' = os.filterMap Prod.snd) (hd : ∀ a, (some a, none) ∈ os ∨ (none, some a) ∈ os → Spare cx l a)
    (ih : ∀ a b, (some a, some b) ∈ os → l = true → a.any Kind.isLogical = b.any Kind.isLogical) :
    ss.any (Node.any Kind.isLogical) = ss'.any (Node.any Kind.isLogical) := by
  have ht : Thin _ _ ss ss' := h1 ▸ h2 ▸ thin_of (R := fun a b => Node.any Kind.isLogical a = Node.any Kind.isLogical b)
    (D := fun a => Node.any Kind.isLogical a = false) (fun a b h => ih a b h hl) fun a h => (hd a h).2 hl
  clear ih hd h1 h2
  induction ht with
  | nil => rfl
  | keep h t ih => rw [List.any_cons, List.any_cons, h, ih]
  | left h t ih => rw [List.any_cons, h, ih, Bool.false_or]
  | right h t ih => rw [List.any_cons, h, ih, Bool.false_or]

/-- In operands logical expressions are the same. -/
theorem any_logical {a b : Node} (h : Veil cx w l a b) (hl : l = true) : a.any Kind.isLogical = b.any Kind.isLogical := by
  induction h with
  | @node w l k sp cs cs' hlen hc ih =>
    subst hl
    rw [any_mk, any_mk]
    congr 1
    have hf : List.Forall₂ (fun a b => Node.any Kind.isLogical a = Node.any Kind.isLogical b) cs cs' :=
      forall₂_of_getElem hlen fun i c c' h1 h2 => ih i c c' h1 h2 (inOperand_true k)
    clear hc ih hlen
    induction hf with
    | nil => rfl
    | cons h1 h2 ih => rw [List.any_cons, List.any_cons, h1, ih]
  | hinted hh hk h1 h2 hw hg => rw [(hg hl).1, (hg hl).2]
  | @block w l sp ss ss' os h1 h2 hc hd ih =>
    rw [any_mk, any_mk]
    congr 1
    exact any_thin hl h1 h2 hd ih
  | @case l sp t t' ss ss' os h1 h2 ht hc hd ih1 ih =>
    rw [any_mk, any_mk]
    congr 1
    rw [List.any_cons, List.any_cons, ih1 hl]
    congr 1
    exact any_thin hl h1 h2 hd ih

/-- In initialisers blocks are the same, and without blocks everything is. -/
theorem any_block {a b : Node} (h : Veil cx w l a b) (hw : w = true) :
    a.any Kind.isBlock = b.any Kind.isBlock ∧ (a.any Kind.isBlock = false → a = b) := by
  induction h with
  | @node w l k sp cs cs' hlen hc ih =>
    subst hw
    by_cases hk : k = .block
    · subst hk
      rw [any_mk, any_mk]
      exact ⟨rfl, fun h => by cases h⟩
    have hin : k.inInit true = true := by cases k <;> first | rfl | exact absurd rfl hk
    rw [any_mk, any_mk]
    have hf : List.Forall₂ (fun a b => Node.any Kind.isBlock a = Node.any Kind.isBlock b ∧ (Node.any Kind.isBlock a = false → a = b)) cs cs' :=
      forall₂_of_getElem hlen fun i c c' h1 h2 => ih i c c' h1 h2 hin
    clear hc ih hlen
    have : cs.any (Node.any Kind.isBlock) = cs'.any (Node.any Kind.isBlock) ∧ (cs.any (Node.any Kind.isBlock) = false → cs = cs') := by
      induction hf with
      | nil => exact ⟨rfl, fun _ => rfl⟩
      | cons h1 h2 ih =>
        rw [List.any_cons, List.any_cons, h1.1, ih.1]
        refine ⟨rfl, fun h => ?_⟩
        rw [Bool.or_eq_false_iff] at h
        rw [h1.2 (h1.1.trans h.1), ih.2 (ih.1.trans h.2)]
    refine ⟨by rw [this.1], fun h => ?_⟩
    rw [Bool.or_eq_false_iff] at h
    rw [this.2 h.2]
  | hinted hh hk h1 h2 hw' hg =>
    obtain ⟨h3, h4⟩ := hw' hw
    rw [h3, h4]
    exact ⟨rfl, nofun⟩
  | block os h1 h2 hc hd ih =>
    rw [any_mk, any_mk]
    exact ⟨rfl, fun h => by cases h⟩
  | case os h1 h2 ht hc hd ih1 ih => cases hw

theorem isNone {a b : Node} (h : Veil cx w l a b) : a.isNone = b.isNone := by
  obtain ⟨k, sp, cs⟩ := a
  obtain ⟨cs', rfl, hc | hh | ⟨rfl, -⟩ | ⟨rfl, -⟩⟩ := h.mk_inv
  · cases hc <;> cases k <;> rfl
  · have := hh.2.2.2.2.1
    cases k <;> first | rfl | cases this
  · rfl
  · rfl

theorem isInjectedExpr {a b : Node} (h : Veil cx w l a b) : isInjectedExpr a = isInjectedExpr b := by
  obtain ⟨k, sp, cs⟩ := a
  obtain ⟨cs', rfl, -⟩ := h.mk_inv
  cases k <;> first | rfl | (rename_i c; cases c <;> rfl)

theorem isDirectiveLit {a b : Node} (h : Veil cx w l a b) : Visitor.isDirectiveLit a = Visitor.isDirectiveLit b := by
  obtain ⟨k, sp, cs⟩ := a
  obtain ⟨cs', rfl, -⟩ := h.mk_inv
  cases k <;> rfl

theorem identName {a b : Node} (h : Veil cx w l a b) : a.identName? = b.identName? := by
  obtain ⟨k, sp, cs⟩ := a
  obtain ⟨cs', rfl, -⟩ := h.mk_inv
  cases k <;> rfl

theorem propName {a b : Node} (h : Veil cx w l a b) : a.propName? = b.propName? := by
  obtain ⟨k, sp, cs⟩ := a
  obtain ⟨cs', rfl, -⟩ := h.mk_inv
  cases k <;> rfl

/-- A block stays a block. -/
theorem block_inv {sp : Span} {ss : List Node} {n : Node} (h : Veil cx w l (mk .block sp ss) n) :
    ∃ ss', n = mk .block sp ss' ∧ Stmts cx l ss ss' := by
  obtain ⟨cs', rfl, h | h | ⟨-, h⟩ | ⟨h, -⟩⟩ := h.mk_inv
  · exact ⟨_, rfl, thin_forall₂ h⟩
  · exact absurd rfl h.2.2.2.1
  · exact ⟨_, rfl, h⟩
  · cases h

/-- What is no block does not become one. -/
theorem noBlock {n : Node} {sp : Span} {ss' : List Node} (h : Veil cx w l n (mk .block sp ss')) : ∃ ss, n = mk .block sp ss := by
  obtain ⟨k, sp', cs⟩ := n
  have h1 := h.kind
  have h2 := h.span
  cases h1
  cases h2
  exact ⟨_, rfl⟩

theorem wrapC (c : Counter) {e e' : Node} (h : Veil cx w l e e') : Veil cx w l (wrapCounter c e) (wrapCounter c e') :=
  .mk' (.cons (.mk' (.cons (refl _ _ _) (.cons h .nil))) .nil)

theorem wrapT (b i : Nat) {e e' : Node} (h : Veil cx w l e e') : Veil cx w l (wrapTruth b i e) (wrapTruth b i e') :=
  .mk' (.cons (refl _ _ _) (.cons (.mk' (.cons (.mk' (.cons (refl _ _ _) (.cons h .nil))) (.cons (refl _ _ _) (.cons (refl _ _ _) .nil)))) .nil))

/-- A statement is injected in both trees, or in none, or it has a hint. -/
theorem isInjectedStmt {a b : Node} (h : Veil cx w l a b) :
    isInjectedStmt a = isInjectedStmt b ∨ cx.hint a.span = some .next := by
  obtain ⟨k, sp, cs⟩ := a
  obtain ⟨cs', rfl, hc | hh | ⟨rfl, -⟩ | ⟨rfl, -⟩⟩ := h.mk_inv
  · left
    cases hc with
    | nil => rfl
    | cons h1 h2 =>
      cases h2 with
      | nil => cases k <;> first | rfl | exact h1.isInjectedExpr
      | cons h3 h4 => cases k <;> rfl
  · exact .inr hh.1
  · exact .inl rfl
  · exact .inl rfl

end Veil

/-! ### Trees without logical expressions -/

theorem idle_visitBin {cx : Ctx} {go : Mode → Node → M Node} {m : Mode} {br : Option Nat} {children : Node → M Node} {op : BinOp}
    {sp : Span} {l r : Node} (hop : op.isLogical = false) (hc : Lock.Idle (children (mk (.bin op) sp [l, r])) (mk (.bin op) sp [l, r])) :
    Lock.Idle (Visitor.visitBin cx go m br children op sp l r) (mk (.bin op) sp [l, r]) := by
  cases op with
  | other x => exact Lock.Idle.visitBin hc
  | _ => cases hop

/-- The visitors of logical expressions have nothing to do where there are none. -/
theorem idle_logical (cx : Ctx) (b : Nat) (fuel : Nat) : ∀ m, m = .logical b ∨ m = .logicalInner b → ∀ n : Node,
    n.any Kind.isLogical = false → Lock.Idle (visit cx fuel m n) n := by
  induction fuel with
  | zero => intro m _ n _ st a st' h; cases h
  | succ fuel ih =>
    rintro m hm ⟨k, sp, cs⟩ hn
    have hn' := hn
    rw [any_mk, Bool.or_eq_false_iff, List.any_eq_false] at hn
    have hc : Lock.Idle (logicalChildren (visit cx fuel) b (mk k sp cs)) (mk k sp cs) :=
      .bind (.mapList fun c h => ih _ (.inl rfl) c (by simpa using hn.2 c h)) (.pure _)
    rcases hm with rfl | rfl
    · show Lock.Idle (visitLogical cx (visit cx fuel) b (mk k sp cs)) _
      unfold visitLogical
      split
      · exact .frame fun _ => ih _ (.inr rfl) _ hn'
      · exact hc
    · show Lock.Idle (visitLogicalInner cx (visit cx fuel) b (mk k sp cs)) _
      unfold visitLogicalInner
      split
      · next h => cases h; exact idle_visitBin hn.1 hc
      · exact hc

end Verif
