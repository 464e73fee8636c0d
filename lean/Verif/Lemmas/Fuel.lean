import Verif.Model.Program
/-
Results do not depend on the bound on nested visits once it is large enough. The visitors are
monotone in the recursive visits for the flat order whose bottom is `outOfFuel`.
-/
namespace Verif
open Lean.Order

instance {α : Type} : PartialOrder (Except Panic α) :=
  inferInstanceAs (PartialOrder (FlatOrder (Except.error Panic.outOfFuel)))
instance {α : Type} : CCPO (Except Panic α) :=
  inferInstanceAs (CCPO (FlatOrder (Except.error Panic.outOfFuel)))
instance {α : Type} : PartialOrder (M α) := instOrderPi
instance {α : Type} : CCPO (M α) := instCCPOPi

theorem M.le_cases {x y : Except Panic α} (h : x ⊑ y) : x = .error .outOfFuel ∨ x = y := by
  cases h with
  | bot => exact Or.inl rfl
  | refl => exact Or.inr rfl

theorem M.bot_le (y : Except Panic α) : (.error .outOfFuel : Except Panic α) ⊑ y :=
  FlatOrder.rel.bot

instance : MonoBind M where
  bind_mono_left := by
    intro α β a b f hab st
    show (a >>= f) st ⊑ (b >>= f) st
    simp only [Bind.bind, M.bind]
    rcases M.le_cases (hab st) with h | h
    · rw [h]; exact M.bot_le _
    · rw [h]; exact PartialOrder.rel_refl
  bind_mono_right := by
    intro α β a f g hfg st
    show (a >>= f) st ⊑ (a >>= g) st
    simp only [Bind.bind, M.bind]
    split
    · exact PartialOrder.rel_refl
    · exact hfg _ _

namespace Visitor
variable {γ : Type} [PartialOrder γ]

@[partial_fixpoint_monotone]
theorem mono_fresh {α : Type} (ig : Option IgnoreScope) (f : γ → M α) (hf : monotone f) :
    monotone fun g => fresh ig (f g) := by
  intro a b hab st
  simp only [fresh]
  rcases M.le_cases (hf a b hab { st with before := [], ignore := ig }) with h | h
  · rw [h]; exact M.bot_le _
  · rw [h]; exact PartialOrder.rel_refl

/-- Monotonicity by structure. -/
local macro "mono" : tactic => `(tactic| repeat' (first | assumption | monotonicity))

@[partial_fixpoint_monotone]
theorem mono_keepIf {α : Type} (p : Prop) [Decidable p] (a : α) (f : γ → M α) (hf : monotone f) :
    monotone fun g => keepIf p a (f g) := by
  unfold keepIf
  mono

theorem mono_app {α β : Type} (f : γ → β → M α) (hf : monotone f) (b : β) : monotone fun g => f g b :=
  monotone_apply b f hf

@[partial_fixpoint_monotone]
theorem mono_frame {α : Type} (cx : Ctx) (t : Tag) (sp : Span) (f : γ → Option IgnoreScope → M α)
    (hf : monotone f) : monotone fun g => frame cx t sp (f g) := by
  unfold frame
  have := mono_app f hf
  mono
  exact this _

@[partial_fixpoint_monotone]
theorem mono_guarded (cx : Ctx) (t : Tag) (n : Node) (f : γ → M Node)
    (hf : monotone f) : monotone fun g => guarded cx t n (f g) := by
  unfold guarded
  mono

@[partial_fixpoint_monotone]
theorem mono_mapList {α β : Type} (f : γ → α → M β) (l : List α) (hf : monotone f) :
    monotone fun g => M.mapList (f g) l := by
  have := mono_app f hf
  induction l with
  | nil => unfold M.mapList; mono
  | cons a l ih => unfold M.mapList; mono; exact this _

section
variable (cx : Ctx) (go : γ → Mode → Node → M Node) (hgo : monotone go)
include hgo

theorem mono_go (m : Mode) (n : Node) : monotone fun g => go g m n :=
  monotone_apply n (fun g => go g m) (monotone_apply m go hgo)

local macro "gomono" : tactic => `(tactic| repeat' (first | assumption | exact mono_go _ ‹_› _ _ | monotonicity))

@[partial_fixpoint_monotone]
theorem mono_insertStmt (s : Node) : monotone fun g => insertStmt cx (go g) s := by
  unfold insertStmt
  gomono

@[partial_fixpoint_monotone]
theorem mono_insertStmts (ss : List Node) : monotone fun g => insertStmts cx (go g) ss := by
  induction ss with
  | nil => unfold insertStmts; gomono
  | cons s ss ih => unfold insertStmts; gomono

@[partial_fixpoint_monotone]
theorem mono_visitStmts (ss : List Node) : monotone fun g => visitStmts cx (go g) ss := by
  unfold visitStmts
  gomono

@[partial_fixpoint_monotone]
theorem mono_visitChildren (m : Mode) (n : Node) : monotone fun g => visitChildren cx (go g) m n := by
  unfold visitChildren
  gomono
  exact monotone_apply m go hgo

@[partial_fixpoint_monotone]
theorem mono_wrapBin (m : Mode) (b : Nat) (n : Node) : monotone fun g => wrapBin cx (go g) m b n := by
  unfold wrapBin
  gomono

@[partial_fixpoint_monotone]
theorem mono_coverStatement (m : Mode) (n : Node) :
    monotone fun g => coverStatement cx (go g) m n := by
  unfold coverStatement
  gomono

@[partial_fixpoint_monotone]
theorem mono_wrapArm (cur : Option IgnoreScope) (b : Nat) (r : Range) (n : Node) :
    monotone fun g => wrapArm cx (go g) cur b r n := by
  unfold wrapArm
  gomono

@[partial_fixpoint_monotone]
theorem mono_visitArrow (a : String) (sp : Span) (p n : Node) :
    monotone fun g => visitArrow cx (go g) a sp p n := by
  unfold visitArrow
  gomono

@[partial_fixpoint_monotone]
theorem mono_visitAccessor (m : Mode) (n k b : Node) (r : Node → Node) :
    monotone fun g => visitAccessor cx (go g) m n k b r := by
  unfold visitAccessor
  gomono

@[partial_fixpoint_monotone]
theorem mono_visitIf (m : Mode) (cur : Option IgnoreScope) (sp : Span) (t c a : Node) :
    monotone fun g => visitIf cx (go g) m cur sp t c a := by
  unfold visitIf
  gomono

@[partial_fixpoint_monotone]
theorem mono_visitCond (m : Mode) (cur : Option IgnoreScope) (sp : Span) (t c a : Node) :
    monotone fun g => visitCond cx (go g) m cur sp t c a := by
  unfold visitCond
  gomono

@[partial_fixpoint_monotone]
theorem mono_visitBin (m : Mode) (b : Option Nat) (f : γ → Node → M Node) (hf : monotone f)
    (op : BinOp) (sp : Span) (l r : Node) :
    monotone fun g => visitBin cx (go g) m b (f g) op sp l r := by
  unfold visitBin
  have := mono_app f hf
  gomono
  all_goals exact this _

@[partial_fixpoint_monotone]
theorem mono_visitCase (b : Nat) (sp : Span) (t : Node) (cs : List Node) :
    monotone fun g => visitCase cx (go g) b sp t cs := by
  unfold visitCase
  gomono

@[partial_fixpoint_monotone]
theorem mono_visitWithBody (cur : Option IgnoreScope) (n : Node) :
    monotone fun g => visitWithBody cx (go g) cur n := by
  unfold visitWithBody
  gomono

theorem mono_visitNode (m : Mode) (n : Node) :
    monotone fun g => visitNode cx (go g) m n := by
  unfold visitNode
  gomono
  exact monotone_of_monotone_apply _ fun n => mono_visitChildren cx go hgo m n

@[partial_fixpoint_monotone]
theorem mono_logicalChildren (b : Nat) (n : Node) :
    monotone fun g => logicalChildren (go g) b n := by
  unfold logicalChildren
  gomono
  exact monotone_apply _ go hgo

theorem mono_step (m : Mode) (n : Node) : monotone fun g => step cx (go g) m n := by
  unfold step visitLogical visitLogicalInner
  have := mono_visitNode cx go hgo
  gomono
  · exact monotone_of_monotone_apply _ fun n => mono_logicalChildren go hgo _ n
  · exact this _ _

end

/-- One visit is monotone in the recursive visits. -/
theorem mono_step_fun (cx : Ctx) : monotone (step cx) :=
  monotone_of_monotone_apply _ fun m => monotone_of_monotone_apply _ fun n =>
    mono_step cx (fun g => g) monotone_id m n

theorem visit_mono (cx : Ctx) {f g : Nat} (h : f ≤ g) : visit cx f ⊑ visit cx g := by
  induction f generalizing g with
  | zero => intro m n st; exact M.bot_le _
  | succ f ih =>
    cases g with
    | zero => omega
    | succ g => exact mono_step_fun cx _ _ (ih (by omega))

/-- A visit that ends does not depend on the bound. -/
theorem visit_stable (cx : Ctx) {f g : Nat} (h : f ≤ g) {m : Mode} {n : Node} {st : St}
    {r : Except Panic (Node × St)} (hr : visit cx f m n st = r) (hf : r ≠ .error .outOfFuel) :
    visit cx g m n st = r := by
  rcases M.le_cases (visit_mono cx h m n st) with h1 | h1
  · exact absurd (hr.symm.trans h1) hf
  · exact h1.symm.trans hr

/-- Bounds, ordered by size. -/
local instance : PartialOrder Nat where
  rel a b := a ≤ b
  rel_refl := Nat.le_refl _
  rel_trans := Nat.le_trans
  rel_antisymm := Nat.le_antisymm

theorem mono_visit (cx : Ctx) (m : Mode) (n : Node) : monotone fun f : Nat => visit cx f m n :=
  fun _ _ h => visit_mono cx h m n

local macro "pmono" : tactic =>
  `(tactic| repeat' (first | assumption | exact mono_visit _ _ _ | monotonicity))

theorem mono_withBefore (x : Nat → M Node) (hx : monotone x) : monotone fun f => withBefore (x f) := by
  unfold withBefore
  pmono

theorem mono_visitItem (cx : Ctx) (n : Node) : monotone fun f : Nat => visitItem cx f n := by
  have : monotone fun f : Nat => withBefore (itemBody cx f n) := by
    refine mono_withBefore _ ?_
    unfold itemBody
    pmono
  unfold visitItem
  pmono

theorem mono_visitItems (cx : Ctx) (l : List Node) : monotone fun f : Nat => visitItems cx f l := by
  induction l with
  | nil => unfold visitItems; pmono
  | cons n l ih =>
    have := mono_visitItem cx n
    unfold visitItems
    pmono

theorem mono_visitScriptItems (cx : Ctx) (l : List Node) :
    monotone fun f : Nat => visitScriptItems cx f l := by
  induction l with
  | nil => unfold visitScriptItems; pmono
  | cons n l ih =>
    have : monotone fun f : Nat => visitScriptItem cx f n := mono_withBefore _ (mono_visit cx _ n)
    unfold visitScriptItems
    pmono

theorem mono_visitProgram (cx : Ctx) (n : Node) : monotone fun f : Nat => visitProgram cx f n := by
  unfold visitProgram programBody moduleItems scriptBody
  have h1 := mono_visitItems cx
  have h2 := mono_visitScriptItems cx
  pmono
  · exact h1 _
  · exact h2 _

/-- A larger bound gives the same result. -/
theorem instrument_stable (cx : Ctx) {f g : Nat} (h : f ≤ g) {path : String} {sm : Option SourceMap}
    {p : Node} {r : Except Panic (Node × SourceCoverage)} (hr : instrument cx f path sm p = r)
    (hf : r ≠ .error .outOfFuel) : instrument cx g path sm p = r := by
  unfold instrument at hr ⊢
  rcases M.le_cases (mono_visitProgram cx p f g h (initial cx path sm)) with h1 | h1
  · simp only [h1] at hr
    exact absurd hr.symm hf
  · simp only [← h1]
    exact hr

end Visitor
end Verif
