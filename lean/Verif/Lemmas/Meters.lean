import Verif.Lemmas.Costs
import Verif.Lemmas.Registry
/-
Three meters: statements with a given range, functions with given ranges, branches with given type and range.
-/
namespace Verif
open Node

namespace IndexMap
variable {V : Type} (p : V → Bool)

theorem countP_insert (m : IndexMap Nat V) (k : Nat) (v : V) :
    (values (insert m k v)).countP p ≤ (values m).countP p + if p v then 1 else 0 := by
  induction m with
  | nil => simp [values, insert]
  | cons e m ih =>
    obtain ⟨k', v'⟩ := e
    simp only [insert]
    split
    · simp only [values, List.map_cons, List.countP_cons]
      omega
    · simp only [values, List.map_cons, List.countP_cons] at ih ⊢
      omega

theorem countP_modify (m : IndexMap Nat V) (k : Nat) (f : V → V) (hf : ∀ v, p (f v) = p v) :
    (values (modify m k f)).countP p = (values m).countP p := by
  induction m with
  | nil => rfl
  | cons e m ih =>
    obtain ⟨k', v'⟩ := e
    simp only [modify]
    split
    · simp only [values, List.map_cons, List.countP_cons, hf]
    · simp only [values, List.map_cons, List.countP_cons] at ih ⊢
      omega

theorem countP_modify_le (m : IndexMap Nat V) (k : Nat) (f : V → V) (c : Nat)
    (hf : ∀ v, p (f v) = true → p v = true ∨ 1 ≤ c) :
    (values (modify m k f)).countP p ≤ (values m).countP p + c := by
  induction m with
  | nil => exact Nat.zero_le _
  | cons e m ih =>
    obtain ⟨k', v'⟩ := e
    simp only [modify]
    split
    · simp only [values, List.map_cons, List.countP_cons]
      have := hf v'
      split <;> split <;> simp_all <;> omega
    · simp only [values, List.map_cons, List.countP_cons] at ih ⊢
      omega

theorem countP_modify_own (m : IndexMap Nat V) (k : Nat) (f : V → V)
    (hf : ∀ v, (k, v) ∈ m → p (f v) = true → p v = true) :
    (values (modify m k f)).countP p ≤ (values m).countP p := by
  induction m with
  | nil => exact Nat.le_refl _
  | cons e m ih =>
    obtain ⟨k', v'⟩ := e
    simp only [modify]
    split
    · next hk =>
      subst hk
      simp only [values, List.map_cons, List.countP_cons]
      have := hf v' (List.mem_cons_self ..)
      split <;> split <;> simp_all
    · have := ih fun v hv => hf v (List.mem_cons_of_mem _ hv)
      simp only [values, List.map_cons, List.countP_cons] at this ⊢
      omega

end IndexMap

theorem newBranch_other (c : SourceCoverage) (t : BranchType) (r : Range) (g : Bool) :
    (c.newBranch t r g).1.inner.statementMap = c.inner.statementMap ∧
      (c.newBranch t r g).1.inner.fnMap = c.inner.fnMap := by
  constructor <;>
  · simp only [SourceCoverage.newBranch, SourceCoverage.maybeNewBranchTrue]
    split
    · rfl
    · split <;> rfl

theorem addBranchPath_other {c c' : SourceCoverage} {k i : Nat} {r : Range}
    (h : c.addBranchPath k r = .ok (c', i)) :
    c'.inner.statementMap = c.inner.statementMap ∧ c'.inner.fnMap = c.inner.fnMap := by
  unfold SourceCoverage.addBranchPath at h
  cases h1 : c.inner.branchMap.get k with
  | none => rw [h1] at h; cases h
  | some br =>
    rw [h1] at h
    cases h2 : c.inner.b.get k with
    | none => rw [h2] at h; cases h
    | some counts =>
      rw [h2] at h
      simp only at h
      split at h
      · cases h
      · cases h
        constructor <;>
        · simp only [SourceCoverage.maybeAddBranchTrue]
          split
          · rfl
          · split <;> rfl

namespace Meter

/-- Statements with range `r`. -/
def statements (r : Range) : Meter where
  size c := c.inner.statementMap.values.countP (· = r)
  stmt r' := if r' = r then 1 else 0
  fn _ _ := 0
  br _ _ := 0
  arm _ := 0
  newStatement c r' := by
    refine Nat.le_trans (IndexMap.countP_insert ..) ?_
    simp
  newFunction c n d l := Nat.le_refl _
  newBranch c t r' g := by rw [(newBranch_other c t r' g).1]; omega
  addPath c k r' c' i h := Nat.le_of_eq (by rw [(addBranchPath_other h).1]; rfl)
  addOwn c k r' c' i h _ := Nat.le_of_eq (by rw [(addBranchPath_other h).1])
  freeze c := Nat.le_refl _
  new path g sm := rfl

/-- Functions with ranges `x`. -/
def functions (x : Range × Range) : Meter where
  size c := c.inner.fnMap.values.countP fun f => (f.decl, f.loc) = x
  stmt _ := 0
  fn d l := if (d, l) = x then 1 else 0
  br _ _ := 0
  arm _ := 0
  newStatement c r := Nat.le_refl _
  newFunction c n d l := by
    refine Nat.le_trans (IndexMap.countP_insert ..) ?_
    simp
  newBranch c t r' g := by rw [(newBranch_other c t r' g).2]; omega
  addPath c k r' c' i h := Nat.le_of_eq (by rw [(addBranchPath_other h).2]; rfl)
  addOwn c k r' c' i h _ := Nat.le_of_eq (by rw [(addBranchPath_other h).2])
  freeze c := Nat.le_refl _
  new path g sm := rfl

/-- Branches of type `t` with range `r`. -/
def branches (t : BranchType) (r : Range) : Meter where
  size c := c.inner.branchMap.values.countP fun b => (b.branchType, b.loc) = (t, some r)
  stmt _ := 0
  fn _ _ := 0
  br t' r' := if (t', r') = (t, r) then 1 else 0
  arm _ := 0
  newStatement c r := Nat.le_refl _
  newFunction c n d l := Nat.le_refl _
  newBranch c t' r' g := by
    rw [(newBranch_lastB c t' r' g).2.2]
    refine Nat.le_trans (IndexMap.countP_insert ..) ?_
    simp
  addPath c k r' c' i h := by
    rw [(addBranchPath_ok h).2.2, IndexMap.countP_modify]
    · exact Nat.le_refl _
    · intro v; rfl
  addOwn c k r' c' i h _ := by
    rw [(addBranchPath_ok h).2.2, IndexMap.countP_modify]
    · exact Nat.le_refl _
    · intro v; rfl
  freeze c := ((freeze_branchMap c).map _).countP_le
  new path g sm := rfl

/-- The range by which a branch is identified: that of its first arm. An `if` has arms with its own range. -/
def headOf (b : Branch) : Option Range :=
  match b.locations with
  | l :: _ => some l
  | [] => if b.branchType = .if then b.loc else none

/-- Branches whose first arm has range `r`. -/
def heads (r : Range) : Meter where
  size c := c.inner.branchMap.values.countP fun b => headOf b = some r
  stmt _ := 0
  fn _ _ := 0
  br t r' := if t = .if ∧ r' = r then 1 else 0
  arm r' := if r' = r then 1 else 0
  newStatement c r := Nat.le_refl _
  newFunction c n d l := Nat.le_refl _
  newBranch c t r' g := by
    rw [(newBranch_lastB c t r' g).2.2]
    refine Nat.le_trans (IndexMap.countP_insert ..) ?_
    by_cases ht : t = .if <;> simp [headOf, ht]
  addPath c k r' c' i h := by
    rw [(addBranchPath_ok h).2.2]
    refine IndexMap.countP_modify_le _ _ _ _ _ fun v => ?_
    unfold headOf
    cases hv : v.locations with
    | nil =>
      simp only [List.nil_append, Option.some.injEq, decide_eq_true_eq]
      intro e
      exact .inr (by simp [e])
    | cons l ls => exact .inl
  addOwn c k r' c' i h hk := by
    rw [(addBranchPath_ok h).2.2]
    refine IndexMap.countP_modify_own _ _ _ _ fun v hv => ?_
    obtain ⟨h1, h2⟩ : v.branchType = .if ∧ v.loc = some r' := hk.2 _ hv rfl
    unfold headOf
    cases hl : v.locations with
    | nil => simp only [List.nil_append, h1, h2, if_true]; exact id
    | cons l ls => exact id
  freeze c := ((freeze_branchMap c).map _).countP_le
  new path g sm := rfl

theorem sum_flatMap {A B : Type} (l : List A) (g : A → List B) (f : B → Nat) :
    (l.map fun a => ((g a).map f).sum).sum = ((l.flatMap g).map f).sum := by
  induction l with
  | nil => rfl
  | cons a l ih => simp [ih]

theorem sum_count {A B : Type} [DecidableEq B] [BEq B] [LawfulBEq B] (l : List A) (f : A → B) (b : B) :
    (l.map fun a => if f a = b then 1 else 0).sum = (l.map f).count b := by
  induction l with
  | nil => rfl
  | cons a l ih => simp [ih, List.count_cons, Nat.add_comm]

theorem weight_statements (cx : Ctx) (r : Range) (n : Node) :
    (statements r).weight cx n = (stmtRanges cx n).count r := by
  have : ∀ m, (statements r).own cx m = (m.stmtSpans.map fun sp => if cx.range sp = r then 1 else 0).sum := by
    intro m
    simp [own, statements]
  simp only [weight, funext this, stmtRanges]
  rw [sum_flatMap, sum_count]

theorem weight_functions (cx : Ctx) (x : Range × Range) (n : Node) :
    (functions x).weight cx n = (fnRanges cx n).count x := by
  have : ∀ m, (functions x).own cx m =
      ((m.fnSpans cx).map fun y => if (cx.range y.1, cx.range y.2) = x then 1 else 0).sum := by
    intro m
    simp [own, functions]
  simp only [weight, funext this, fnRanges]
  rw [sum_flatMap, sum_count]

theorem weight_branches (cx : Ctx) (t : BranchType) (r : Range) (n : Node) :
    (branches t r).weight cx n = (branchRanges cx n).count (t, r) := by
  have : ∀ m, (branches t r).own cx m =
      (m.branchSpans.map fun y => if (y.1, cx.range y.2) = (t, r) then 1 else 0).sum := by
    intro m
    simp only [own, branches]
    simp
  simp only [weight, funext this, branchRanges]
  rw [sum_flatMap, sum_count]

theorem weight_heads (cx : Ctx) (r : Range) (n : Node) :
    (heads r).weight cx n = (armRanges cx n).count r := by
  have hb : ∀ l : List (BranchType × Span), (l.map fun x => if x.1 = .if ∧ cx.range x.2 = r then 1 else 0).sum =
      (((l.filter fun x => x.1 = .if).map (·.2)).map fun sp => if cx.range sp = r then 1 else 0).sum := by
    intro l
    induction l with
    | nil => rfl
    | cons x l ih =>
      by_cases h : x.1 = .if
      · simp [h, ih]
      · simp [h, ih]
  have : ∀ m, (heads r).own cx m = ((m.ifSpans ++ m.armSpans).map fun sp => if cx.range sp = r then 1 else 0).sum := by
    intro m
    simp only [own, heads, ifSpans, List.map_append, List.sum_append, ← hb]
    simp
  simp only [weight, funext this, armRanges]
  rw [sum_flatMap, sum_count]

end Meter
end Verif
