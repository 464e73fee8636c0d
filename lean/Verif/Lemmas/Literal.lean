import Verif.Spec.Literal
import Verif.Model.Template
/-
Printed string literals of the coverage data.
-/
namespace Verif.Template
open Js

theorem unquoteTail_plain (l : List Char) (h : ∀ c ∈ l, ¬ Special c) : unquoteTail (l ++ ['"']) = some l := by
  induction l with
  | nil => rfl
  | cons c l ih =>
    have hc := h c List.mem_cons_self
    have ih := ih fun d hd => h d (List.mem_cons_of_mem _ hd)
    have h1 : c ≠ '"' := fun e => hc (Or.inl e)
    have h2 : c ≠ '\\' := fun e => hc (Or.inr (Or.inl e))
    rw [List.cons_append, unquoteTail, if_neg hc, ih]
    · rfl
    · exact h1
    · intro _ _ e
      exact absurd e h2

/-- A text without special characters, put between quotes, is read back. -/
theorem unquote_plain (s : String) (h : ∀ c ∈ s.toList, ¬ Special c) : unquote ("\"" ++ s ++ "\"") = some s := by
  have hl : ("\"" ++ s ++ "\"").toList = '"' :: (s.toList ++ ['"']) := by simp
  unfold unquote
  rw [hl]
  simp only [unquoteTail_plain _ h, Option.map_some, String.ofList_toList]

/-- The converse. -/
theorem unquoteTail_special (l l' : List Char) (h : unquoteTail (l ++ ['"']) = some l') (hq : '\\' ∉ l) :
    ∀ c ∈ l, ¬ Special c := by
  induction l generalizing l' with
  | nil =>
    intro c hc
    cases hc
  | cons c l ih =>
    have h2 : c ≠ '\\' := fun e => hq (e ▸ List.mem_cons_self)
    by_cases h1 : c = '"'
    · subst h1
      rw [List.cons_append, unquoteTail, if_neg (by simp)] at h
      cases h
    · by_cases hs : Special c
      · rw [List.cons_append, unquoteTail, if_pos hs] at h
        · cases h
        · exact h1
        · intro _ _ e
          exact absurd e h2
      · rw [List.cons_append, unquoteTail, if_neg hs] at h
        · obtain ⟨l0, h0, _⟩ := Option.map_eq_some_iff.1 h
          have := ih l0 h0 fun e => hq (List.mem_cons_of_mem _ e)
          intro d hd
          rcases List.mem_cons.1 hd with rfl | hd
          · exact hs
          · exact this d hd
        · exact h1
        · intro _ _ e
          exact absurd e h2

theorem props_printsAs (l : List (String × Expr)) (h : ∀ e ∈ l, e.2.printsAs = true) :
    (Props.ofList l).printsAs = true := by
  induction l with
  | nil => rfl
  | cons e l ih =>
    obtain ⟨k, e⟩ := e
    rw [Props.ofList, Props.printsAs, h (k, e) List.mem_cons_self, ih fun e he => h e (List.mem_cons_of_mem _ he)]
    rfl

theorem exprs_printsAs (l : List Expr) (h : ∀ e ∈ l, e.printsAs = true) : (Exprs.ofList l).printsAs = true := by
  induction l with
  | nil => rfl
  | cons e l ih =>
    rw [Exprs.ofList, Exprs.printsAs, h e List.mem_cons_self, ih fun e he => h e (List.mem_cons_of_mem _ he)]
    rfl

theorem range_printsAs (r : Range) : (rangeLit r).printsAs = true := rfl

theorem table_printsAs {V : Type} (f : V → Expr) (m : IndexMap Nat V) (h : ∀ v ∈ m.values, (f v).printsAs = true) :
    (tableLit f m).printsAs = true := by
  unfold tableLit
  rw [Expr.printsAs]
  refine props_printsAs _ fun e he => ?_
  obtain ⟨x, hx, rfl⟩ := List.mem_map.1 he
  exact h x.2 (List.mem_map.2 ⟨x, hx, rfl⟩)

theorem str_printsAs {s : String} (h : ∀ c ∈ s.toList, ¬ Special c) : (strLit s).printsAs = true := by
  unfold strLit
  rw [Expr.printsAs, unquote_plain s h]
  simp

theorem fn_printsAs (f : Function) (h : ∀ c ∈ f.name.toList, ¬ Special c) : (fnLit f).printsAs = true := by
  unfold fnLit
  rw [Expr.printsAs]
  refine props_printsAs _ fun e he => ?_
  simp only [List.mem_cons, List.not_mem_nil, or_false] at he
  rcases he with rfl | rfl | rfl | rfl
  · exact str_printsAs h
  · rfl
  · rfl
  · rfl

theorem counts_printsAs (v : List Nat) : (countsLit v).printsAs = true := by
  unfold countsLit
  rw [Expr.printsAs]
  refine exprs_printsAs _ fun e he => ?_
  obtain ⟨x, hx, rfl⟩ := List.mem_map.1 he
  rfl

theorem branch_printsAs (b : Branch) : (branchLit b).printsAs = true := by
  unfold branchLit
  rw [Expr.printsAs]
  refine props_printsAs _ fun e he => ?_
  simp only [List.mem_append] at he
  rcases he with ((he | he) | he) | he
  · cases hb : b.loc with
    | none => rw [hb] at he; cases he
    | some r =>
      rw [hb] at he
      rw [List.mem_singleton.1 he]
      exact range_printsAs r
  · rw [List.mem_singleton.1 he]
    refine str_printsAs ?_
    cases b.branchType <;> decide
  · split at he
    · rw [List.mem_singleton.1 he]
      show Expr.printsAs (.arr _) = true
      rw [Expr.printsAs]
      refine exprs_printsAs _ fun e he => ?_
      obtain ⟨x, hx, rfl⟩ := List.mem_map.1 he
      exact range_printsAs x
    · cases he
  · cases hb : b.line with
    | none => rw [hb] at he; cases he
    | some r =>
      rw [hb] at he
      rw [List.mem_singleton.1 he]
      rfl

theorem plain_list_printsAs (l : List String) : (Expr.arr (.ofList (l.map plainStr))).printsAs = true := by
  rw [Expr.printsAs]
  refine exprs_printsAs _ fun e he => ?_
  obtain ⟨x, hx, rfl⟩ := List.mem_map.1 he
  rfl

theorem sourceMap_printsAs (m : SourceMap) : (sourceMapLit m).printsAs = true := by
  unfold sourceMapLit
  rw [Expr.printsAs]
  refine props_printsAs _ fun e he => ?_
  simp only [List.mem_append] at he
  rcases he with ((((he | he) | he) | he) | he) | he
  · rw [List.mem_singleton.1 he]; rfl
  · cases hb : m.file with
    | none => rw [hb] at he; cases he
    | some r => rw [hb] at he; rw [List.mem_singleton.1 he]; rfl
  · cases hb : m.sourceRoot with
    | none => rw [hb] at he; cases he
    | some r => rw [hb] at he; rw [List.mem_singleton.1 he]; rfl
  · rw [List.mem_singleton.1 he]
    exact plain_list_printsAs _
  · cases hb : m.sourcesContent with
    | none => rw [hb] at he; cases he
    | some r =>
      rw [hb] at he
      rw [List.mem_singleton.1 he]
      show Expr.printsAs (.arr _) = true
      rw [Expr.printsAs]
      refine exprs_printsAs _ fun e he => ?_
      obtain ⟨x, hx, rfl⟩ := List.mem_map.1 he
      cases x <;> rfl
  · simp only [List.mem_cons, List.not_mem_nil, or_false] at he
    rcases he with rfl | rfl
    · exact plain_list_printsAs _
    · rfl

/-- The printed data object is read back. -/
theorem data_printsAs (magic hash : String) (c : FileCoverage) (hm : ∀ x ∈ magic.toList, ¬ Special x)
    (hh : ∀ x ∈ hash.toList, ¬ Special x) (hn : ∀ f ∈ c.fnMap.values, ∀ x ∈ f.name.toList, ¬ Special x) :
    (dataLit magic hash c).printsAs = true := by
  unfold dataLit
  rw [Expr.printsAs]
  refine props_printsAs _ fun e he => ?_
  simp only [List.mem_append] at he
  rcases he with ((he | he) | he) | he
  · simp only [List.mem_cons, List.not_mem_nil, or_false] at he
    rcases he with rfl | rfl | rfl | rfl | rfl | rfl | rfl | rfl
    · rfl
    · rfl
    · exact table_printsAs _ _ fun v _ => range_printsAs v
    · exact table_printsAs _ _ fun v hv => fn_printsAs v (hn v hv)
    · exact table_printsAs _ _ fun v _ => branch_printsAs v
    · exact table_printsAs _ _ fun v _ => rfl
    · exact table_printsAs _ _ fun v _ => rfl
    · exact table_printsAs _ _ fun v _ => counts_printsAs v
  · cases hb : c.bT with
    | none => rw [hb] at he; cases he
    | some r =>
      rw [hb] at he
      rw [List.mem_singleton.1 he]
      exact table_printsAs _ _ fun v _ => counts_printsAs v
  · cases hb : c.inputSourceMap with
    | none => rw [hb] at he; cases he
    | some r =>
      rw [hb] at he
      rw [List.mem_singleton.1 he]
      exact sourceMap_printsAs r
  · simp only [List.mem_cons, List.not_mem_nil, or_false] at he
    rcases he with rfl | rfl
    · exact str_printsAs hm
    · exact str_printsAs hh

end Verif.Template
