import Verif.Props.Stricter
/-
C74: reordering the items of a program only renumbers what is reported.
-/
namespace Verif
open Visitor Node Build

/-- The second function undoes the first, and the other way round. -/
def Inverse (f g : Nat → Nat) : Prop := (∀ i, g (f i) = i) ∧ ∀ i, f (g i) = i

/-- The places of the elements of a list that is reordered. -/
theorem perm_places {α : Type} {l' l : List α} (h : l'.Perm l) : ∃ f g : Nat → Nat, Inverse f g ∧ ∀ i, l'[i]? = l[f i]? := by
  induction h with
  | nil => exact ⟨id, id, ⟨fun _ => rfl, fun _ => rfl⟩, fun _ => rfl⟩
  | cons x _ ih =>
    obtain ⟨f, g, ⟨h1, h2⟩, h3⟩ := ih
    refine ⟨fun i => match i with | 0 => 0 | i + 1 => f i + 1, fun i => match i with | 0 => 0 | i + 1 => g i + 1, ⟨fun i => ?_, fun i => ?_⟩, fun i => ?_⟩
    · cases i with
      | zero => rfl
      | succ i => exact congrArg (· + 1) (h1 i)
    · cases i with
      | zero => rfl
      | succ i => exact congrArg (· + 1) (h2 i)
    · cases i with
      | zero => rfl
      | succ i => exact h3 i
  | swap x y l =>
    refine ⟨fun i => match i with | 0 => 1 | 1 => 0 | i + 2 => i + 2, fun i => match i with | 0 => 1 | 1 => 0 | i + 2 => i + 2, ⟨fun i => ?_, fun i => ?_⟩,
      fun i => ?_⟩
    · match i with
      | 0 => rfl
      | 1 => rfl
      | i + 2 => rfl
    · match i with
      | 0 => rfl
      | 1 => rfl
      | i + 2 => rfl
    · match i with
      | 0 => rfl
      | 1 => rfl
      | i + 2 => rfl
  | trans _ _ ih1 ih2 =>
    obtain ⟨f, g, ⟨h1, h2⟩, h3⟩ := ih1
    obtain ⟨f', g', ⟨h1', h2'⟩, h3'⟩ := ih2
    refine ⟨fun i => f' (f i), fun i => g (g' i), ⟨fun i => ?_, fun i => ?_⟩, fun i => (h3 i).trans (h3' (f i))⟩
    · show g (g' (f' (f i))) = i
      rw [h1', h1]
    · show f' (f (g (g' i))) = i
      rw [h2, h2']

namespace Entry

theorem branches_eq_filterMap (es : List Entry) : branches es = es.filterMap fun
    | .branch t r arms => some ⟨some r, t, arms, some r.start.line⟩
    | _ => none := by
  induction es with
  | nil => rfl
  | cons e es ih => cases e <;> simp [branches, ih]

theorem statements_eq_filterMap (es : List Entry) : statements es = es.filterMap fun
    | .statement r sure => some (r, sure)
    | _ => none := by
  induction es with
  | nil => rfl
  | cons e es ih => cases e <;> simp [statements, ih]

theorem heads_eq_filterMap (es : List Entry) : heads es = es.filterMap fun
    | .function name decl loc => some (name, decl, loc)
    | _ => none := by
  induction es with
  | nil => rfl
  | cons e es ih => cases e <;> simp [heads, ih]

end Entry

/-- The second program has the items of the first in another order. -/
def Node.Reordered (p p' : Node) : Prop := (p.kind = .module ∨ p.kind = .script) ∧ p'.kind = p.kind ∧ p'.children.Perm p.children

theorem programOutline_perm {cx : Ctx} {p p' : Node} (h : p.Reordered p') (hf : Hint.shouldIgnoreFile cx.cc cx.comments p.span = false)
    (hf' : Hint.shouldIgnoreFile cx.cc cx.comments p'.span = false) : (programOutline cx p').Perm (programOutline cx p) := by
  obtain ⟨k, sp, cs⟩ := p
  obtain ⟨k', sp', cs'⟩ := p'
  obtain ⟨hk, hk', hp⟩ := h
  change k' = k at hk'
  change cs'.Perm cs at hp
  change Hint.shouldIgnoreFile cx.cc cx.comments sp = false at hf
  change Hint.shouldIgnoreFile cx.cc cx.comments sp' = false at hf'
  subst hk'
  rcases hk with hk | hk
  · change k' = .module at hk
    subst hk
    unfold programOutline
    simp only [hf, hf']
    exact hp.flatMap_right _
  · change k' = .script at hk
    subst hk
    unfold programOutline
    simp only [hf, hf']
    exact hp.flatMap_right _

theorem untagged_perm {p p' : Node} (h : p.Reordered p') (hp : p.NoTaggedInits) : p'.NoTaggedInits := by
  obtain ⟨k, sp, cs⟩ := p
  obtain ⟨k', sp', cs'⟩ := p'
  obtain ⟨hk, hk', hc⟩ := h
  change k' = k at hk'
  change cs'.Perm cs at hc
  subst hk'
  intro m hm
  rcases mem_each_mk.1 hm with rfl | ⟨c, hc', hm⟩
  · rcases hk with hk | hk <;> (change k' = _ at hk; subst hk; exact fun i hi => nomatch hi)
  · exact hp m (mem_each_mk.2 (.inr ⟨c, hc.mem_iff.1 hc', hm⟩))

theorem casesInSwitch_perm {p p' : Node} (h : p.Reordered p') (hp : p.CasesInSwitch) : p'.CasesInSwitch := by
  obtain ⟨k, sp, cs⟩ := p
  obtain ⟨k', sp', cs'⟩ := p'
  obtain ⟨hk, hk', hc⟩ := h
  change k' = k at hk'
  change cs'.Perm cs at hc
  subst hk'
  intro m hm
  rcases mem_each_mk.1 hm with rfl | ⟨c, hc', hm⟩
  · exact fun hs c hc' => hp _ (mem_each_mk.2 (.inl rfl)) hs c (hc.mem_iff.1 hc')
  · exact hp m (mem_each_mk.2 (.inr ⟨c, hc.mem_iff.1 hc', hm⟩))

section
variable {cx : Ctx} {fuel fuel' : Nat} {path path' : String} {sm sm' : Option SourceMap} {p p' p1 p2 : Node} {cov cov' : SourceCoverage}

/-- C74 for branches: those of the program with its items in another order are the same with other numbers. -/
theorem C74_branches_partial (hp : p.NoTaggedInits) (hc : p.CasesInSwitch) (ho : p.Reordered p')
    (hf : Hint.shouldIgnoreFile cx.cc cx.comments p.span = false) (hf' : Hint.shouldIgnoreFile cx.cc cx.comments p'.span = false)
    (hr : instrument cx fuel path sm p = .ok (p1, cov)) (hr' : instrument cx fuel' path' sm' p' = .ok (p2, cov')) :
    ∃ f g : Nat → Nat, Inverse f g ∧ ∀ id, cov'.inner.branchMap.get id = cov.inner.branchMap.get (f id) := by
  have h := (programOutline_perm ho hf hf').filterMap fun e => match e with
    | .branch t r arms => some (⟨some r, t, arms, some r.start.line⟩ : Branch)
    | _ => none
  obtain ⟨f, g, hi, h⟩ := perm_places h
  refine ⟨f, g, hi, fun id => ?_⟩
  rw [C72_branches_partial (untagged_perm ho hp) (casesInSwitch_perm ho hc) hr', C72_branches_partial hp hc hr, Entry.branches_eq_filterMap,
    Entry.branches_eq_filterMap, h id]

/-- C74 for functions: they have other numbers, the same ranges and the same names, except that those without a name are called after their numbers. -/
theorem C74_functions_partial (hp : p.NoTaggedInits) (hc : p.CasesInSwitch) (ho : p.Reordered p')
    (hf : Hint.shouldIgnoreFile cx.cc cx.comments p.span = false) (hf' : Hint.shouldIgnoreFile cx.cc cx.comments p'.span = false)
    (hr : instrument cx fuel path sm p = .ok (p1, cov)) (hr' : instrument cx fuel' path' sm' p' = .ok (p2, cov')) :
    ∃ f g : Nat → Nat, Inverse f g ∧ ∀ id, (cov'.inner.fnMap.get id = none ∧ cov.inner.fnMap.get (f id) = none) ∨
      ∃ fn' fn, cov'.inner.fnMap.get id = some fn' ∧ cov.inner.fnMap.get (f id) = some fn ∧ fn'.decl = fn.decl ∧ fn'.loc = fn.loc ∧
        fn'.line = fn.line ∧ SameName (f id) id fn fn' := by
  have h : (Entry.heads (programOutline cx p')).Perm (Entry.heads (programOutline cx p)) := by
    rw [Entry.heads_eq_filterMap, Entry.heads_eq_filterMap]
    exact (programOutline_perm ho hf hf').filterMap _
  obtain ⟨f, g, hi, h⟩ := perm_places h
  refine ⟨f, g, hi, fun id => ?_⟩
  rw [C72_functions_partial (untagged_perm ho hp) (casesInSwitch_perm ho hc) hr', C72_functions_partial hp hc hr, functions_heads, functions_heads, h id]
  cases (Entry.heads (programOutline cx p))[f id]? with
  | none => exact .inl ⟨rfl, rfl⟩
  | some d =>
    refine .inr ⟨_, _, rfl, rfl, rfl, rfl, rfl, ?_⟩
    obtain ⟨name, d⟩ := d
    cases name with
    | some x => exact .inl rfl
    | none => exact .inr ⟨by rw [Nat.zero_add]; rfl, by rw [Nat.zero_add]; rfl⟩

/-- C74 for statements, if no initialiser has functions but no block in it (`C74_order_fails`). -/
theorem C74_statements_partial (hp : p.NoTaggedInits) (hc : p.CasesInSwitch) (ho : p.Reordered p')
    (hu : ∀ e ∈ Entry.statements (programOutline cx p), e.2 = true)
    (hf : Hint.shouldIgnoreFile cx.cc cx.comments p.span = false) (hf' : Hint.shouldIgnoreFile cx.cc cx.comments p'.span = false)
    (hr : instrument cx fuel path sm p = .ok (p1, cov)) (hr' : instrument cx fuel' path' sm' p' = .ok (p2, cov')) :
    ∃ f g : Nat → Nat, Inverse f g ∧ ∀ id, cov'.inner.statementMap.get id = cov.inner.statementMap.get (f id) := by
  have h : (Entry.statements (programOutline cx p')).Perm (Entry.statements (programOutline cx p)) := by
    rw [Entry.statements_eq_filterMap, Entry.statements_eq_filterMap]
    exact (programOutline_perm ho hf hf').filterMap _
  have hu' : ∀ e ∈ Entry.statements (programOutline cx p'), e.2 = true := fun e he => hu e (h.mem_iff.1 he)
  obtain ⟨f, g, hi, h⟩ := perm_places h
  refine ⟨f, g, hi, fun id => ?_⟩
  rw [C72_sure_partial (untagged_perm ho hp) (casesInSwitch_perm ho hc) hu' hr', C72_sure_partial hp hc hu hr, h id]

end

/-- `a || b` -/
private def firstItem : Node := expr 1 (bin 2 .or (ident 3 "a") (ident 4 "b"))
/-- `const f = () => c ? d : e` -/
private def secondItem : Node := decl 5 .const "f" (arrow 6 (cond 7 (ident 8 "c") (ident 9 "d") (ident 10 "e")))
/-- `function g() { return h ? i : j }` -/
private def thirdItem : Node := fnDecl 11 "g" [] [mk .returnStmt (at' 12) [cond 13 (ident 14 "h") (ident 15 "i") (ident 16 "j")]]

/-- C74 fails for statements: with `a || b` before it, the initialiser of `const f = () => c ? d : e` is not listed. -/
theorem C74_order_fails : ∃ p p' p1 p2 cov cov', p.NoTaggedInits ∧ p.CasesInSwitch ∧ p.Reordered p' ∧ run plain p = .ok (p1, cov) ∧
    run plain p' = .ok (p2, cov') ∧ cov.inner.statementMap.length = 2 ∧ cov'.inner.statementMap.length = 3 := by
  have h1 : yields (run plain (Build.module [firstItem, secondItem])) (fun _ r => decide (r.statementMap.length = 2)) = true := by decide +kernel
  have h2 : yields (run plain (Build.module [secondItem, firstItem])) (fun _ r => decide (r.statementMap.length = 3)) = true := by decide +kernel
  obtain ⟨p1, cov1, r1, g1⟩ := of_yields h1
  obtain ⟨p2, cov2, r2, g2⟩ := of_yields h2
  exact ⟨Build.module [firstItem, secondItem], Build.module [secondItem, firstItem], p1, p2, cov1, cov2, by unfold NoTaggedInits; decide +kernel,
    by unfold CasesInSwitch; decide +kernel, ⟨.inl rfl, rfl, List.Perm.swap ..⟩, r1, r2, of_decide_eq_true g1, of_decide_eq_true g2⟩

/-- The conditions hold for `a || b; function g() { return h ? i : j }`, and the branches are exchanged in the report. -/
example : (Build.module [firstItem, thirdItem]).NoTaggedInits ∧ (Build.module [firstItem, thirdItem]).CasesInSwitch ∧
    (Build.module [firstItem, thirdItem]).Reordered (Build.module [thirdItem, firstItem]) ∧
    (∀ e ∈ Entry.statements (programOutline plain (Build.module [firstItem, thirdItem])), e.2 = true) ∧
    yields (run plain (Build.module [firstItem, thirdItem])) (fun _ r => decide (r.branchMap.map (·.2.branchType) = [.binaryExpr, .condExpr]) &&
      decide (r.statementMap.map (·.2) = [plain.range (at' 1), plain.range (at' 12)])) = true ∧
    yields (run plain (Build.module [thirdItem, firstItem])) (fun _ r => decide (r.branchMap.map (·.2.branchType) = [.condExpr, .binaryExpr]) &&
      decide (r.statementMap.map (·.2) = [plain.range (at' 12), plain.range (at' 1)])) = true :=
  ⟨by unfold NoTaggedInits; decide +kernel, by unfold CasesInSwitch; decide +kernel, ⟨.inl rfl, rfl, List.Perm.swap ..⟩, by decide +kernel,
    by decide +kernel, by decide +kernel⟩

end Verif
