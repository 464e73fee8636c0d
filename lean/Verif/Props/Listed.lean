import Verif.Spec.Listed
import Verif.Props.Outline
import Verif.Props.Dense
import Verif.Spec.Slide
/-
C50, C51, C53, C54, C67: what the outline of the source says about the ids of branches, and about merging.
-/
namespace Verif
open Visitor Node Build Sem

section
variable {cx : Ctx} {fuel : Nat} {path : String} {sm : Option SourceMap} {p p' : Node} {cov : SourceCoverage}

/-- Ascending lists with the same elements are equal. -/
theorem ascending_ext {l l' : List Nat} (h : l.Pairwise (· < ·)) (h' : l'.Pairwise (· < ·)) (he : ∀ k, k ∈ l ↔ k ∈ l') : l = l' :=
  (List.perm_ext_iff_of_nodup (h.imp Nat.ne_of_lt) (h'.imp Nat.ne_of_lt)).2 he |>.eq_of_pairwise
    (fun _ _ _ _ h1 h2 => (Nat.lt_asymm h1 h2).elim) h h'

theorem ascending_range (n : Nat) : (List.range n).Pairwise (· < ·) := List.pairwise_lt_range

/-- C72. The branches of the report are listed by their numbers; these are the places of the branches of the outline that have arms. -/
theorem C72_listed_partial (hp : p.NoTaggedInits) (hc : p.CasesInSwitch) (hr : instrument cx fuel path sm p = .ok (p', cov)) :
    cov.inner.branchMap.keys = (List.range (Entry.branches (programOutline cx p)).length).filter fun i =>
      (Entry.branches (programOutline cx p))[i]?.any Branch.armed := by
  obtain ⟨n, h, o⟩ := outcome hr
  refine ascending_ext o.finished.branchOrder ((ascending_range _).filter _) fun k => ?_
  rw [IndexMap.mem_keys_iff, C72_branches_partial hp hc hr, List.mem_filter, List.mem_range]
  cases hk : (Entry.branches (programOutline cx p))[k]? with
  | none => simp
  | some b =>
    have hlt := (List.getElem?_eq_some_iff.1 hk).1
    by_cases hb : b.locations.isEmpty = true <;> simp [Option.filter, Branch.armed, hb, hlt]

theorem filter_range_length {α : Type} (B : List α) (P : α → Bool) :
    ((List.range B.length).filter fun i => B[i]?.any P).length = (B.filter P).length := by
  induction B with
  | nil => rfl
  | cons b B ih =>
    rw [List.length_cons, List.range_succ_eq_map, List.filter_cons, List.filter_cons, List.filter_map]
    have h0 : ((b :: B)[0]?.any P) = P b := rfl
    have hs : ((fun i => (b :: B)[i]?.any P) ∘ Nat.succ) = fun i => B[i]?.any P := by
      funext i
      simp
    rw [h0, hs]
    by_cases hb : P b = true
    · rw [if_pos hb, if_pos hb, List.length_cons, List.length_cons, List.length_map, ih]
    · rw [if_neg hb, if_neg hb, List.length_map, ih]

/-- C72. There are as many branches in the report as there are branches with arms in the outline. -/
theorem C72_number_partial (hp : p.NoTaggedInits) (hc : p.CasesInSwitch) (hr : instrument cx fuel path sm p = .ok (p', cov)) :
    cov.inner.b.length = ((Entry.branches (programOutline cx p)).filter Branch.armed).length := by
  obtain ⟨ht, hk, -⟩ := tables_of hr
  have h1 : (IndexMap.keys cov.inner.b).length = cov.inner.branchMap.keys.length := by
    refine ((List.perm_ext_iff_of_nodup hk.b hk.branchMap).2 fun k => ?_).length_eq
    rw [IndexMap.mem_keys_iff, IndexMap.mem_keys_iff]
    have := ht.b k
    cases h1 : IndexMap.get cov.inner.b k <;> cases h2 : cov.inner.branchMap.get k <;> rw [h1, h2] at this <;> simp at this ⊢
  rw [C72_listed_partial hp hc hr, filter_range_length] at h1
  simpa [IndexMap.keys] using h1

/-- C67, exactly when there is no gap: the ids of the branches are `0, 1, …` if and only if, in the outline of the source, branches without arms come
after all others. -/
theorem C67_gaps_iff_partial (hp : p.NoTaggedInits) (hc : p.CasesInSwitch) (hr : instrument cx fuel path sm p = .ok (p', cov)) :
    cov.inner.branchMap.keys = List.range cov.inner.b.length ↔ ArmedFirst (Entry.branches (programOutline cx p)) := by
  have hn := C72_number_partial hp hc hr
  rw [C72_listed_partial hp hc hr, hn]
  generalize Entry.branches (programOutline cx p) = B
  constructor
  · intro h i j b c hij hb hc' ha
    have hj : j ∈ (List.range B.length).filter fun i => B[i]?.any Branch.armed :=
      List.mem_filter.2 ⟨List.mem_range.2 (List.getElem?_eq_some_iff.1 hc').1, by rw [hc']; exact ha⟩
    rw [h, List.mem_range] at hj
    have hi : i ∈ List.range (B.filter Branch.armed).length := List.mem_range.2 (by omega)
    rw [← h] at hi
    have := (List.mem_filter.1 hi).2
    rw [hb] at this
    exact this
  · intro h
    induction B with
    | nil => rfl
    | cons b B ih =>
      by_cases hb : b.armed = true
      · have h2 := ih fun i j x y hij hx hy => h (i + 1) (j + 1) x y (by omega) hx hy
        rw [List.length_cons, List.range_succ_eq_map, List.filter_cons, List.filter_cons, List.filter_map, if_pos hb, if_pos (show (b :: B)[0]?.any Branch.armed = true from hb),
          List.length_cons, List.range_succ_eq_map, ← h2]
        rfl
      · have hall : ∀ i, i < (b :: B).length → ¬ (b :: B)[i]?.any Branch.armed = true := by
          intro i hi ha
          rw [List.getElem?_eq_getElem hi] at ha
          cases i with
          | zero => exact hb ha
          | succ i => exact hb (h 0 (i + 1) b _ (by omega) rfl (List.getElem?_eq_getElem hi) ha)
        have e1 : ((List.range (b :: B).length).filter fun i => (b :: B)[i]?.any Branch.armed) = [] :=
          List.filter_eq_nil_iff.2 fun i hi => hall i (List.mem_range.1 hi)
        have e2 : ((b :: B).filter Branch.armed).length = 0 := by rw [← filter_range_length, e1]; rfl
        rw [e1, e2]
        rfl

/-- The branches with truthiness counts are the logical expressions that are listed. -/
theorem truths_iff (hp : p.NoTaggedInits) (hc : p.CasesInSwitch) (hl : cx.reportLogic = true) (hr : instrument cx fuel path sm p = .ok (p', cov))
    (k : Nat) : k ∈ IndexMap.keys (cov.inner.bT.getD []) ↔ (Entry.branches (programOutline cx p))[k]?.any Branch.logical = true := by
  have hb := C72_branches_partial hp hc hr k
  obtain ⟨n, h, o⟩ := outcome hr
  have h1 := o.finished.branchMap k
  have h2 := o.finished.bT k
  rw [IndexMap.mem_keys_iff, h2]
  rw [h1] at hb
  cases hk : (RegOp.branches h)[k]? with
  | none =>
    rw [hk] at hb
    cases hB : (Entry.branches (programOutline cx p))[k]? with
    | none => simp
    | some b =>
      rw [hB] at hb
      by_cases he : b.locations.isEmpty = true
      · simp [Branch.logical, Branch.armed, he]
      · simp [Option.filter, he] at hb
  | some x =>
    rw [hk, Option.bind_some] at hb
    rw [Option.bind_some]
    have hg := o.steps.truths (by intro x hx; cases hx) x (List.mem_of_getElem? hk)
    by_cases ha : RegOp.arms h k = []
    · rw [if_pos ha] at hb
      rw [if_neg fun h => h.2 ha]
      cases hB : (Entry.branches (programOutline cx p))[k]? with
      | none => simp
      | some b =>
        rw [hB] at hb
        by_cases he : b.locations.isEmpty = true
        · simp [Branch.logical, Branch.armed, he]
        · simp [Option.filter, he] at hb
    · rw [if_neg ha] at hb
      cases hB : (Entry.branches (programOutline cx p))[k]? with
      | none => rw [hB] at hb; cases hb
      | some b =>
        rw [hB] at hb
        by_cases he : b.locations.isEmpty = true
        · simp [Option.filter, he] at hb
        · simp only [Option.filter, he, Bool.not_false, if_true, Option.some.injEq] at hb
          subst hb
          by_cases ht : x.1 = .binaryExpr
          · rw [if_pos ⟨by unfold RegOp.isTruth; rw [ht, hg ht, hl]; rfl, ha⟩]
            simp [Branch.logical, Branch.armed, ht, ha]
          · rw [if_neg fun h => ht (by have := h.1; unfold RegOp.isTruth at this; simp at this; exact this.1)]
            simp [Branch.logical, ht]

theorem _root_.Verif.ApartInSource.untagged (ha : ApartInSource cx p) : p.NoTaggedInits := fun m hm i hi => (ha.plain m hm i hi).1

theorem inRange_iff (hp : p.NoTaggedInits) (hc : p.CasesInSwitch) (hl : cx.reportLogic = true) (hr : instrument cx fuel path sm p = .ok (p', cov)) :
    cov.inner.TruthInRange ↔ LogicInRange (Entry.branches (programOutline cx p)) := by
  unfold FileCoverage.TruthInRange LogicInRange
  rw [C72_number_partial hp hc hr]
  constructor
  · intro h i b hb hlog
    exact h i ((truths_iff hp hc hl hr i).2 (by rw [hb]; exact hlog))
  · intro h k hk
    have := (truths_iff hp hc hl hr k).1 hk
    cases hB : (Entry.branches (programOutline cx p))[k]? with
    | none => rw [hB] at this; cases this
    | some b => rw [hB] at this; exact h k b hB this

theorem inRange_of_source (hp : p.NoTaggedInits) (hc : p.CasesInSwitch) (hr : instrument cx fuel path sm p = .ok (p', cov))
    (hB : cx.reportLogic = true → LogicInRange (Entry.branches (programOutline cx p))) : cov.inner.TruthInRange := by
  cases hl : cx.reportLogic with
  | false => exact inRange_of_plain hr hl
  | true => exact (inRange_iff hp hc hl hr).2 (hB hl)

theorem first_iff (hp : p.NoTaggedInits) (hc : p.CasesInSwitch) (hl : cx.reportLogic = true) (hr : instrument cx fuel path sm p = .ok (p', cov)) :
    cov.inner.TruthFirst ↔ LogicFirst (Entry.branches (programOutline cx p)) :=
  exists_congr fun _ => forall_congr' fun k => by rw [truths_iff hp hc hl hr k]

/-- C54, when merging is possible at all, as a condition on the source: two reports of runs of a file with truthiness counts can be merged if and only
if the place of every logical expression in the outline is below the number of branches that have arms. -/
theorem C54_merge_iff_partial (hs : FitsInSource cx sm p) (ha : ApartInSource cx p) (hc : p.CasesInSwitch) (hl : cx.reportLogic = true)
    (hr : instrument cx fuel path sm p = .ok (p', cov)) {V A : Type} {solid : V → Bool} {x y : List (List (Ev V A)) × FileCoverage}
    (hx : Obtained solid path p' cov.inner x.1 x.2) (hy : Obtained solid path p' cov.inner y.1 y.2) :
    (∃ m, x.2.merge y.2 = .ok m) ↔ LogicInRange (Entry.branches (programOutline cx p)) :=
  (C54_aborts_iff hr (C57_partial hs hr) (C34_locations_partial ha hr) hx hy).trans (inRange_iff ha.untagged hc hl hr)

/-- C54: otherwise no coverage map can be built from reports that include two of the file. -/
theorem C54_source_aborts_partial (hs : FitsInSource cx sm p) (ha : ApartInSource cx p) (hc : p.CasesInSwitch) (hl : cx.reportLogic = true)
    (hB : ¬ LogicInRange (Entry.branches (programOutline cx p))) (hr : instrument cx fuel path sm p = .ok (p', cov)) {V A : Type} {solid : V → Bool}
    (runs : List (List (List (Ev V A)) × FileCoverage)) (hruns : ∀ x ∈ runs, Obtained solid path p' cov.inner x.1 x.2) (hlen : 2 ≤ runs.length)
    (cs : List FileCoverage) (hcs : cs.filter (fun c => decide (c.path = path)) = runs.map (·.2)) (M : CoverageMap) : CoverageMap.fromIter cs ≠ .ok M :=
  C54_aborts hr (C57_partial hs hr) (C34_locations_partial ha hr) (mt (inRange_iff ha.untagged hc hl hr).1 hB) runs hruns hlen cs hcs M

/-- C54: the truthiness counts of a merged report are those of all runs, for the right operands, if in the outline of the source the logical
expressions come before all other branches. -/
theorem C54_source_partial (hs : FitsInSource cx sm p) (ha : ApartInSource cx p) (hc : p.CasesInSwitch) (hl : cx.reportLogic = true)
    (hB : LogicFirst (Entry.branches (programOutline cx p))) (hr : instrument cx fuel path sm p = .ok (p', cov)) :
    Merged path p' cov.inner fun _ _ solid trs m => ∃ n, cov.inner.Retruths n m ∧ Executed p' cov.inner trs n ∧ Gave solid p' cov.inner trs n :=
  C54_partial hr (C57_partial hs hr) hl ((first_iff ha.untagged hc hl hr).2 hB) (C34_locations_partial ha hr)

/-- C54: if the branches without arms come after all others, two reports can be merged, and the truthiness counts are those of the right branches if
and only if the logical expressions come before all other branches. -/
theorem C54_source_iff_partial (hs : FitsInSource cx sm p) (ha : ApartInSource cx p) (hc : p.CasesInSwitch) (hl : cx.reportLogic = true)
    (hB : ArmedFirst (Entry.branches (programOutline cx p))) (hr : instrument cx fuel path sm p = .ok (p', cov)) {V A : Type} {solid : V → Bool}
    {x y : List (List (Ev V A)) × FileCoverage} (hx : Obtained solid path p' cov.inner x.1 x.2) (hy : Obtained solid path p' cov.inner y.1 y.2) :
    ∃ m, x.2.merge y.2 = .ok m ∧ (LogicFirst (Entry.branches (programOutline cx p)) ↔ ∀ k, k ∈ IndexMap.keys (m.bT.getD []) ↔
      k ∈ IndexMap.keys (cov.inner.bT.getD [])) := by
  rw [← first_iff ha.untagged hc hl hr]
  refine C54_first_iff hr (C57_partial hs hr) hl (fun k => ?_) (C34_locations_partial ha hr) hx hy
  rw [← List.mem_range, ← (C67_gaps_iff_partial ha.untagged hc hr).2 hB, IndexMap.mem_keys_iff, IndexMap.mem_keys_iff]
  have := (tables_of hr).1.b k
  cases h1 : IndexMap.get cov.inner.b k <;> cases h2 : cov.inner.branchMap.get k <;> rw [h1, h2] at this <;> simp at this ⊢

/-- C50, with conditions on the program only; by `C54_merge_iff_partial` the one on logical expressions cannot be left out. -/
theorem C50_outline_partial (hs : FitsInSource cx sm p) (ha : ApartInSource cx p) (hc : p.CasesInSwitch)
    (hB : cx.reportLogic = true → LogicInRange (Entry.branches (programOutline cx p))) (hr : instrument cx fuel path sm p = .ok (p', cov)) :
    Merged path p' cov.inner fun _ _ _ trs => TellsAll p' cov.inner trs :=
  C50_partial hr (C57_partial hs hr) (inRange_of_source ha.untagged hc hr hB) (C34_locations_partial ha hr)

/-- C51, with the same conditions. -/
theorem C51_outline_partial (hs : FitsInSource cx sm p) (ha : ApartInSource cx p) (hc : p.CasesInSwitch)
    (hB : cx.reportLogic = true → LogicInRange (Entry.branches (programOutline cx p))) (hr : instrument cx fuel path sm p = .ok (p', cov)) :
    Merged path p' cov.inner fun _ _ _ trs m => ∃ sum n, m.toSummary = .ok sum ∧ Executed p' cov.inner trs n ∧ sum.Sums cov.inner n :=
  C51_partial hr (C57_partial hs hr) (inRange_of_source ha.untagged hc hr hB) (C34_locations_partial ha hr)

/-- C53, with the same conditions. -/
theorem C53_outline_partial (hs : FitsInSource cx sm p) (ha : ApartInSource cx p) (hc : p.CasesInSwitch)
    (hB : cx.reportLogic = true → LogicInRange (Entry.branches (programOutline cx p))) (hr : instrument cx fuel path sm p = .ok (p', cov)) :
    Merged path p' cov.inner fun _ _ _ trs m => ∃ n, Executed p' cov.inner trs n ∧ m.LinesOf cov.inner n :=
  C53_partial hr (C57_partial hs hr) (inRange_of_source ha.untagged hc hr hB) (C34_locations_partial ha hr)

end

/-! ### Modules that are put together -/

theorem Entry.branches_append (E F : List Entry) : Entry.branches (E ++ F) = Entry.branches E ++ Entry.branches F := by
  induction E with
  | nil => rfl
  | cons e E ih => cases e <;> simp [Entry.branches, ih]

theorem Entry.functions_append (k : Nat) (E F : List Entry) :
    Entry.functions k (E ++ F) = Entry.functions k E ++ Entry.functions (k + (Entry.functions k E).length) F := by
  induction E generalizing k with
  | nil => rfl
  | cons e E ih => cases e <;> simp [Entry.functions, ih, Nat.add_assoc, Nat.add_comm]

/-- A function that is listed elsewhere, with its number there. -/
theorem Entry.functions_shift (k j : Nat) (E : List Entry) (id : Nat) (f : Function) (h : (Entry.functions k E)[id]? = some f) :
    ∃ f', (Entry.functions j E)[id]? = some f' ∧ f'.decl = f.decl ∧ f'.loc = f.loc ∧ f'.line = f.line ∧
      (f'.name = f.name ∨ f.name = anonymous (k + id) ∧ f'.name = anonymous (j + id)) := by
  induction E generalizing k j id with
  | nil => cases h
  | cons e E ih =>
    cases e with
    | statement r s => exact ih k j id h
    | branch t r a => exact ih k j id h
    | function name decl loc =>
      cases id with
      | zero =>
        cases h
        refine ⟨_, rfl, rfl, rfl, rfl, ?_⟩
        cases name with
        | none => exact .inr ⟨rfl, rfl⟩
        | some name => exact .inl rfl
      | succ id =>
        obtain ⟨f', h1, h2, h3, h4, h5⟩ := ih (k + 1) (j + 1) id h
        refine ⟨f', h1, h2, h3, h4, h5.imp_right fun h => ?_⟩
        rw [show k + (id + 1) = k + 1 + id by omega, show j + (id + 1) = j + 1 + id by omega]
        exact h

section
variable {cx : Ctx} {fuel : Nat} {path : String} {sm : Option SourceMap} {sp sp₁ sp₂ : Span} {a b : List Node} {p p₁ p₂ : Node}
  {cov cov₁ cov₂ : SourceCoverage}

theorem outline_append (hf : Hint.shouldIgnoreFile cx.cc cx.comments sp = false) (hf₁ : Hint.shouldIgnoreFile cx.cc cx.comments sp₁ = false)
    (hf₂ : Hint.shouldIgnoreFile cx.cc cx.comments sp₂ = false) :
    programOutline cx (mk .module sp (a ++ b)) = programOutline cx (mk .module sp₁ a) ++ programOutline cx (mk .module sp₂ b) := by
  simp only [programOutline, hf, hf₁, hf₂]
  exact List.flatMap_append

theorem untagged_part {l : List Node} (hl : ∀ i ∈ l, i ∈ a ++ b) (h : (mk .module sp (a ++ b)).NoTaggedInits) : (mk .module sp₁ l).NoTaggedInits := by
  intro m hm
  rcases mem_each_mk.1 hm with rfl | ⟨c, hc, hm⟩
  · exact fun i hi => nomatch hi
  · exact h m (mem_each_mk.2 (.inr ⟨c, hl c hc, hm⟩))

theorem casesInSwitch_part {l : List Node} (hl : ∀ i ∈ l, i ∈ a ++ b) (h : (mk .module sp (a ++ b)).CasesInSwitch) :
    (mk .module sp₁ l).CasesInSwitch := by
  intro m hm
  rcases mem_each_mk.1 hm with rfl | ⟨c, hc, hm⟩
  · exact fun _ c hc => h _ (mem_each_mk.2 (.inl rfl)) (by intro h; cases h) c (hl c hc)
  · exact h m (mem_each_mk.2 (.inr ⟨c, hl c hc, hm⟩))

/-- C63 for the branches of modules, whatever is exposed: the branches of a module of the items `a` followed by `b` are those of `a` followed by those
of `b`, with ids moved up by the number of branches in the outline of `a`. -/
theorem C63_branches_partial (hp : (mk .module sp (a ++ b)).NoTaggedInits) (hc : (mk .module sp (a ++ b)).CasesInSwitch)
    (hf : Hint.shouldIgnoreFile cx.cc cx.comments sp = false) (hf₁ : Hint.shouldIgnoreFile cx.cc cx.comments sp₁ = false)
    (hf₂ : Hint.shouldIgnoreFile cx.cc cx.comments sp₂ = false) (h : instrument cx fuel path sm (mk .module sp (a ++ b)) = .ok (p, cov))
    (h₁ : instrument cx fuel path sm (mk .module sp₁ a) = .ok (p₁, cov₁)) (h₂ : instrument cx fuel path sm (mk .module sp₂ b) = .ok (p₂, cov₂)) :
    TableJoin (Entry.branches (programOutline cx (mk .module sp₁ a))).length cov₁.inner.branchMap cov₂.inner.branchMap cov.inner.branchMap := by
  intro k
  rw [C72_branches_partial hp hc h, outline_append hf hf₁ hf₂, Entry.branches_append,
    C72_branches_partial (untagged_part (fun i hi => by simp [hi]) hp) (casesInSwitch_part (fun i hi => by simp [hi]) hc) h₁,
    C72_branches_partial (untagged_part (fun i hi => by simp [hi]) hp) (casesInSwitch_part (fun i hi => by simp [hi]) hc) h₂]
  by_cases hk : k < (Entry.branches (programOutline cx (mk .module sp₁ a))).length
  · rw [if_pos hk, List.getElem?_append_left hk]
  · rw [if_neg hk, List.getElem?_append_right (Nat.le_of_not_lt hk)]

/-- C63 for the functions of modules, whatever is exposed. -/
theorem C63_functions_partial (hp : (mk .module sp (a ++ b)).NoTaggedInits) (hc : (mk .module sp (a ++ b)).CasesInSwitch)
    (hf : Hint.shouldIgnoreFile cx.cc cx.comments sp = false) (hf₁ : Hint.shouldIgnoreFile cx.cc cx.comments sp₁ = false)
    (hf₂ : Hint.shouldIgnoreFile cx.cc cx.comments sp₂ = false) (h : instrument cx fuel path sm (mk .module sp (a ++ b)) = .ok (p, cov))
    (h₁ : instrument cx fuel path sm (mk .module sp₁ a) = .ok (p₁, cov₁)) (h₂ : instrument cx fuel path sm (mk .module sp₂ b) = .ok (p₂, cov₂)) :
    (∀ id f, cov₁.inner.fnMap.get id = some f → cov.inner.fnMap.get id = some f) ∧
    ∀ id f, cov₂.inner.fnMap.get id = some f → ∃ f', cov.inner.fnMap.get (cov₁.inner.fnMap.length + id) = some f' ∧ f'.decl = f.decl ∧ f'.loc = f.loc ∧
      f'.line = f.line ∧ (f'.name = f.name ∨ f.name = anonymous id ∧ f'.name = anonymous (cov₁.inner.fnMap.length + id)) := by
  have g := C72_functions_partial hp hc h
  have g₁ := C72_functions_partial (untagged_part (fun i hi => by simp [hi]) hp) (casesInSwitch_part (fun i hi => by simp [hi]) hc) h₁
  have g₂ := C72_functions_partial (untagged_part (fun i hi => by simp [hi]) hp) (casesInSwitch_part (fun i hi => by simp [hi]) hc) h₂
  have hlen : cov₁.inner.fnMap.length = (Entry.functions 0 (programOutline cx (mk .module sp₁ a))).length := by
    have hk := (C67_items h₁).2.2
    have hl : cov₁.inner.fnMap.length = cov₁.inner.f.length := by
      have := congrArg List.length hk.2
      simpa [IndexMap.keys] using this
    have hm : ∀ k, k < cov₁.inner.fnMap.length ↔ k < (Entry.functions 0 (programOutline cx (mk .module sp₁ a))).length := by
      intro k
      rw [hl, ← List.mem_range, ← hk.2, IndexMap.mem_keys_iff, g₁]
      constructor
      · rintro ⟨v, hv⟩
        exact (List.getElem?_eq_some_iff.1 hv).1
      · exact fun hv => ⟨_, List.getElem?_eq_getElem hv⟩
    exact Nat.le_antisymm (Nat.le_of_not_lt fun hlt => Nat.lt_irrefl _ ((hm _).1 hlt)) (Nat.le_of_not_lt fun hlt => Nat.lt_irrefl _ ((hm _).2 hlt))
  rw [outline_append (sp₁ := sp₁) (sp₂ := sp₂) hf hf₁ hf₂, Entry.functions_append, ← hlen, Nat.zero_add] at g
  constructor
  · intro id f hid
    rw [g₁] at hid
    rw [g, List.getElem?_append_left (List.getElem?_eq_some_iff.1 hid).1, hid]
  · intro id f hid
    rw [g₂] at hid
    rw [g, List.getElem?_append_right (by omega), hlen, Nat.add_sub_cancel_left, ← hlen]
    simpa only [Nat.zero_add] using Entry.functions_shift 0 cov₁.inner.fnMap.length _ id f hid

end

/-! ### Concrete cases -/

/-- `switch (x) {} f() && g()`: reports of two runs with truthiness counts cannot be merged. -/
example : ¬ LogicInRange (Entry.branches (programOutline logic switchThenBoth)) := by decide +kernel

/-- `switch (x) {} f && g; u ? v : t` -/
private def gapSource : Node := Build.module
  [mk .switchStmt (at' 1) [ident 2 "x"], expr 3 (bin 4 .and (ident 5 "f") (ident 6 "g")), expr 7 (cond 8 (ident 9 "u") (ident 10 "v") (ident 11 "t"))]

/-- There is a gap, and yet they can be merged. -/
example : LogicInRange (Entry.branches (programOutline logic gapSource)) ∧ ¬ ArmedFirst (Entry.branches (programOutline logic gapSource)) ∧
    yields (run logic gapSource) (fun _ r => r.branchMap.keys = [1, 2] && r.b.length = 2) = true := by
  refine ⟨by decide +kernel, fun h => ?_, by decide +kernel⟩
  have := h 0 1 _ _ (by omega) rfl rfl rfl
  exact absurd this (by decide +kernel)

/-- `a || b; const f = () => c ? d : e`, of which C63 does not hold for statements. -/
private def joinedParts : Node × Node := (expr 1 (bin 2 .or (ident 3 "a") (ident 4 "b")),
  decl 5 .const "f" (arrow 6 (cond 7 (ident 8 "c") (ident 9 "d") (ident 10 "e"))))

/-- The function and the branch of the second item are those of the item alone, with other ids. -/
example : (Build.module [joinedParts.1, joinedParts.2]).NoTaggedInits ∧ (Build.module [joinedParts.1, joinedParts.2]).CasesInSwitch ∧
    (Entry.branches (programOutline plain (Build.module [joinedParts.1]))).length = 1 ∧
    yields (run plain (Build.module [joinedParts.1])) (fun _ r => r.branchMap.keys = [0] && r.fnMap.length = 0 && r.statementMap.length = 1) = true ∧
    yields (run plain (Build.module [joinedParts.2])) (fun _ r => r.branchMap.keys = [0] && r.fnMap.length = 1 && r.statementMap.length = 2) = true ∧
    yields (run plain (Build.module [joinedParts.1, joinedParts.2])) (fun _ r =>
      r.branchMap.keys = [0, 1] && r.fnMap.length = 1 && r.statementMap.length = 2) = true :=
  ⟨by unfold NoTaggedInits; decide +kernel, by unfold CasesInSwitch; decide +kernel, by decide +kernel, by decide +kernel, by decide +kernel,
    by decide +kernel⟩

end Verif
