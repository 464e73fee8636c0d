import Verif.Lemmas.SemClean
import Verif.Lemmas.Run
/-
Names and directives in emitted programs.
-/
namespace Verif
open Node Sem RegOp Visitor

/-- Templates at the start of a program are its only items that steps do not explain. -/
theorem Sound.Templated.inner_sub {n p' : Node} (h : Sound.Templated n p') :
    ∀ m ∈ inner p', m ∈ inner n ∨ m = declItem ∨ m = callItem := by
  have hd : ∀ {m : Node}, m ∈ each (mk .covDecl Span.dummy []) → m = declItem := by
    intro m hm
    rcases mem_each_mk.1 hm with h | ⟨c, hc, _⟩
    · exact h
    · cases hc
  have hc : ∀ {m : Node}, m ∈ each (mk .covCall Span.dummy []) → m = callItem := by
    intro m hm
    rcases mem_each_mk.1 hm with h | ⟨c, hc, _⟩
    · exact h
    · cases hc
  intro m hm
  cases h with
  | module sp items =>
    rw [mem_inner_mk] at hm ⊢
    obtain ⟨c, hcc, hm⟩ := hm
    cases items with
    | nil =>
      simp only [insertModuleTemplates, List.mem_cons, List.not_mem_nil, or_false] at hcc
      rcases hcc with rfl | rfl
      · exact .inr (.inl (hd hm))
      · exact .inr (.inr (hc hm))
    | cons i items =>
      simp only [insertModuleTemplates, List.mem_cons] at hcc
      rcases hcc with rfl | rfl | rfl | hcc
      · exact .inl ⟨_, List.mem_cons_self .., hm⟩
      · exact .inr (.inl (hd hm))
      · exact .inr (.inr (hc hm))
      · exact .inl ⟨_, List.mem_cons_of_mem _ hcc, hm⟩
  | script sp items =>
    rw [mem_inner_mk] at hm ⊢
    obtain ⟨c, hcc, hm⟩ := hm
    simp only [List.mem_cons] at hcc
    rcases hcc with rfl | rfl | hcc
    · exact .inr (.inl (hd hm))
    · exact .inr (.inr (hc hm))
    · exact .inl ⟨_, hcc, hm⟩

/-- Templates do not matter when collecting from everything below the root. -/
theorem Sound.Templated.flatMap_inner {n p' : Node} (h : Sound.Templated n p') {β : Type} {f : Node → List β}
    (h1 : f declItem = []) (h2 : f callItem = []) : (inner p').flatMap f = (inner n).flatMap f := by
  have hd : (each (mk .covDecl Span.dummy [])).flatMap f = [] := by
    simp only [each, eachList, List.flatMap_cons, List.flatMap_nil, List.append_nil]
    exact h1
  have hc : (each (mk .covCall Span.dummy [])).flatMap f = [] := by
    simp only [each, eachList, List.flatMap_cons, List.flatMap_nil, List.append_nil]
    exact h2
  cases h with
  | module sp items =>
    cases items with
    | nil => simp [inner, Node.children, insertModuleTemplates, eachList, List.flatMap_append, hd, hc]
    | cons i items => simp [inner, Node.children, insertModuleTemplates, eachList, List.flatMap_append, hd, hc]
  | script sp items => simp [inner, Node.children, eachList, List.flatMap_append, hd, hc]

theorem each_eq (n : Node) : each n = n :: inner n := by
  cases n; rfl

theorem Sound.Templated.kind_eq {n p' : Node} (h : Sound.Templated n p') : p'.kind = n.kind ∧ p'.span = n.span := by
  cases h <;> exact ⟨rfl, rfl⟩

theorem Sound.Templated.kind {n p' : Node} (h : Sound.Templated n p') : n.kind = .module ∨ n.kind = .script := by
  cases h
  · exact .inl rfl
  · exact .inr rfl

namespace Outcome
variable {cx : Ctx} {path : String} {sm : Option SourceMap} {p p' : Node} {r : FileCoverage} {n : Node}
  {h : List RegOp}

theorem kind_eq (o : Outcome cx path sm p p' r n h) : p'.kind = p.kind := by
  rw [← strip_kind p', o.strip_eq, strip_kind]

/-- Predicates that do not look at counters. -/
theorem inner_keep (o : Outcome cx path sm p p' r n h) {P : Node → Prop}
    (hs : ∀ a b, strip a = strip b → P a → P b) (ha : ∀ n, n.kind.added = true → P n) (hd : P declItem) (hc : P callItem)
    (hp : ∀ m ∈ inner p, P m) : ∀ m ∈ inner p', P m := by
  have hn := o.steps.below_keep hs ha hp
  intro m hm
  rcases o.result with ⟨rfl, -⟩ | ⟨ht, -⟩
  · exact hn m hm
  · rcases ht.inner_sub m hm with hm | rfl | rfl
    · exact hn m hm
    · exact hd
    · exact hc

theorem directInits (o : Outcome cx path sm p p' r n h) (hp : Clean p) : DirectInits p' := by
  have h1 : DirectInits p := by
    intro m hm _ c hc _
    have hm := clean_each hp hm
    cases m
    exact clean_unwrap ((clean_mk.1 hm).2 c hc)
  have hn := o.steps.directInits h1
  rcases o.result with ⟨rfl, -⟩ | ⟨ht, -⟩
  · exact hn
  · intro m hm hk
    rcases mem_each.1 hm with rfl | hm
    · rw [ht.kind_eq.1] at hk
      rcases ht.kind with h | h <;> rw [h] at hk <;> cases hk
    · rcases ht.inner_sub m hm with hm | rfl | rfl
      · exact hn m (mem_each.2 (.inr hm)) hk
      · cases hk
      · cases hk

theorem directFields (o : Outcome cx path sm p p' r n h) (hp : Clean p) (hU : UnnamedFields p) : DirectFields p' := by
  have h1 : DirectFields p := by
    intro m hm hk c hc hd
    have hmc := clean_each hp hm
    have hcc : Clean c := by cases m; exact (clean_mk.1 hmc).2 c hc
    rw [clean_unwrap hcc] at hd
    refine ⟨clean_unwrap hcc, (hU m hm ?_ c hc hd).2⟩
    generalize m.kind = k at hk
    cases k <;> first | rfl | cases hk
  have hn := o.steps.directFields h1
  rcases o.result with ⟨rfl, -⟩ | ⟨ht, -⟩
  · exact hn
  · intro m hm hk
    rcases mem_each.1 hm with rfl | hm
    · rw [ht.kind_eq.1] at hk
      rcases ht.kind with h | h <;> rw [h] at hk <;> cases hk
    · rcases ht.inner_sub m hm with hm | rfl | rfl
      · exact hn m (mem_each.2 (.inr hm)) hk
      · cases hk
      · cases hk

/-- Information that does not look at counters, collected from all nodes. -/
theorem collect_eq (o : Outcome cx path sm p p' r n h) {β : Type} {f : Node → List β}
    (hs : ∀ a b, strip a = strip b → f a = f b)
    (ha : ∀ n, n.kind.added = true → f n = []) (hd : f declItem = []) (hc : f callItem = []) :
    (each p').flatMap f = (each p).flatMap f := by
  rw [← o.steps.collect_eq hs ha]
  rcases o.result with ⟨rfl, -⟩ | ⟨ht, -⟩
  · rfl
  · rw [each_eq, each_eq, List.flatMap_cons, List.flatMap_cons, ht.flatMap_inner hd hc]
    rw [hs p' n (by rw [o.strip_eq, o.steps.strip_eq])]

end Outcome

/-! ### Directives of the program itself -/

theorem isDirective_iff {s : Node} : isDirectiveStmt s = true ↔ ∃ v, directive? s = some v := by
  unfold isDirectiveStmt directive?
  split
  · simp
  · simp

/-- The directives of the program in front of everything else. -/
theorem instrument_module_directives {cx : Ctx} {fuel : Nat} {path : String} {sm : Option SourceMap} {sp : Span}
    {items : List Node} {p' : Node} {cov : SourceCoverage}
    (hf : Hint.shouldIgnoreFile cx.cc cx.comments sp = false) (hp : Clean (mk .module sp items))
    (hr : instrument cx fuel path sm (mk .module sp items) = .ok (p', cov)) :
    directivesOf (codeOf p') = (directivesOf items).take 1 := by
  obtain ⟨n, h, o⟩ := outcome hr
  rw [instrument_module _ _ _ _ _ _ hf] at hr
  cases hv : visitItems cx fuel items (start cx path sm) with
  | error e => rw [hv] at hr; cases hr
  | ok x =>
    obtain ⟨out, st⟩ := x
    rw [hv] at hr
    cases hr
    cases items with
    | nil => cases hv; rfl
    | cons i items =>
      cases hd : directive? i with
      | some v =>
        obtain ⟨a, st1, h1, h2⟩ := M.bind_ok hv
        obtain ⟨b, st2, h3, h4⟩ := M.bind_ok h2
        cases h4
        unfold visitItem at h1
        rw [if_pos (isDirective_iff.2 ⟨v, hd⟩)] at h1
        cases h1
        simp only [codeOf, insertModuleTemplates, List.singleton_append, directivesOf, hd, List.take_succ_cons, List.take_zero]
        rfl
      | none =>
        have h1 : directivesOf (i :: items) = [] := by simp only [directivesOf, hd]
        rw [h1, List.take_nil]
        have h2 := congrArg (fun m => directivesOf (codeOf m)) o.strip_eq
        simp only [directivesOf_code] at h2
        have h3 : (codeOf (mk .module sp (i :: items))).filter (fun s => !isInjectedItem s) = i :: items := by
          refine List.filter_eq_self.2 fun c hc => ?_
          rw [clean_not_item ((clean_mk.1 hp).2 c hc)]
          rfl
        rw [h3, h1] at h2
        exact directivesOf_filter_nil h2

theorem instrument_script_directives {cx : Ctx} {fuel : Nat} {path : String} {sm : Option SourceMap} {sp : Span}
    {items : List Node} {p' : Node} {cov : SourceCoverage}
    (hf : Hint.shouldIgnoreFile cx.cc cx.comments sp = false)
    (hr : instrument cx fuel path sm (mk .script sp items) = .ok (p', cov)) :
    directivesOf (codeOf p') = [] := by
  rw [instrument_script _ _ _ _ _ _ hf] at hr
  cases hv : visitScriptItems cx fuel items (start cx path sm) with
  | error e => rw [hv] at hr; cases hr
  | ok x =>
    rw [hv] at hr
    cases hr
    rfl

theorem clean_directives {p : Node} (hp : Clean p) :
    directivesOf ((codeOf p).filter fun s => !isInjectedItem s) = directivesOf (codeOf p) := by
  have := clean_faithfulAt hp
  unfold faithfulAt at this
  rw [Bool.and_eq_true, decide_eq_true_eq] at this
  exact this.2.symm

theorem root_directives {cx : Ctx} {fuel : Nat} {path : String} {sm : Option SourceMap} {p p' : Node}
    {cov : SourceCoverage} (hp : Clean p) (hF : FewDirectives p) (hr : instrument cx fuel path sm p = .ok (p', cov)) :
    directivesOf (codeOf p') = directivesOf (codeOf p) := by
  obtain ⟨n, h, o⟩ := outcome hr
  rcases o.result with ⟨rfl, rfl, -⟩ | ⟨ht, hf⟩
  · rfl
  · obtain ⟨k, sp, items⟩ := p
    have hk : k = .module ∨ k = .script := by
      have := ht.kind
      rw [← ht.kind_eq.1, o.kind_eq] at this
      exact this
    have hF := hF.2
    rcases hk with rfl | rfl
    · rw [instrument_module_directives hf hp hr]
      exact List.take_of_length_le hF
    · rw [instrument_script_directives hf hr]
      exact (List.eq_nil_of_length_eq_zero (Nat.le_zero.1 hF)).symm

/-- Emitted programs are faithful. -/
theorem emitted_faithful {cx : Ctx} {fuel : Nat} {path : String} {sm : Option SourceMap} {p p' : Node}
    {cov : SourceCoverage} (hp : Clean p) (hU : UnnamedFields p) (hF : FewDirectives p)
    (hr : instrument cx fuel path sm p = .ok (p', cov)) : faithful p' = true := by
  obtain ⟨n, h, o⟩ := outcome hr
  have hroot := root_directives hp hF hr
  rcases o.result with ⟨rfl, rfl, -⟩ | ⟨ht, hf⟩
  · exact clean_faithful hp
  have hk : p'.kind = .module ∨ p'.kind = .script := by rw [ht.kind_eq.1]; exact ht.kind
  rw [faithful_iff]
  intro m hm
  have hD := o.directInits hp m hm
  have hG := o.directFields hp hU m hm
  rcases mem_each.1 hm with rfl | hm
  · refine faithfulAt_of ?_ hG hD ?_
    · intro hf
      rcases hk with hk | hk <;> rw [hk] at hf <;> cases hf
    · rw [hroot, ← directivesOf_code, o.strip_eq, directivesOf_code, clean_directives hp]
  · have hfields : FieldsAt m := by
      refine o.inner_keep FieldsAt.of_strip FieldsAt.of_added (fun h => by cases h) (fun h => by cases h) ?_ m hm
      intro m hm hk
      rw [fields_strip (by rw [hk]; rfl), List.all_eq_true]
      intro b hb
      obtain ⟨c, hc, rfl⟩ := List.mem_map.1 hb
      have hm' := mem_each.2 (.inr hm)
      have hmc := clean_each hp hm'
      have hcc : Clean c := by cases m; exact (clean_mk.1 hmc).2 c hc
      rw [clean_unwrap hcc]
      cases hd : isFnDef c with
      | false => rfl
      | true => exact absurd hk (hU m hm' (by rw [hk]; rfl) c hc hd).1
    have hdirs : NoDirectivesAt m := by
      refine o.inner_keep NoDirectivesAt.of_strip NoDirectivesAt.of_added rfl rfl ?_ m hm
      intro m hm
      unfold NoDirectivesAt
      rw [directivesOf_code, clean_directives (clean_each hp (mem_each.2 (.inr hm)))]
      exact hF.1 m hm
    unfold NoDirectivesAt at hdirs
    rw [directivesOf_code] at hdirs
    refine faithfulAt_of hfields hG hD ?_
    rw [hdirs]
    exact directivesOf_filter_nil hdirs

/-! ### Directives and names that can be read off without counters -/

section
variable {cx : Ctx} {path : String} {sm : Option SourceMap} {p p' : Node} {cov : SourceCoverage}

/-- The directives of nodes, not looking at counters. -/
def bareDirectives (m : Node) : List (Kind × Span × List String) :=
  if isCode m.kind then [(m.kind, m.span, directivesOf (codeOf (strip m)))] else []

theorem filter_map_flatMap {α β : Type} (l : List α) (q : α → Bool) (f : α → β) :
    (l.filter q).map f = l.flatMap fun x => if q x then [f x] else [] := by
  induction l with
  | nil => rfl
  | cons x l ih =>
    rw [List.filter_cons, List.flatMap_cons]
    cases q x <;> simp [ih]

theorem isCode_added {k : Kind} (h : k.added = true) : isCode k = false := by
  cases k <;> first | rfl | cases h

/-- Where no counter is in front of directives, the directives can be read off the program without counters. -/
theorem prologues_eq {p : Node} (h : faithful p = true) : prologues p = (each p).flatMap bareDirectives := by
  unfold prologues
  rw [filter_map_flatMap, List.flatMap_def, List.flatMap_def]
  congr 1
  refine List.map_congr_left fun m hm => ?_
  unfold bareDirectives
  have h1 := faithful_iff.1 h m hm
  unfold faithfulAt at h1
  rw [Bool.and_eq_true, decide_eq_true_eq] at h1
  rw [directivesOf_code, ← h1.2]

/-- Which parts of a node are anonymous functions, not looking at counters. -/
def bareNamings (ks : List Kind) (m : Node) : List (Kind × Span × List Bool) :=
  if ks.contains m.kind then [(m.kind, m.span, (strip m).children.map isFnDef)] else []

theorem namings_eq {ks : List Kind} {p : Node} (hw : ∀ k ∈ ks, k.wraps = true)
    (h : ∀ m ∈ each p, ks.contains m.kind = true → ∀ c ∈ m.children, isFnDef c = isFnDef (unwrap c)) :
    namings ks p = (each p).flatMap (bareNamings ks) := by
  unfold namings
  rw [filter_map_flatMap, List.flatMap_def, List.flatMap_def]
  congr 1
  refine List.map_congr_left fun m hm => ?_
  unfold bareNamings
  split
  · next hk =>
    rw [fields_strip (hw _ (List.contains_iff_mem.1 hk))]
    congr 3
    exact List.map_congr_left fun c hc => h m hm hk c hc
  · rfl

theorem namings_same {ks : List Kind} {n : Node} {h : List RegOp} (oc : Outcome cx path sm p p' cov.inner n h)
    (hw : ∀ k ∈ ks, k.wraps = true) (ha : ∀ k ∈ ks, k.added = false ∧ k ≠ .covDecl ∧ k ≠ .covCall)
    (h1 : ∀ m ∈ each p, ks.contains m.kind = true → ∀ c ∈ m.children, isFnDef c = isFnDef (unwrap c))
    (h2 : ∀ m ∈ each p', ks.contains m.kind = true → ∀ c ∈ m.children, isFnDef c = isFnDef (unwrap c)) :
    namings ks p' = namings ks p := by
  rw [namings_eq hw h1, namings_eq hw h2]
  have hno : ∀ n : Node, (n.kind.added = true ∨ n.kind = .covDecl ∨ n.kind = .covCall) → bareNamings ks n = [] := by
    intro n hn
    unfold bareNamings
    rw [if_neg]
    intro hk
    obtain ⟨h3, h4, h5⟩ := ha _ (List.contains_iff_mem.1 hk)
    rcases hn with hn | hn | hn
    · rw [h3] at hn; cases hn
    · exact h4 hn
    · exact h5 hn
  refine oc.collect_eq ?_ (fun n hn => hno n (.inl hn)) (hno _ (.inr (.inl rfl))) (hno _ (.inr (.inr rfl)))
  intro a b hs
  unfold bareNamings
  rw [hs, ← strip_kind a, ← strip_kind b, ← strip_span a, ← strip_span b, hs]

theorem clean_isFnDef (hp : Clean p) : ∀ m ∈ each p, ∀ c ∈ m.children, isFnDef c = isFnDef (unwrap c) := by
  intro m hm c hc
  have hm := clean_each hp hm
  cases m
  rw [clean_unwrap ((clean_mk.1 hm).2 c hc)]

/-- Wrapping never makes a function anonymous definition of something that contains no functions. -/
theorem unwrap_not_hoisting {m : Node} (hm : m.any Kind.isHoisting = false) : (unwrap m).any Kind.isHoisting = false := by
  fun_induction unwrap m with
  | case1 sp sp' c sp'' cs e ih => exact ih (by simp [any_mk] at hm ⊢; exact hm.2.2.2)
  | case2 sp c sp' cs sp'' op sp3 sp4 cs' e mid sp5 cs'' ih => exact ih (by simp [any_mk] at hm ⊢; exact hm.2.2.2.1.2.2)
  | case3 => exact hm

end
end Verif
