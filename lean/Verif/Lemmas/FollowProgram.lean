import Verif.Lemmas.FollowTree
import Verif.Lemmas.CoversProgram
import Verif.Lemmas.Accounts
/-
Counters and events of instrumented programs.
-/
namespace Verif
open Node

namespace Sem
variable {V A : Type}

theorem began_visible (t : Tag) (tr : List (Ev V A)) : began t (visible tr) = began t tr := by
  unfold began visible
  rw [List.countP_filter]
  congr 1
  funext e
  cases e <;> simp [Ev.begins, Ev.isCount]

theorem entered_visible (t : Tag) (j : Nat) (tr : List (Ev V A)) : entered t j (visible tr) = entered t j tr := by
  unfold entered visible
  rw [List.countP_filter]
  congr 1
  funext e
  cases e <;> simp [Ev.enters, Ev.isCount]

theorem counted_eq (c : Counter) (tr : List (Ev V A)) : counted c tr = (increments tr).count c := by
  induction tr with
  | nil => rfl
  | cons e tr ih =>
    rw [counted_cons, ih]
    unfold increments
    cases e with
    | count c' =>
      simp only [List.filterMap_cons, List.count_cons]
      rw [Nat.add_comm]
      by_cases h : c' = c <;> simp [Ev.counts, h]
    | _ => rw [List.filterMap_cons_none rfl]; simp [Ev.counts]

/-! ### Clean parts -/

theorem heads_mem {cx : Ctx} {m c : Node} (h : c ∈ heads cx m) :
    c ∈ m.children ∨ c ∈ tidyBodies m.kind m.children := by
  unfold heads at h
  split at h
  · cases h
  · exact .inl (by simp only [List.mem_singleton] at h; subst h; exact List.mem_cons_self ..)
  · cases h
  · exact .inl (by simp only [List.mem_singleton] at h; subst h; exact List.mem_cons_self ..)
  · cases h
  · exact .inr h
  · cases h
  all_goals
    first
      | (split at h
         · first | (cases h; done) | (exact .inl (List.mem_of_mem_filter h))
         · exact .inl h)
      | exact .inl (List.mem_of_mem_filter h)
      | exact .inl h
      | skip
  · exact .inl (List.mem_cons_of_mem _ (List.mem_of_mem_filter h))
  · rcases List.mem_cons.1 h with rfl | h
    · exact .inl (List.mem_cons_self ..)
    · exact .inl (List.mem_cons_of_mem _ (List.mem_of_mem_filter h))
  · rcases List.mem_append.1 h with h | h
    · rcases List.mem_cons.1 h with rfl | h
      · exact .inl (List.mem_cons_self ..)
      · rcases List.mem_singleton.1 (List.mem_of_mem_filter h) with rfl
        exact .inl (by simp [Node.children])
    · rcases List.mem_singleton.1 h with rfl
      exact .inl (by simp [Node.children])
  · rcases List.mem_append.1 h with h | h
    · rcases List.mem_cons.1 h with rfl | h
      · exact .inl (List.mem_cons_self ..)
      · rcases List.mem_singleton.1 (List.mem_of_mem_filter h) with rfl
        exact .inl (by simp [Node.children])
    · rcases List.mem_singleton.1 h with rfl
      exact .inl (by simp [Node.children])

theorem bodyStmts_clean {b s : Node} (hb : Clean b) (h : s ∈ bodyStmts b) : Clean s := by
  unfold bodyStmts at h
  split at h
  · exact (clean_mk.1 hb).2 s h
  · cases h
  · cases List.mem_singleton.1 h
    exact hb

theorem lists_clean {cx : Ctx} {m : Node} (hm : Clean m) {l : List Node} (hl : l ∈ lists cx m) {s : Node} (hs : s ∈ l) :
    Clean s := by
  unfold lists at hl
  split at hl
  · cases List.mem_singleton.1 hl
    exact (clean_mk.1 hm).2 s hs
  · cases List.mem_singleton.1 hl
    exact (clean_mk.1 hm).2 s (List.mem_cons_of_mem _ hs)
  · next body =>
    cases List.mem_singleton.1 hl
    have h1 := clean_asArrowBody ((clean_mk.1 hm).2 body (by simp))
    cases h : asArrowBody body with
    | mk k sp cs =>
      rw [h] at h1 hs
      exact (clean_mk.1 h1).2 s hs
  · next sp test cons alt =>
    have h1 := (clean_mk.1 hm).2 cons (by simp)
    have h2 := (clean_mk.1 hm).2 alt (by simp)
    rcases List.mem_append.1 hl with hl | hl
    · split at hl
      · cases hl
      · cases List.mem_singleton.1 hl
        exact bodyStmts_clean h1 hs
    · split at hl
      · cases hl
      · cases List.mem_singleton.1 hl
        exact bodyStmts_clean h2 hs
  · next obj body =>
    cases List.mem_singleton.1 hl
    exact bodyStmts_clean ((clean_mk.1 hm).2 body (by simp)) hs
  · cases hl

theorem opened_clean {cx : Ctx} {m c : Node} (hm : Clean m) (h : c ∈ opened cx m) : Clean c := by
  unfold opened at h
  split at h
  · cases h
  · rcases List.mem_append.1 h with h | h
    · cases m with
      | mk k sp cs =>
        rcases heads_mem h with h | h
        · exact (clean_mk.1 hm).2 c h
        · exact clean_tidyBodies (clean_mk.1 hm).2 c h
    · obtain ⟨l, hl, hc⟩ := List.mem_flatMap.1 h
      exact lists_clean hm hl (List.mem_filter.1 hc).1

theorem inProgram_clean {cx : Ctx} {p x : Node} (hp : Clean p) (h : InProgram cx p x) : Clean x := by
  obtain ⟨s, hs, hr⟩ := h
  have hs : Clean s := by
    cases p with
    | mk k sp cs => exact (clean_mk.1 hp).2 s (List.mem_filter.1 hs).1
  induction hr with
  | here => exact hs
  | step _ hc ih => exact opened_clean ih hc

mutual
theorem leaves_clean {cx : Ctx} {e : Node} : {n : Node} → Clean n → e ∈ leaves cx n → Clean e
  | mk k sp cs, hn, h => by
    have hc := (clean_mk.1 hn).2
    unfold leaves at h
    split at h
    · cases h
    · split at h
      · split at h
        · exact operands_clean hc h
        · exact leavesList_clean hc h
      · exact leavesList_clean hc h

theorem leavesList_clean {cx : Ctx} {e : Node} : {cs : List Node} → (∀ c ∈ cs, Clean c) → e ∈ leavesList cx cs → Clean e
  | [], _, h => by cases h
  | c :: cs, hc, h => by
    unfold leavesList at h
    rcases List.mem_append.1 h with h | h
    · exact leaves_clean (hc c (List.mem_cons_self ..)) h
    · exact leavesList_clean (fun x hx => hc x (List.mem_cons_of_mem _ hx)) h

theorem operands_clean {cx : Ctx} {e : Node} : {cs : List Node} → (∀ c ∈ cs, Clean c) → e ∈ operands cx cs → Clean e
  | [], _, h => by cases h
  | c :: cs, hc, h => by
    unfold operands at h
    rcases List.mem_append.1 h with h | h
    · split at h
      · cases h
      · split at h
        · exact leaves_clean (hc c (List.mem_cons_self ..)) h
        · cases List.mem_singleton.1 h
          exact hc _ (List.mem_cons_self ..)
    · exact operands_clean (fun x hx => hc x (List.mem_cons_of_mem _ hx)) h
end

/-- What is left of a clean node is presented. -/
theorem opens_of {x x' : Node} (hx : Clean x) (h : strip x' = strip x) : (look x').opens := by
  have h1 := look_strip x
  have h2 := look_strip x'
  rw [h, h1] at h2
  rcases clean_look hx with ⟨ss, hl⟩ | hl
  · rw [hl] at h2
    cases h3 : look x' <;> rw [h3] at h2 <;> first | trivial | cases h2
  · rw [hl] at h2
    cases h3 : look x' <;> rw [h3] at h2 <;> first | trivial | cases h2

theorem tag_of {x x' : Node} (h : strip x' = strip x) : tag x' = tag x := by
  unfold tag
  rw [← strip_kind x', ← strip_span x', h, strip_kind, strip_span]

/-! ### Instrumented programs -/

/-- What is needed of an instrumented program. -/
structure Followed (p p' : Node) : Prop where
  once : ∀ c, cc c p' ≤ 1
  weight : ∀ t, Only p t → weight t p' = 1
  sub : ∀ m ∈ each p', Sub p' m ∨ Steps.Junk m

theorem followed {cx : Ctx} {fuel : Nat} {path : String} {sm : Option SourceMap} {p p' : Node} {cov : SourceCoverage}
    (hp : Clean p) (hr : Visitor.instrument cx fuel path sm p = .ok (p', cov)) : Followed p p' := by
  obtain ⟨n, h, o⟩ := outcome hr
  refine ⟨fun c => ?_, fun t ht => ?_, ?_⟩
  · cases c with
    | bT i a => exact Nat.le_trans (o.count_truth_le hp i a) (Verif.Outcome.total_le_one _ _)
    | _ => exact Nat.le_trans (o.count_le hp _ rfl) (Verif.Outcome.total_le_one _ _)
  · have h1 := ht.1
    rw [weight_norm ht.2.1 ht.2.2, ← o.steps.weight_eq ht.2.1 ht.2.2] at h1
    rcases o.result with ⟨rfl, -⟩ | ⟨hT, -⟩
    · exact h1
    · rw [weight_templated ht.2.1 hT, h1]
  · have h1 := o.steps.fit_keep (Steps.clean_fit hp)
    rcases o.result with ⟨rfl, -⟩ | ⟨hT, -⟩
    · exact Steps.each_sub _ h1
    · exact Steps.each_sub _ (Steps.fit_templated hT h1)

namespace Followed
variable {p p' : Node} {c : Counter} {t : Tag} {j : Nat}

/-- Nodes an execution can come to. -/
theorem comes (f : Followed p p') {m : Node} (hm : m ∈ each p') (hb : ∃ y ∈ each m, y.span ≠ Span.dummy)
    (hn : m.kind ≠ .none) (hi : m.kind.injected = false) (hh : Steps.hull m.kind = false ∨ ∃ c e mid, look m = .truth c e mid) :
    Sub p' m := by
  rcases f.sub m hm with h | h
  · exact h
  · cases h with
    | blank h =>
      obtain ⟨y, hy, h1⟩ := hb
      exact (h1 (h y hy)).elim
    | none h => exact (hn h).elim
    | leaf h => rw [hi] at h; cases h
    | hull h1 _ _ h2 =>
      rcases hh with h | ⟨c, e, mid, h⟩
      · rw [h] at h1; cases h1
      · exact (h2 _ _ _ h).elim

theorem entered (f : Followed p p') (ht : Only p t) {m y : Node} (hm : Sub p' m) (hl : look m = .plain) (ht' : tag m = t)
    (hk : (kids m)[j]? = some y) (hy : 1 ≤ lead c y) : CountsEntered p' c t j := by
  obtain ⟨h1, h2⟩ := enters_of ht.2.1 hm hl ht' hk hy (f.once c) (Nat.le_of_eq (f.weight t ht))
  intro V A solid tr o o' h
  rw [entered_visible]
  exact exec_entered h1 h2 h

theorem wrapped (f : Followed p p') {e x n : Node} (ht : Only p (tag e)) (he : Clean e) (hx : strip x = strip e) (hn : n ∈ each p')
    (hl : (∃ c', n = wrapCounter c' x ∧ c' = c) ∨ ∃ b i, n = wrapTruth b i x ∧ c = .b b i) : CountsBegun p' c (tag e) := by
  have hspan : x.span ≠ Span.dummy := by
    have h := tag_of hx
    have h1 : x.span = (tag e).2 := by rw [← h]; rfl
    rw [h1]
    exact ht.2.1
  have hin : x ∈ each n := by
    rcases hl with ⟨c', rfl, rfl⟩ | ⟨b, i, rfl, rfl⟩
    · exact mem_each_mk.2 (.inr ⟨_, List.mem_singleton.2 rfl, mem_each_mk.2 (.inr ⟨x, by simp, each_self x⟩)⟩)
    · exact mem_each_mk.2 (.inr ⟨_, List.mem_cons_of_mem _ (List.mem_cons_self ..),
        mem_each_mk.2 (.inr ⟨_, List.mem_cons_self .., mem_each_mk.2 (.inr ⟨x, by simp, each_self x⟩)⟩)⟩)
  have hs : Sub p' n := by
    refine f.comes hn ⟨x, hin, hspan⟩ ?_ ?_ ?_
    · rcases hl with ⟨c', rfl, rfl⟩ | ⟨b, i, rfl, rfl⟩
      · exact fun h => by cases h
      · exact fun h => by cases h
    · rcases hl with ⟨c', rfl, rfl⟩ | ⟨b, i, rfl, rfl⟩ <;> rfl
    · rcases hl with ⟨c', rfl, rfl⟩ | ⟨b, i, rfl, rfl⟩
      · exact .inl rfl
      · exact .inr ⟨_, _, _, rfl⟩
  have hl' : look n = .wrap c x ∨ ∃ mid, look n = .truth c x mid := by
    rcases hl with ⟨c', rfl, rfl⟩ | ⟨b, i, rfl, rfl⟩
    · exact .inl rfl
    · exact .inr ⟨_, rfl⟩
  obtain ⟨h1, h2⟩ := pays_wrap_of ht.2.1 hs hl' (opens_of he hx) (tag_of hx) (f.once c) (Nat.le_of_eq (f.weight _ ht))
  intro V A solid tr o o' h
  rw [began_visible]
  exact exec_began h1 h2 h

theorem listed (f : Followed p p') {s s' l : Node} {pre post : List Node} (ht : Only p (tag s)) (hs : Clean s)
    (hx : strip s' = strip s) (hl : Sub p' l) (hll : look l = .list (pre ++ s' :: post)) (hb : Before pre c) :
    CountsBegun p' c (tag s) := by
  obtain ⟨a, b, rfl, h1, h2⟩ := hb
  rw [List.append_assoc] at hll
  have hi : isInjectedItem s' = false := by
    rw [← item_strip, hx, item_strip]
    exact clean_not_item hs
  obtain ⟨h3, h4⟩ := pays_list_of ht.2.1 hl hll h1 ⟨_, h2, by simp [isStmtOf, counterStmt, counterExpr]⟩ hi (opens_of hs hx) (tag_of hx)
    (f.once c) (Nat.le_of_eq (f.weight _ ht))
  intro V A solid tr o o' h
  rw [began_visible]
  exact exec_began h3 h4 h

/-- The lists of a node are executed as lists. -/
theorem lists_look {cx : Ctx} {m : Node} {l : List Node} (hl : l ∈ lists cx m) (hne : l ≠ []) :
    look m = .list l ∨ (look m = .plain ∧ ∃ y ∈ kids m, look y = .list l) := by
  have hbody : ∀ b : Node, bodyStmts b ≠ [] → look (toBlock b) = .list (bodyStmts b) ∧ b.isNone = false := by
    intro b hb
    cases b with
    | mk k sp cs =>
      by_cases h : k = .block
      · subst h
        exact ⟨rfl, rfl⟩
      · have h1 : toBlock (Node.mk k sp cs) = Node.mk .block Span.dummy [Node.mk k sp cs] := by
          rw [toBlock, if_neg (by exact h)]
        rw [h1]
        unfold bodyStmts at hb ⊢
        split at hb
        · next h2 => cases h2; exact (h rfl).elim
        · exact (hb rfl).elim
        · next h2 h3 =>
          refine ⟨rfl, ?_⟩
          unfold Node.isNone
          split
          · next h4 => cases h4; exact (h3 _ _ rfl).elim
          · rfl
  unfold lists at hl
  split at hl
  · cases List.mem_singleton.1 hl
    exact .inl rfl
  · cases List.mem_singleton.1 hl
    exact .inr ⟨rfl, Node.mk .block Span.dummy l, by simp [kids], rfl⟩
  · next params body =>
    cases List.mem_singleton.1 hl
    refine .inr ⟨rfl, asArrowBody body, by simp [kids, tidyBodies], ?_⟩
    cases body with
    | mk k sp cs =>
      by_cases h : k = .block
      · subst h
        rfl
      · rw [asArrowBody_of_ne (e := Node.mk k sp cs) h]
        rfl
  · next sp test cons alt =>
    refine .inr ⟨rfl, ?_⟩
    rcases List.mem_append.1 hl with hl | hl
    · split at hl
      · cases hl
      · cases List.mem_singleton.1 hl
        exact ⟨toBlock cons, by simp [kids, tidyBodies, toBlock], (hbody cons hne).1⟩
    · split at hl
      · cases hl
      · cases List.mem_singleton.1 hl
        obtain ⟨h1, h2⟩ := hbody alt hne
        exact ⟨toBlock alt, by simp [kids, tidyBodies, toBlock, h2], h1⟩
  · next obj body =>
    cases List.mem_singleton.1 hl
    exact .inr ⟨rfl, toBlock body, by simp [kids, tidyBodies, toBlock], (hbody body hne).1⟩
  · cases hl

theorem lists_mem {cx : Ctx} {m : Node} {l : List Node} (hl : l ∈ lists cx m) {s : Node} (hs : s ∈ l)
    (hn : s.span ≠ Span.dummy) :
    (∃ y ∈ each m, y.span ≠ Span.dummy) ∧ m.kind ≠ .none ∧ m.kind.injected = false ∧ Steps.hull m.kind = false := by
  have hbody : ∀ {b : Node}, s ∈ bodyStmts b → s ∈ each b := by
    intro b hb
    unfold bodyStmts at hb
    split at hb
    · exact mem_each_mk.2 (.inr ⟨s, hb, each_self s⟩)
    · cases hb
    · cases List.mem_singleton.1 hb
      exact each_self _
  unfold lists at hl
  split at hl
  · cases List.mem_singleton.1 hl
    exact ⟨⟨s, mem_each_mk.2 (.inr ⟨s, hs, each_self s⟩), hn⟩, by simp [Node.kind], rfl, rfl⟩
  · cases List.mem_singleton.1 hl
    exact ⟨⟨s, mem_each_mk.2 (.inr ⟨s, List.mem_cons_of_mem _ hs, each_self s⟩), hn⟩, by simp [Node.kind], rfl, rfl⟩
  · next params body =>
    cases List.mem_singleton.1 hl
    refine ⟨?_, by simp [Node.kind], rfl, rfl⟩
    by_cases h : body.kind = .block
    · have h1 : asArrowBody body = body := by
        cases body
        cases h
        rfl
      rw [h1] at hs
      refine ⟨s, mem_each_mk.2 (.inr ⟨body, by simp, ?_⟩), hn⟩
      cases body
      exact mem_each_mk.2 (.inr ⟨s, hs, each_self s⟩)
    · rw [asArrowBody_of_ne h] at hs
      cases List.mem_singleton.1 hs
      exact ⟨body, mem_each_mk.2 (.inr ⟨body, by simp, each_self _⟩), hn⟩
  · next sp test cons alt =>
    refine ⟨?_, by simp [Node.kind], rfl, rfl⟩
    rcases List.mem_append.1 hl with hl | hl
    · split at hl
      · cases hl
      · cases List.mem_singleton.1 hl
        exact ⟨s, mem_each_mk.2 (.inr ⟨cons, by simp, hbody hs⟩), hn⟩
    · split at hl
      · cases hl
      · cases List.mem_singleton.1 hl
        exact ⟨s, mem_each_mk.2 (.inr ⟨alt, by simp, hbody hs⟩), hn⟩
  · next obj body =>
    cases List.mem_singleton.1 hl
    exact ⟨⟨s, mem_each_mk.2 (.inr ⟨body, by simp, hbody hs⟩), hn⟩, by simp [Node.kind], rfl, rfl⟩
  · cases hl

/-- The list of a node of an instrumented program. -/
theorem inList (f : Followed p p') {cx : Ctx} {m s s' : Node} {pre post : List Node} (ht : Only p (tag s)) (hs : Clean s)
    (hx : strip s' = strip s) (hm : m ∈ each p') (hl : pre ++ s' :: post ∈ lists cx m) (hb : Before pre c) :
    CountsBegun p' c (tag s) := by
  have hspan : s'.span ≠ Span.dummy := by
    have h := tag_of hx
    have h1 : s'.span = (tag s).2 := by rw [← h]; rfl
    rw [h1]
    exact ht.2.1
  obtain ⟨h1, h2, h3, h4⟩ := lists_mem hl (s := s') (by simp) hspan
  have hsub := f.comes hm h1 h2 h3 (.inl h4)
  rcases lists_look hl (by simp) with h5 | ⟨h5, y, h6, h7⟩
  · exact f.listed ht hs hx hsub h5 hb
  · exact f.listed ht hs hx (hsub.comp (by rw [comps_plain h5]; exact h6)) h7 hb

/-- A part that starts with a counter statement. -/
theorem entersBlock (f : Followed p p') (ht : Only p t) {m : Node} {sp : Span} {ss : List Node} (hm : m ∈ each p')
    (hh : Steps.hull m.kind = false) (hi : m.kind.injected = false)
    (hl : look m = .plain) (ht' : tag m = t)
    (hk : (kids m)[j]? = some (Node.mk .block sp (counterStmt c :: ss))) : CountsEntered p' c t j := by
  subst ht'
  refine f.entered ht (f.comes hm ⟨m, each_self m, ht.2.1⟩ ht.2.2 hi (.inl hh)) hl rfl hk ?_
  have h1 : isStmtOf c (counterStmt c) = true := by simp [isStmtOf, counterStmt, counterExpr]
  simp only [lead, look, leadL, h1, if_true]
  omega

end Followed

/-! ### Reported counts -/

theorem hit_count (fc : FileCoverage) (c c' : Counter) :
    (fc.hit c').count c = if c' = c then (fc.count c).map Js.bump else fc.count c := by
  have arms : ∀ (m : IndexMap Nat (List Nat)) (i a i' a' : Nat),
      ((m.modify i' fun l => l.modify a' Js.bump).get i).bind (·[a]?) =
        if i' = i ∧ a' = a then ((m.get i).bind (·[a]?)).map Js.bump else (m.get i).bind (·[a]?) := by
    intro m i a i' a'
    rw [IndexMap.get_modify]
    by_cases h : i' = i
    · subst h
      simp only [if_true, true_and]
      cases m.get i' with
      | none => simp
      | some l =>
        simp only [Option.map_some, Option.bind_some, List.getElem?_modify]
        by_cases h : a' = a
        · simp [h]
        · simp [h]
    · simp [h]
  cases c' with
  | s i' =>
    cases c with
    | s i =>
      simp only [FileCoverage.hit, FileCoverage.count, IndexMap.get_modify, Counter.s.injEq]
      by_cases h : i' = i
      · simp [h]
      · simp [h]
    | _ => simp [FileCoverage.hit, FileCoverage.count]
  | f i' =>
    cases c with
    | f i =>
      simp only [FileCoverage.hit, FileCoverage.count, IndexMap.get_modify, Counter.f.injEq]
      by_cases h : i' = i
      · simp [h]
      · simp [h]
    | _ => simp [FileCoverage.hit, FileCoverage.count]
  | b i' a' =>
    cases c with
    | b i a => simp only [FileCoverage.hit, FileCoverage.count, Counter.b.injEq]; exact arms _ ..
    | _ => simp [FileCoverage.hit, FileCoverage.count]
  | bT i' a' =>
    cases c with
    | bT i a =>
      simp only [FileCoverage.hit, FileCoverage.count, Counter.bT.injEq]
      cases fc.bT with
      | none => simp
      | some m =>
        simp only [Option.map_some, Option.bind_some]
        exact arms _ ..
    | _ => simp [FileCoverage.hit, FileCoverage.count]

/-- Counts are exact as long as they can be represented. -/
theorem hits_count (l : List Counter) (fc : FileCoverage) (c : Counter) (n : Nat) (h : fc.count c = some n)
    (hb : n + l.count c ≤ Js.maxInt) : (fc.hits l).count c = some (n + l.count c) := by
  induction l generalizing fc n with
  | nil => exact h
  | cons c' l ih =>
    change ((fc.hit c').hits l).count c = _
    by_cases hc : c' = c
    · subst hc
      rw [List.count_cons_self] at hb ⊢
      have h1 : Js.bump n = n + 1 := by
        unfold Js.bump
        rw [if_pos (by omega)]
      rw [ih (fc.hit c') (n + 1) (by rw [hit_count, if_pos rfl, h, Option.map_some, h1]) (by omega)]
      congr 1
      omega
    · rw [List.count_cons_of_ne hc] at hb ⊢
      exact ih (fc.hit c') n (by rw [hit_count, if_neg hc, h]) hb

end Sem
end Verif
