import Verif.Lemmas.Faithful
/-
Executions of source programs, and what can be presented in an execution.
-/
namespace Verif
open Node
namespace Sem
variable {V A : Type} {solid : V → Bool}

theorem clean_kids {n : Node} (h : Clean n) : ∀ c ∈ kids n, Clean c := by
  unfold kids
  split
  · intro c hc; cases hc
  · intro c hc; cases hc
  · intro c hc; cases hc
  · next sp' test ss =>
    have hc := (clean_mk.1 h).2
    intro c hcc
    simp only [List.mem_cons, List.not_mem_nil, or_false] at hcc
    rcases hcc with rfl | rfl
    · exact hc _ (List.mem_cons_self ..)
    · exact clean_block fun x hx => hc x (List.mem_cons_of_mem _ hx)
  · exact clean_tidyBodies (clean_mk.1 h).2

/-- All nodes of a task are source nodes. -/
def Task.Clean : Task → Prop
  | .node n => Node.Clean n
  | .list ss => ∀ s ∈ ss, Node.Clean s
  | .turn => True

theorem clean_look_list {n : Node} {ss : List Node} (h : Clean n) (hl : look n = .list ss) : ∀ s ∈ ss, Clean s := by
  unfold look at hl
  split at hl <;> first | cases hl | skip
  all_goals exact (clean_mk.1 h).2

theorem clean_look {n : Node} (h : Clean n) : (∃ ss, look n = .list ss) ∨ look n = .plain := by
  cases hl : look n with
  | list ss => exact .inl ⟨ss, rfl⟩
  | plain => exact .inr rfl
  | counter c =>
    unfold look at hl
    split at hl <;> first | cases hl | skip
    cases (clean_mk.1 h).1
  | wrap c e =>
    unfold look at hl
    split at hl <;> first | cases hl | skip
    have h1 := (clean_mk.1 ((clean_mk.1 h).2 _ (List.mem_singleton.2 rfl))).2 _ (List.mem_cons_self ..)
    cases (clean_mk.1 h1).1
  | truth c e mid =>
    unfold look at hl
    split at hl <;> first | cases hl | skip
    have h1 := (clean_mk.1 h).2 _ (List.mem_cons_self ..)
    cases (clean_mk.1 h1).1

/-- In executions of source programs nothing is counted. -/
theorem clean_run {st st' : List Node} {t : Task} {tr : List (Ev V A)} {o : Outcome V A}
    (h : Run solid st t tr o st') (hst : ∀ n ∈ st, Clean n) (ht : t.Clean) :
    visible tr = tr ∧ ∀ n ∈ st', Clean n := by
  have hblock : ∀ {st : List Node} {n : Node} {ss : List Node}, (∀ n ∈ st, Clean n) → Clean n → look n = .list ss →
      ∀ x ∈ st ++ n :: hoisted ss, Clean x := by
    intro st n ss h1 h2 hl x hx
    rcases List.mem_append.1 hx with hx | hx
    · exact h1 x hx
    · rcases List.mem_cons.1 hx with rfl | hx
      · exact h2
      · exact clean_look_list h2 hl x (hoisted_sub hx)
  induction h with
  | cut => exact ⟨rfl, hst⟩
  | counter hl =>
    rcases clean_look ht with ⟨ss, h⟩ | h <;> rw [hl] at h <;> cases h
  | wrap hl =>
    rcases clean_look ht with ⟨ss, h⟩ | h <;> rw [hl] at h <;> cases h
  | truth hl =>
    rcases clean_look ht with ⟨ss, h⟩ | h <;> rw [hl] at h <;> cases h
  | truthEnd hl =>
    rcases clean_look ht with ⟨ss, h⟩ | h <;> rw [hl] at h <;> cases h
  | block hl _ _ _ ih1 ih2 =>
    obtain ⟨h1, h2⟩ := ih1 (hblock hst ht hl) (clean_look_list ht hl)
    obtain ⟨h3, h4⟩ := ih2 h2 trivial
    exact ⟨by rw [visible_present, visible_append, visible_got, h1, h3], h4⟩
  | blockCut hl _ ih1 =>
    obtain ⟨h1, h2⟩ := ih1 (hblock hst ht hl) (clean_look_list ht hl)
    exact ⟨by rw [visible_present, h1], h2⟩
  | @node st n tr o st' hl _ ih =>
    obtain ⟨h1, h2⟩ := ih (by
      intro x hx
      rcases List.mem_append.1 hx with hx | hx
      · exact hst x hx
      · cases List.mem_singleton.1 hx; exact ht) trivial
    exact ⟨by rw [visible_present, h1], h2⟩
  | nil => exact ⟨rfl, hst⟩
  | @count st sp c sp' cs ss tr o st' _ ih =>
    have h1 := ht _ (List.mem_cons_self ..)
    cases (clean_mk.1 ((clean_mk.1 h1).2 _ (List.mem_singleton.2 rfl))).1
  | setup _ _ ih => exact ih hst fun x hx => ht x (List.mem_cons_of_mem _ hx)
  | next _ _ _ ih1 ih2 =>
    obtain ⟨h1, h2⟩ := ih1 hst (ht _ (List.mem_cons_self ..))
    obtain ⟨h3, h4⟩ := ih2 h2 fun x hx => ht x (List.mem_cons_of_mem _ hx)
    exact ⟨by rw [visible_append, h1, h3], h4⟩
  | stop _ _ _ ih1 => exact ih1 hst (ht _ (List.mem_cons_self ..))
  | answer => exact ⟨rfl, hst⟩
  | pick hn hc _ _ _ ih1 ih2 =>
    obtain ⟨h1, h2⟩ := ih1 hst (clean_kids (hst _ (List.mem_of_getElem? hn)) _ (List.mem_of_getElem? hc))
    obtain ⟨h3, h4⟩ := ih2 h2 trivial
    exact ⟨by rw [visible_pick, visible_append, visible_got, h1, h3], h4⟩
  | pickCut hn hc _ ih1 =>
    obtain ⟨h1, h2⟩ := ih1 hst (clean_kids (hst _ (List.mem_of_getElem? hn)) _ (List.mem_of_getElem? hc))
    exact ⟨by rw [visible_pick, h1], h2⟩

theorem clean_exec {p : Node} (hp : Clean p) {tr : List (Ev V A)} {o o' : Outcome V A}
    (h : Exec solid p tr o o') : visible tr = tr := by
  obtain ⟨tr1, tr2, st1, st2, rfl, h1, h2⟩ := h
  obtain ⟨e1, e2⟩ := clean_run h1 (by intro x hx; cases hx) hp
  obtain ⟨e3, -⟩ := clean_run h2 e2 trivial
  rw [visible_append, e1, e3]

/-! ### What can be presented -/

/-- A node of the program, or made up when bodies are made blocks. -/
def Part (F : List Face) (n : Node) : Prop := ∀ m ∈ each n, face m ∈ F ∨ m.kind = .block ∨ m.kind = .returnStmt

theorem Part.child {F : List Face} {k : Kind} {sp : Span} {cs : List Node} (h : Part F (mk k sp cs)) {c : Node}
    (hc : c ∈ cs) : Part F c := fun m hm => h m (mem_each_mk.2 (.inr ⟨c, hc, hm⟩))

theorem Part.block {F : List Face} {sp : Span} {ss : List Node} (h : ∀ s ∈ ss, Part F s) : Part F (mk .block sp ss) := by
  intro m hm
  rcases mem_each_mk.1 hm with rfl | ⟨c, hc, hm⟩
  · exact .inr (.inl rfl)
  · exact h c hc m hm

theorem Part.toBlock {F : List Face} {b : Node} (h : Part F b) : Part F (toBlock b) := by
  unfold Sem.toBlock
  split
  · exact h
  · exact .block (by simpa using h)

theorem Part.kids {F : List Face} {n : Node} (h : Part F n) : ∀ c ∈ kids n, Part F c := by
  obtain ⟨k, sp, cs⟩ := n
  have hself : ∀ c ∈ cs, Part F c := fun c hc => h.child hc
  by_cases hk : free k = true
  · rw [kids_free hk]; exact hself
  · have hk : free k = false := by cases hf : free k <;> simp_all
    unfold free at hk
    split at hk <;> first | cases hk | skip
    · intro c hc; cases hc
    · intro c hc; cases hc
    · intro c hc; cases hc
    · cases cs with
      | nil => exact hself
      | cons t ss =>
        intro c hc
        rcases List.mem_cons.1 hc with rfl | hc
        · exact hself _ (by simp)
        · cases List.mem_singleton.1 hc
          exact .block fun c hc => hself c (by simp [hc])
    · match cs with
      | [] => exact hself
      | [a] => exact hself
      | [a, b] => exact hself
      | [test, cons, alt] =>
        intro c hc
        have h1 : Sem.kids (mk .ifStmt sp [test, cons, alt]) =
            [test, Sem.toBlock cons, if alt.isNone then mk .block Span.dummy [] else Sem.toBlock alt] := rfl
        rw [h1] at hc
        simp only [List.mem_cons, List.not_mem_nil, or_false] at hc
        rcases hc with rfl | rfl | rfl
        · exact hself _ (by simp)
        · exact (hself _ (by simp)).toBlock
        · split
          · exact .block (by simp)
          · exact (hself _ (by simp)).toBlock
      | a :: b :: c :: d :: cs => exact hself
    · rw [kids_loop]
      intro c hc
      rcases mapLast_mem hc with hc | ⟨y, hy, rfl⟩
      · exact hself _ hc
      · exact (hself _ hy).toBlock
    · match cs with
      | [] => exact hself
      | [a] => exact hself
      | [obj, body] =>
        intro c hc
        have h1 : Sem.kids (mk .withStmt sp [obj, body]) = [obj, Sem.toBlock body] := rfl
        rw [h1] at hc
        simp only [List.mem_cons, List.not_mem_nil, or_false] at hc
        rcases hc with rfl | rfl
        · exact hself _ (by simp)
        · exact (hself _ (by simp)).toBlock
      | a :: b :: c :: cs => exact hself
    · match cs with
      | [] => exact hself
      | [a] => exact hself
      | [params, body] =>
        intro c hc
        simp only [Sem.kids, tidyBodies, List.mem_cons, List.not_mem_nil, or_false] at hc
        rcases hc with rfl | rfl
        · exact hself _ (by simp)
        · have hb := hself body (by simp)
          unfold asArrowBody
          split
          · exact hb
          · refine .block ?_
            intro c hc
            cases List.mem_singleton.1 hc
            intro m hm
            rcases mem_each_mk.1 hm with rfl | ⟨c, hc, hm⟩
            · exact .inr (.inr rfl)
            · cases List.mem_singleton.1 hc
              exact hb m hm
      | a :: b :: c :: cs => exact hself

/-- All nodes of a task are parts. -/
def Task.Part (F : List Face) : Task → Prop
  | .node n => Sem.Part F n
  | .list ss => ∀ s ∈ ss, Sem.Part F s
  | .turn => True

theorem Part.list {F : List Face} {n : Node} {ss : List Node} (h : Part F n) (hl : look n = .list ss) :
    ∀ s ∈ ss, Part F s := by
  unfold look at hl
  split at hl <;> first | cases hl | skip
  all_goals exact fun s hs => h.child hs

theorem Part.wrap {F : List Face} {n e : Node} {c : Counter} (h : Part F n) (hl : look n = .wrap c e) : Part F e := by
  unfold look at hl
  split at hl <;> first | cases hl | skip
  exact (h.child (List.mem_singleton.2 rfl)).child (List.mem_cons_of_mem _ (List.mem_singleton.2 rfl))

theorem Part.truth {F : List Face} {n e mid : Node} {c : Counter} (h : Part F n) (hl : look n = .truth c e mid) :
    Part F e := by
  unfold look at hl
  split at hl <;> first | cases hl | skip
  exact ((h.child (List.mem_cons_of_mem _ (List.mem_singleton.2 rfl))).child (List.mem_cons_self ..)).child
    (List.mem_cons_of_mem _ (List.mem_singleton.2 rfl))

/-- A face that may appear. -/
def known (F : List Face) : Ev V A → Prop
  | .present f => f ∈ F ∨ f.kind = .block ∨ f.kind = .returnStmt
  | _ => True

/-- Only nodes of the program are presented. -/
theorem presented {F : List Face} {st st' : List Node} {t : Task} {tr : List (Ev V A)} {o : Outcome V A}
    (h : Run solid st t tr o st') (hst : ∀ n ∈ st, Part F n) (ht : t.Part F) :
    (∀ e ∈ tr, known F e) ∧ ∀ n ∈ st', Part F n := by
  have hblock : ∀ {st : List Node} {n : Node} {ss : List Node}, (∀ n ∈ st, Part F n) → Part F n → look n = .list ss →
      ∀ x ∈ st ++ n :: hoisted ss, Part F x := by
    intro st n ss h1 h2 hl x hx
    rcases List.mem_append.1 hx with hx | hx
    · exact h1 x hx
    · rcases List.mem_cons.1 hx with rfl | hx
      · exact h2
      · exact h2.list hl x (hoisted_sub hx)
  have hface : ∀ {n : Node}, Part F n → known (V := V) (A := A) F (.present (face n)) := fun {n} h => h n (each_self n)
  have hcounts : ∀ (b : Bool) (cs : List Counter), ∀ e ∈ (if b then cs.map .count else [] : List (Ev V A)),
      known F e := by
    intro b cs e he
    split at he
    · obtain ⟨c, _, rfl⟩ := List.mem_map.1 he
      trivial
    · cases he
  induction h with
  | cut => exact ⟨by simp, hst⟩
  | counter hl => exact ⟨by simp [known], hst⟩
  | wrap hl _ ih =>
    obtain ⟨h1, h2⟩ := ih hst (Part.wrap ht hl)
    exact ⟨by simpa [known] using h1, h2⟩
  | truth hl _ ih =>
    obtain ⟨h1, h2⟩ := ih hst (Part.truth ht hl)
    refine ⟨?_, h2⟩
    intro e he
    rcases List.mem_cons.1 he with rfl | he
    · trivial
    · rcases List.mem_append.1 he with he | he
      · exact h1 e he
      · exact hcounts _ _ e he
  | truthEnd hl _ _ ih =>
    obtain ⟨h1, h2⟩ := ih hst (Part.truth ht hl)
    exact ⟨by simpa [known] using h1, h2⟩
  | block hl _ _ _ ih1 ih2 =>
    obtain ⟨h1, h2⟩ := ih1 (hblock hst ht hl) (Part.list ht hl)
    obtain ⟨h3, h4⟩ := ih2 h2 trivial
    refine ⟨?_, h4⟩
    intro e he
    simp only [List.mem_cons, List.mem_append] at he
    rcases he with rfl | he | rfl | he
    · exact hface ht
    · exact h1 e he
    · trivial
    · exact h3 e he
  | blockCut hl _ ih1 =>
    obtain ⟨h1, h2⟩ := ih1 (hblock hst ht hl) (Part.list ht hl)
    refine ⟨?_, h2⟩
    intro e he
    rcases List.mem_cons.1 he with rfl | he
    · exact hface ht
    · exact h1 e he
  | @node st n tr o st' hl _ ih =>
    obtain ⟨h1, h2⟩ := ih (by
      intro x hx
      rcases List.mem_append.1 hx with hx | hx
      · exact hst x hx
      · cases List.mem_singleton.1 hx; exact ht) trivial
    refine ⟨?_, h2⟩
    intro e he
    rcases List.mem_cons.1 he with rfl | he
    · exact hface ht
    · exact h1 e he
  | nil => exact ⟨by simp, hst⟩
  | count _ ih =>
    obtain ⟨h1, h2⟩ := ih hst fun x hx => ht x (List.mem_cons_of_mem _ hx)
    exact ⟨by simpa [known] using h1, h2⟩
  | setup _ _ ih => exact ih hst fun x hx => ht x (List.mem_cons_of_mem _ hx)
  | next _ _ _ ih1 ih2 =>
    obtain ⟨h1, h2⟩ := ih1 hst (ht _ (List.mem_cons_self ..))
    obtain ⟨h3, h4⟩ := ih2 h2 fun x hx => ht x (List.mem_cons_of_mem _ hx)
    refine ⟨?_, h4⟩
    intro e he
    rcases List.mem_append.1 he with he | he
    · exact h1 e he
    · exact h3 e he
  | stop _ _ _ ih1 => exact ih1 hst (ht _ (List.mem_cons_self ..))
  | answer => exact ⟨by simp [known], hst⟩
  | pick hn hc _ _ _ ih1 ih2 =>
    obtain ⟨h1, h2⟩ := ih1 hst ((hst _ (List.mem_of_getElem? hn)).kids _ (List.mem_of_getElem? hc))
    obtain ⟨h3, h4⟩ := ih2 h2 trivial
    refine ⟨?_, h4⟩
    intro e he
    simp only [List.mem_cons, List.mem_append] at he
    rcases he with rfl | he | rfl | he
    · trivial
    · exact h1 e he
    · trivial
    · exact h3 e he
  | pickCut hn hc _ ih1 =>
    obtain ⟨h1, h2⟩ := ih1 hst ((hst _ (List.mem_of_getElem? hn)).kids _ (List.mem_of_getElem? hc))
    refine ⟨?_, h2⟩
    intro e he
    rcases List.mem_cons.1 he with rfl | he
    · trivial
    · exact h1 e he

/-- Everything presented in an execution, except for blocks and return statements, is in the program. -/
theorem exec_presented {p : Node} {tr : List (Ev V A)} {o o' : Outcome V A} (h : Exec solid p tr o o') {f : Face}
    (hf : .present f ∈ tr) : f ∈ (each p).map face ∨ f.kind = .block ∨ f.kind = .returnStmt := by
  obtain ⟨tr1, tr2, st1, st2, rfl, h1, h2⟩ := h
  have hp : Part ((each p).map face) p := fun m hm => .inl (List.mem_map.2 ⟨m, hm, rfl⟩)
  obtain ⟨e1, e2⟩ := presented h1 (by intro x hx; cases hx) hp
  obtain ⟨e3, -⟩ := presented h2 e2 trivial
  rcases List.mem_append.1 hf with hf | hf
  · exact e1 _ hf
  · exact e3 _ hf

end Sem
end Verif
