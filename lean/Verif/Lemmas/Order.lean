import Verif.Spec.Order
import Verif.Lemmas.FollowProgram
/-
Two counters in one statement list: the later one is never ahead, and if nothing but injected statements is between them they
are in step.
-/
namespace Verif
open Node

namespace Sem
variable {V A : Type} {solid : V → Bool} {a b : Counter}

/-! ### One counter before another -/

/-- The increments of `b` in a statement list with none of `a` before them. -/
def early (a b : Counter) : List Node → Nat
  | [] => 0
  | s :: ss => if isStmtOf a s then 0 else (if isStmtOf b s then 1 else 0) + early a b ss

theorem early_le (a b : Counter) (ss : List Node) : early a b ss ≤ ss.countP (isStmtOf b) := by
  induction ss with
  | nil => exact Nat.le_refl _
  | cons s ss ih =>
    rw [early, List.countP_cons]
    split <;> omega

/-- The node increments `b` only in a statement list, at most once, and after `a`. -/
def Trails (a b : Counter) (n : Node) : Prop :=
  match look n with
  | .list ss => ss.countP (isStmtOf b) ≤ 1 ∧ early a b ss = 0
  | _ => imm b n = 0

/-- A task that can be executed. -/
def Task.Trails (a b : Counter) : Task → Prop
  | .node n => All (Sem.Trails a b) n
  | .list ss => (∀ s ∈ ss, isInjectedItem s = false → All (Sem.Trails a b) s) ∧ ss.countP (isStmtOf b) ≤ 1
  | .turn => True

/-- The increments of `b` that a task may be ahead. -/
def Task.early (a b : Counter) : Task → Nat
  | .list ss => Sem.early a b ss
  | _ => 0

theorem not_stmt {c : Counter} {s : Node} (hi : isInjectedItem s = false) : isStmtOf c s = false := by
  cases h : isStmtOf c s with
  | false => rfl
  | true => rw [isStmtOf_injected h] at hi; cases hi

theorem setup_stmt {c : Counter} {s : Node} (hk : s.kind = .covDecl ∨ s.kind = .covCall) : isStmtOf c s = false := by
  obtain ⟨k, sp, cs⟩ := s
  rcases hk with rfl | rfl <;> rfl

theorem setup_item {s : Node} (hk : s.kind = .covDecl ∨ s.kind = .covCall) : isInjectedItem s = true := by
  obtain ⟨k, sp, cs⟩ := s
  rcases hk with rfl | rfl <;> rfl

theorem imm_of {n : Node} {P : Prop} (h : Trails a b n) (hl : ∀ ss, look n = .list ss → P) : P ∨ imm b n = 0 := by
  unfold Trails at h
  split at h
  · next ss h' => exact .inl (hl ss h')
  · exact .inr h

theorem Trails.imm {n : Node} (h : Trails a b n) (hl : ∀ ss, look n ≠ .list ss) : Sem.imm b n = 0 :=
  (imm_of h hl).resolve_left id

theorem Trails.list {n : Node} {ss : List Node} (h : All (Trails a b) n) (hl : look n = .list ss) :
    Task.Trails a b (.list ss) ∧ early a b ss = 0 := by
  have h1 := h.self
  unfold Trails at h1
  rw [hl] at h1
  exact ⟨⟨fun s hs hi => h.comp (comps_list hl hs hi), h1.1⟩, h1.2⟩

/-- In every execution `b` is never ahead of `a`. -/
theorem run_trails (hab : a ≠ b) {st st' : List Node} {tk : Task} {tr : List (Ev V A)} {o : Outcome V A}
    (h : Run solid st tk tr o st') (hst : ∀ n ∈ st, Shown (Trails a b) n) (ht : tk.Trails a b) :
    (∀ n ∈ st', Shown (Trails a b) n) ∧ counted b tr ≤ counted a tr + tk.early a b := by
  induction h with
  | cut st tk => exact ⟨hst, by simp [counted]⟩
  | @counter st n c' v hl =>
    have h1 := ht.self.imm (by rw [hl]; intro ss h; cases h)
    simp only [imm, hl] at h1
    refine ⟨hst, ?_⟩
    simp only [counted_cons, Ev.counts, decide_eq_true_eq]
    have : counted b ([] : List (Ev V A)) = 0 := rfl
    omega
  | @wrap st n c' e tr o st' hl _ ih =>
    obtain ⟨h1, h3⟩ := ih hst (ht.comp (comps_wrap hl))
    have h2 := ht.self.imm (by rw [hl]; intro ss h; cases h)
    simp only [imm, hl] at h2
    refine ⟨h1, ?_⟩
    simp only [Task.early] at h3 ⊢
    simp only [counted_cons, Ev.counts, decide_eq_true_eq]
    omega
  | @truth st n c' e mid tr v st' hl _ ih =>
    obtain ⟨h1, h3⟩ := ih hst (ht.comp (comps_truth hl))
    have h2 := ht.self.imm (by rw [hl]; intro ss h; cases h)
    simp only [imm, hl] at h2
    refine ⟨h1, ?_⟩
    simp only [Task.early] at h3 ⊢
    simp only [counted_cons, counted_append, Ev.counts, decide_eq_true_eq,
      counted_counts b (v.any solid) mid.sites (by unfold cc at h2; omega)]
    omega
  | @truthEnd st n c' e mid tr o st' hl _ _ ih =>
    obtain ⟨h1, h3⟩ := ih hst (ht.comp (comps_truth hl))
    have h2 := ht.self.imm (by rw [hl]; intro ss h; cases h)
    simp only [imm, hl] at h2
    refine ⟨h1, ?_⟩
    simp only [Task.early] at h3 ⊢
    simp only [counted_cons, Ev.counts, decide_eq_true_eq]
    omega
  | @block st n ss tr o st1 tr' o' st' hl _ ho _ ih1 ih2 =>
    obtain ⟨h0, h0'⟩ := Trails.list ht hl
    obtain ⟨h1, h3⟩ := ih1 (shown_block hst ht hl) h0
    obtain ⟨h4, h6⟩ := ih2 h1 trivial
    refine ⟨h4, ?_⟩
    simp only [Task.early] at h3 h6 ⊢
    simp only [counted_cons, counted_append, Ev.counts, Bool.false_eq_true, if_false]
    omega
  | @blockCut st n ss tr st' hl _ ih1 =>
    obtain ⟨h0, h0'⟩ := Trails.list ht hl
    obtain ⟨h1, h3⟩ := ih1 (shown_block hst ht hl) h0
    refine ⟨h1, ?_⟩
    simp only [Task.early] at h3 ⊢
    simp only [counted_cons, Ev.counts, Bool.false_eq_true, if_false]
    omega
  | @node st n tr o st' hl _ ih =>
    obtain ⟨h1, h3⟩ := ih (shown_push hst ht hl) trivial
    refine ⟨h1, ?_⟩
    simp only [Task.early] at h3 ⊢
    simp only [counted_cons, Ev.counts, Bool.false_eq_true, if_false]
    omega
  | nil => exact ⟨hst, Nat.zero_le _⟩
  | @count st sp c' sp' cs ss tr o st' _ ih =>
    have hi : ∀ c, isStmtOf c (mk .exprStmt sp [mk (.counter c') sp' cs]) = decide (c' = c) := fun _ => rfl
    have h0 := ht.2
    rw [List.countP_cons, hi] at h0
    obtain ⟨h1, h3⟩ := ih hst ⟨fun s hs => ht.1 s (List.mem_cons_of_mem _ hs), by omega⟩
    refine ⟨h1, ?_⟩
    have hle := early_le a b ss
    simp only [Task.early, early, hi, decide_eq_true_eq] at h3 h0 ⊢
    simp only [counted_cons, Ev.counts, decide_eq_true_eq]
    by_cases h4 : c' = a
    · subst h4
      simp only [if_neg hab, if_true]
      omega
    · simp only [if_neg h4]
      omega
  | @setup st s ss tr o st' hk _ ih =>
    have h0 := ht.2
    rw [List.countP_cons, setup_stmt hk] at h0
    obtain ⟨h1, h3⟩ := ih hst ⟨fun s hs => ht.1 s (List.mem_cons_of_mem _ hs), by omega⟩
    refine ⟨h1, ?_⟩
    simp only [Task.early, early, setup_stmt hk, Bool.false_eq_true, if_false] at h3 ⊢
    omega
  | @next st s ss tr v st1 tr' o st' hi _ _ ih1 ih2 =>
    obtain ⟨h1, h3⟩ := ih1 hst (ht.1 s List.mem_cons_self hi)
    have h0 := ht.2
    rw [List.countP_cons] at h0
    obtain ⟨h4, h6⟩ := ih2 h1 ⟨fun s hs => ht.1 s (List.mem_cons_of_mem _ hs), by omega⟩
    refine ⟨h4, ?_⟩
    simp only [Task.early, early, not_stmt hi, Bool.false_eq_true, if_false] at h3 h6 ⊢
    simp only [counted_append]
    omega
  | @stop st s ss tr o st' hi _ _ ih1 =>
    obtain ⟨h1, h3⟩ := ih1 hst (ht.1 s List.mem_cons_self hi)
    refine ⟨h1, ?_⟩
    simp only [Task.early] at h3 ⊢
    omega
  | answer => exact ⟨hst, Nat.zero_le _⟩
  | @pick st h n i x tr o st1 tr' o' st' hn hx _ ho _ ih1 ih2 =>
    obtain ⟨hl, ha⟩ := shown_kid (hst n (List.mem_of_getElem? hn)) hx
    obtain ⟨h1, h3⟩ := ih1 hst ha
    obtain ⟨h4, h6⟩ := ih2 h1 trivial
    refine ⟨h4, ?_⟩
    simp only [Task.early] at h3 h6 ⊢
    simp only [counted_cons, counted_append, Ev.counts, Bool.false_eq_true, if_false]
    omega
  | @pickCut st h n i x tr st' hn hx _ ih1 =>
    obtain ⟨hl, ha⟩ := shown_kid (hst n (List.mem_of_getElem? hn)) hx
    obtain ⟨h1, h3⟩ := ih1 hst ha
    refine ⟨h1, ?_⟩
    simp only [Task.early] at h3 ⊢
    simp only [counted_cons, Ev.counts, Bool.false_eq_true, if_false]
    omega

theorem trails_imm {n : Node} (h : imm b n = 0) : Trails a b n := by
  unfold Trails
  split
  · next ss hl =>
    simp only [imm, hl] at h
    have := early_le a b ss
    omega
  · exact h

theorem trails_zero {n : Node} (h : cc b n = 0) : All (Trails a b) n := by
  intro m hm
  have h1 := hm.cc_le b
  have h2 := imm_le b m
  exact trails_imm (by omega)

theorem trails_of {n m : Node} {ss : List Node} (hs : Sub n m) (hl : look m = .list ss) (h1 : early a b ss = 0)
    (h2 : 1 ≤ ss.countP (isStmtOf b)) (hc : cc b n ≤ 1) : All (Trails a b) n := by
  have himm : imm b m = ss.countP (isStmtOf b) := by simp only [imm, hl]
  induction hs with
  | here n =>
    have h3 := imm_le b n
    intro m' hm'
    cases hm' with
    | here =>
      unfold Trails
      rw [hl]
      exact ⟨by omega, h1⟩
    | @step _ x _ hx hm' =>
      have h4 := comp_cc b hx
      exact trails_zero (by omega) _ hm'
  | @step n x m hx hs ih =>
    have h4 := comp_cc b hx
    have h5 := hs.cc_le b
    have h6 := imm_le b m
    have h7 := ih hl (by omega) himm
    intro m' hm'
    cases hm' with
    | here => exact trails_imm (by omega)
    | @step _ z _ hz hm' =>
      by_cases hzx : z = x
      · subst hzx
        exact h7 _ hm'
      · have h8 := comp_cc_two b hz hx hzx
        exact trails_zero (by omega) _ hm'

theorem neverAhead_of {p : Node} (hab : a ≠ b) (hp : All (Trails a b) p) : NeverAhead p a b := by
  intro V A solid tr o o' h
  obtain ⟨tr1, tr2, st1, st2, rfl, h1, h2⟩ := h
  obtain ⟨h3, h4⟩ := run_trails hab h1 (by intro x hx; cases hx) hp
  obtain ⟨-, h5⟩ := run_trails hab h2 h3 trivial
  simp only [Task.early] at h4 h5
  rw [counted_append, counted_append]
  omega

/-! ### One counter right before another -/

/-- The increments of `b` at the start of a statement list with none of `a` before them. -/
def pending (a b : Counter) : List Node → Nat
  | [] => 0
  | s :: ss => if isStmtOf a s then 0 else if isStmtOf b s then 1 + pending a b ss
    else if isInjectedItem s then pending a b ss else 0

/-- In the statement list `b` follows `a`, and only `a`, with nothing but injected statements between. -/
def Joined (a b : Counter) : List Node → Prop
  | [] => True
  | s :: ss => Joined a b ss ∧ (isStmtOf a s = true → pending a b ss = 1) ∧
      (isStmtOf b s = true → pending a b ss = 0) ∧ (isInjectedItem s = false → pending a b ss = 0)

theorem pending_le {ss : List Node} (h : Joined a b ss) : pending a b ss ≤ 1 := by
  induction ss with
  | nil => exact Nat.zero_le _
  | cons s ss ih =>
    obtain ⟨h1, -, h3, -⟩ := h
    have := ih h1
    rw [pending]
    split
    · omega
    · split
      · next h => rw [h3 h]; omega
      · split <;> omega

/-- The node increments `a` and `b` only in a statement list where they are joined. -/
def Abreast (a b : Counter) (n : Node) : Prop :=
  match look n with
  | .list ss => Joined a b ss ∧ pending a b ss = 0
  | _ => imm a n = 0 ∧ imm b n = 0

/-- A task that can be executed. -/
def Task.Joined (a b : Counter) : Task → Prop
  | .node n => All (Sem.Abreast a b) n
  | .list ss => (∀ s ∈ ss, isInjectedItem s = false → All (Sem.Abreast a b) s) ∧ Sem.Joined a b ss
  | .turn => True

/-- The increments of `b` a task starts with. -/
def Task.pending (a b : Counter) : Task → Nat
  | .list ss => Sem.pending a b ss
  | _ => 0

theorem Abreast.imm {n : Node} (h : Abreast a b n) (hl : ∀ ss, look n ≠ .list ss) : Sem.imm a n = 0 ∧ Sem.imm b n = 0 := by
  unfold Abreast at h
  split at h
  · next ss h' => exact (hl ss h').elim
  · exact h

theorem Abreast.list {n : Node} {ss : List Node} (h : All (Abreast a b) n) (hl : look n = .list ss) :
    Task.Joined a b (.list ss) ∧ pending a b ss = 0 := by
  have h1 := h.self
  unfold Abreast at h1
  rw [hl] at h1
  exact ⟨⟨fun s hs hi => h.comp (comps_list hl hs hi), h1.1⟩, h1.2⟩

/-- In every execution `a` and `b` are incremented equally often. -/
theorem run_joined (hab : a ≠ b) {st st' : List Node} {tk : Task} {tr : List (Ev V A)} {o : Outcome V A}
    (h : Run solid st tk tr o st') (hst : ∀ n ∈ st, Shown (Abreast a b) n) (ht : tk.Joined a b) :
    (∀ n ∈ st', Shown (Abreast a b) n) ∧ ∃ ε, ε ≤ o.slack ∧ counted a tr + tk.pending a b = counted b tr + ε := by
  have hn : counted a ([] : List (Ev V A)) = 0 := rfl
  have hn' : counted b ([] : List (Ev V A)) = 0 := rfl
  induction h with
  | cut st tk =>
    refine ⟨hst, tk.pending a b, ?_, by simp [counted]⟩
    cases tk with
    | list ss => exact pending_le ht.2
    | _ => exact Nat.zero_le _
  | @counter st n c' v hl =>
    have h1 := ht.self.imm (by rw [hl]; intro ss h; cases h)
    simp only [imm, hl] at h1
    refine ⟨hst, 0, Nat.le_refl _, ?_⟩
    simp only [counted_cons, Ev.counts, decide_eq_true_eq, Task.pending]
    omega
  | @wrap st n c' e tr o st' hl _ ih =>
    obtain ⟨h1, ε, h4, h3⟩ := ih hst (ht.comp (comps_wrap hl))
    have h2 := ht.self.imm (by rw [hl]; intro ss h; cases h)
    simp only [imm, hl] at h2
    refine ⟨h1, ε, h4, ?_⟩
    simp only [Task.pending] at h3 ⊢
    simp only [counted_cons, Ev.counts, decide_eq_true_eq]
    omega
  | @truth st n c' e mid tr v st' hl _ ih =>
    obtain ⟨h1, ε, h4, h3⟩ := ih hst (ht.comp (comps_truth hl))
    have h2 := ht.self.imm (by rw [hl]; intro ss h; cases h)
    simp only [imm, hl] at h2
    refine ⟨h1, ε, h4, ?_⟩
    simp only [Task.pending] at h3 ⊢
    simp only [counted_cons, counted_append, Ev.counts, decide_eq_true_eq,
      counted_counts a (v.any solid) mid.sites (by unfold cc at h2; omega),
      counted_counts b (v.any solid) mid.sites (by unfold cc at h2; omega)]
    omega
  | @truthEnd st n c' e mid tr o st' hl _ _ ih =>
    obtain ⟨h1, ε, h4, h3⟩ := ih hst (ht.comp (comps_truth hl))
    have h2 := ht.self.imm (by rw [hl]; intro ss h; cases h)
    simp only [imm, hl] at h2
    refine ⟨h1, ε, h4, ?_⟩
    simp only [Task.pending] at h3 ⊢
    simp only [counted_cons, Ev.counts, decide_eq_true_eq]
    omega
  | @block st n ss tr o st1 tr' o' st' hl _ ho _ ih1 ih2 =>
    obtain ⟨h0, h0'⟩ := Abreast.list ht hl
    obtain ⟨h1, ε, h2, h3⟩ := ih1 (shown_block hst ht hl) h0
    obtain ⟨h4, ε', h5, h6⟩ := ih2 h1 trivial
    rw [slack_ne ho] at h2
    refine ⟨h4, ε', h5, ?_⟩
    simp only [Task.pending] at h3 h6 ⊢
    simp only [counted_cons, counted_append, Ev.counts, Bool.false_eq_true, if_false]
    omega
  | @blockCut st n ss tr st' hl _ ih1 =>
    obtain ⟨h0, h0'⟩ := Abreast.list ht hl
    obtain ⟨h1, ε, h2, h3⟩ := ih1 (shown_block hst ht hl) h0
    refine ⟨h1, ε, h2, ?_⟩
    simp only [Task.pending] at h3 ⊢
    simp only [counted_cons, Ev.counts, Bool.false_eq_true, if_false]
    omega
  | @node st n tr o st' hl _ ih =>
    obtain ⟨h1, ε, h2, h3⟩ := ih (shown_push hst ht hl) trivial
    refine ⟨h1, ε, h2, ?_⟩
    simp only [Task.pending] at h3 ⊢
    simp only [counted_cons, Ev.counts, Bool.false_eq_true, if_false]
    omega
  | nil => exact ⟨hst, 0, Nat.zero_le _, rfl⟩
  | @count st sp c' sp' cs ss tr o st' _ ih =>
    have hi : ∀ c, isStmtOf c (mk .exprStmt sp [mk (.counter c') sp' cs]) = decide (c' = c) := fun _ => rfl
    have hj : isInjectedItem (mk .exprStmt sp [mk (.counter c') sp' cs]) = true := rfl
    obtain ⟨h5, h6, h7, -⟩ := ht.2
    obtain ⟨h1, ε, h2, h3⟩ := ih hst ⟨fun s hs => ht.1 s (List.mem_cons_of_mem _ hs), h5⟩
    refine ⟨h1, ε, h2, ?_⟩
    simp only [Task.pending, pending, hi, hj, decide_eq_true_eq, if_true] at h3 h6 h7 ⊢
    simp only [counted_cons, Ev.counts, decide_eq_true_eq]
    by_cases h4 : c' = a
    · subst h4
      have := h6 rfl
      simp only [if_neg hab, if_true]
      omega
    · simp only [if_neg h4]
      by_cases h8 : c' = b
      · have := h7 h8
        simp only [if_pos h8]
        omega
      · simp only [if_neg h8]
        omega
  | @setup st s ss tr o st' hk _ ih =>
    obtain ⟨h1, ε, h2, h3⟩ := ih hst ⟨fun s hs => ht.1 s (List.mem_cons_of_mem _ hs), ht.2.1⟩
    refine ⟨h1, ε, h2, ?_⟩
    simp only [Task.pending, pending, setup_stmt hk, setup_item hk, Bool.false_eq_true, if_false, if_true] at h3 ⊢
    omega
  | @next st s ss tr v st1 tr' o st' hi _ _ ih1 ih2 =>
    obtain ⟨h1, ε, h2, h3⟩ := ih1 hst (ht.1 s List.mem_cons_self hi)
    obtain ⟨h4, ε', h5, h6⟩ := ih2 h1 ⟨fun s hs => ht.1 s (List.mem_cons_of_mem _ hs), ht.2.1⟩
    rw [slack_normal] at h2
    have h7 := ht.2.2.2.2 hi
    refine ⟨h4, ε', h5, ?_⟩
    simp only [Task.pending, pending, not_stmt hi, hi, Bool.false_eq_true, if_false] at h3 h6 ⊢
    simp only [counted_append]
    omega
  | @stop st s ss tr o st' hi _ _ ih1 =>
    obtain ⟨h1, ε, h2, h3⟩ := ih1 hst (ht.1 s List.mem_cons_self hi)
    refine ⟨h1, ε, h2, ?_⟩
    simp only [Task.pending, pending, not_stmt hi, hi, Bool.false_eq_true, if_false] at h3 ⊢
    omega
  | answer => exact ⟨hst, 0, Nat.zero_le _, rfl⟩
  | @pick st h n i x tr o st1 tr' o' st' hn hx _ ho _ ih1 ih2 =>
    obtain ⟨hl, ha⟩ := shown_kid (hst n (List.mem_of_getElem? hn)) hx
    obtain ⟨h1, ε, h2, h3⟩ := ih1 hst ha
    obtain ⟨h4, ε', h5, h6⟩ := ih2 h1 trivial
    rw [slack_ne ho] at h2
    refine ⟨h4, ε', h5, ?_⟩
    simp only [Task.pending] at h3 h6 ⊢
    simp only [counted_cons, counted_append, Ev.counts, Bool.false_eq_true, if_false]
    omega
  | @pickCut st h n i x tr st' hn hx _ ih1 =>
    obtain ⟨hl, ha⟩ := shown_kid (hst n (List.mem_of_getElem? hn)) hx
    obtain ⟨h1, ε, h2, h3⟩ := ih1 hst ha
    refine ⟨h1, ε, h2, ?_⟩
    simp only [Task.pending] at h3 ⊢
    simp only [counted_cons, Ev.counts, Bool.false_eq_true, if_false]
    omega

theorem joined_none {ss : List Node} (ha : ss.countP (isStmtOf a) = 0) (hb : ss.countP (isStmtOf b) = 0) :
    Joined a b ss ∧ pending a b ss = 0 := by
  induction ss with
  | nil => exact ⟨trivial, rfl⟩
  | cons s ss ih =>
    rw [List.countP_cons] at ha hb
    have h1 : isStmtOf a s = false := by cases h : isStmtOf a s <;> simp [h] at ha ⊢
    have h2 : isStmtOf b s = false := by cases h : isStmtOf b s <;> simp [h] at hb ⊢
    obtain ⟨h3, h4⟩ := ih (by omega) (by omega)
    refine ⟨⟨h3, by simp [h1], by simp [h2], fun _ => h4⟩, ?_⟩
    rw [pending, h1, h2, h4]
    simp

theorem steps_imm {n : Node} (ha : imm a n = 0) (hb : imm b n = 0) : Abreast a b n := by
  unfold Abreast
  split
  · next ss hl =>
    simp only [imm, hl] at ha hb
    exact joined_none ha hb
  · exact ⟨ha, hb⟩

theorem steps_zero {n : Node} (ha : cc a n = 0) (hb : cc b n = 0) : All (Abreast a b) n := by
  intro m hm
  have h1 := hm.cc_le a
  have h2 := imm_le a m
  have h3 := hm.cc_le b
  have h4 := imm_le b m
  exact steps_imm (by omega) (by omega)

theorem steps_of {n m : Node} {ss : List Node} (hs : Sub n m) (hl : look m = .list ss) (h1 : Joined a b ss)
    (h2 : pending a b ss = 0) (ha : 1 ≤ ss.countP (isStmtOf a)) (hb : 1 ≤ ss.countP (isStmtOf b)) (hca : cc a n ≤ 1)
    (hcb : cc b n ≤ 1) : All (Abreast a b) n := by
  have himm : ∀ c, imm c m = ss.countP (isStmtOf c) := fun c => by simp only [imm, hl]
  induction hs with
  | here n =>
    have h3 := imm_le a n
    have h4 := imm_le b n
    have h5 := himm a
    have h6 := himm b
    intro m' hm'
    cases hm' with
    | here =>
      unfold Abreast
      rw [hl]
      exact ⟨h1, h2⟩
    | @step _ x _ hx hm' =>
      have h7 := comp_cc a hx
      have h8 := comp_cc b hx
      exact steps_zero (by omega) (by omega) _ hm'
  | @step n x m hx hs ih =>
    have h3 := comp_cc a hx
    have h4 := comp_cc b hx
    have h5 := hs.cc_le a
    have h6 := hs.cc_le b
    have h7 := imm_le a m
    have h8 := imm_le b m
    have h9 := himm a
    have h10 := himm b
    have h11 := ih hl (by omega) (by omega) himm
    intro m' hm'
    cases hm' with
    | here => exact steps_imm (by omega) (by omega)
    | @step _ z _ hz hm' =>
      by_cases hzx : z = x
      · subst hzx
        exact h11 _ hm'
      · have h12 := comp_cc_two a hz hx hzx
        have h13 := comp_cc_two b hz hx hzx
        exact steps_zero (by omega) (by omega) _ hm'

theorem inStep_of {p : Node} (hab : a ≠ b) (hp : All (Abreast a b) p) : InStep p a b := by
  intro V A solid tr o o' h
  obtain ⟨tr1, tr2, st1, st2, rfl, h1, h2⟩ := h
  obtain ⟨h3, ε, h4, h5⟩ := run_joined hab h1 (by intro x hx; cases hx) hp
  obtain ⟨-, ε', h6, h7⟩ := run_joined hab h2 h3 trivial
  refine ⟨ε + ε', by omega, ?_⟩
  simp only [Task.pending] at h5 h7
  rw [counted_append, counted_append]
  omega

/-! ### Lists -/

theorem stmt_ne {s : Node} (hab : a ≠ b) (h : isStmtOf a s = true) : isStmtOf b s = false := by
  unfold isStmtOf at h ⊢
  split at h
  · have := of_decide_eq_true h
    subst this
    simp [hab]
  · cases h

theorem early_zero {u w : List Node} {s : Node} (hs : isStmtOf a s = true) (hu : u.countP (isStmtOf b) = 0) :
    early a b (u ++ s :: w) = 0 := by
  induction u with
  | nil => rw [List.nil_append, early, if_pos hs]
  | cons x u ih =>
    rw [List.countP_cons] at hu
    have h2 : isStmtOf b x = false := by cases h : isStmtOf b x <;> simp [h] at hu ⊢
    rw [List.cons_append, early, ih (by omega), h2]
    simp

theorem joined_skip {u w : List Node} (ha : u.countP (isStmtOf a) = 0) (hb : u.countP (isStmtOf b) = 0)
    (h : Joined a b w ∧ pending a b w = 0) : Joined a b (u ++ w) ∧ pending a b (u ++ w) = 0 := by
  induction u with
  | nil => exact h
  | cons s ss ih =>
    rw [List.countP_cons] at ha hb
    have h1 : isStmtOf a s = false := by cases h : isStmtOf a s <;> simp [h] at ha ⊢
    have h2 : isStmtOf b s = false := by cases h : isStmtOf b s <;> simp [h] at hb ⊢
    obtain ⟨h3, h4⟩ := ih (by omega) (by omega)
    refine ⟨⟨h3, by simp [h1], by simp [h2], fun _ => h4⟩, ?_⟩
    rw [List.cons_append, pending, h1, h2, h4]
    simp

theorem joined_between {u w : List Node} (hi : ∀ s ∈ u, isInjectedItem s = true) (ha : u.countP (isStmtOf a) = 0)
    (hb : u.countP (isStmtOf b) = 0) (h : Joined a b w ∧ pending a b w = 1) :
    Joined a b (u ++ w) ∧ pending a b (u ++ w) = 1 := by
  induction u with
  | nil => exact h
  | cons s ss ih =>
    rw [List.countP_cons] at ha hb
    have h1 : isStmtOf a s = false := by cases h : isStmtOf a s <;> simp [h] at ha ⊢
    have h2 : isStmtOf b s = false := by cases h : isStmtOf b s <;> simp [h] at hb ⊢
    obtain ⟨h3, h4⟩ := ih (fun x hx => hi x (List.mem_cons_of_mem _ hx)) (by omega) (by omega)
    have h5 := hi s List.mem_cons_self
    refine ⟨⟨h3, by simp [h1], by simp [h2], by simp [h5]⟩, ?_⟩
    rw [List.cons_append, pending, h1, h2, h4, h5]
    simp

theorem joined_list {u mid v : List Node} {s s' : Node} (hab : a ≠ b) (hs : isStmtOf a s = true) (hs' : isStmtOf b s' = true)
    (hi : ∀ s ∈ mid, isInjectedItem s = true) (ha : (u ++ s :: (mid ++ s' :: v)).countP (isStmtOf a) ≤ 1)
    (hb : (u ++ s :: (mid ++ s' :: v)).countP (isStmtOf b) ≤ 1) :
    Joined a b (u ++ s :: (mid ++ s' :: v)) ∧ pending a b (u ++ s :: (mid ++ s' :: v)) = 0 := by
  have hsb := stmt_ne hab hs
  have hsa := stmt_ne (Ne.symm hab) hs'
  simp only [List.countP_append, List.countP_cons, hs, hs', hsa, hsb, if_true, Bool.false_eq_true, if_false] at ha hb
  obtain ⟨h1, h2⟩ := joined_none (a := a) (b := b) (ss := v) (by omega) (by omega)
  refine joined_skip (by omega) (by omega) ?_
  obtain ⟨h3, h4⟩ := joined_between (a := a) (b := b) (w := s' :: v) hi (by omega) (by omega)
    ⟨⟨h1, by simp [hsa], fun _ => h2, by simp [isStmtOf_injected hs']⟩, by rw [pending, hsa, hs', h2]; simp⟩
  exact ⟨⟨h3, fun _ => h4, by simp [hsb], by simp [isStmtOf_injected hs]⟩, by rw [pending, if_pos hs]⟩

theorem isStmtOf_self (c : Counter) : isStmtOf c (counterStmt c) = true := by
  simp [isStmtOf, counterStmt, counterExpr]

/-! ### Instrumented programs -/

namespace Followed
variable {p p' : Node}

theorem differ (f : Followed p p') {m : Node} {u v w : List Node} (hm : Sub p' m)
    (hl : look m = .list (u ++ counterStmt a :: (v ++ counterStmt b :: w))) : a ≠ b := by
  rintro rfl
  have h1 := Nat.le_trans (hm.cc_le a) (f.once a)
  have h2 := imm_le a m
  simp only [imm, hl, List.countP_append, List.countP_cons, isStmtOf_self, if_true] at h2
  omega

theorem trails (f : Followed p p') {m : Node} {u v w : List Node} (hm : Sub p' m)
    (hl : look m = .list (u ++ counterStmt a :: (v ++ counterStmt b :: w))) : NeverAhead p' a b := by
  have hab := f.differ hm hl
  have h1 := Nat.le_trans (hm.cc_le b) (f.once b)
  have h2 := imm_le b m
  simp only [imm, hl, List.countP_append, List.countP_cons, isStmtOf_self b, if_true] at h2
  refine neverAhead_of hab (trails_of hm hl (early_zero (isStmtOf_self a) (by omega)) ?_ (f.once b))
  simp only [List.countP_append, List.countP_cons, isStmtOf_self b, if_true]
  omega

theorem joined (f : Followed p p') {m : Node} {u v w : List Node} (hm : Sub p' m)
    (hv : ∀ s ∈ v, isInjectedItem s = true)
    (hl : look m = .list (u ++ counterStmt a :: (v ++ counterStmt b :: w))) : InStep p' a b := by
  have hab := f.differ hm hl
  have h1 := Nat.le_trans (hm.cc_le b) (f.once b)
  have h2 := imm_le b m
  have h3 := Nat.le_trans (hm.cc_le a) (f.once a)
  have h4 := imm_le a m
  simp only [imm, hl] at h2 h4
  obtain ⟨h5, h6⟩ := joined_list hab (isStmtOf_self a) (isStmtOf_self b) hv (Nat.le_trans h4 h3) (Nat.le_trans h2 h1)
  refine inStep_of hab (steps_of hm hl h5 h6 ?_ ?_ (f.once a) (f.once b)) <;>
    simp only [List.countP_append, List.countP_cons, isStmtOf_self, if_true] <;> omega

end Followed

end Sem
end Verif
