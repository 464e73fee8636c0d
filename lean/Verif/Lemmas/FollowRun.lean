import Verif.Lemmas.Follow
/-
Counters and events go together in every execution, if they do so at every node.
-/
namespace Verif
open Node

namespace Sem
variable {V A : Type} {solid : V → Bool}

/-- A property of everything execution can come to. -/
def All (P : Node → Prop) (n : Node) : Prop := ∀ m, Sub n m → P m

theorem All.self {P : Node → Prop} {n : Node} (h : All P n) : P n := h n (.here n)

theorem All.comp {P : Node → Prop} {n x : Node} (h : All P n) (hx : x ∈ comps n) : All P x :=
  fun m hm => h m (.step hx hm)

theorem comps_wrap {n e : Node} {c : Counter} (h : look n = .wrap c e) : e ∈ comps n := by
  unfold comps; rw [h]; exact List.mem_singleton.2 rfl

theorem comps_truth {n e mid : Node} {c : Counter} (h : look n = .truth c e mid) : e ∈ comps n := by
  unfold comps; rw [h]; exact List.mem_singleton.2 rfl

theorem comps_list {n s : Node} {ss : List Node} (h : look n = .list ss) (hs : s ∈ ss) (hi : isInjectedItem s = false) :
    s ∈ comps n := by
  unfold comps; rw [h]; exact List.mem_filter.2 ⟨hs, by rw [hi]; rfl⟩

theorem comps_plain {n : Node} (h : look n = .plain) : comps n = kids n := by
  unfold comps; rw [h]

theorem kids_of_list {n : Node} {ss : List Node} (h : look n = .list ss) : kids n = [] := by
  unfold look at h
  split at h <;> first | rfl | cases h

theorem hoisted_plain {ss : List Node} {s : Node} (h : s ∈ hoisted ss) :
    look s = .plain ∧ isInjectedItem s = false := by
  have h1 := (List.mem_filter.1 h).2
  obtain ⟨k, sp, cs⟩ := s
  simp only [Node.kind, Bool.or_eq_true] at h1
  rcases h1 with (h1 | h1) | h1 <;> (cases of_decide_eq_true h1; exact ⟨rfl, rfl⟩)

/-- Nodes that are presented. -/
def Shape.opens : Shape → Prop
  | .list _ | .plain => True
  | _ => False

/-! ### Events -/

section
variable (c : Counter) (t : Tag) (j : Nat)

theorem counted_append (a b : List (Ev V A)) : counted c (a ++ b) = counted c a + counted c b := List.countP_append ..

theorem began_append (a b : List (Ev V A)) : began t (a ++ b) = began t a + began t b := List.countP_append ..

theorem entered_append (a b : List (Ev V A)) : entered t j (a ++ b) = entered t j a + entered t j b := List.countP_append ..

theorem counted_cons (e : Ev V A) (tr : List (Ev V A)) :
    counted c (e :: tr) = (if e.counts c then 1 else 0) + counted c tr := by
  unfold counted; rw [List.countP_cons, Nat.add_comm]

theorem began_cons (e : Ev V A) (tr : List (Ev V A)) :
    began t (e :: tr) = (if e.begins t then 1 else 0) + began t tr := by
  unfold began; rw [List.countP_cons, Nat.add_comm]

theorem entered_cons (e : Ev V A) (tr : List (Ev V A)) :
    entered t j (e :: tr) = (if e.enters t j then 1 else 0) + entered t j tr := by
  unfold entered; rw [List.countP_cons, Nat.add_comm]

theorem begins_eq (n : Node) : (Ev.begins t (Ev.present (face n) : Ev V A) = true) = (tag n = t) :=
  propext ⟨of_decide_eq_true, fun h => decide_eq_true h⟩

theorem enters_eq (h i : Nat) (n : Node) :
    (Ev.enters t j (Ev.pick h i (face n) : Ev V A) = true) = (tag n = t ∧ i = j) := by
  refine propext ⟨fun h => ?_, fun h => ?_⟩
  · have h := Bool.and_eq_true_iff.1 h
    exact ⟨of_decide_eq_true h.2, of_decide_eq_true h.1⟩
  · exact Bool.and_eq_true_iff.2 ⟨decide_eq_true h.2, decide_eq_true h.1⟩

theorem counted_counts (b : Bool) (cs : List Counter) (h : cs.count c = 0) :
    counted c (if b then cs.map .count else [] : List (Ev V A)) = 0 := by
  split
  · unfold counted
    rw [List.countP_eq_zero]
    intro e he
    obtain ⟨x, hx, rfl⟩ := List.mem_map.1 he
    have : x ≠ c := by rintro rfl; exact List.count_eq_zero.1 h hx
    simp [Ev.counts, this]
  · rfl

theorem began_counts (b : Bool) (cs : List Counter) :
    began t (if b then cs.map .count else [] : List (Ev V A)) = 0 := by
  split
  · unfold began
    rw [List.countP_eq_zero]
    intro e he
    obtain ⟨x, hx, rfl⟩ := List.mem_map.1 he
    simp [Ev.begins]
  · rfl

theorem entered_counts (b : Bool) (cs : List Counter) :
    entered t j (if b then cs.map .count else [] : List (Ev V A)) = 0 := by
  split
  · unfold entered
    rw [List.countP_eq_zero]
    intro e he
    obtain ⟨x, hx, rfl⟩ := List.mem_map.1 he
    simp [Ev.enters]
  · rfl

end

theorem slack_le (o : Outcome V A) : o.slack ≤ 1 := by cases o <;> simp [Outcome.slack]

theorem slack_ne {o : Outcome V A} (h : o ≠ .cut) : o.slack = 0 := by
  cases o <;> first | rfl | exact absurd rfl h

theorem slack_normal (v : Option V) : (Outcome.normal v : Outcome V A).slack = 0 := rfl

theorem slack_cut : (Outcome.cut : Outcome V A).slack = 1 := rfl

/-! ### Counters at the start of a part -/

/-- The increments of `c` a statement list starts with. -/
def leadL (c : Counter) : List Node → Nat
  | [] => 0
  | s :: ss => if isStmtOf c s then 1 + leadL c ss else if isInjectedItem s then leadL c ss else 0

theorem leadL_le (c : Counter) (ss : List Node) : leadL c ss ≤ ss.countP (isStmtOf c) := by
  induction ss with
  | nil => exact Nat.le_refl _
  | cons s ss ih =>
    rw [leadL, List.countP_cons]
    cases isStmtOf c s <;> cases isInjectedItem s <;> simp <;> omega

/-- The increments of `c` a node starts with. -/
def lead (c : Counter) (n : Node) : Nat :=
  match look n with
  | .counter c' => if c' = c then 1 else 0
  | .wrap c' _ => if c' = c then 1 else 0
  | .truth c' _ _ => if c' = c then 1 else 0
  | .list ss => leadL c ss
  | .plain => 0

/-- All increments of `c` by the node itself are at its start, there is at most one, and exactly part `j` of
the node with tag `t` starts with an increment of `c`. -/
structure Enters (c : Counter) (t : Tag) (j : Nat) (n : Node) : Prop where
  only : imm c n = lead c n
  le : lead c n ≤ 1
  kid : look n = .plain → ∀ i x, (kids n)[i]? = some x → lead c x = if tag n = t ∧ i = j then 1 else 0
  comp : look n ≠ .plain → ∀ x ∈ comps n, lead c x = 0

section
variable {c : Counter} {t : Tag} {j : Nat}

/-- A statement list that can be executed. -/
structure EntersList (c : Counter) (t : Tag) (j : Nat) (ss : List Node) : Prop where
  all : ∀ s ∈ ss, isInjectedItem s = false → All (Enters c t j) s ∧ lead c s = 0
  only : ss.countP (isStmtOf c) = leadL c ss
  le : leadL c ss ≤ 1

/-- A task that can be executed. -/
def Task.Enters (c : Counter) (t : Tag) (j : Nat) : Task → Prop
  | .node n => All (Sem.Enters c t j) n
  | .list ss => EntersList c t j ss
  | .turn => True

/-- The increments of `c` a task starts with. -/
def Task.lead (c : Counter) : Task → Nat
  | .node n => Sem.lead c n
  | .list ss => leadL c ss
  | .turn => 0

/-- A node that was presented. -/
def Shown (P : Node → Prop) (n : Node) : Prop := All P n ∧ (look n).opens

theorem EntersList.of {n : Node} {ss : List Node} (h : All (Enters c t j) n) (hl : look n = .list ss) :
    EntersList c t j ss where
  all s hs hi := ⟨h.comp (comps_list hl hs hi),
    h.self.comp (by rw [hl]; exact fun h => by cases h) s (comps_list hl hs hi)⟩
  only := by
    have := h.self.only
    unfold imm lead at this
    rw [hl] at this
    exact this
  le := by
    have := h.self.le
    unfold lead at this
    rw [hl] at this
    exact this

theorem shown_block {P : Node → Prop} {st : List Node} {n : Node} {ss : List Node} (h1 : ∀ n ∈ st, Shown P n) (h2 : All P n)
    (hl : look n = .list ss) : ∀ x ∈ st ++ n :: hoisted ss, Shown P x := by
  intro x hx
  rcases List.mem_append.1 hx with hx | hx
  · exact h1 x hx
  · rcases List.mem_cons.1 hx with rfl | hx
    · exact ⟨h2, by rw [hl]; trivial⟩
    · have := hoisted_plain hx
      exact ⟨h2.comp (comps_list hl (hoisted_sub hx) this.2), by rw [this.1]; trivial⟩

theorem shown_push {P : Node → Prop} {st : List Node} {n : Node} (h1 : ∀ n ∈ st, Shown P n) (h2 : All P n)
    (hl : look n = .plain) : ∀ x ∈ st ++ [n], Shown P x := by
  intro x hx
  rcases List.mem_append.1 hx with hx | hx
  · exact h1 x hx
  · cases List.mem_singleton.1 hx
    exact ⟨h2, by rw [hl]; trivial⟩

theorem shown_kid {P : Node → Prop} {n x : Node} {i : Nat} (h : Shown P n) (hx : (kids n)[i]? = some x) :
    look n = .plain ∧ All P x := by
  have hs := h.2
  cases hl : look n with
  | plain => exact ⟨rfl, h.1.comp (by rw [comps_plain hl]; exact List.mem_of_getElem? hx)⟩
  | list ss => rw [kids_of_list hl] at hx; cases hx
  | _ => rw [hl] at hs; exact hs.elim

/-- In every execution `c` is incremented as often as part `j` of the node with tag `t` is entered. -/
theorem run_entered {st st' : List Node} {tk : Task} {tr : List (Ev V A)} {o : Outcome V A}
    (h : Run solid st tk tr o st') (hst : ∀ n ∈ st, Shown (Enters c t j) n) (ht : tk.Enters c t j) :
    (∀ n ∈ st', Shown (Enters c t j) n) ∧ ∃ ε, ε ≤ o.slack ∧ counted c tr + ε = entered t j tr + tk.lead c := by
  induction h with
  | cut st tk =>
    refine ⟨hst, tk.lead c, ?_, by simp [counted, entered]⟩
    cases tk with
    | node n => exact ht.self.le
    | list ss => exact ht.le
    | turn => exact Nat.zero_le _
  | @counter st n c' v hl =>
    refine ⟨hst, 0, Nat.le_refl _, ?_⟩
    simp only [counted_cons, entered_cons, Task.lead, lead, hl, Ev.counts, Ev.enters]
    simp [counted, entered]
  | @wrap st n c' e tr o st' hl _ ih =>
    obtain ⟨h1, ε, h2, h3⟩ := ih hst (ht.comp (comps_wrap hl))
    have h4 := ht.self.comp (by rw [hl]; exact fun h => by cases h) e (comps_wrap hl)
    refine ⟨h1, ε, h2, ?_⟩
    simp only [Task.lead, h4] at h3
    simp only [counted_cons, entered_cons, Task.lead, lead, hl, Ev.counts, Ev.enters, decide_eq_true_eq]
    simp only [Bool.false_eq_true, if_false]
    omega
  | @truth st n c' e mid tr v st' hl _ ih =>
    obtain ⟨h1, ε, h2, h3⟩ := ih hst (ht.comp (comps_truth hl))
    have h4 := ht.self.comp (by rw [hl]; exact fun h => by cases h) e (comps_truth hl)
    have h5 := ht.self.only
    unfold imm lead at h5
    rw [hl] at h5
    refine ⟨h1, ε, h2, ?_⟩
    simp only [Task.lead, h4] at h3
    simp only [counted_cons, entered_cons, counted_append, entered_append, Task.lead, lead, hl, Ev.counts, Ev.enters,
      decide_eq_true_eq, entered_counts, counted_counts c (v.any solid) mid.sites (by unfold cc at h5; simp only at h5; omega)]
    simp only [Bool.false_eq_true, if_false]
    omega
  | @truthEnd st n c' e mid tr o st' hl _ _ ih =>
    obtain ⟨h1, ε, h2, h3⟩ := ih hst (ht.comp (comps_truth hl))
    have h4 := ht.self.comp (by rw [hl]; exact fun h => by cases h) e (comps_truth hl)
    refine ⟨h1, ε, h2, ?_⟩
    simp only [Task.lead, h4] at h3
    simp only [counted_cons, entered_cons, Task.lead, lead, hl, Ev.counts, Ev.enters, decide_eq_true_eq]
    simp only [Bool.false_eq_true, if_false]
    omega
  | @block st n ss tr o st1 tr' o' st' hl _ ho _ ih1 ih2 =>
    obtain ⟨h1, ε, h2, h3⟩ := ih1 (shown_block hst ht hl) (.of ht hl)
    obtain ⟨h4, ε', h5, h6⟩ := ih2 h1 trivial
    rw [slack_ne ho] at h2
    refine ⟨h4, ε', h5, ?_⟩
    simp only [Task.lead] at h3 h6
    simp only [counted_cons, entered_cons, counted_append, entered_append, Task.lead, lead, hl, Ev.counts, Ev.enters]
    simp only [Bool.false_eq_true, if_false]
    omega
  | @blockCut st n ss tr st' hl _ ih1 =>
    obtain ⟨h1, ε, h2, h3⟩ := ih1 (shown_block hst ht hl) (.of ht hl)
    refine ⟨h1, ε, h2, ?_⟩
    simp only [Task.lead] at h3
    simp only [counted_cons, entered_cons, Task.lead, lead, hl, Ev.counts, Ev.enters]
    simp only [Bool.false_eq_true, if_false]
    omega
  | @node st n tr o st' hl _ ih =>
    obtain ⟨h1, ε, h2, h3⟩ := ih (shown_push hst ht hl) trivial
    refine ⟨h1, ε, h2, ?_⟩
    simp only [Task.lead] at h3
    simp only [counted_cons, entered_cons, Task.lead, lead, hl, Ev.counts, Ev.enters]
    simp only [Bool.false_eq_true, if_false]
    omega
  | nil => exact ⟨hst, 0, Nat.zero_le _, rfl⟩
  | @count st sp c' sp' cs ss tr o st' _ ih =>
    have hi : isStmtOf c (mk .exprStmt sp [mk (.counter c') sp' cs]) = decide (c' = c) := rfl
    have h0 := ht.only
    have h0' := ht.le
    rw [List.countP_cons, leadL, hi] at h0
    rw [leadL, hi] at h0'
    have hj : isInjectedItem (mk .exprStmt sp [mk (.counter c') sp' cs]) = true := rfl
    rw [hj] at h0 h0'
    simp only [decide_eq_true_eq, if_true] at h0 h0'
    obtain ⟨h1, ε, h2, h3⟩ := ih hst ⟨fun s hs => ht.all s (List.mem_cons_of_mem _ hs), by split at h0 <;> omega,
      by split at h0' <;> omega⟩
    refine ⟨h1, ε, h2, ?_⟩
    simp only [Task.lead] at h3
    simp only [counted_cons, entered_cons, Task.lead, leadL, hi, hj, Ev.counts, Ev.enters, decide_eq_true_eq, if_true]
    simp only [Bool.false_eq_true, if_false]
    split <;> omega
  | @setup st s ss tr o st' hk _ ih =>
    have hi : isStmtOf c s = false := by
      obtain ⟨k, sp, cs⟩ := s
      rcases hk with rfl | rfl <;> rfl
    have hj : isInjectedItem s = true := by
      obtain ⟨k, sp, cs⟩ := s
      rcases hk with rfl | rfl <;> rfl
    have h0 := ht.only
    have h0' := ht.le
    rw [List.countP_cons, leadL, hi] at h0
    rw [leadL, hi] at h0'
    rw [hj] at h0 h0'
    simp only [Bool.false_eq_true, if_false, if_true] at h0 h0'
    obtain ⟨h1, ε, h2, h3⟩ := ih hst ⟨fun s hs => ht.all s (List.mem_cons_of_mem _ hs), h0, h0'⟩
    refine ⟨h1, ε, h2, ?_⟩
    simp only [Task.lead, leadL, hi, hj, if_true, Bool.false_eq_true, if_false] at h3 ⊢
    exact h3
  | @next st s ss tr v st1 tr' o st' hi _ _ ih1 ih2 =>
    have hj : isStmtOf c s = false := by
      cases h : isStmtOf c s with
      | false => rfl
      | true => rw [isStmtOf_injected h] at hi; cases hi
    obtain ⟨h1, ε, h2, h3⟩ := ih1 hst (ht.all s List.mem_cons_self hi).1
    have h0 := ht.only
    rw [List.countP_cons, leadL, hi, hj] at h0
    simp only [Bool.false_eq_true, if_false] at h0
    have hle := leadL_le c ss
    obtain ⟨h4, ε', h5, h6⟩ := ih2 h1 ⟨fun s hs => ht.all s (List.mem_cons_of_mem _ hs), by omega, by omega⟩
    rw [slack_normal] at h2
    refine ⟨h4, ε', h5, ?_⟩
    have h7 := (ht.all s List.mem_cons_self hi).2
    simp only [Task.lead, h7] at h3 h6
    simp only [counted_append, entered_append, Task.lead, leadL, hi, hj]
    simp only [Bool.false_eq_true, if_false]
    omega
  | @stop st s ss tr o st' hi _ _ ih1 =>
    have hj : isStmtOf c s = false := by
      cases h : isStmtOf c s with
      | false => rfl
      | true => rw [isStmtOf_injected h] at hi; cases hi
    obtain ⟨h1, ε, h2, h3⟩ := ih1 hst (ht.all s List.mem_cons_self hi).1
    have h7 := (ht.all s List.mem_cons_self hi).2
    simp only [Task.lead, h7] at h3
    refine ⟨h1, ε, h2, ?_⟩
    simp only [Task.lead, leadL, hi, hj]
    simp only [Bool.false_eq_true, if_false]
    exact h3
  | answer => exact ⟨hst, 0, Nat.zero_le _, rfl⟩
  | @pick st h n i x tr o st1 tr' o' st' hn hx _ ho _ ih1 ih2 =>
    have hs := hst n (List.mem_of_getElem? hn)
    obtain ⟨hl, ha⟩ := shown_kid hs hx
    obtain ⟨h1, ε, h2, h3⟩ := ih1 hst ha
    obtain ⟨h4, ε', h5, h6⟩ := ih2 h1 trivial
    rw [slack_ne ho] at h2
    have h7 := hs.1.self.kid hl i x hx
    refine ⟨h4, ε', h5, ?_⟩
    simp only [Task.lead, h7] at h3 h6
    have h8 : (Ev.enters t j (Ev.pick h i (face n) : Ev V A) = true) = (tag n = t ∧ i = j) := by
      rw [enters_eq]
    simp only [counted_cons, entered_cons, counted_append, entered_append, h8, Task.lead]
    simp only [Ev.counts, Ev.enters, Bool.false_eq_true, if_false]
    omega
  | @pickCut st h n i x tr st' hn hx _ ih1 =>
    have hs := hst n (List.mem_of_getElem? hn)
    obtain ⟨hl, ha⟩ := shown_kid hs hx
    obtain ⟨h1, ε, h2, h3⟩ := ih1 hst ha
    have h7 := hs.1.self.kid hl i x hx
    refine ⟨h1, ε, h2, ?_⟩
    simp only [Task.lead, h7] at h3
    have h8 : (Ev.enters t j (Ev.pick h i (face n) : Ev V A) = true) = (tag n = t ∧ i = j) := by
      rw [enters_eq]
    simp only [counted_cons, entered_cons, h8, Task.lead]
    simp only [Ev.counts, Bool.false_eq_true, if_false]
    omega

end

/-! ### Counters before a statement or around an expression -/

/-- The counters are due before the node: one if it has tag `t`, less those around it. -/
def debt (c : Counter) (t : Tag) : Node → Nat
  | mk .paren _ [mk .seq _ [mk (.counter c') _ _, e]] => debt c t e - if c' = c then 1 else 0
  | mk .seq _ [mk (.counter c') _ _, mk .seq _ [mk (.assign _) _ [mk (.temp true) _ _, e], _, mk (.temp false) _ _]] =>
    debt c t e - if c' = c then 1 else 0
  | mk (.counter _) _ _ => 0
  | n => if tag n = t then 1 else 0

section
variable {c : Counter} {t : Tag}

theorem debt_wrap {n e : Node} {c' : Counter} (h : look n = .wrap c' e) :
    debt c t n = debt c t e - if c' = c then 1 else 0 := by
  unfold look at h
  split at h <;> first | (cases h; done) | skip
  cases h
  rw [debt]

theorem debt_truth {n e mid : Node} {c' : Counter} (h : look n = .truth c' e mid) :
    debt c t n = debt c t e - if c' = c then 1 else 0 := by
  unfold look at h
  split at h <;> first | (cases h; done) | skip
  cases h
  rw [debt]

theorem debt_counter {n : Node} {c' : Counter} (h : look n = .counter c') : debt c t n = 0 := by
  unfold look at h
  split at h <;> first | (cases h; done) | skip
  rw [debt]

theorem debt_solid {n : Node} (h : (look n).opens) : debt c t n = if tag n = t then 1 else 0 := by
  unfold debt
  split
  · exact h.elim
  · exact h.elim
  · exact h.elim
  · rfl

theorem debt_le (c : Counter) (t : Tag) (n : Node) : debt c t n ≤ 1 := by
  fun_induction debt c t n with
  | case1 => omega
  | case2 => omega
  | case3 => omega
  | case4 => omega
  | case5 => omega

/-- Going through a statement list, `d` increments of `c` being ahead: before each statement there are as many as it is
due. -/
def Walk (c : Counter) (t : Tag) : Nat → List Node → Prop
  | d, [] => d = 0
  | d, s :: ss =>
    if isInjectedItem s then Walk c t (d + if isStmtOf c s then 1 else 0) ss else d = debt c t s ∧ Walk c t 0 ss

theorem Walk.le {d : Nat} {ss : List Node} (h : Walk c t d ss) : d ≤ 1 := by
  induction ss generalizing d with
  | nil => cases h; omega
  | cons s ss ih =>
    unfold Walk at h
    split at h
    · have := ih h
      omega
    · have := debt_le c t s
      omega

/-- Every node gets the increments of `c` it is due. -/
def Pays (c : Counter) (t : Tag) (n : Node) : Prop :=
  match look n with
  | .counter c' => c' ≠ c
  | .wrap c' e => (if c' = c then 1 else 0) ≤ debt c t e
  | .truth c' e mid => (if c' = c then 1 else 0) ≤ debt c t e ∧ cc c mid = 0
  | .list ss => Walk c t 0 ss
  | .plain => ∀ x ∈ kids n, debt c t x = 0

/-- A task that can be executed when `d` increments of `c` are ahead. -/
def Task.Owes (c : Counter) (t : Tag) (d : Nat) : Task → Prop
  | .node n => All (Pays c t) n ∧ d = debt c t n
  | .list ss => (∀ s ∈ ss, isInjectedItem s = false → All (Pays c t) s) ∧ Walk c t d ss
  | .turn => d = 0

theorem pays_list {n : Node} {ss : List Node} (h : All (Pays c t) n) (hl : look n = .list ss) :
    Task.Owes c t 0 (.list ss) := by
  refine ⟨fun s hs hi => h.comp (comps_list hl hs hi), ?_⟩
  have := h.self
  unfold Pays at this
  rw [hl] at this
  exact this

/-- In every execution `c` is incremented as often as the node with tag `t` begins. -/
theorem run_began {st st' : List Node} {tk : Task} {tr : List (Ev V A)} {o : Outcome V A}
    (h : Run solid st tk tr o st') {d : Nat} (hst : ∀ n ∈ st, Shown (Pays c t) n) (ht : tk.Owes c t d) :
    (∀ n ∈ st', Shown (Pays c t) n) ∧ ∃ ε, ε ≤ o.slack ∧ counted c tr + d = began t tr + ε := by
  induction h generalizing d with
  | cut st tk =>
    refine ⟨hst, d, ?_, by simp [counted, began]⟩
    cases tk with
    | node n => exact ht.2 ▸ debt_le ..
    | list ss => exact ht.2.le
    | turn => exact ht ▸ Nat.zero_le _
  | @counter st n c' v hl =>
    refine ⟨hst, 0, Nat.le_refl _, ?_⟩
    have h1 := ht.1.self
    unfold Pays at h1
    rw [hl] at h1
    have h2 := ht.2
    rw [debt_counter hl] at h2
    simp only [counted_cons, began_cons, Ev.counts, Ev.begins, decide_eq_true_eq, if_neg h1]
    simp [counted, began, h2]
  | @wrap st n c' e tr o st' hl _ ih =>
    obtain ⟨h1, ε, h2, h3⟩ := ih hst ⟨ht.1.comp (comps_wrap hl), rfl⟩
    have h4 := ht.1.self
    unfold Pays at h4
    rw [hl] at h4
    have h5 := ht.2
    rw [debt_wrap hl] at h5
    refine ⟨h1, ε, h2, ?_⟩
    simp only [counted_cons, began_cons, Ev.counts, Ev.begins, decide_eq_true_eq]
    simp only [Bool.false_eq_true, if_false]
    omega
  | @truth st n c' e mid tr v st' hl _ ih =>
    obtain ⟨h1, ε, h2, h3⟩ := ih hst ⟨ht.1.comp (comps_truth hl), rfl⟩
    have h4 := ht.1.self
    unfold Pays at h4
    rw [hl] at h4
    have h5 := ht.2
    rw [debt_truth hl] at h5
    refine ⟨h1, ε, h2, ?_⟩
    simp only [counted_cons, began_cons, counted_append, began_append, Ev.counts, Ev.begins, decide_eq_true_eq,
      began_counts, counted_counts c (v.any solid) mid.sites h4.2]
    simp only [Bool.false_eq_true, if_false]
    omega
  | @truthEnd st n c' e mid tr o st' hl _ _ ih =>
    obtain ⟨h1, ε, h2, h3⟩ := ih hst ⟨ht.1.comp (comps_truth hl), rfl⟩
    have h4 := ht.1.self
    unfold Pays at h4
    rw [hl] at h4
    have h5 := ht.2
    rw [debt_truth hl] at h5
    refine ⟨h1, ε, h2, ?_⟩
    simp only [counted_cons, began_cons, Ev.counts, Ev.begins, decide_eq_true_eq]
    simp only [Bool.false_eq_true, if_false]
    omega
  | @block st n ss tr o st1 tr' o' st' hl _ ho _ ih1 ih2 =>
    obtain ⟨h1, ε, h2, h3⟩ := ih1 (shown_block hst ht.1 hl) (pays_list ht.1 hl)
    obtain ⟨h4, ε', h5, h6⟩ := ih2 h1 rfl
    rw [slack_ne ho] at h2
    have h7 := ht.2
    rw [debt_solid (by rw [hl]; trivial)] at h7
    refine ⟨h4, ε', h5, ?_⟩
    have h8 : (Ev.begins t (Ev.present (face n) : Ev V A) = true) = (tag n = t) := begins_eq ..
    simp only [counted_cons, began_cons, counted_append, began_append, h8]
    simp only [Ev.counts, Ev.begins, Bool.false_eq_true, if_false]
    omega
  | @blockCut st n ss tr st' hl _ ih1 =>
    obtain ⟨h1, ε, h2, h3⟩ := ih1 (shown_block hst ht.1 hl) (pays_list ht.1 hl)
    have h7 := ht.2
    rw [debt_solid (by rw [hl]; trivial)] at h7
    refine ⟨h1, ε, h2, ?_⟩
    have h8 : (Ev.begins t (Ev.present (face n) : Ev V A) = true) = (tag n = t) := begins_eq ..
    simp only [counted_cons, began_cons, h8]
    simp only [Ev.counts, Bool.false_eq_true, if_false]
    omega
  | @node st n tr o st' hl _ ih =>
    obtain ⟨h1, ε, h2, h3⟩ := ih (shown_push hst ht.1 hl) rfl
    have h7 := ht.2
    rw [debt_solid (by rw [hl]; trivial)] at h7
    refine ⟨h1, ε, h2, ?_⟩
    have h8 : (Ev.begins t (Ev.present (face n) : Ev V A) = true) = (tag n = t) := begins_eq ..
    simp only [counted_cons, began_cons, h8]
    simp only [Ev.counts, Bool.false_eq_true, if_false]
    omega
  | nil =>
    have h1 : d = 0 := ht.2
    exact ⟨hst, 0, Nat.zero_le _, by subst h1; rfl⟩
  | @count st sp c' sp' cs ss tr o st' _ ih =>
    have hi : isStmtOf c (mk .exprStmt sp [mk (.counter c') sp' cs]) = decide (c' = c) := rfl
    have hj : isInjectedItem (mk .exprStmt sp [mk (.counter c') sp' cs]) = true := rfl
    have hw := ht.2
    rw [Walk, if_pos hj, hi] at hw
    simp only [decide_eq_true_eq] at hw
    obtain ⟨h1, ε, h2, h3⟩ := ih hst ⟨fun s hs => ht.1 s (List.mem_cons_of_mem _ hs), hw⟩
    refine ⟨h1, ε, h2, ?_⟩
    simp only [counted_cons, began_cons, Ev.counts, Ev.begins, decide_eq_true_eq]
    simp only [Bool.false_eq_true, if_false]
    omega
  | @setup st s ss tr o st' hk _ ih =>
    have hi : isStmtOf c s = false := by
      obtain ⟨k, sp, cs⟩ := s
      rcases hk with rfl | rfl <;> rfl
    have hj : isInjectedItem s = true := by
      obtain ⟨k, sp, cs⟩ := s
      rcases hk with rfl | rfl <;> rfl
    have hw := ht.2
    rw [Walk, if_pos hj, hi] at hw
    exact ih hst ⟨fun s hs => ht.1 s (List.mem_cons_of_mem _ hs), by simpa using hw⟩
  | @next st s ss tr v st1 tr' o st' hi _ _ ih1 ih2 =>
    have hw := ht.2
    rw [Walk, hi] at hw
    simp only [Bool.false_eq_true, if_false] at hw
    obtain ⟨h1, ε, h2, h3⟩ := ih1 hst ⟨ht.1 s List.mem_cons_self hi, hw.1⟩
    obtain ⟨h4, ε', h5, h6⟩ := ih2 h1 ⟨fun s hs => ht.1 s (List.mem_cons_of_mem _ hs), hw.2⟩
    rw [slack_normal] at h2
    refine ⟨h4, ε', h5, ?_⟩
    simp only [counted_append, began_append]
    omega
  | @stop st s ss tr o st' hi _ _ ih1 =>
    have hw := ht.2
    rw [Walk, hi] at hw
    simp only [Bool.false_eq_true, if_false] at hw
    exact ih1 hst ⟨ht.1 s List.mem_cons_self hi, hw.1⟩
  | answer =>
    have h1 : d = 0 := ht
    exact ⟨hst, 0, Nat.zero_le _, by subst h1; rfl⟩
  | @pick st h n i x tr o st1 tr' o' st' hn hx _ ho _ ih1 ih2 =>
    have h1 : d = 0 := ht
    have hs := hst n (List.mem_of_getElem? hn)
    obtain ⟨hl, ha⟩ := shown_kid hs hx
    have hd := hs.1.self
    unfold Pays at hd
    rw [hl] at hd
    obtain ⟨h1, ε, h2, h3⟩ := ih1 hst ⟨ha, (hd x (List.mem_of_getElem? hx)).symm⟩
    obtain ⟨h4, ε', h5, h6⟩ := ih2 h1 rfl
    rw [slack_ne ho] at h2
    refine ⟨h4, ε', h5, ?_⟩
    simp only [counted_cons, began_cons, counted_append, began_append]
    simp only [Ev.counts, Ev.begins, Bool.false_eq_true, if_false]
    omega
  | @pickCut st h n i x tr st' hn hx _ ih1 =>
    have h1 : d = 0 := ht
    have hs := hst n (List.mem_of_getElem? hn)
    obtain ⟨hl, ha⟩ := shown_kid hs hx
    have hd := hs.1.self
    unfold Pays at hd
    rw [hl] at hd
    obtain ⟨h1, ε, h2, h3⟩ := ih1 hst ⟨ha, (hd x (List.mem_of_getElem? hx)).symm⟩
    refine ⟨h1, ε, h2, ?_⟩
    simp only [counted_cons, began_cons]
    simp only [Ev.counts, Ev.begins, Bool.false_eq_true, if_false]
    omega

end
end Sem
end Verif
