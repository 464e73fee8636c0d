import Verif.Lemmas.FollowProgram
/-
The truthiness counter of an operand is incremented as often as the operand ends with a solid value.
-/
namespace Verif
open Node

namespace Sem
variable {V A : Type} {solid : V → Bool} {c : Counter} {t : Tag}

/-! ### Events -/

theorem gave_count (ts : List Tag) (c' : Counter) (tr : List (Ev V A)) :
    gave solid t ts (.count c' :: tr) = gave solid t ts tr := by cases ts <;> rfl

theorem gave_got (ts : List Tag) (o : Outcome V A) (tr : List (Ev V A)) :
    gave solid t ts (.got o :: tr) = gave solid t ts tr := by cases ts <;> rfl

theorem gave_pick (ts : List Tag) (h j : Nat) (f : Face) (tr : List (Ev V A)) :
    gave solid t ts (.pick h j f :: tr) = gave solid t ts tr := by cases ts <;> rfl

theorem gave_present (ts : List Tag) (n : Node) (tr : List (Ev V A)) :
    gave solid t ts (.present (face n) :: tr) = gave solid t (tag n :: ts) tr := by cases ts <;> rfl

theorem gave_counts (ts : List Tag) (cs : List Counter) (tr : List (Ev V A)) :
    gave solid t ts (cs.map .count ++ tr) = gave solid t ts tr := by
  induction cs with
  | nil => rfl
  | cons c cs ih => rw [List.map_cons, List.cons_append, gave_count, ih]

theorem gave_visible (ts : List Tag) (tr : List (Ev V A)) : gave solid t ts (visible tr) = gave solid t ts tr := by
  induction tr generalizing ts with
  | nil => rfl
  | cons e tr ih =>
    cases e with
    | count c =>
      rw [gave_count]
      exact ih ts
    | present f =>
      have : visible (.present f :: tr) = .present f :: visible tr := rfl
      rw [this]
      cases ts <;> exact ih _
    | pick h j f =>
      have : visible (.pick h j f :: tr) = .pick h j f :: visible tr := rfl
      rw [this, gave_pick, gave_pick, ih]
    | got o =>
      have : visible (.got o :: tr) = .got o :: visible tr := rfl
      rw [this, gave_got, gave_got, ih]
    | answer o =>
      have : visible (.answer o :: tr) = .answer o :: visible tr := rfl
      rw [this]
      cases ts with
      | nil => exact ih _
      | cons x ts => exact congrArg (_ + ·) (ih ts)

/-! ### Nodes -/

/-- One for the node that is presented with tag `t`. -/
def owes (t : Tag) (n : Node) : Nat :=
  match look n with
  | .list _ | .plain => if tag n = t then 1 else 0
  | _ => 0

/-- The counter occurs only behind the operand with tag `t`. -/
def Yields (c : Counter) (t : Tag) (n : Node) : Prop :=
  match look n with
  | .counter c' => c' ≠ c
  | .wrap c' e => c' ≠ c ∧ owes t e = 0
  | .truth c' e mid => c' ≠ c ∧ cc c mid = owes t e
  | .list ss => ss.countP (isStmtOf c) = 0 ∧ ∀ s ∈ ss, isInjectedItem s = false → owes t s = 0
  | .plain => ∀ x ∈ kids n, owes t x = 0

theorem owes_opens {n : Node} (h : (look n).opens) : owes t n = if tag n = t then 1 else 0 := by
  unfold owes
  cases hl : look n with
  | list ss => rfl
  | plain => rfl
  | _ => rw [hl] at h; exact h.elim

theorem owes_le_weight (ht : t.2 ≠ Span.dummy) (n : Node) : owes t n ≤ weight t n := by
  by_cases h : (look n).opens
  · rw [owes_opens h]
    have := weight_opens ht h
    omega
  · unfold owes
    cases hl : look n with
    | list ss => rw [hl] at h; exact absurd trivial h
    | plain => rw [hl] at h; exact absurd trivial h
    | _ => exact Nat.zero_le _

/-! ### Executions -/

/-- A statement list that can be executed. -/
structure YieldsList (c : Counter) (t : Tag) (ss : List Node) : Prop where
  all : ∀ s ∈ ss, isInjectedItem s = false → All (Yields c t) s ∧ owes t s = 0
  none : ss.countP (isStmtOf c) = 0

/-- A task that can be executed. -/
def Task.Yields (c : Counter) (t : Tag) : Task → Prop
  | .node n => All (Sem.Yields c t) n
  | .list ss => YieldsList c t ss
  | .turn => True

/-- The part that ends with the task. -/
def Task.ends (solid : V → Bool) (t : Tag) (ts : List Tag) (o : Outcome V A) : Task → Nat
  | .node n => if o.gives solid = true then owes t n else 0
  | .list _ => 0
  | .turn => match ts with
    | x :: _ => if x = t ∧ o.gives solid = true then 1 else 0
    | [] => 0

/-- The parts that are open after the task. -/
def Task.after (ts : List Tag) : Task → List Tag
  | .turn => ts.tail
  | _ => ts

theorem YieldsList.of {n : Node} {ss : List Node} (h : All (Yields c t) n) (hl : look n = .list ss) : YieldsList c t ss := by
  have h1 := h.self
  unfold Yields at h1
  rw [hl] at h1
  exact ⟨fun s hs hi => ⟨h.comp (comps_list hl hs hi), h1.2 s hs hi⟩, h1.1⟩

theorem YieldsList.tail {s : Node} {ss : List Node} (h : YieldsList c t (s :: ss)) : YieldsList c t ss := by
  have h1 := h.none
  rw [List.countP_cons] at h1
  exact ⟨fun x hx => h.all x (List.mem_cons_of_mem _ hx), by omega⟩

theorem counted_sites (cs : List Counter) : counted c (cs.map .count : List (Ev V A)) = cs.count c := by
  induction cs with
  | nil => rfl
  | cons x cs ih =>
    rw [List.map_cons, counted_cons, ih, List.count_cons]
    by_cases h : x = c
    · simp [Ev.counts, h, Nat.add_comm]
    · simp [Ev.counts, h]

/-- In every execution `c` is incremented as often as the node with tag `t` ends with a solid value. -/
theorem run_gave {st st' : List Node} {tk : Task} {tr : List (Ev V A)} {o : Outcome V A} (h : Run solid st tk tr o st')
    (hst : ∀ n ∈ st, Shown (Yields c t) n) (ht : tk.Yields c t) :
    (∀ n ∈ st', Shown (Yields c t) n) ∧ (∀ ts, o = .cut → gave solid t ts tr = counted c tr) ∧
      ∀ ts rest, o ≠ .cut → gave solid t ts (tr ++ rest) =
        counted c tr + tk.ends solid t ts o + gave solid t (tk.after ts) rest := by
  induction h with
  | cut st tk => exact ⟨hst, fun ts _ => by cases ts <;> rfl, fun _ _ h => absurd rfl h⟩
  | @counter st n c' v hl =>
    have h1 := ht.self
    unfold Yields at h1
    rw [hl] at h1
    refine ⟨hst, fun _ h => (by cases h), fun ts rest _ => ?_⟩
    have h2 : owes t n = 0 := by unfold owes; rw [hl]
    have h3 : counted c ([.count c'] : List (Ev V A)) = 0 := by simp [counted, Ev.counts, show c' ≠ c from h1]
    rw [h3, List.singleton_append, gave_count]
    simp [Task.ends, Task.after, h2]
  | @wrap st n c' e tr o st' hl _ ih =>
    have h1 := ht.self
    unfold Yields at h1
    rw [hl] at h1
    obtain ⟨h2, h3, h4⟩ := ih hst (ht.comp (comps_wrap hl))
    have h5 : counted c (.count c' :: tr) = counted c tr := by
      rw [counted_cons]; simp [Ev.counts, h1.1]
    refine ⟨h2, fun ts ho => by rw [gave_count, h5, h3 ts ho], fun ts rest ho => ?_⟩
    have h6 : owes t n = 0 := by unfold owes; rw [hl]
    rw [List.cons_append, gave_count, h4 ts rest ho, h5]
    simp [Task.ends, Task.after, h1.2, h6]
  | @truth st n c' e mid tr v st' hl _ ih =>
    have h1 := ht.self
    unfold Yields at h1
    rw [hl] at h1
    obtain ⟨h2, h3, h4⟩ := ih hst (ht.comp (comps_truth hl))
    refine ⟨h2, fun _ h => (by cases h), fun ts rest ho => ?_⟩
    have h6 : owes t n = 0 := by unfold owes; rw [hl]
    have h7 : (Outcome.normal v : Outcome V A).gives solid = v.any solid := rfl
    rw [List.cons_append, gave_count, List.append_assoc, h4 ts _ ho, counted_cons, counted_append]
    simp only [Task.ends, Task.after, h6, h7]
    cases hv : v.any solid with
    | true =>
      have h8 := h1.2
      unfold cc at h8
      simp only [if_true, gave_counts, counted_sites, h8, Ev.counts, h1.1, decide_false, Bool.false_eq_true, if_false]
      omega
    | false =>
      simp only [Bool.false_eq_true, if_false, List.nil_append, Ev.counts, h1.1, decide_false]
      have : counted c ([] : List (Ev V A)) = 0 := rfl
      omega
  | @truthEnd st n c' e mid tr o st' hl _ hn ih =>
    have h1 := ht.self
    unfold Yields at h1
    rw [hl] at h1
    obtain ⟨h2, h3, h4⟩ := ih hst (ht.comp (comps_truth hl))
    have h5 : counted c (.count c' :: tr) = counted c tr := by
      rw [counted_cons]; simp [Ev.counts, h1.1]
    have h6 : o.gives solid = false := by cases o <;> first | rfl | cases hn
    refine ⟨h2, fun ts ho => by rw [gave_count, h5, h3 ts ho], fun ts rest ho => ?_⟩
    rw [List.cons_append, gave_count, h4 ts rest ho, h5]
    simp [Task.ends, Task.after, h6]
  | @block st n ss tr o st1 tr' o' st' hl _ ho _ ih1 ih2 =>
    obtain ⟨h1, -, h2⟩ := ih1 (shown_block hst ht hl) (.of ht hl)
    obtain ⟨h3, h4, h5⟩ := ih2 h1 trivial
    have h6 : counted c (.present (face n) :: (tr ++ .got o :: tr')) = counted c tr + counted c tr' := by
      rw [counted_cons, counted_append, counted_cons]; simp [Ev.counts]
    refine ⟨h3, fun ts ho' => ?_, fun ts rest ho' => ?_⟩
    · rw [gave_present, h2 _ _ ho, gave_got, h6]
      simp only [Task.after, h4 _ ho', Task.ends]
      omega
    · rw [List.cons_append, gave_present, List.append_assoc, h2 _ _ ho, List.cons_append, gave_got, h6]
      simp only [Task.after]
      rw [h5 _ _ ho']
      simp only [Task.after, Task.ends, List.tail_cons, owes_opens (show (look n).opens by rw [hl]; trivial)]
      by_cases h7 : tag n = t <;> cases o'.gives solid <;> simp [h7] <;> omega
  | @blockCut st n ss tr st' hl _ ih1 =>
    obtain ⟨h1, h2, -⟩ := ih1 (shown_block hst ht hl) (.of ht hl)
    refine ⟨h1, fun ts _ => ?_, fun _ _ h => absurd rfl h⟩
    rw [gave_present, h2 _ rfl, counted_cons]
    simp [Ev.counts]
  | @node st n tr o st' hl _ ih =>
    obtain ⟨h1, h2, h3⟩ := ih (shown_push hst ht hl) trivial
    have h6 : counted c (.present (face n) :: tr) = counted c tr := by
      rw [counted_cons]; simp [Ev.counts]
    refine ⟨h1, fun ts ho => by rw [gave_present, h2 _ ho, h6], fun ts rest ho => ?_⟩
    rw [List.cons_append, gave_present, h3 _ _ ho, h6]
    simp only [Task.after, Task.ends, List.tail_cons, owes_opens (show (look n).opens by rw [hl]; trivial)]
    by_cases h7 : tag n = t <;> cases o.gives solid <;> simp [h7]
  | nil => exact ⟨hst, fun _ h => (by cases h), fun ts rest _ => by simp [counted, Task.ends, Task.after]⟩
  | @count st sp c' sp' cs ss tr o st' _ ih =>
    obtain ⟨h1, h2, h3⟩ := ih hst ht.tail
    have h4 : c' ≠ c := by
      have h4 := ht.none
      rw [List.countP_cons] at h4
      rintro rfl
      simp [isStmtOf] at h4
    have h5 : counted c (.count c' :: tr) = counted c tr := by
      rw [counted_cons]; simp [Ev.counts, h4]
    exact ⟨h1, fun ts ho => by rw [gave_count, h5, h2 ts ho], fun ts rest ho => by
      rw [List.cons_append, gave_count, h3 ts rest ho, h5]; rfl⟩
  | @setup st s ss tr o st' _ _ ih =>
    obtain ⟨h1, h2, h3⟩ := ih hst ht.tail
    exact ⟨h1, h2, h3⟩
  | @next st s ss tr v st1 tr' o st' hi _ _ ih1 ih2 =>
    obtain ⟨h0, h0'⟩ := ht.all s List.mem_cons_self hi
    obtain ⟨h1, -, h2⟩ := ih1 hst h0
    obtain ⟨h3, h4, h5⟩ := ih2 h1 ht.tail
    refine ⟨h3, fun ts ho => ?_, fun ts rest ho => ?_⟩
    · rw [h2 ts _ (by nofun), counted_append]
      simp only [Task.after, h4 ts ho, Task.ends, h0']
      split <;> omega
    · rw [List.append_assoc, h2 ts _ (by nofun), counted_append]
      simp only [Task.after]
      rw [h5 ts rest ho]
      simp only [Task.after, Task.ends, h0']
      split <;> omega
  | @stop st s ss tr o st' hi _ _ ih1 =>
    obtain ⟨h0, h0'⟩ := ht.all s List.mem_cons_self hi
    obtain ⟨h1, h2, h3⟩ := ih1 hst h0
    refine ⟨h1, h2, fun ts rest ho => ?_⟩
    rw [h3 ts rest ho]
    simp only [Task.after, Task.ends, h0']
    split <;> rfl
  | @answer st o ho =>
    refine ⟨hst, fun _ h => absurd h ho, fun ts rest _ => ?_⟩
    have : counted c ([.answer o] : List (Ev V A)) = 0 := rfl
    rw [this, List.singleton_append]
    cases ts with
    | nil => simp [gave, Task.ends, Task.after]
    | cons x ts => simp [gave, Task.ends, Task.after]
  | @pick st h n i x tr o st1 tr' o' st' hn hx _ ho _ ih1 ih2 =>
    have hs := hst n (List.mem_of_getElem? hn)
    obtain ⟨hl, ha⟩ := shown_kid hs hx
    have h0 := hs.1.self
    unfold Yields at h0
    rw [hl] at h0
    have h0' := h0 x (List.mem_of_getElem? hx)
    obtain ⟨h1, -, h2⟩ := ih1 hst ha
    obtain ⟨h3, h4, h5⟩ := ih2 h1 trivial
    have h6 : counted c (.pick h i (face n) :: (tr ++ .got o :: tr')) = counted c tr + counted c tr' := by
      rw [counted_cons, counted_append, counted_cons]; simp [Ev.counts]
    have h7 : ∀ ts, Task.ends solid t ts o (.node x) = 0 := by
      intro ts
      simp only [Task.ends, h0']
      split <;> rfl
    refine ⟨h3, fun ts ho' => ?_, fun ts rest ho' => ?_⟩
    · rw [gave_pick, h2 _ _ ho, gave_got, h6, h7]
      simp only [Task.after, h4 _ ho']
      omega
    · rw [List.cons_append, gave_pick, List.append_assoc, h2 _ _ ho, List.cons_append, gave_got, h6, h7]
      simp only [Task.after]
      rw [h5 _ _ ho']
      simp only [Task.after]
      omega
  | @pickCut st h n i x tr st' hn hx _ ih1 =>
    have hs := hst n (List.mem_of_getElem? hn)
    obtain ⟨hl, ha⟩ := shown_kid hs hx
    obtain ⟨h1, h2, -⟩ := ih1 hst ha
    refine ⟨h1, fun ts _ => ?_, fun _ _ h => absurd rfl h⟩
    rw [gave_pick, h2 _ rfl, counted_cons]
    simp [Ev.counts]

theorem turn_ends_le (ts : List Tag) (o : Outcome V A) : Task.ends solid t ts o .turn ≤ 1 := by
  unfold Task.ends
  cases ts with
  | nil => exact Nat.zero_le _
  | cons x ts =>
    simp only
    split <;> omega

/-- `ts'`: the parts that are open after the events. -/
theorem gave_append (tr : List (Ev V A)) (ts : List Tag) :
    ∃ ts', ∀ rest, gave solid t ts (tr ++ rest) = gave solid t ts tr + gave solid t ts' rest := by
  induction tr generalizing ts with
  | nil => exact ⟨ts, fun rest => by cases ts <;> simp [gave]⟩
  | cons e tr ih =>
    cases e with
    | count c =>
      obtain ⟨ts', h⟩ := ih ts
      exact ⟨ts', fun rest => by rw [List.cons_append, gave_count, gave_count, h]⟩
    | got o =>
      obtain ⟨ts', h⟩ := ih ts
      exact ⟨ts', fun rest => by rw [List.cons_append, gave_got, gave_got, h]⟩
    | pick i j f =>
      obtain ⟨ts', h⟩ := ih ts
      exact ⟨ts', fun rest => by rw [List.cons_append, gave_pick, gave_pick, h]⟩
    | present f =>
      obtain ⟨ts', h⟩ := ih ((f.kind, f.span) :: ts)
      exact ⟨ts', fun rest => by cases ts <;> exact h rest⟩
    | answer o =>
      cases ts with
      | nil =>
        obtain ⟨ts', h⟩ := ih []
        exact ⟨ts', fun rest => h rest⟩
      | cons x ts =>
        obtain ⟨ts', h⟩ := ih ts
        exact ⟨ts', fun rest => by
          rw [List.cons_append, gave, gave, h, Nat.add_assoc]⟩

theorem exec_gave {p : Node} (hp : All (Yields c t) p) (hd : owes t p = 0) {tr : List (Ev V A)} {o o' : Outcome V A}
    (h : Exec solid p tr o o') : ∃ ε, ε ≤ o.slack ∧ counted c tr + ε = gave solid t [] tr := by
  obtain ⟨tr1, tr2, st1, st2, rfl, h1, h2⟩ := h
  obtain ⟨h3, h4, h5⟩ := run_gave h1 (by intro x hx; cases hx) hp
  obtain ⟨-, h6, h7⟩ := run_gave h2 h3 trivial
  have hend : ∀ ts, ∃ ε, ε ≤ (match ts with | [] => 0 | _ => 1) ∧ gave solid t ts tr2 = counted c tr2 + ε := by
    intro ts
    by_cases ho : o' = .cut
    · exact ⟨0, Nat.zero_le _, h6 ts ho⟩
    · refine ⟨Task.ends solid t ts o' .turn, ?_, ?_⟩
      · cases ts with
        | nil => exact Nat.zero_le _
        | cons x ts => exact turn_ends_le _ _
      · have := h7 ts [] ho
        have h8 : ∀ ts', gave solid t ts' ([] : List (Ev V A)) = 0 := by intro ts'; cases ts' <;> rfl
        rw [List.append_nil, h8] at this
        exact this
  by_cases ho : o = .cut
  · obtain ⟨ts', h8⟩ := gave_append (solid := solid) (t := t) tr1 []
    obtain ⟨ε, h9, h10⟩ := hend ts'
    subst ho
    refine ⟨ε, ?_, ?_⟩
    · rw [slack_cut]
      cases ts' with
      | nil => exact Nat.le_trans h9 (Nat.zero_le _)
      | cons => exact h9
    · rw [h8, h4 [] rfl, h10, counted_append]
      omega
  · obtain ⟨ε, h9, h10⟩ := hend []
    refine ⟨0, Nat.zero_le _, ?_⟩
    have h11 : Task.ends solid t [] o (.node p) = 0 := by
      simp only [Task.ends, hd]
      split <;> rfl
    rw [h5 [] tr2 ho, h11, counted_append]
    have h12 : Task.after [] (.node p) = ([] : List Tag) := rfl
    rw [h12, h10]
    have : ε = 0 := Nat.le_zero.1 h9
    omega

/-! ### From one node to the program -/

theorem yields_here {n : Node} (hi : imm c n = 0) (hd : ∀ x ∈ comps n, owes t x = 0) : Yields c t n := by
  unfold Yields
  unfold imm at hi
  cases hl : look n with
  | counter c' =>
    rw [hl] at hi
    intro h
    simp [h] at hi
  | wrap c' e =>
    rw [hl] at hi
    refine ⟨?_, hd e (comps_wrap hl)⟩
    intro h
    simp [h] at hi
  | truth c' e mid =>
    rw [hl] at hi
    simp only at hi
    refine ⟨?_, ?_⟩
    · intro h
      simp [h] at hi
    · rw [hd e (comps_truth hl)]
      omega
  | list ss =>
    rw [hl] at hi
    exact ⟨hi, fun s hs hj => hd s (comps_list hl hs hj)⟩
  | plain => exact fun x hx => hd x (by rw [comps_plain hl]; exact hx)

theorem yields_zero {n : Node} (ht : t.2 ≠ Span.dummy) (hc : cc c n = 0) (hw : weight t n = 0) : All (Yields c t) n := by
  intro m hm
  have h1 := hm.cc_le c
  have h2 := hm.weight_le ht
  have h3 := imm_le c m
  refine yields_here (by omega) fun x hx => ?_
  have h4 := comp_weight ht hx
  have h5 := owes_le_weight ht x
  omega

theorem yields_self {n : Node} (ht : t.2 ≠ Span.dummy) (hc : cc c n = 0) (hw : weight t n ≤ 1) (hl : (look n).opens)
    (hn : tag n = t) : All (Yields c t) n := by
  have h1 := weight_opens ht hl
  rw [if_pos hn] at h1
  have h2 : ∀ x ∈ comps n, weight t x = 0 := by
    intro x hx
    have := sumOf_le_of_mem (μ := weight t) hx
    omega
  intro m hm
  cases hm with
  | here =>
    have h3 := imm_le c n
    refine yields_here (by omega) fun x hx => ?_
    have h4 := h2 x hx
    have h5 := owes_le_weight ht x
    omega
  | @step _ x _ hx hm =>
    have h3 := comp_cc c hx
    exact yields_zero ht (by omega) (h2 x hx) _ hm

theorem yields_up {n m : Node} (ht : t.2 ≠ Span.dummy) (hs : Sub n m) (hc1 : 1 ≤ cc c m) (hw1 : 1 ≤ weight t m)
    (hm : All (Yields c t) m) (hd : owes t m = 0) (hc : cc c n ≤ 1) (hw : weight t n ≤ 1) :
    All (Yields c t) n ∧ owes t n = 0 := by
  induction hs with
  | here => exact ⟨hm, hd⟩
  | @step n x m hx hs ih =>
    have hxc := comp_cc c hx
    have hxw := comp_weight ht hx
    obtain ⟨h1, h2⟩ := ih hc1 hw1 hm hd (by omega) (by omega)
    have hxc1 := hs.cc_le c
    have hxw1 := hs.weight_le ht
    have hcomp : ∀ z ∈ comps n, owes t z = 0 := by
      intro z hz
      by_cases hzx : z = x
      · rw [hzx]; exact h2
      · have h3 := comp_weight_two ht hz hx hzx
        have h4 := owes_le_weight ht z
        omega
    constructor
    · intro m' hm'
      cases hm' with
      | here => exact yields_here (by omega) hcomp
      | @step _ z _ hz hm' =>
        by_cases hzx : z = x
        · subst hzx
          exact h1 _ hm'
        · have h3 := comp_cc_two c hz hx hzx
          have h4 := comp_weight_two ht hz hx hzx
          exact yields_zero ht (by omega) (by omega) _ hm'
    · by_cases ho : (look n).opens
      · have h3 := weight_opens ht ho
        have h4 := sumOf_le_of_mem (μ := weight t) hx
        rw [owes_opens ho, if_neg]
        intro h
        rw [if_pos h] at h3
        omega
      · unfold owes
        cases hl : look n with
        | list ss => rw [hl] at ho; exact absurd trivial ho
        | plain => rw [hl] at ho; exact absurd trivial ho
        | _ => rfl

/-- The counter is behind the expression with tag `t`. -/
theorem yields_of {n m e mid : Node} {c' : Counter} (ht : t.2 ≠ Span.dummy) (hs : Sub n m) (hl : look m = .truth c' e mid)
    (hne : c' ≠ c) (hmid : 1 ≤ cc c mid) (ho : (look e).opens) (het : tag e = t) (hc : cc c n ≤ 1) (hw : weight t n ≤ 1) :
    All (Yields c t) n ∧ owes t n = 0 := by
  have hmc := hs.cc_le c
  have hmw := hs.weight_le ht
  have hm1 := imm_le c m
  have hem : e ∈ comps m := comps_truth hl
  have himm : imm c m = cc c mid := by
    unfold imm
    rw [hl]
    simp [hne]
  have he1 := comp_cc c hem
  have he2 := comp_weight ht hem
  have hew : 1 ≤ weight t e := by
    have := weight_opens ht ho
    rw [if_pos het] at this
    omega
  have hoe : owes t e = 1 := by rw [owes_opens ho, if_pos het]
  have hcomps : comps m = [e] := by
    unfold comps
    rw [hl]
  refine yields_up ht hs (by omega) (by omega) ?_ ?_ hc hw
  · intro m' hm'
    cases hm' with
    | here =>
      unfold Yields
      rw [hl]
      exact ⟨hne, by omega⟩
    | @step _ x _ hx hm' =>
      rw [hcomps] at hx
      cases List.mem_singleton.1 hx
      exact yields_self ht (by omega) (by omega) ho het _ hm'
  · unfold owes
    rw [hl]

/-- In an instrumented program. -/
theorem Followed.gives {p p' e x n : Node} {b i : Nat} (f : Followed p p') (ht : Only p (tag e)) (he : Clean e)
    (hx : strip x = strip e) (hn : n ∈ each p') (hl : n = wrapTruth b i x) : CountsSolid p' (.bT b i) (tag e) := by
  subst hl
  have hspan : x.span ≠ Span.dummy := by
    have h := tag_of hx
    have h1 : x.span = (tag e).2 := by rw [← h]; rfl
    rw [h1]
    exact ht.2.1
  have hin : x ∈ each (wrapTruth b i x) :=
    mem_each_mk.2 (.inr ⟨_, List.mem_cons_of_mem _ (List.mem_cons_self ..),
      mem_each_mk.2 (.inr ⟨_, List.mem_cons_self .., mem_each_mk.2 (.inr ⟨x, by simp, each_self x⟩)⟩)⟩)
  have hs : Sub p' (wrapTruth b i x) :=
    f.comes hn ⟨x, hin, hspan⟩ (fun h => by cases h) rfl (.inr ⟨_, _, _, rfl⟩)
  have hmid : 1 ≤ cc (.bT b i) (Node.mk .paren Span.dummy [truthCond b i]) := by
    have : counterExpr (.bT b i) = Node.mk (.counter (.bT b i)) Span.dummy [] := rfl
    unfold cc truthCond
    rw [this]
    simp [sites, sitesList, Kind.own, List.count_append]
  obtain ⟨h1, h2⟩ := yields_of (c := .bT b i) (c' := .b b i) ht.2.1 hs rfl (by nofun) hmid (opens_of he hx) (tag_of hx)
    (f.once _) (Nat.le_of_eq (f.weight _ ht))
  intro V A solid tr o o' h
  rw [gave_visible]
  exact exec_gave h1 h2 h

end Sem
end Verif
