import Verif.Spec.EndToEnd
import Verif.Lemmas.FollowTruth
import Verif.Lemmas.Leaves
import Verif.Lemmas.Life
import Verif.Lemmas.Frozen
/-
From executions to reports.
-/
namespace Verif
open Node

/-! ### Data after hits -/

namespace FileCoverage

theorem hits_cons (c : FileCoverage) (k : Counter) (l : List Counter) : c.hits (k :: l) = (c.hit k).hits l := rfl

/-- What hits do not change. -/
theorem hits_tables (c : FileCoverage) (l : List Counter) : (c.hits l).path = c.path ∧
    (c.hits l).statementMap = c.statementMap ∧ (c.hits l).fnMap = c.fnMap ∧ (c.hits l).branchMap = c.branchMap ∧
    (c.hits l).inputSourceMap = c.inputSourceMap := by
  induction l generalizing c with
  | nil => exact ⟨rfl, rfl, rfl, rfl, rfl⟩
  | cons k l ih =>
    rw [hits_cons]
    obtain ⟨h1, h2, h3, h4, h5⟩ := ih (c.hit k)
    rw [h1, h2, h3, h4, h5]
    cases k <;> exact ⟨rfl, rfl, rfl, rfl, rfl⟩

/-- Hits change neither what is counted nor how many arms are counted. -/
theorem hits_shape (c : FileCoverage) (l : List Counter) : (c.hits l).all = c.all ∧ (c.hits l).bT.isSome = c.bT.isSome ∧
    (∀ id, ((c.hits l).b.get id).map List.length = (c.b.get id).map List.length) ∧
    ∀ id, (((c.hits l).bT.getD []).get id).map List.length = ((c.bT.getD []).get id).map List.length := by
  induction l generalizing c with
  | nil => exact ⟨rfl, rfl, fun _ => rfl, fun _ => rfl⟩
  | cons k l ih =>
    rw [hits_cons]
    obtain ⟨h1, h2, h3, h5⟩ := ih (c.hit k)
    have h4 : (c.hit k).all = c.all ∧ (c.hit k).bT.isSome = c.bT.isSome ∧
        (∀ id, ((c.hit k).b.get id).map List.length = (c.b.get id).map List.length) ∧
        ∀ id, (((c.hit k).bT.getD []).get id).map List.length = ((c.bT.getD []).get id).map List.length := by
      cases k with
      | b i arm =>
        refine ⟨rfl, rfl, fun id => ?_, fun _ => rfl⟩
        show ((c.b.modify i _).get id).map List.length = _
        rw [IndexMap.get_modify]
        split
        · next h =>
          subst h
          rw [Option.map_map]
          congr 1
          funext v
          simp
        · rfl
      | bT i arm =>
        refine ⟨rfl, by show (c.bT.map _).isSome = _; simp, fun _ => rfl, fun id => ?_⟩
        show (IndexMap.get ((c.bT.map _).getD []) id).map List.length = _
        cases c.bT with
        | none => rfl
        | some m =>
          show (IndexMap.get (IndexMap.modify m i _) id).map List.length = _
          rw [IndexMap.get_modify]
          split
          · next h =>
            subst h
            rw [Option.map_map]
            show _ = (IndexMap.get m i).map List.length
            congr 1
            funext v
            simp
          · rfl
      | _ => exact ⟨rfl, rfl, fun _ => rfl, fun _ => rfl⟩
    exact ⟨h1.trans h4.1, h2.trans h4.2.1, fun id => (h3 id).trans (h4.2.2.1 id), fun id => (h5 id).trans (h4.2.2.2 id)⟩

theorem hits_keyed {c : FileCoverage} (h : c.Keyed) (l : List Counter) : (c.hits l).Keyed := by
  induction l generalizing c with
  | nil => exact h
  | cons k l ih => exact ih (Runtime.hit_sound h k).1

theorem keyed_modify {V : Type} {m : IndexMap Nat V} (f : V → V) (k : Nat)
    (hm : ∀ e ∈ m, e.1 < 2 ^ 32) : ∀ e ∈ m.modify k f, e.1 < 2 ^ 32 := by
  intro e he
  have : e.1 ∈ (m.modify k f).keys := List.mem_map.2 ⟨e, he, rfl⟩
  rw [IndexMap.keys_modify] at this
  obtain ⟨e', h1, h2⟩ := List.mem_map.1 this
  rw [← h2]
  exact hm e' h1

theorem hits_bare {c : FileCoverage} (h : c.bT = none) (l : List Counter) : (c.hits l).bT = none := by
  induction l generalizing c with
  | nil => exact h
  | cons k l ih =>
    refine ih (c := c.hit k) ?_
    cases k with
    | bT id arm =>
      show c.bT.map _ = none
      rw [h]
      rfl
    | _ => exact h

/-- The keys of the tables of counts fit. -/
structure KeysFit (c : FileCoverage) : Prop where
  s : ∀ e ∈ c.s, e.1 < 2 ^ 32
  f : ∀ e ∈ c.f, e.1 < 2 ^ 32
  b : ∀ e ∈ c.b, e.1 < 2 ^ 32
  bT : ∀ m ∈ c.bT, ∀ e ∈ m, e.1 < 2 ^ 32

theorem KeysFit.hit {c : FileCoverage} (h : c.KeysFit) (k : Counter) : (c.hit k).KeysFit := by
  cases k with
  | s id => exact { h with s := keyed_modify _ _ h.s }
  | f id => exact { h with f := keyed_modify _ _ h.f }
  | b id arm => exact { h with b := keyed_modify _ _ h.b }
  | bT id arm =>
    refine { h with bT := fun m hm => ?_ }
    obtain ⟨m', hm', rfl⟩ := Option.map_eq_some_iff.1 (Option.mem_def.1 hm)
    exact keyed_modify _ _ (h.bT m' hm')

theorem KeysFit.hits {c : FileCoverage} (h : c.KeysFit) (l : List Counter) : (c.hits l).KeysFit := by
  induction l generalizing c with
  | nil => exact h
  | cons k l ih => exact ih (h.hit k)

/-- All counts are zero. -/
def Zero (c : FileCoverage) : Prop := ∀ k m, c.count k = some m → m = 0

theorem hits_some (c : FileCoverage) (l : List Counter) (k : Counter) : ((c.hits l).count k).isSome = (c.count k).isSome := by
  induction l generalizing c with
  | nil => rfl
  | cons k' l ih =>
    rw [hits_cons, ih, Sem.hit_count]
    split
    · rename_i h
      subst h
      simp
    · rfl

theorem Zero.hits {c : FileCoverage} (h : c.Zero) {l : List Counter} (hl : ∀ k, l.count k < 2 ^ 32) {k : Counter} {m : Nat}
    (hm : (c.hits l).count k = some m) : m < 2 ^ 32 := by
  have h1 := c.hits_some l k
  rw [hm] at h1
  obtain ⟨n, hn⟩ := Option.isSome_iff_exists.1 h1.symm
  cases h k n hn
  have h2 := hl k
  have h3 : (2 : Nat) ^ 32 ≤ Js.maxInt := by decide
  rw [Sem.hits_count l c k 0 hn (by omega), Nat.zero_add] at hm
  cases hm
  exact h2

/-- Data with counts that start at zero fits after less than `2 ^ 32` hits of each counter. -/
theorem hits_fits {c : FileCoverage} (hk : c.Keyed) (hf : c.Fits) (h0 : c.Zero) {l : List Counter}
    (hl : ∀ k, l.count k < 2 ^ 32) :
    (c.hits l).Fits := by
  obtain ⟨t1, t2, t3, t4, t5⟩ := c.hits_tables l
  have h2 := hits_keyed hk l
  have h3 : (c.hits l).KeysFit :=
    KeysFit.hits ⟨fun e he => (hf.s e he).1, fun e he => (hf.f e he).1, fun e he => (hf.b e he).1,
      fun m hm e he => (hf.bT m hm e he).1⟩ l
  have h4 : ∀ k m, (c.hits l).count k = some m → m < 2 ^ 32 := fun k m hm => h0.hits hl hm
  refine ⟨by rw [t2]; exact hf.statementMap, by rw [t3]; exact hf.fnMap, by rw [t4]; exact hf.branchMap, ?_, ?_, ?_, ?_, by rw [t5]; exact hf.inputSourceMap⟩
  · intro e he
    exact ⟨h3.s e he, h4 (.s e.1) _ (IndexMap.get_of_mem h2.s he)⟩
  · intro e he
    exact ⟨h3.f e he, h4 (.f e.1) _ (IndexMap.get_of_mem h2.f he)⟩
  · intro e he
    refine ⟨h3.b e he, fun n hn => ?_⟩
    obtain ⟨i, hi⟩ := List.mem_iff_getElem?.1 hn
    refine h4 (.b e.1 i) n ?_
    simp only [count, IndexMap.get_of_mem h2.b he, Option.bind_some, hi]
  · intro m hm e he
    refine ⟨h3.bT m hm e he, fun n hn => ?_⟩
    obtain ⟨i, hi⟩ := List.mem_iff_getElem?.1 hn
    refine h4 (.bT e.1 i) n ?_
    simp only [count, Option.mem_def.1 hm, Option.bind_some, IndexMap.get_of_mem (h2.bT m hm) he, hi]

/-- Counts of data that is the same. -/
theorem Same.count {c c' : FileCoverage} (h : c.Same c') (k : Counter) : c.count k = c'.count k := by
  cases k with
  | s id => exact h.s id
  | f id => exact h.f id
  | b id arm => simp only [FileCoverage.count, h.b id]
  | bT id arm =>
    simp only [FileCoverage.count]
    have := h.bT
    generalize c.bT = x at this
    generalize c'.bT = y at this
    cases this with
    | none => rfl
    | some hr => simp only [Option.bind_some, hr id]

end FileCoverage

/-- The counts of a report of the instrumenter are zero. -/
theorem Finished.zero {path : String} {sm : Option SourceMap} {rl : Bool} {h : List RegOp} {r : FileCoverage}
    (hf : Finished path sm rl h r) : r.Zero := by
  intro k m hm
  have hn : ∀ {A : Type} (l : List A) (i m : Nat), (IndexMap.get (RegOp.numbered (fun _ (_ : A) => 0) l) i) = some m → m = 0 := by
    intro A l i m h
    rw [RegOp.get_numbered] at h
    obtain ⟨_, _, rfl⟩ := Option.map_eq_some_iff.1 h
    rfl
  have ha : ∀ {A : Type} (l : List A) (i m : Nat), (l.map fun _ => (0 : Nat))[i]? = some m → m = 0 := by
    intro A l i m h
    rw [List.getElem?_map] at h
    obtain ⟨_, _, rfl⟩ := Option.map_eq_some_iff.1 h
    rfl
  cases k with
  | s id => rw [FileCoverage.count, hf.s] at hm; exact hn _ _ _ hm
  | f id => rw [FileCoverage.count, hf.f] at hm; exact hn _ _ _ hm
  | b id arm =>
    rw [FileCoverage.count, hf.b] at hm
    split at hm
    · cases hm
    · exact ha _ _ _ hm
  | bT id arm =>
    have h1 := hf.bT id
    simp only [FileCoverage.count] at hm
    cases hb : r.bT with
    | none => rw [hb] at hm; cases hm
    | some t =>
      rw [hb] at hm h1
      simp only [Option.getD_some, Option.bind_some] at hm h1
      rw [h1] at hm
      obtain ⟨l, h2, h3⟩ := Option.bind_eq_some_iff.1 hm
      obtain ⟨x, _, h4⟩ := Option.bind_eq_some_iff.1 h2
      split at h4
      · cases h4
        exact ha _ _ _ h3
      · cases h4

/-- The branches of a report of the instrumenter have arms. -/
theorem Finished.armed {path : String} {sm : Option SourceMap} {rl : Bool} {h : List RegOp} {r : FileCoverage}
    (hf : Finished path sm rl h r) {b : Branch} (hb : b ∈ r.branchMap.values) : b.locations ≠ [] := by
  obtain ⟨⟨k, b'⟩, h1, rfl⟩ := List.mem_map.1 hb
  have h2 := IndexMap.get_of_mem hf.keyed.branchMap h1
  rw [hf.branchMap] at h2
  obtain ⟨x, _, h3⟩ := Option.bind_eq_some_iff.1 h2
  split at h3
  · cases h3
  · next ha =>
    cases h3
    exact ha

/-! ### Executions and counts -/

namespace Sem
variable {V A : Type} {solid : V → Bool}

theorem mixed_count {trs : List (List (Ev V A))} {l : List Counter} (h : Mixed trs l) (k : Counter) :
    l.count k = (trs.map fun tr => counted k tr).sum := by
  rw [h.count_eq, List.count_flatten, List.map_map]
  congr 1
  exact List.map_congr_left fun tr _ => by rw [Function.comp, counted_eq]

theorem sum_congr {trs : List (List (Ev V A))} {f g : List (Ev V A) → Nat} (h : ∀ tr ∈ trs, f tr = g tr) :
    (trs.map f).sum = (trs.map g).sum := by rw [List.map_congr_left h]

theorem sum_le {trs : List (List (Ev V A))} {f g : List (Ev V A) → Nat} (h : ∀ tr ∈ trs, f tr ≤ g tr) :
    (trs.map f).sum ≤ (trs.map g).sum := by
  induction trs with
  | nil => exact Nat.le_refl _
  | cons tr trs ih =>
    rw [List.map_cons, List.map_cons, List.sum_cons, List.sum_cons]
    exact Nat.add_le_add (h tr List.mem_cons_self) (ih fun x hx => h x (List.mem_cons_of_mem _ hx))

/-- The counts of a report are those of the executions. -/
theorem tells {p' : Node} {r c : FileCoverage} {trs : List (List (Ev V A))} {l : List Counter}
    (hx : ∀ tr ∈ trs, Complete solid p' tr) (hl : Mixed trs l) (hn : ∀ k, l.count k ≤ Js.maxInt) (hc : c.Same (r.hits l)) (hk : c.Keyed)
    (hor : c.Ordered) : Tells solid p' r trs c := by
  obtain ⟨t1, t2, t3, t4, t9⟩ := r.hits_tables l
  have hcount : ∀ k, r.count k = some 0 → c.count k = some (trs.map fun tr => counted k tr).sum := by
    intro k h0
    have h1 := hn k
    rw [hc.count, hits_count l r k 0 h0 (by omega), Nat.zero_add, mixed_count hl]
  obtain ⟨t5, t6, t7, t8⟩ := r.hits_shape l
  have hbT : c.bT.isSome = (r.hits l).bT.isSome := by
    have := hc.bT
    generalize c.bT = x at this
    generalize (r.hits l).bT = y at this
    cases this <;> rfl
  refine ⟨hc.path.trans t1, hc.all.trans t5, hk, fun id => ?_, fun id => ?_, fun id => ?_, hbT.trans t6, fun id => ?_, hor, ?_, ?_, ?_, hc.inputSourceMap.trans t9, ?_, ?_, ?_⟩
  · rw [hc.s]
    exact r.hits_some l (.s id)
  · rw [hc.f]
    exact r.hits_some l (.f id)
  · rw [hc.b]
    exact t7 id
  · rw [← t8 id]
    have := hc.bT
    generalize c.bT = x at this
    generalize (r.hits l).bT = y at this
    cases this with
    | none => rfl
    | some h => exact congrArg _ (h id)
  · intro k
    rw [hc.statementMap, t2]
  · intro k
    rw [hc.fnMap, t3]
  · intro k
    rw [hc.branchMap, t4]
  · intro k t hk h0
    rw [hcount k h0]
    congr 1
    refine sum_congr fun tr htr => ?_
    obtain ⟨o, o', h1, h2, h3⟩ := hx tr htr
    obtain ⟨ε, h4, h5⟩ := hk V A solid tr o o' h1
    rw [slack_ne h2, slack_ne h3] at h4
    omega
  · intro k t j hk h0
    rw [hcount k h0]
    congr 1
    refine sum_congr fun tr htr => ?_
    obtain ⟨o, o', h1, h2, h3⟩ := hx tr htr
    obtain ⟨ε, h4, h5⟩ := hk V A solid tr o o' h1
    rw [slack_ne h2, slack_ne h3] at h4
    omega
  · intro k t hk h0
    rw [hcount k h0]
    congr 1
    refine sum_congr fun tr htr => ?_
    obtain ⟨o, o', h1, h2, h3⟩ := hx tr htr
    obtain ⟨ε, h4, h5⟩ := hk V A solid tr o o' h1
    rw [slack_ne h2] at h4
    omega

/-! ### How often counters are hit -/

/-- The counter occurs at most `N` times in the node. -/
def Few (c : Counter) (N : Nat) (n : Node) : Prop := cc c n ≤ N

/-- The counter occurs at most `N` times in the parts of a task. -/
def Task.Few (c : Counter) (N : Nat) : Task → Prop
  | .node n => All (Sem.Few c N) n
  | .list ss => ∀ s ∈ ss, isInjectedItem s = false → All (Sem.Few c N) s
  | .turn => True

/-- The occurrences of a counter in a task. -/
def Task.first (c : Counter) : Task → Nat
  | .node n => cc c n
  | .list ss => ss.countP (isStmtOf c) + sumOf (cc c) (ss.filter fun s => !isInjectedItem s)
  | .turn => 0

theorem visible_cons {e : Ev V A} (h : e.isCount = false) (tr : List (Ev V A)) : visible (e :: tr) = e :: visible tr := by
  unfold visible
  rw [List.filter_cons, h]
  rfl

theorem counts_le {c c' : Counter} : (if (Ev.count c' : Ev V A).counts c then 1 else 0) = if c' = c then 1 else 0 := by
  simp only [Ev.counts, decide_eq_true_eq]

/-- Between two events the environment sees, a counter is incremented at most as often as it occurs. -/
theorem run_few {c : Counter} {N : Nat} {st st' : List Node} {tk : Task} {tr : List (Ev V A)} {o : Outcome V A}
    (h : Run solid st tk tr o st') (hst : ∀ n ∈ st, Shown (Few c N) n) (ht : tk.Few c N) :
    (∀ n ∈ st', Shown (Few c N) n) ∧ counted c tr ≤ N * (visible tr).length + tk.first c := by
  have tail : ∀ {s : Node} {ss : List Node}, Task.Few c N (.list (s :: ss)) → Task.Few c N (.list ss) :=
    fun h x hx => h x (List.mem_cons_of_mem _ hx)
  have list : ∀ {n : Node} {ss : List Node}, All (Few c N) n → look n = .list ss →
      Task.Few c N (.list ss) ∧ Task.first c (.list ss) ≤ N := by
    intro n ss h hl
    have h1 := cc_comps c n
    unfold imm comps at h1
    rw [hl] at h1
    exact ⟨fun s hs hi => h.comp (comps_list hl hs hi), Nat.le_trans h1 h.self⟩
  have mulAdd : ∀ a b : Nat, N * (a + b + 2) = N * a + N * b + 2 * N := fun a b => by
    rw [Nat.mul_add, Nat.mul_add, Nat.mul_comm N 2]
  induction h with
  | cut => exact ⟨hst, Nat.zero_le _⟩
  | @counter st n c' v hl =>
    have h1 := cc_comps c n
    unfold imm comps at h1
    rw [hl] at h1
    refine ⟨hst, ?_⟩
    rw [counted_cons, counts_le]
    simp only [sumOf_nil] at h1
    simp only [Task.first]
    show _ + 0 ≤ _
    omega
  | @wrap st n c' e tr o st' hl _ ih =>
    obtain ⟨h2, h3⟩ := ih hst (ht.comp (comps_wrap hl))
    have h1 := cc_comps c n
    unfold imm comps at h1
    rw [hl] at h1
    refine ⟨h2, ?_⟩
    rw [counted_cons, counts_le, visible_count]
    simp only [sumOf_cons, sumOf_nil] at h1
    simp only [Task.first] at h3 ⊢
    omega
  | @truth st n c' e mid tr v st' hl _ ih =>
    obtain ⟨h2, h3⟩ := ih hst (ht.comp (comps_truth hl))
    have h1 := cc_comps c n
    unfold imm comps at h1
    rw [hl] at h1
    refine ⟨h2, ?_⟩
    have h4 : counted c (if v.any solid then mid.sites.map .count else [] : List (Ev V A)) ≤ cc c mid := by
      split
      · exact Nat.le_of_eq (counted_sites _)
      · exact Nat.zero_le _
    have h5 : visible (tr ++ if v.any solid then mid.sites.map .count else []) = visible tr := by
      rw [visible_append]
      split
      · rw [show visible (mid.sites.map .count : List (Ev V A)) = [] from List.filter_eq_nil_iff.2 (by
          intro e he
          obtain ⟨_, _, rfl⟩ := List.mem_map.1 he
          simp [Ev.isCount]), List.append_nil]
      · exact List.append_nil _
    rw [counted_cons, counts_le, visible_count, h5, counted_append]
    simp only [sumOf_cons, sumOf_nil] at h1
    simp only [Task.first] at h3 ⊢
    omega
  | @truthEnd st n c' e mid tr o st' hl _ _ ih =>
    obtain ⟨h2, h3⟩ := ih hst (ht.comp (comps_truth hl))
    have h1 := cc_comps c n
    unfold imm comps at h1
    rw [hl] at h1
    refine ⟨h2, ?_⟩
    rw [counted_cons, counts_le, visible_count]
    simp only [sumOf_cons, sumOf_nil] at h1
    simp only [Task.first] at h3 ⊢
    omega
  | @block st n ss tr o st1 tr' o' st' hl _ ho _ ih1 ih2 =>
    obtain ⟨h1, h2⟩ := ih1 (shown_block hst ht hl) (list ht hl).1
    obtain ⟨h3, h4⟩ := ih2 h1 trivial
    have h5 := (list ht hl).2
    refine ⟨h3, ?_⟩
    rw [counted_cons, counted_append, counted_cons, visible_cons rfl, visible_append, visible_cons rfl, List.length_cons,
      List.length_append, List.length_cons, show ∀ a b : Nat, a + (b + 1) + 1 = a + b + 2 from fun _ _ => rfl, mulAdd]
    simp only [Task.first, Ev.counts] at h4 h5 ⊢
    simp only [Task.first] at h2
    simp
    omega
  | @blockCut st n ss tr st' hl _ ih1 =>
    obtain ⟨h1, h2⟩ := ih1 (shown_block hst ht hl) (list ht hl).1
    have h5 := (list ht hl).2
    refine ⟨h1, ?_⟩
    rw [counted_cons, visible_cons rfl, List.length_cons, Nat.mul_add]
    simp [Ev.counts]
    omega
  | @node st n tr o st' hl _ ih =>
    obtain ⟨h1, h2⟩ := ih (shown_push hst ht hl) trivial
    refine ⟨h1, ?_⟩
    rw [counted_cons, visible_cons rfl, List.length_cons, Nat.mul_add]
    simp only [Task.first] at h2
    simp [Ev.counts]
    omega
  | nil => exact ⟨hst, Nat.zero_le _⟩
  | @count st sp c' sp' cs ss tr o st' _ ih =>
    obtain ⟨h1, h2⟩ := ih hst (tail ht)
    refine ⟨h1, ?_⟩
    rw [counted_cons, counts_le, visible_count]
    simp only [Task.first] at h2 ⊢
    have hi : isInjectedItem (mk .exprStmt sp [mk (.counter c') sp' cs]) = true := rfl
    rw [List.countP_cons, List.filter_cons, hi]
    simp only [isStmtOf, decide_eq_true_eq, Bool.not_true, Bool.false_eq_true, if_false]
    omega
  | @setup st s ss tr o st' hs _ ih =>
    obtain ⟨h1, h2⟩ := ih hst (tail ht)
    refine ⟨h1, ?_⟩
    simp only [Task.first] at h2 ⊢
    rw [List.countP_cons, List.filter_cons]
    have h3 : ∀ l : List Node, sumOf (cc c) l ≤ sumOf (cc c) (if (!isInjectedItem s) = true then s :: l else l) := by
      intro l
      split
      · rw [sumOf_cons]
        omega
      · exact Nat.le_refl _
    have h4 := h3 (ss.filter fun s => !isInjectedItem s)
    omega
  | @next st s ss tr v st1 tr' o st' hi _ _ ih1 ih2 =>
    obtain ⟨h1, h2⟩ := ih1 hst (ht s List.mem_cons_self hi)
    obtain ⟨h3, h4⟩ := ih2 h1 (tail ht)
    refine ⟨h3, ?_⟩
    rw [counted_append, visible_append, List.length_append, Nat.mul_add]
    simp only [Task.first] at h2 h4 ⊢
    rw [List.countP_cons, List.filter_cons, hi]
    simp only [Bool.not_false, if_true, sumOf_cons]
    omega
  | @stop st s ss tr o st' hi _ _ ih1 =>
    obtain ⟨h1, h2⟩ := ih1 hst (ht s List.mem_cons_self hi)
    refine ⟨h1, ?_⟩
    simp only [Task.first] at h2 ⊢
    rw [List.countP_cons, List.filter_cons, hi]
    simp only [Bool.not_false, if_true, sumOf_cons]
    omega
  | answer => exact ⟨hst, Nat.zero_le _⟩
  | @pick st h n i x tr o st1 tr' o' st' hn hx _ ho _ ih1 ih2 =>
    obtain ⟨hl, ha⟩ := shown_kid (hst n (List.mem_of_getElem? hn)) hx
    obtain ⟨h1, h2⟩ := ih1 hst ha
    obtain ⟨h3, h4⟩ := ih2 h1 trivial
    have h5 : cc c x ≤ N := ha.self
    refine ⟨h3, ?_⟩
    rw [counted_cons, counted_append, counted_cons, visible_cons rfl, visible_append, visible_cons rfl, List.length_cons,
      List.length_append, List.length_cons, show ∀ a b : Nat, a + (b + 1) + 1 = a + b + 2 from fun _ _ => rfl, mulAdd]
    simp only [Task.first] at h2 h4 ⊢
    simp [Ev.counts]
    omega
  | @pickCut st h n i x tr st' hn hx _ ih1 =>
    obtain ⟨hl, ha⟩ := shown_kid (hst n (List.mem_of_getElem? hn)) hx
    obtain ⟨h1, h2⟩ := ih1 hst ha
    have h5 : cc c x ≤ N := ha.self
    refine ⟨h1, ?_⟩
    rw [counted_cons, visible_cons rfl, List.length_cons, Nat.mul_add]
    simp only [Task.first] at h2 ⊢
    simp [Ev.counts]
    omega

/-- Executions increment a counter at most once between two events the environment sees, if it occurs once. -/
theorem exec_few {p : Node} {c : Counter} {tr : List (Ev V A)} {o o' : Outcome V A} (h : Exec solid p tr o o') :
    counted c tr ≤ cc c p * ((visible tr).length + 1) := by
  obtain ⟨tr1, tr2, st1, st2, rfl, h1, h2⟩ := h
  have hf : All (Few c (cc c p)) p := fun m hm => hm.cc_le c
  obtain ⟨h3, h4⟩ := run_few h1 (by intro x hx; cases hx) hf
  obtain ⟨-, h5⟩ := run_few h2 h3 trivial
  rw [counted_append, visible_append, List.length_append, Nat.mul_add, Nat.mul_add]
  simp only [Task.first] at h4 h5
  omega

/-- Executions increment counters of the program only. -/
theorem exec_sites {p : Node} {tr : List (Ev V A)} {o o' : Outcome V A} (h : Exec solid p tr o o') :
    ∀ c ∈ increments tr, c ∈ p.sites := by
  intro c hc
  by_contra hn
  have h0 : cc c p = 0 := List.count_eq_zero.2 hn
  have h1 := exec_few (c := c) h
  rw [h0, Nat.zero_mul, counted_eq] at h1
  exact List.count_eq_zero.1 (Nat.le_zero.1 h1) hc

end Sem

/-! ### Lives -/

namespace Runtime
open Js Template

/-- Any counters of a file can be hit. -/
theorem Lives.hits {w : World} {gcv : String} {st : State} (hp : Pristine gcv st) {r : Realm} {es : List Event}
    (h : Lives w gcv (.new st) .empty r es) {n m : Nat} {inst : Instance} (hi : r.insts[n]? = some inst)
    (hm : (Books.empty.after es).writes[n]? = some m) {e : Input × FileCoverage}
    (he : (Books.empty.after es).sets[m]? = some e) (l : List Counter) (hl : ∀ c ∈ l, (e.2.count c).isSome) :
    ∀ {boxes : List Box}, Kept gcv r (Books.empty.after es) boxes →
    ∃ r', Lives w gcv (.new st) .empty r' (es ++ l.map (.hit n)) ∧ (∀ a, r'.own a ↔ r.own a) ∧
      (∀ a, ¬ r.own a → r'.st.heap[a]? = r.st.heap[a]?) ∧ Kept gcv r' (Books.empty.after (es ++ l.map (.hit n))) boxes ∧
      ∀ x, boxes[m]? = some x → r'.st.heap[x.root]? = r.st.heap[x.root]? := by
  induction l generalizing r es e with
  | nil =>
    intro boxes hk
    exact ⟨r, by simpa using h, fun _ => Iff.rfl, fun _ _ => rfl, by simpa using hk, fun _ _ => rfl⟩
  | cons c l ih =>
    intro boxes hk
    obtain ⟨k, hc⟩ := Option.isSome_iff_exists.1 (hl c List.mem_cons_self)
    obtain ⟨x, _, hw⟩ := hk.inv.wired n inst m hi hm
    obtain ⟨st', k1, _, k3, _, _, _, k2, k4⟩ := hk.hit (w := w) hi hw.sees hm he hc
    have h1 : Lives w gcv (.new st) .empty (r.in_ st') (es ++ [.hit n c]) :=
      .hit h hi hw.sees ⟨m, hm, e, he, hl c List.mem_cons_self⟩ k1
    have hstep : Books.empty.after (es ++ [.hit n c]) = (Books.empty.after es).hit n c := by rw [after_append]; rfl
    have hset : ((Books.empty.after es).hit n c).sets[m]? = some (e.1, e.2.hit c) := by
      unfold Books.hit
      rw [hm]
      simp only [List.getElem?_modify, if_true, he]
      rfl
    obtain ⟨r', h2, h3, h4, h5, h6⟩ := ih h1 hi (by rw [hstep, hit_writes]; exact hm) (by rw [hstep]; exact hset)
      (fun c' hc' => by rw [show (e.1, e.2.hit c).2 = e.2.hits [c] from rfl, FileCoverage.hits_some]; exact hl c' (List.mem_cons_of_mem _ hc'))
      (by rw [hstep]; exact k3)
    rw [List.append_assoc] at h2 h5
    exact ⟨r', h2, h3, fun a ha => (h4 a ha).trans (k2 a ha), h5, fun x hx => (h6 x hx).trans (k4 x hx)⟩

theorem hitsOf_hits (path : String) (paths : List String) (n : Nat) (hn : paths[n]? = some path) (l : List Counter) :
    hitsOf path paths (l.map (.hit n)) = l := by
  induction l with
  | nil => rfl
  | cons c l ih => rw [List.map_cons, hitsOf, if_pos hn, ih]

end Runtime
end Verif
