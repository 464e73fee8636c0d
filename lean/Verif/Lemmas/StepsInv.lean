import Verif.Lemmas.Does
/-
Invariants of the rewriting steps.
-/
namespace Verif
open Node RegOp

/-! ### Deleting the counters -/

namespace Node

theorem strip_counterStmt (c : Counter) : strip (counterStmt c) = counterStmt c := rfl

theorem strip_wrapCounter (c : Counter) (e : Node) : strip (wrapCounter c e) = wrapCounter c (strip e) := rfl

theorem unwrap_wrapCounter (c : Counter) (e : Node) : unwrap (wrapCounter c e) = unwrap e := by
  rw [wrapCounter, counterExpr, unwrap]

theorem unwrap_strip_wrapTruth (b a : Nat) (e : Node) :
    unwrap (strip (wrapTruth b a e)) = unwrap (strip e) := by
  have : strip (wrapTruth b a e) = mk .seq Span.dummy [counterExpr (.b b a), mk .seq Span.dummy
      [mk (.assign "=") Span.dummy [tempTarget, strip e],
       strip (mk .paren Span.dummy [truthCond b a]), tempExpr]] := rfl
  rw [this, counterExpr, tempTarget, tempExpr, unwrap]

theorem filter_injected (l o r : List Node) (s : Node) (ho : ∀ x ∈ o, isInjectedItem x = true) :
    (l ++ o ++ s :: r).filter (fun s => !isInjectedItem s)
      = (l ++ s :: r).filter (fun s => !isInjectedItem s) := by
  have : o.filter (fun s => !isInjectedItem s) = [] := by
    rw [List.filter_eq_nil_iff]
    intro x hx
    simp [ho x hx]
  simp [this]

theorem tidy_insert {k : Kind} {l o r : List Node} {s : Node} (hk : k.listPos l = true)
    (ho : ∀ x ∈ o, isInjectedItem x = true) : tidy k (l ++ o ++ s :: r) = tidy k (l ++ s :: r) := by
  cases k <;> try (simp [Kind.listPos] at hk; done)
  · simp only [tidy]; exact filter_injected l o r s ho
  · cases l with
    | nil => simp [Kind.listPos] at hk
    | cons t l =>
      simp only [List.cons_append, tidy]
      rw [filter_injected l o r s ho]
  · simp only [tidy]; exact filter_injected l o r s ho
  · simp only [tidy]; exact filter_injected l o r s ho

theorem tidy_wraps {k : Kind} (hk : k.wraps = true) (cs : List Node) : tidy k cs = cs.map unwrap := by
  cases k <;> first | (simp [Kind.wraps] at hk; done) | (simp [tidy, Kind.wraps])

theorem asBlock_of_ne {s : Node} (h : s.kind ≠ .block) :
    asBlock s = mk .block Span.dummy (if isInjectedItem s then [] else [s]) := by
  obtain ⟨k, sp, cs⟩ := s
  cases k <;> first | exact (h rfl).elim | rfl

theorem strip_asBlock {s : Node} (h : s.kind ≠ .block) :
    asBlock (strip (mk .block Span.dummy [s])) = asBlock (strip s) := by
  have h' : (strip s).kind ≠ .block := by rw [strip_kind]; exact h
  rw [asBlock_of_ne h', strip_mk]
  simp only [List.map, tidy, asBlock]
  by_cases hi : isInjectedItem (strip s) = true <;> simp [hi]

theorem mapLast_append (f : Node → Node) (l : List Node) (s : Node) :
    mapLast f (l ++ [s]) = l ++ [f s] := by
  induction l with
  | nil => rfl
  | cons c l ih =>
    cases l with
    | nil => rfl
    | cons d l =>
      simp only [List.cons_append, mapLast] at ih ⊢
      rw [ih]

theorem asArrowBody_of_ne {e : Node} (h : e.kind ≠ .block) :
    asArrowBody e = mk .block Span.dummy [mk .returnStmt e.span [e]] := by
  obtain ⟨k, sp, cs⟩ := e
  cases k <;> first | exact (h rfl).elim | rfl

end Node

namespace Steps
variable {cx : Ctx}

/-- No step changes the program that is left when the counters are deleted. -/
theorem strip_eq {n q h n' q' h' o} (s : Steps cx n q h n' q' h' o) : n'.strip = n.strip := by
  induction s with
  | refl => rfl
  | trans _ _ ih1 ih2 => exact ih2.trans ih1
  | child k sp l r _ _ ih => simp [strip_mk, ih]
  | insert k sp l r hk s ih =>
    rw [strip_mk, strip_mk]
    simp only [List.map_append, List.map_cons, ih]
    congr 1
    refine tidy_insert ?_ ?_
    · cases k <;> cases l <;> simp_all [Kind.listPos]
    · intro x hx
      obtain ⟨y, hy, rfl⟩ := List.mem_map.1 hx
      obtain ⟨c, rfl⟩ := s.out_counters y hy
      rfl
  | lose sp l r _ ih => simp [strip_mk, ih]
  | register => rfl
  | emit => rfl
  | headBlock sp ss q1 c q2 h =>
    rw [strip_mk, strip_mk]
    simp only [List.map_cons, strip_counterStmt]
    rfl
  | headCase sp test ss q1 c q2 h =>
    rw [strip_mk, strip_mk]
    simp only [List.map_cons, strip_counterStmt]
    rfl
  | wrap k sp l e r q1 c q2 h hk =>
    rw [strip_mk, strip_mk, tidy_wraps hk, tidy_wraps hk]
    simp [strip_wrapCounter, unwrap_wrapCounter]
  | truth k sp l e r q1 b a q2 h hk =>
    rw [strip_mk, strip_mk, tidy_wraps hk, tidy_wraps hk]
    simp [unwrap_strip_wrapTruth]
  | body k sp l s r q h hp hb hn =>
    rw [strip_mk, strip_mk]
    congr 1
    simp only [List.map_append, List.map_cons]
    have hsb := strip_asBlock hb
    unfold Kind.bodyPos at hp
    split at hp
    · simp only [List.map, List.nil_append, List.cons_append, tidy, hsb]
    · simp only [List.map, List.nil_append, List.cons_append, tidy, asElse, strip_isNone]
      rw [hn rfl rfl, hsb]
      simp [Node.isNone]
    · simp only [List.map, tidy, mapLast_append, hsb]
    · simp only [List.map, List.nil_append, List.cons_append, tidy, hsb]
    · cases hp
  | addElse sp test cons alt q h hn =>
    rw [strip_mk, strip_mk]
    simp only [List.map, tidy, asElse, strip_isNone, hn]
    simp [Node.isNone, strip_mk, tidy, asBlock]
  | arrow a sp params e q h hk =>
    rw [strip_mk, strip_mk]
    have h' : (strip e).kind ≠ .block := by rw [strip_kind]; exact hk
    simp only [List.map, tidy, asArrowBody_of_ne h', strip_mk, strip_span]
    rfl

end Steps

/-! ### Counters -/

/-- The history registered what counter `c` counts. -/
def RegOp.has (h : List RegOp) : Counter → Bool
  | .s id => id < (statements h).length
  | .f id => id < (functions h).length
  | .b id arm => arm < (arms h id).length
  | .bT _ _ => false

/-- One for a counter that is registered. -/
def RegOp.total (h : List RegOp) (c : Counter) : Nat := if has h c then 1 else 0

theorem total_concat (h : List RegOp) (op : RegOp) (c : Counter) :
    total (h ++ [op]) c = total h c + (op.counters h).count c := by
  have one : ∀ i n : Nat, (if i < n + 1 then 1 else 0) = (if i < n then 1 else 0) + (if n = i then 1 else 0) := by
    intro i n
    split <;> split <;> split <;> omega
  cases op with
  | statement l =>
    cases c <;> simp [total, has, statements_concat, functions_concat, arms_concat, counters,
      List.count_cons, one]
  | function n d l =>
    cases c <;> simp [total, has, statements_concat, functions_concat, arms_concat, counters,
      List.count_cons, one]
  | branch t l g =>
    cases c <;> simp [total, has, statements_concat, functions_concat, arms_concat, counters]
  | path k l =>
    cases c with
    | b id arm =>
      simp only [total, has, arms_concat, counters, List.count_cons, List.count_nil]
      by_cases hk : k = id
      · subst hk
        simp [one]
      · simp [hk]
    | _ => simp [total, has, statements_concat, functions_concat, counters, List.count_cons]

namespace Node

/-- The counter of a node. -/
def _root_.Verif.Kind.own : Kind → List Counter
  | .counter c => [c]
  | _ => []

theorem sites_mk (k : Kind) (sp : Span) (cs : List Node) :
    sites (mk k sp cs) = k.own ++ sitesList cs := by
  cases k <;> rfl

theorem sitesList_cons (c : Node) (cs : List Node) : sitesList (c :: cs) = sites c ++ sitesList cs := rfl

theorem sitesList_nil : sitesList [] = [] := rfl

theorem sites_counterStmt (c : Counter) : sites (counterStmt c) = [c] := rfl

theorem sites_wrapCounter (c : Counter) (e : Node) : sites (wrapCounter c e) = c :: sites e := by
  simp [wrapCounter, counterExpr, sites_mk, Kind.own, sitesList]

theorem sites_wrapTruth (b a : Nat) (e : Node) :
    sites (wrapTruth b a e) = .b b a :: (sites e ++ [.bT b a]) := by
  have : sites (truthCond b a) = [.bT b a] := rfl
  simp [wrapTruth, increaseTrue, counterExpr, tempTarget, tempExpr, sites_mk, Kind.own, sitesList, this]

end Node

theorem count_one (c d : Counter) : [c].count d = if c = d then 1 else 0 := by
  simp [List.count_cons]

namespace Steps
variable {cx : Ctx}

/-- No counter is placed more often than it was registered. -/
theorem sites_le {n q h n' q' h' o} (s : Steps cx n q h n' q' h' o) (c : Counter)
    (hc : ∀ i a, c ≠ .bT i a) :
    n'.sites.count c + (sitesList o).count c + q'.count c + total h c
      ≤ n.sites.count c + q.count c + total h' c := by
  induction s with
  | refl => simp [sitesList_nil]
  | trans _ _ ih1 ih2 =>
    simp only [sitesList_append, List.count_append] at *
    omega
  | child k sp l r _ _ ih =>
    simp only [sites_mk, sitesList_append, sitesList_cons, List.count_append] at *
    omega
  | insert k sp l r _ _ ih =>
    simp only [sites_mk, sitesList_append, sitesList_cons, sitesList_nil, List.count_append,
      List.count_nil] at *
    omega
  | lose sp l r _ ih =>
    simp only [sites_mk, sitesList_append, sitesList_cons, sitesList_nil, List.count_append,
      List.count_nil] at *
    omega
  | register n q h op _ =>
    simp only [sitesList_nil, List.count_nil, List.count_append, total_concat]
    omega
  | emit n q1 d q2 h _ =>
    simp only [sitesList_cons, sites_counterStmt, sitesList_nil, List.count_append, List.count_cons,
      List.count_nil]
    omega
  | headBlock sp ss q1 d q2 h =>
    simp only [sites_mk, sitesList_cons, sites_counterStmt, sitesList_nil, List.count_append,
      List.count_cons, List.count_nil]
    omega
  | headCase sp test ss q1 d q2 h =>
    simp only [sites_mk, sitesList_cons, sites_counterStmt, sitesList_nil, List.count_append,
      List.count_cons, List.count_nil]
    omega
  | wrap k sp l e r q1 d q2 h _ _ =>
    simp only [sites_mk, sitesList_append, sitesList_cons, sites_wrapCounter, sitesList_nil,
      List.count_append, List.count_cons, List.count_nil]
    omega
  | truth k sp l e r q1 b a q2 h _ _ _ _ =>
    have h1 : (Counter.bT b a == c) = false := by
      simpa using fun h => hc b a h.symm
    simp only [sites_mk, sitesList_append, sitesList_cons, sites_wrapTruth, sitesList_nil,
      List.count_append, List.count_cons, List.count_nil, h1]
    simp
    omega
  | body k sp l s r q h _ _ _ =>
    simp only [sites_mk, sitesList_append, sitesList_cons, sitesList_nil, Kind.own,
      List.count_append, List.count_nil]
    omega
  | addElse sp test cons alt q h _ =>
    simp only [sites_mk, sitesList_cons, sitesList_nil, Kind.own,
      List.count_append, List.count_nil]
    omega
  | arrow a sp params e q h _ =>
    simp only [sites_mk, sitesList_cons, sitesList_nil, Kind.own,
      List.count_append, List.count_nil]
    omega

/-- No truthiness counter is placed more often than its arm was registered. -/
theorem truth_le {n q h n' q' h' o} (s : Steps cx n q h n' q' h' o) (i j : Nat) :
    n'.sites.count (.bT i j) + (sitesList o).count (.bT i j) + q'.count (.bT i j) + q'.count (.b i j)
        + total h (.b i j)
      ≤ n.sites.count (.bT i j) + q.count (.bT i j) + q.count (.b i j) + total h' (.b i j) := by
  induction s with
  | refl => simp [sitesList_nil]
  | trans _ _ ih1 ih2 =>
    simp only [sitesList_append, List.count_append] at *
    omega
  | child k sp l r _ _ ih =>
    simp only [sites_mk, sitesList_append, sitesList_cons, List.count_append] at *
    omega
  | insert k sp l r _ _ ih =>
    simp only [sites_mk, sitesList_append, sitesList_cons, sitesList_nil, List.count_append,
      List.count_nil] at *
    omega
  | lose sp l r _ ih =>
    simp only [sites_mk, sitesList_append, sitesList_cons, sitesList_nil, List.count_append,
      List.count_nil] at *
    omega
  | register n q h op _ =>
    have h1 : (op.counters h).count (.bT i j) = 0 := by
      cases op <;> simp [counters, List.count_cons]
    simp only [sitesList_nil, List.count_nil, List.count_append, total_concat, h1]
    omega
  | emit n q1 d q2 h _ =>
    simp only [sitesList_cons, sites_counterStmt, sitesList_nil, List.count_append, List.count_cons,
      List.count_nil]
    omega
  | headBlock sp ss q1 d q2 h =>
    simp only [sites_mk, sitesList_cons, sites_counterStmt, sitesList_nil, List.count_append,
      List.count_cons, List.count_nil]
    omega
  | headCase sp test ss q1 d q2 h =>
    simp only [sites_mk, sitesList_cons, sites_counterStmt, sitesList_nil, List.count_append,
      List.count_cons, List.count_nil]
    omega
  | wrap k sp l e r q1 d q2 h _ _ =>
    simp only [sites_mk, sitesList_append, sitesList_cons, sites_wrapCounter, sitesList_nil,
      List.count_append, List.count_cons, List.count_nil]
    omega
  | truth k sp l e r q1 b a q2 h _ _ _ _ =>
    have h1 : ((Counter.bT b a == .bT i j) : Bool) = (Counter.b b a == .b i j) := by
      rw [Bool.eq_iff_iff, beq_iff_eq, beq_iff_eq]
      constructor <;> (intro h; cases h; rfl)
    have h2 : (Counter.b b a == .bT i j) = false := by simp
    simp only [sites_mk, sitesList_append, sitesList_cons, sites_wrapTruth, sitesList_nil,
      List.count_append, List.count_cons, List.count_nil, h1, h2]
    simp
    omega
  | body k sp l s r q h _ _ _ =>
    simp only [sites_mk, sitesList_append, sitesList_cons, sitesList_nil, Kind.own,
      List.count_append, List.count_nil]
    omega
  | addElse sp test cons alt q h _ =>
    simp only [sites_mk, sitesList_cons, sitesList_nil, Kind.own,
      List.count_append, List.count_nil]
    omega
  | arrow a sp params e q h _ =>
    simp only [sites_mk, sitesList_cons, sitesList_nil, Kind.own,
      List.count_append, List.count_nil]
    omega

end Steps

/-! ### Quiet trees -/

namespace Node

theorem quiet_mk (k : Kind) (sp : Span) (cs : List Node) :
    quiet (mk k sp cs) = (!k.marks && quietList k true cs) := by rw [quiet]

theorem quietList_append (k : Kind) (f : Bool) (l r : List Node) :
    quietList k f (l ++ r) = (quietList k f l && quietList k (f && l.isEmpty) r) := by
  induction l generalizing f with
  | nil => simp [quietList]
  | cons c l ih =>
    simp only [List.cons_append, quietList, ih, List.isEmpty_cons, Bool.and_false, Bool.false_and,
      Bool.and_assoc]

theorem quietList_cons (k : Kind) (f : Bool) (c : Node) (l : List Node) :
    quietList k f (c :: l) = ((!k.carries f || quiet c) && quietList k false l) := by rw [quietList]

theorem quietList_of_not (k : Kind) (f : Bool) (h1 : k.carries f = false) (h2 : k.carries false = false)
    (l : List Node) : quietList k f l = true := by
  induction l generalizing f with
  | nil => rfl
  | cons c l ih =>
    rw [quietList_cons, ih false h2, h1]
    rfl

theorem quiet_block (sp : Span) (ss : List Node) : quiet (mk .block sp ss) = true := by
  rw [quiet_mk, quietList_of_not _ _ rfl rfl]
  rfl

theorem quiet_wrapCounter (c : Counter) (e : Node) : quiet (wrapCounter c e) = quiet e := by
  simp [wrapCounter, counterExpr, quiet_mk, quietList, Kind.marks, Kind.carries]

theorem quiet_wrapTruth (b a : Nat) (e : Node) : quiet (wrapTruth b a e) = quiet e := by
  have : quiet (truthCond b a) = true := rfl
  simp [wrapTruth, increaseTrue, counterExpr, tempTarget, tempExpr, quiet_mk, quietList, Kind.marks,
    Kind.carries, this]

theorem quietSwitchesList_eq (cs : List Node) : quietSwitchesList cs = cs.all quietSwitches := by
  induction cs with
  | nil => rfl
  | cons c cs ih => rw [quietSwitchesList, ih]; rfl

theorem quietSwitches_mk (k : Kind) (sp : Span) (cs : List Node) :
    quietSwitches (mk k sp cs) = ((!(k = .switchStmt) || cs.all quiet) && cs.all quietSwitches) := by
  rw [quietSwitches, quietSwitchesList_eq]

theorem quietSwitches_wrapTruth (b a : Nat) (e : Node) :
    quietSwitches (wrapTruth b a e) = quietSwitches e := by
  have : quietSwitches (truthCond b a) = true := rfl
  simp [wrapTruth, increaseTrue, counterExpr, tempTarget, tempExpr, quietSwitches_mk, this]

end Node

namespace Steps
variable {cx : Ctx}

/-- A quiet tree asks for nothing and stays quiet. -/
theorem quiet_keep {n q h n' q' h' o} (s : Steps cx n q h n' q' h' o) (hq : n.quiet = true) :
    n'.quiet = true ∧ o = [] := by
  induction s with
  | refl => exact ⟨hq, rfl⟩
  | trans _ _ ih1 ih2 =>
    obtain ⟨h1, rfl⟩ := ih1 hq
    obtain ⟨h2, rfl⟩ := ih2 h1
    exact ⟨h2, rfl⟩
  | child k sp l r hc _ ih =>
    simp only [quiet_mk, quietList_append, quietList_cons, Bool.true_and, Bool.and_eq_true,
      Bool.or_eq_true] at hq ⊢
    obtain ⟨h1, h2, h3, h4⟩ := hq
    rcases h3 with h3 | h3
    · refine ⟨⟨h1, h2, .inl h3, h4⟩, ?_⟩
      rcases hc with hc | hc
      · exact hc
      · rw [hc] at h3; cases h3
    · obtain ⟨h5, h6⟩ := ih h3
      exact ⟨⟨h1, h2, .inr h5, h4⟩, h6⟩
  | insert k sp l r hk _ ih =>
    refine ⟨?_, rfl⟩
    simp only [quiet_mk, quietList_append, quietList_cons, Bool.true_and, Bool.and_eq_true,
      Bool.or_eq_true, List.append_assoc] at hq ⊢
    obtain ⟨h1, h2, h3, h4⟩ := hq
    by_cases hc : k.carries l.isEmpty = true
    · rw [hc] at h3
      have h3 := h3.resolve_left (by simp)
      obtain ⟨h5, rfl⟩ := ih h3
      exact ⟨h1, h2, rfl, .inr h5, h4⟩
    · have hc' : k.carries false = false := by
        cases k <;> cases l <;> simp_all [Kind.carries, Kind.listPos]
      have hc : k.carries l.isEmpty = false := by simpa using hc
      refine ⟨h1, h2, quietList_of_not _ _ hc hc' _, .inl ?_, h4⟩
      cases hl : l.isEmpty with
      | false => simp [hc']
      | true =>
        rw [hl] at hc
        rw [Bool.true_and]
        generalize List.isEmpty _ = b
        cases b <;> simp [hc, hc']
  | lose => simp [quiet_mk, Kind.marks] at hq
  | register => exact ⟨hq, rfl⟩
  | emit _ _ _ _ _ hn => rw [hn] at hq; cases hq
  | headBlock => exact ⟨quiet_block _ _, rfl⟩
  | headCase =>
    simp only [quiet_mk, quietList_cons, Bool.and_eq_true, Bool.or_eq_true] at hq ⊢
    obtain ⟨h1, h2, h3⟩ := hq
    exact ⟨⟨h1, h2, .inl rfl, h3⟩, trivial⟩
  | wrap =>
    simp only [quiet_mk, quietList_append, quietList_cons, quiet_wrapCounter] at hq ⊢
    exact ⟨hq, trivial⟩
  | truth =>
    simp only [quiet_mk, quietList_append, quietList_cons, quiet_wrapTruth] at hq ⊢
    exact ⟨hq, trivial⟩
  | body k sp l s r q h hp _ _ =>
    exfalso
    unfold Kind.bodyPos at hp
    split at hp
    · simp [quiet_mk, Kind.marks] at hq
    · simp [quiet_mk, Kind.marks] at hq
    · simp [quiet_mk, Kind.marks] at hq
    · simp [quiet_mk, Kind.marks] at hq
    · cases hp
  | addElse => simp [quiet_mk, Kind.marks] at hq
  | arrow =>
    refine ⟨?_, rfl⟩
    rw [quiet_mk, quietList_cons, quietList_cons, Bool.and_eq_true, Bool.and_eq_true] at hq
    rw [quiet_mk, quietList_cons, quietList_cons, quiet_block, hq.1, hq.2.1, Bool.or_true]
    rfl

theorem quietSwitches_counters {o : List Node} (ho : ∀ x ∈ o, ∃ c, x = counterStmt c) :
    o.all quietSwitches = true := by
  rw [List.all_eq_true]
  intro x hx
  obtain ⟨c, rfl⟩ := ho x hx
  rfl

/-- Switch statements with quiet heads keep quiet heads. -/
theorem quietSwitches_keep {n q h n' q' h' o} (s : Steps cx n q h n' q' h' o)
    (hq : n.quietSwitches = true) : n'.quietSwitches = true := by
  induction s with
  | refl => exact hq
  | trans _ _ ih1 ih2 => exact ih2 (ih1 hq)
  | child k sp l r hc s ih =>
    simp only [quietSwitches_mk, List.all_append, List.all_cons, Bool.and_eq_true, Bool.or_eq_true] at hq ⊢
    obtain ⟨h1, h2, h3, h4⟩ := hq
    refine ⟨?_, h2, ih h3, h4⟩
    rcases h1 with h1 | ⟨h1, h5, h6⟩
    · exact .inl h1
    · exact .inr ⟨h1, (s.quiet_keep h5).1, h6⟩
  | insert k sp l r hk s ih =>
    simp only [quietSwitches_mk, List.all_append, List.all_cons, Bool.and_eq_true, Bool.or_eq_true] at hq ⊢
    obtain ⟨h1, h2, h3, h4⟩ := hq
    refine ⟨.inl ?_, ⟨h2, quietSwitches_counters s.out_counters⟩, ih h3, h4⟩
    cases k <;> simp_all [Kind.listPos]
  | lose sp l r s ih =>
    simp only [quietSwitches_mk, List.all_append, List.all_cons, Bool.and_eq_true, Bool.or_eq_true] at hq ⊢
    obtain ⟨h1, h2, h3, h4⟩ := hq
    refine ⟨?_, h2, ih h3, h4⟩
    rcases h1 with h1 | ⟨h1, h5, h6⟩
    · exact .inl h1
    · exact .inr ⟨h1, (s.quiet_keep h5).1, h6⟩
  | register => exact hq
  | emit => exact hq
  | headBlock => simpa [quietSwitches_mk, counterStmt, counterExpr] using hq
  | headCase => simpa [quietSwitches_mk, counterStmt, counterExpr] using hq
  | wrap k sp l e r q1 c q2 h hk =>
    have hk : k ≠ .switchStmt := by rintro rfl; cases hk
    simpa [quietSwitches_mk, wrapCounter, counterExpr, hk] using hq
  | truth k sp l e r q1 b a q2 h hk =>
    have hk : k ≠ .switchStmt := by rintro rfl; cases hk
    simpa [quietSwitches_mk, quietSwitches_wrapTruth, hk] using hq
  | body k sp l s r q h hp _ _ =>
    have hk : k ≠ .switchStmt := by rintro rfl; simp [Kind.bodyPos] at hp
    simpa [quietSwitches_mk, hk] using hq
  | addElse =>
    simp only [quietSwitches_mk, List.all_cons] at hq ⊢
    simp only [Bool.and_eq_true] at hq
    simp [hq.2.1, hq.2.2.1]
  | arrow => simpa [quietSwitches_mk] using hq

theorem sites_isNone {n : Node} (h : n.isNone = true) : n.sites = [] := by
  unfold Node.isNone at h
  split at h
  · rfl
  · cases h

/-- Statements asked for contain no other counters. -/
theorem count_out {n q h n' q' h' o} (s : Steps cx n q h n' q' h' o) {c : Counter}
    (hc : ∀ i, c ≠ .s i) : (sitesList o).count c = 0 := by
  have h := s.out_statements
  clear s
  induction o with
  | nil => rfl
  | cons x o ih =>
    obtain ⟨i, rfl⟩ := h x (by simp)
    have h1 : (Counter.s i == c) = false := by simpa using fun h => hc i h.symm
    rw [sitesList_cons, List.count_append, ih (fun y hy => h y (by simp [hy])), sites_counterStmt,
      List.count_cons, h1]
    rfl

/-- Every registered function counter and branch counter is placed; if switch heads are quiet, also every
statement counter. -/
theorem sites_eq {n q h n' q' h' o} (s : Steps cx n q h n' q' h' o)
    (c : Counter) (hq : n.quietSwitches = true ∨ ∀ i, c ≠ .s i) (hc : ∀ i a, c ≠ .bT i a) :
    n'.sites.count c + (sitesList o).count c + q'.count c + total h c
      = n.sites.count c + q.count c + total h' c := by
  induction s with
  | refl => simp [sitesList_nil]
  | trans s1 _ ih1 ih2 =>
    have h1 := ih1 hq
    have h2 := ih2 (hq.imp s1.quietSwitches_keep id)
    simp only [sitesList_append, List.count_append] at *
    omega
  | child k sp l r _ _ ih =>
    have ih := ih (hq.imp (fun hq => by
      simp only [quietSwitches_mk, List.all_append, List.all_cons, Bool.and_eq_true] at hq
      exact hq.2.2.1) id)
    simp only [sites_mk, sitesList_append, sitesList_cons, List.count_append] at *
    omega
  | insert k sp l r _ _ ih =>
    have ih := ih (hq.imp (fun hq => by
      simp only [quietSwitches_mk, List.all_append, List.all_cons, Bool.and_eq_true] at hq
      exact hq.2.2.1) id)
    simp only [sites_mk, sitesList_append, sitesList_cons, sitesList_nil, List.count_append,
      List.count_nil] at *
    omega
  | @lose _ _ _ _ _ _ o sp l r s ih =>
    have h0 : (sitesList o).count c = 0 := by
      rcases hq with hq | hq
      · simp only [quietSwitches_mk, List.all_append, List.all_cons, Bool.and_eq_true, Bool.or_eq_true] at hq
        rcases hq.1 with h1 | h1
        · simp at h1
        · obtain ⟨_, ho⟩ := s.quiet_keep h1.2.1
          rw [ho]; rfl
      · exact s.count_out hq
    have ih := ih (hq.imp (fun hq => by
      simp only [quietSwitches_mk, List.all_append, List.all_cons, Bool.and_eq_true] at hq
      exact hq.2.2.1) id)
    simp only [sites_mk, sitesList_append, sitesList_cons, sitesList_nil, List.count_append,
      List.count_nil] at *
    omega
  | register n q h op _ =>
    simp only [sitesList_nil, List.count_nil, List.count_append, total_concat]
    omega
  | emit n q1 d q2 h _ =>
    simp only [sitesList_cons, sites_counterStmt, sitesList_nil, List.count_append, List.count_cons,
      List.count_nil]
    omega
  | headBlock sp ss q1 d q2 h =>
    simp only [sites_mk, sitesList_cons, sites_counterStmt, sitesList_nil, List.count_append,
      List.count_cons, List.count_nil]
    omega
  | headCase sp test ss q1 d q2 h =>
    simp only [sites_mk, sitesList_cons, sites_counterStmt, sitesList_nil, List.count_append,
      List.count_cons, List.count_nil]
    omega
  | wrap k sp l e r q1 d q2 h _ _ =>
    simp only [sites_mk, sitesList_append, sitesList_cons, sites_wrapCounter, sitesList_nil,
      List.count_append, List.count_cons, List.count_nil]
    omega
  | truth k sp l e r q1 b a q2 h _ _ _ _ =>
    have h1 : (Counter.bT b a == c) = false := by
      simpa using fun h => hc b a h.symm
    simp only [sites_mk, sitesList_append, sitesList_cons, sites_wrapTruth, sitesList_nil,
      List.count_append, List.count_cons, List.count_nil, h1]
    simp
    omega
  | body k sp l s r q h _ _ _ =>
    simp only [sites_mk, sitesList_append, sitesList_cons, sitesList_nil, Kind.own,
      List.count_append, List.count_nil]
    omega
  | addElse sp test cons alt q h hn =>
    simp only [sites_mk, sitesList_cons, sitesList_nil, Kind.own, sites_isNone hn,
      List.count_append, List.count_nil]
    omega
  | arrow a sp params e q h _ =>
    simp only [sites_mk, sitesList_cons, sitesList_nil, Kind.own,
      List.count_append, List.count_nil]
    omega

/-- Only with `reportLogic` branches are registered as having truthiness counts. -/
theorem flags {n q h n' q' h' o} (s : Steps cx n q h n' q' h' o)
    (hb : ∀ x ∈ branches h, isTruth x = true → cx.reportLogic = true) :
    ∀ x ∈ branches h', isTruth x = true → cx.reportLogic = true := by
  induction s with
  | trans _ _ ih1 ih2 => exact ih2 (ih1 hb)
  | child _ _ _ _ _ _ ih => exact ih hb
  | insert _ _ _ _ _ _ ih => exact ih hb
  | lose _ _ _ _ ih => exact ih hb
  | register n q h op hs =>
    intro x hx ht
    rw [branches_concat] at hx
    rcases List.mem_append.1 hx with hx | hx
    · exact hb x hx ht
    · cases op with
      | branch t l g =>
        simp only [List.mem_singleton] at hx
        subst hx
        simp only [isTruth, Bool.and_eq_true] at ht
        rw [hs.2.2, Bool.and_eq_true] at ht
        grind
      | _ => cases hx
  | _ => exact hb

/-- Truthiness counters are only placed with `reportLogic`, for arms of logical branches. -/
theorem truth_mem {n q h n' q' h' o} (s : Steps cx n q h n' q' h' o) (i j : Nat)
    (hm : .bT i j ∈ n'.sites ∨ .bT i j ∈ sitesList o ∨ .bT i j ∈ q') :
    (.bT i j ∈ n.sites ∨ .bT i j ∈ q) ∨ (cx.reportLogic = true ∧ LogicalBranch cx h' i) := by
  induction s with
  | refl => left; simpa [sitesList_nil] using hm
  | trans s1 s2 ih1 ih2 =>
    simp only [sitesList_append, List.mem_append] at hm
    have key : ∀ {h1 h2 : List RegOp}, h1 <+: h2 → ∀ {A : Prop},
        (A ∨ (cx.reportLogic = true ∧ LogicalBranch cx h1 i)) →
        A ∨ (cx.reportLogic = true ∧ LogicalBranch cx h2 i) :=
      fun hp _ hx => hx.imp id fun hx => ⟨hx.1, hx.2.mono hp⟩
    rcases hm with hm | (hm | hm) | hm
    · rcases ih2 (.inl hm) with (h1 | h1) | h1
      · exact key s2.pre (ih1 (.inl h1))
      · exact key s2.pre (ih1 (.inr (.inr h1)))
      · exact .inr h1
    · exact key s2.pre (ih1 (.inr (.inl hm)))
    · rcases ih2 (.inr (.inl hm)) with (h1 | h1) | h1
      · exact key s2.pre (ih1 (.inl h1))
      · exact key s2.pre (ih1 (.inr (.inr h1)))
      · exact .inr h1
    · rcases ih2 (.inr (.inr hm)) with (h1 | h1) | h1
      · exact key s2.pre (ih1 (.inl h1))
      · exact key s2.pre (ih1 (.inr (.inr h1)))
      · exact .inr h1
  | child k sp l r _ _ ih =>
    simp only [sites_mk, sitesList_append, sitesList_cons, List.mem_append] at *
    grind
  | insert k sp l r _ _ ih =>
    simp only [sites_mk, sitesList_append, sitesList_cons, sitesList_nil, List.mem_append] at *
    grind
  | lose sp l r _ ih =>
    simp only [sites_mk, sitesList_append, sitesList_cons, sitesList_nil, List.mem_append] at *
    grind
  | register n q h op _ =>
    have h1 : .bT i j ∉ op.counters h := by cases op <;> simp [counters]
    simp only [sitesList_nil, List.mem_append] at *
    grind
  | emit n q1 d q2 h _ =>
    simp only [sitesList_cons, sites_counterStmt, sitesList_nil, List.mem_append, List.mem_cons] at *
    grind
  | headBlock sp ss q1 d q2 h =>
    simp only [sites_mk, sitesList_cons, sites_counterStmt, sitesList_nil, List.mem_append,
      List.mem_cons] at *
    grind
  | headCase sp test ss q1 d q2 h =>
    simp only [sites_mk, sitesList_cons, sites_counterStmt, sitesList_nil, List.mem_append,
      List.mem_cons] at *
    grind
  | wrap k sp l e r q1 d q2 h _ _ =>
    simp only [sites_mk, sitesList_append, sitesList_cons, sites_wrapCounter, sitesList_nil,
      List.mem_append, List.mem_cons] at *
    grind
  | truth k sp l e r q1 b a q2 h _ _ h1 h2 =>
    simp only [sites_mk, sitesList_append, sitesList_cons, sites_wrapTruth, sitesList_nil,
      List.mem_append, List.mem_cons] at *
    grind
  | body k sp l s r q h _ _ _ =>
    simp only [sites_mk, sitesList_append, sitesList_cons, sitesList_nil, Kind.own,
      List.mem_append] at *
    grind
  | addElse sp test cons alt q h _ =>
    simp only [sites_mk, sitesList_cons, sitesList_nil, Kind.own, List.mem_append] at *
    grind
  | arrow a sp params e q h _ =>
    simp only [sites_mk, sitesList_cons, sitesList_nil, Kind.own, List.mem_append] at *
    grind

end Steps
end Verif
