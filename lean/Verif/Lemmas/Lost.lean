import Verif.Spec.Lost
import Verif.Lemmas.StepsInv
/-
Where the lost statement counters come from.
-/
namespace Verif
open Node RegOp

/-- All of `A` that is not of the dummy span is in `B`. -/
def Within (A B : List Span) : Prop := ∀ x ∈ A, x = Span.dummy ∨ x ∈ B

namespace Within

theorem refl (A : List Span) : Within A A := fun _ h => .inr h

theorem nil (A : List Span) : Within [] A := nofun

theorem trans {A B C : List Span} (h1 : Within A B) (h2 : Within B C) : Within A C := by
  intro x hx
  rcases h1 x hx with h | h
  · exact .inl h
  · exact h2 x h

theorem append {A B C D : List Span} (h1 : Within A B) (h2 : Within C D) : Within (A ++ C) (B ++ D) := by
  intro x hx
  rcases List.mem_append.1 hx with h | h
  · exact (h1 x h).imp id (List.mem_append_left _)
  · exact (h2 x h).imp id (List.mem_append_right _)

theorem ite {A B : List Span} (b : Bool) (h : Within A B) :
    Within (if b = true then A else []) (if b = true then B else []) := by
  cases b
  · exact nil _
  · exact h

theorem dummy {A B : List Span} (h : ∀ x ∈ A, x = Span.dummy) : Within A B := fun x hx => .inl (h x hx)

end Within

namespace Node

theorem asks_mk (k : Kind) (sp : Span) (cs : List Node) : asks (mk k sp cs) =
    (if k.marks then [sp] else []) ++ (if k.inits then cs.map span else []) ++ asksList k true cs := by
  rw [asks]

theorem asksList_cons (k : Kind) (f : Bool) (c : Node) (cs : List Node) :
    asksList k f (c :: cs) = (if k.carries f then asks c else []) ++ asksList k false cs := by
  rw [asksList]

theorem asksList_nil (k : Kind) (f : Bool) : asksList k f [] = [] := by rw [asksList]

theorem asksList_append (k : Kind) (f : Bool) (l r : List Node) :
    asksList k f (l ++ r) = asksList k f l ++ asksList k (f && l.isEmpty) r := by
  induction l generalizing f with
  | nil => simp [asksList_nil]
  | cons c l ih =>
    simp only [List.cons_append, asksList_cons, ih, List.isEmpty_cons, Bool.and_false, Bool.false_and,
      List.append_assoc]

theorem asksList_of_not (k : Kind) (f : Bool) (h1 : k.carries f = false) (h2 : k.carries false = false)
    (l : List Node) : asksList k f l = [] := by
  induction l generalizing f with
  | nil => exact asksList_nil _ _
  | cons c l ih =>
    rw [asksList_cons, ih false h2, h1]
    rfl

theorem asks_block (sp : Span) (ss : List Node) : asks (mk .block sp ss) = [] := by
  rw [asks_mk, asksList_of_not _ _ rfl rfl]
  rfl

theorem asks_wrapCounter (c : Counter) (e : Node) : asks (wrapCounter c e) = asks e := by
  simp [wrapCounter, counterExpr, asks_mk, asksList, Kind.marks, Kind.carries, Kind.inits]

theorem asks_wrapTruth (b a : Nat) (e : Node) : asks (wrapTruth b a e) = asks e := by
  have : asks (truthCond b a) = [] := rfl
  simp [wrapTruth, increaseTrue, counterExpr, tempTarget, tempExpr, asks_mk, asksList, Kind.marks,
    Kind.carries, Kind.inits, this]

theorem lostSpansList_eq (cs : List Node) : lostSpansList cs = cs.flatMap lostSpans := by
  induction cs with
  | nil => rfl
  | cons c cs ih => rw [lostSpansList, ih]; rfl

theorem lostSpans_mk (k : Kind) (sp : Span) (cs : List Node) : lostSpans (mk k sp cs) =
    (if k = .switchStmt then cs.flatMap asks else []) ++ cs.flatMap lostSpans := by
  rw [lostSpans, lostSpansList_eq]

theorem lostSpans_wrapCounter (c : Counter) (e : Node) : lostSpans (wrapCounter c e) = lostSpans e := by
  simp [wrapCounter, counterExpr, lostSpans_mk]

theorem lostSpans_wrapTruth (b a : Nat) (e : Node) : lostSpans (wrapTruth b a e) = lostSpans e := by
  have : lostSpans (truthCond b a) = [] := rfl
  simp [wrapTruth, increaseTrue, counterExpr, tempTarget, tempExpr, lostSpans_mk, this]

/-- Replacing a child by one that asks for no more. -/
theorem asks_replace (k : Kind) (sp : Span) (l : List Node) {c c' : Node} (r : List Node)
    (hs : c'.span = c.span ∨ c'.span = Span.dummy) (ha : Within (asks c') (asks c)) :
    Within (asks (mk k sp (l ++ c' :: r))) (asks (mk k sp (l ++ c :: r))) := by
  rw [asks_mk, asks_mk, asksList_append, asksList_append, asksList_cons, asksList_cons]
  refine .append (.append (.refl _) (.ite _ ?_)) (.append (.refl _) (.append (.ite _ ha) (.refl _)))
  rw [List.map_append, List.map_append, List.map_cons, List.map_cons]
  refine .append (.refl _) (.append (A := [c'.span]) (B := [c.span]) ?_ (.refl _))
  intro x hx
  rw [List.mem_singleton] at hx
  subst hx
  rcases hs with h | h
  · exact .inr (by simp [h])
  · exact .inl h

/-- Replacing a child by one that asks for no more and loses no more. -/
theorem lost_replace (k : Kind) (sp : Span) (l : List Node) {c c' : Node} (r : List Node)
    (ha : k = .switchStmt → Within (asks c') (asks c)) (hl : Within (lostSpans c') (lostSpans c)) :
    Within (lostSpans (mk k sp (l ++ c' :: r))) (lostSpans (mk k sp (l ++ c :: r))) := by
  rw [lostSpans_mk, lostSpans_mk]
  simp only [List.flatMap_append, List.flatMap_cons]
  refine .append ?_ (.append (.refl _) (.append hl (.refl _)))
  split
  · next h => exact .append (.refl _) (.append (ha h) (.refl _))
  · exact .nil _

theorem lostSpans_isNone {n : Node} (h : n.isNone = true) : lostSpans n = [] := by
  unfold Node.isNone at h
  split at h
  · rfl
  · cases h

theorem asksList_flag {k : Kind} (hk : ∀ b, k.carries b = true) (f g : Bool) (l : List Node) :
    asksList k f l = asksList k g l := by
  cases l with
  | nil => rw [asksList_nil, asksList_nil]
  | cons c l => rw [asksList_cons, asksList_cons, hk, hk]

theorem asksList_counters (k : Kind) (f : Bool) {o : List Node} (ho : ∀ x ∈ o, ∃ c, x = counterStmt c) :
    Within (asksList k f o) [] := by
  induction o generalizing f with
  | nil => rw [asksList_nil]; exact .nil _
  | cons x o ih =>
    rw [asksList_cons]
    obtain ⟨c, rfl⟩ := ho x (List.mem_cons_self ..)
    refine .append (B := []) (.dummy ?_) (ih _ fun x hx => ho x (List.mem_cons_of_mem _ hx))
    intro x hx
    split at hx
    · exact List.mem_singleton.1 hx
    · cases hx

/-- Inserting counters asks for nothing new. -/
theorem asks_insert {k : Kind} (hk : ∀ b, k.carries b = true) (hi : k.inits = false) (sp : Span)
    (l r : List Node) (c : Node) {o : List Node} (ho : ∀ x ∈ o, ∃ c, x = counterStmt c) :
    Within (asks (mk k sp (l ++ o ++ c :: r))) (asks (mk k sp (l ++ c :: r))) := by
  rw [asks_mk, asks_mk, hi, asksList_append, asksList_append, asksList_append,
    asksList_flag hk (true && (l ++ o).isEmpty) (true && l.isEmpty)]
  refine .append (.refl _) (.append ?_ (.refl _))
  have := Within.append (.refl (asksList k true l)) (asksList_counters k (true && l.isEmpty) ho)
  rwa [List.append_nil] at this

/-- Inserting counters loses nothing. -/
theorem lost_insert {k : Kind} (hk : k ≠ .switchStmt) (sp : Span)
    (l r : List Node) (c : Node) {o : List Node} (ho : ∀ x ∈ o, ∃ c, x = counterStmt c) :
    lostSpans (mk k sp (l ++ o ++ c :: r)) = lostSpans (mk k sp (l ++ c :: r)) := by
  have : o.flatMap lostSpans = [] := by
    rw [List.flatMap_eq_nil_iff]
    intro x hx
    obtain ⟨c, rfl⟩ := ho x hx
    rfl
  simp [lostSpans_mk, hk, this]

mutual
/-- A tree asks for something iff it is not quiet. -/
theorem asks_eq_nil : ∀ n : Node, asks n = [] ↔ quiet n = true
  | mk k sp cs => by
    rw [asks_mk, quiet_mk, List.append_eq_nil_iff, List.append_eq_nil_iff, asksList_eq_nil k true cs]
    cases k <;> simp [Kind.marks, Kind.inits]

/-- `asks_eq_nil` on lists. -/
theorem asksList_eq_nil (k : Kind) (f : Bool) : ∀ cs : List Node, asksList k f cs = [] ↔ quietList k f cs = true
  | [] => by rw [asksList_nil, quietList]; simp
  | c :: cs => by
    rw [asksList_cons, quietList_cons, List.append_eq_nil_iff, asksList_eq_nil k false cs]
    cases k.carries f <;> simp [asks_eq_nil c]
end

mutual
/-- Something can be lost iff there is a switch statement whose head asks for something. -/
theorem lostSpans_eq_nil : ∀ n : Node, lostSpans n = [] ↔ quietSwitches n = true
  | mk k sp cs => by
    rw [lostSpans, quietSwitches, List.append_eq_nil_iff, lostSpansList_eq_nil cs]
    by_cases hk : k = .switchStmt
    · simp [hk, List.flatMap_eq_nil_iff, asks_eq_nil]
    · simp [hk]

/-- `lostSpans_eq_nil` on lists. -/
theorem lostSpansList_eq_nil : ∀ cs : List Node, lostSpansList cs = [] ↔ quietSwitchesList cs = true
  | [] => by rw [lostSpansList, quietSwitchesList]; simp
  | c :: cs => by
    rw [lostSpansList, quietSwitchesList, List.append_eq_nil_iff, lostSpans_eq_nil c, lostSpansList_eq_nil cs]
    simp
end

end Node

namespace Steps
variable {cx : Ctx}

/-- Steps ask for nothing new. -/
theorem asks_from {n q h n' q' h' o} (s : Steps cx n q h n' q' h' o) : Within n'.asks n.asks := by
  induction s with
  | refl => exact .refl _
  | trans _ _ ih1 ih2 => exact ih2.trans ih1
  | child k sp l r _ s ih => exact asks_replace _ _ _ _ (.inl s.root.2) ih
  | insert k sp l r hk s ih =>
    refine Within.trans (B := asks (mk k sp (l ++ _ :: r))) ?_ (asks_replace _ _ _ _ (.inl s.root.2) ih)
    cases k <;> try (simp [Kind.listPos] at hk; done)
    · rw [asks_block]; exact .nil _
    · cases l with
      | nil => simp [Kind.listPos] at hk
      | cons t l =>
        simp only [List.cons_append, asks_mk, asksList_cons, asksList_of_not .switchCase false rfl rfl]
        exact .refl _
    all_goals exact asks_insert (fun _ => rfl) rfl _ _ _ _ s.out_counters
  | lose sp l r s ih => exact asks_replace _ _ _ _ (.inl s.root.2) ih
  | register => exact .refl _
  | emit => exact .refl _
  | headBlock => rw [asks_block]; exact .nil _
  | headCase =>
    simp only [asks_mk, asksList_cons, asksList_of_not .switchCase false rfl rfl]
    exact .refl _
  | wrap => exact asks_replace _ _ _ _ (.inr rfl) (by rw [asks_wrapCounter]; exact .refl _)
  | truth => exact asks_replace _ _ _ _ (.inr rfl) (by rw [asks_wrapTruth]; exact .refl _)
  | body => exact asks_replace _ _ _ _ (.inr rfl) (by rw [asks_block]; exact .nil _)
  | addElse sp test cons alt q h hn =>
    exact asks_replace .ifStmt sp [test, cons] [] (.inr rfl) (by rw [asks_block]; exact .nil _)
  | arrow a sp params e q h hn =>
    exact asks_replace (.arrow a) sp [params] [] (.inr rfl) (by rw [asks_block]; exact .nil _)

/-- Steps lose nothing new. -/
theorem lost_from {n q h n' q' h' o} (s : Steps cx n q h n' q' h' o) : Within n'.lostSpans n.lostSpans := by
  induction s with
  | refl => exact .refl _
  | trans _ _ ih1 ih2 => exact ih2.trans ih1
  | child k sp l r _ s ih => exact lost_replace _ _ _ _ (fun _ => s.asks_from) ih
  | insert k sp l r hk s ih =>
    have hk : k ≠ .switchStmt := by rintro rfl; cases hk
    rw [lost_insert hk _ _ _ _ s.out_counters]
    exact lost_replace _ _ _ _ (fun h => (hk h).elim) ih
  | lose sp l r s ih => exact lost_replace _ _ _ _ (fun _ => s.asks_from) ih
  | register => exact .refl _
  | emit => exact .refl _
  | headBlock sp ss q1 c q2 h =>
    have h1 : lostSpans (counterStmt c) = [] := rfl
    simp only [lostSpans_mk, List.flatMap_cons, h1]
    exact .refl _
  | headCase sp t ss q1 c q2 h =>
    have h1 : lostSpans (counterStmt c) = [] := rfl
    simp only [lostSpans_mk, List.flatMap_cons, h1]
    exact .refl _
  | wrap k sp l e r q1 c q2 h hk =>
    exact lost_replace _ _ _ _ (by rintro rfl; cases hk) (by rw [lostSpans_wrapCounter]; exact .refl _)
  | truth k sp l e r q1 b a q2 h hk =>
    exact lost_replace _ _ _ _ (by rintro rfl; cases hk) (by rw [lostSpans_wrapTruth]; exact .refl _)
  | body k sp l s r q h hp _ _ =>
    refine lost_replace _ _ _ _ (by rintro rfl; simp [Kind.bodyPos] at hp) ?_
    simp only [lostSpans_mk, List.flatMap_cons, List.flatMap_nil, List.append_nil]
    exact .refl _
  | addElse sp test cons alt q h hn =>
    exact lost_replace .ifStmt sp [test, cons] [] nofun (.nil _)
  | arrow a sp params e q h hn =>
    refine lost_replace (.arrow a) sp [params] [] nofun ?_
    simp only [lostSpans_mk, List.flatMap_cons, List.flatMap_nil, List.append_nil]
    exact .refl _

/-- What was registered as a statement stays so. -/
theorem statements_keep {n q h n' q' h' o} (s : Steps cx n q h n' q' h' o) {i : Nat} {r : Range}
    (hi : (statements h)[i]? = some r) : (statements h')[i]? = some r := by
  have := s.pre
  obtain ⟨t, rfl⟩ := this
  obtain ⟨hl, -⟩ := List.getElem?_eq_some_iff.1 hi
  have h1 : statements (h ++ t) = statements h ++ statements t := List.filterMap_append
  rw [h1, List.getElem?_append_left hl]
  exact hi

/-- What is asked for is asked for by the tree. -/
theorem out_asked {n q h n' q' h' o} (s : Steps cx n q h n' q' h' o) {i : Nat} :
    counterStmt (.s i) ∈ o →
      ∃ r sp, (statements h')[i]? = some r ∧ r = cx.range sp ∧ (sp = Span.dummy ∨ sp ∈ n.asks) := by
  induction s with
  | trans s1 s2 ih1 ih2 =>
    intro hx
    rcases List.mem_append.1 hx with hx | hx
    · obtain ⟨r, sp, h1, h2, h3⟩ := ih1 hx
      exact ⟨r, sp, s2.statements_keep h1, h2, h3⟩
    · obtain ⟨r, sp, h1, h2, h3⟩ := ih2 hx
      exact ⟨r, sp, h1, h2, h3.elim .inl (s1.asks_from sp)⟩
  | child k sp l r hc s ih =>
    intro hx
    obtain ⟨x, p, h1, h2, h3⟩ := ih hx
    refine ⟨x, p, h1, h2, h3.imp id fun h3 => ?_⟩
    have hc := hc.resolve_left (List.ne_nil_of_mem hx)
    rw [asks_mk, asksList_append, asksList_cons, Bool.true_and, hc]
    simp [h3]
  | emit n q1 j q2 h hn ha =>
    intro hx
    have hx := List.mem_singleton.1 hx
    have : i = j := by injection hx with _ _ h; injection h with h; injection h with _ _ h; simp_all
    subst this
    obtain ⟨r, h1, h2⟩ := ha
    obtain ⟨k, sp, cs⟩ := n
    rcases h2 with ⟨hm, h2⟩ | ⟨hm, e, he, h2⟩
    · refine ⟨r, sp, h1, h2, .inr ?_⟩
      have hm : k.marks = true := hm
      rw [asks_mk, hm]
      simp
    · refine ⟨r, e.span, h1, h2, .inr ?_⟩
      have hm : k.inits = true := hm
      rw [asks_mk, hm]
      have := List.mem_map_of_mem (f := Node.span) he
      simp only [List.mem_append]
      exact .inl (.inr this)
  | _ => intro hx; cases hx

/-- The counters that are lost come from switch heads. -/
theorem sites_lost {n q h n' q' h' o} (s : Steps cx n q h n' q' h' o) (i : Nat) :
    ∃ k, n'.sites.count (.s i) + (sitesList o).count (.s i) + q'.count (.s i) + total h (.s i) + k
        = n.sites.count (.s i) + q.count (.s i) + total h' (.s i) ∧
      (0 < k → ∃ r sp, (statements h')[i]? = some r ∧ r = cx.range sp ∧
        (sp = Span.dummy ∨ sp ∈ n.lostSpans)) := by
  induction s with
  | refl => exact ⟨0, by simp [sitesList_nil], nofun⟩
  | trans s1 s2 ih1 ih2 =>
    obtain ⟨k1, h1, h2⟩ := ih1
    obtain ⟨k2, h3, h4⟩ := ih2
    refine ⟨k1 + k2, ?_, fun hk => ?_⟩
    · simp only [sitesList_append, List.count_append] at *
      omega
    · by_cases h5 : 0 < k1
      · obtain ⟨r, sp, e1, e2, e3⟩ := h2 h5
        exact ⟨r, sp, s2.statements_keep e1, e2, e3⟩
      · obtain ⟨r, sp, e1, e2, e3⟩ := h4 (by omega)
        exact ⟨r, sp, e1, e2, e3.elim .inl (s1.lost_from sp)⟩
  | child k sp l r _ _ ih =>
    obtain ⟨j, h1, h2⟩ := ih
    refine ⟨j, ?_, fun hj => ?_⟩
    · simp only [sites_mk, sitesList_append, sitesList_cons, List.count_append] at *
      omega
    · obtain ⟨x, p, e1, e2, e3⟩ := h2 hj
      refine ⟨x, p, e1, e2, e3.imp id fun e3 => ?_⟩
      rw [lostSpans_mk]
      simp [e3]
  | insert k sp l r _ _ ih =>
    obtain ⟨j, h1, h2⟩ := ih
    refine ⟨j, ?_, fun hj => ?_⟩
    · simp only [sites_mk, sitesList_append, sitesList_cons, sitesList_nil, List.count_append,
        List.count_nil] at *
      omega
    · obtain ⟨x, p, e1, e2, e3⟩ := h2 hj
      refine ⟨x, p, e1, e2, e3.imp id fun e3 => ?_⟩
      rw [lostSpans_mk]
      simp [e3]
  | @lose c q h c' q' h' o sp l r s ih =>
    obtain ⟨j, h1, h2⟩ := ih
    refine ⟨j + (sitesList o).count (.s i), ?_, fun hj => ?_⟩
    · simp only [sites_mk, sitesList_append, sitesList_cons, sitesList_nil, List.count_append,
        List.count_nil] at *
      omega
    · by_cases hj' : 0 < j
      · obtain ⟨x, p, e1, e2, e3⟩ := h2 hj'
        refine ⟨x, p, e1, e2, e3.imp id fun e3 => ?_⟩
        rw [lostSpans_mk]
        simp [e3]
      · have hm : Counter.s i ∈ sitesList o := List.count_pos_iff.1 (by omega)
        have hm : counterStmt (.s i) ∈ o := by
          have ho := s.out_statements
          clear h1 h2 s hj
          induction o with
          | nil => cases hm
          | cons x o iho =>
            obtain ⟨i', rfl⟩ := ho x (List.mem_cons_self ..)
            rw [sitesList_cons, sites_counterStmt] at hm
            rcases List.mem_append.1 hm with hm | hm
            · rw [List.mem_singleton.1 hm]
              exact List.mem_cons_self ..
            · exact List.mem_cons_of_mem _ (iho hm fun x hx => ho x (List.mem_cons_of_mem _ hx))
        obtain ⟨x, p, e1, e2, e3⟩ := s.out_asked hm
        refine ⟨x, p, e1, e2, e3.imp id fun e3 => ?_⟩
        rw [lostSpans_mk, if_pos rfl]
        simp [e3]
  | register n q h op _ =>
    refine ⟨0, ?_, nofun⟩
    simp only [sitesList_nil, List.count_nil, List.count_append, total_concat]
    omega
  | emit n q1 d q2 h _ =>
    refine ⟨0, ?_, nofun⟩
    simp only [sitesList_cons, sites_counterStmt, sitesList_nil, List.count_append, List.count_cons,
      List.count_nil]
    omega
  | headBlock sp ss q1 d q2 h =>
    refine ⟨0, ?_, nofun⟩
    simp only [sites_mk, sitesList_cons, sites_counterStmt, sitesList_nil, List.count_append,
      List.count_cons, List.count_nil]
    omega
  | headCase sp test ss q1 d q2 h =>
    refine ⟨0, ?_, nofun⟩
    simp only [sites_mk, sitesList_cons, sites_counterStmt, sitesList_nil, List.count_append,
      List.count_cons, List.count_nil]
    omega
  | wrap k sp l e r q1 d q2 h _ _ =>
    refine ⟨0, ?_, nofun⟩
    simp only [sites_mk, sitesList_append, sitesList_cons, sites_wrapCounter, sitesList_nil,
      List.count_append, List.count_cons, List.count_nil]
    omega
  | truth k sp l e r q1 b a q2 h _ _ _ _ =>
    refine ⟨0, ?_, nofun⟩
    have h1 : (Counter.bT b a == .s i) = false := by simp
    simp only [sites_mk, sitesList_append, sitesList_cons, sites_wrapTruth, sitesList_nil,
      List.count_append, List.count_cons, List.count_nil, h1]
    simp
  | body k sp l s r q h _ _ _ =>
    refine ⟨0, ?_, nofun⟩
    simp only [sites_mk, sitesList_append, sitesList_cons, sitesList_nil, Kind.own,
      List.count_append, List.count_nil]
    omega
  | addElse sp test cons alt q h hn =>
    refine ⟨0, ?_, nofun⟩
    have := sites_isNone hn
    simp only [sites_mk, sitesList_cons, sitesList_nil, Kind.own, this,
      List.count_append, List.count_nil]
    omega
  | arrow a sp params e q h _ =>
    refine ⟨0, ?_, nofun⟩
    simp only [sites_mk, sitesList_cons, sitesList_nil, Kind.own,
      List.count_append, List.count_nil]
    omega

end Steps
end Verif
