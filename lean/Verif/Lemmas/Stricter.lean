import Verif.Spec.Stricter
/-
The outline of a program where more is excluded.
-/
namespace Verif
open Node

namespace Fewer
variable {α β : Type} {R : α → β → Prop}

theorem none : ∀ l : List β, Fewer R [] l
  | [] => .nil
  | _ :: l => .drop (none l)

theorem append {a a' : List α} {b b' : List β} (h : Fewer R a b) (h' : Fewer R a' b') : Fewer R (a ++ a') (b ++ b') := by
  induction h with
  | nil => exact h'
  | drop _ ih => exact .drop ih
  | keep r _ ih => exact .keep r ih

theorem refl {R : α → α → Prop} (h : ∀ a, R a a) : ∀ l : List α, Fewer R l l
  | [] => .nil
  | a :: l => .keep (h a) (refl h l)

theorem flatten {a : List (List α)} {b : List (List β)} (h : List.Forall₂ (Fewer R) a b) : Fewer R a.flatten b.flatten := by
  induction h with
  | nil => exact .nil
  | cons h _ ih => exact h.append ih

theorem flatMap {γ : Type} {f : γ → List α} {g : γ → List β} (l : List γ) (h : ∀ c ∈ l, Fewer R (f c) (g c)) :
    Fewer R (l.flatMap f) (l.flatMap g) := by
  induction l with
  | nil => exact .nil
  | cons c l ih => exact (h c List.mem_cons_self).append (ih fun x hx => h x (List.mem_cons_of_mem _ hx))

theorem length_le {a : List α} {b : List β} (h : Fewer R a b) : a.length ≤ b.length := by
  induction h with
  | nil => exact Nat.le_refl _
  | drop _ ih => exact Nat.le_succ_of_le ih
  | keep _ _ ih => exact Nat.succ_le_succ ih

theorem mem {a : List α} {b : List β} (h : Fewer R a b) : ∀ x ∈ a, ∃ y ∈ b, R x y := by
  induction h with
  | nil => intro x hx; cases hx
  | drop _ ih =>
    intro x hx
    obtain ⟨y, hy, r⟩ := ih x hx
    exact ⟨y, List.mem_cons_of_mem _ hy, r⟩
  | keep r _ ih =>
    intro x hx
    cases hx with
    | head => exact ⟨_, List.mem_cons_self, r⟩
    | tail _ hx =>
      obtain ⟨y, hy, r⟩ := ih x hx
      exact ⟨y, List.mem_cons_of_mem _ hy, r⟩

/-- Where the elements come from. -/
theorem places {a : List α} {b : List β} (h : Fewer R a b) : ∃ f : Nat → Nat, (∀ i j, i < j → f i < f j) ∧
    ∀ (i : Nat) (x : α), a[i]? = some x → ∃ y, b[f i]? = some y ∧ R x y := by
  induction h with
  | nil => exact ⟨id, fun _ _ h => h, fun i x hx => by cases hx⟩
  | drop _ ih =>
    obtain ⟨f, hf, h⟩ := ih
    refine ⟨fun i => f i + 1, fun i j hij => Nat.succ_lt_succ (hf i j hij), fun i x hx => ?_⟩
    rw [List.getElem?_cons_succ]
    exact h i x hx
  | keep r _ ih =>
    obtain ⟨f, hf, h⟩ := ih
    refine ⟨fun i => match i with | 0 => 0 | i + 1 => f i + 1, fun i j hij => ?_, fun i x hx => ?_⟩
    · cases i <;> cases j
      · omega
      · exact Nat.succ_pos _
      · omega
      · exact Nat.succ_lt_succ (hf _ _ (Nat.lt_of_succ_lt_succ hij))
    · cases i with
      | zero =>
        cases hx
        exact ⟨_, rfl, r⟩
      | succ i =>
        rw [List.getElem?_cons_succ]
        exact h i x hx

end Fewer

namespace Node

/-- A part is not looked at, or in the same way. -/
abbrev LessLook (l' l : Look) : Prop := l' = .skip ∨ l' = l

variable {cx cx' : Ctx}

theorem range_eq (h : cx.Stricter cx') (sp : Span) : cx'.range sp = cx.range sp := by
  unfold Ctx.range
  rw [h.pos]

theorem hinted_of (h : cx.Stricter cx') {n : Node} (hn : cx.hinted n = true) : cx'.hinted n = true := by
  unfold Ctx.hinted at hn ⊢
  rw [decide_eq_true_eq] at hn ⊢
  rcases h.hint n.span with e | e
  · rw [e, hn]
  · exact e

theorem excludes_of (h : cx.Stricter cx') {x : Option String} (hx : cx.excludes x = true) : cx'.excludes x = true := by
  cases x with
  | none => cases hx
  | some x =>
    unfold Ctx.excludes at hx ⊢
    simp only [List.contains_iff_mem] at hx ⊢
    exact h.methods x hx

theorem leaf_of (h : cx.Stricter cx') {e : Node} (hx : leaf cx' e = true) : leaf cx e = true := by
  unfold leaf at hx ⊢
  simp only [Bool.and_eq_true, Bool.not_eq_true'] at hx ⊢
  refine ⟨⟨?_, ?_⟩, hx.2⟩
  · cases hl : cx.reportLogic with
    | false => rfl
    | true => rw [h.logic hl] at hx; exact absurd hx.1.1 (by decide)
  · cases hl : cx.hinted e with
    | false => rfl
    | true => rw [hinted_of h hl] at hx; exact absurd hx.1.2 (by decide)

theorem lookStmt_less (h : cx.Stricter cx') (s : Node) : LessLook (lookStmt cx' s) (lookStmt cx s) := by
  unfold lookStmt
  by_cases h' : (cx'.hinted s || isInjectedStmt s) = true
  · exact .inl (if_pos h')
  · right
    rw [if_neg h', if_neg]
    intro hh
    rw [Bool.or_eq_true] at hh h'
    exact h' (hh.imp (hinted_of h) id)

theorem lookStmts_less (h : cx.Stricter cx') (ss : List Node) :
    List.Forall₂ LessLook (ss.map (lookStmt cx')) (ss.map (lookStmt cx)) := by
  induction ss with
  | nil => exact .nil
  | cons s ss ih => exact .cons (lookStmt_less h s) ih

theorem less_refl : ∀ ls : List Look, List.Forall₂ LessLook ls ls
  | [] => .nil
  | _ :: ls => .cons (.inr rfl) (less_refl ls)

theorem lookLoop_less (h : cx.Stricter cx') (l : Look) : ∀ cs : List Node, List.Forall₂ LessLook (lookLoop cx' l cs) (lookLoop cx l cs)
  | [] => .nil
  | [b] => by
    unfold lookLoop
    refine .cons ?_ .nil
    by_cases hb : b.kind = .block
    · rw [if_pos hb, if_pos hb]
      exact .inr rfl
    · rw [if_neg hb, if_neg hb]
      by_cases hd : cx'.hint Span.dummy = some .next
      · exact .inl (if_pos hd)
      · rw [if_neg hd, if_neg]
        · exact lookStmt_less h b
        · intro hh
          rcases h.hint Span.dummy with e | e
          · exact hd (e.trans hh)
          · exact hd e
  | _ :: c :: cs => by
    unfold lookLoop
    exact .cons (.inr rfl) (lookLoop_less h l (c :: cs))

theorem ite_less {P Q : Prop} [Decidable P] [Decidable Q] (h : P → Q) (l : Look) :
    LessLook (if Q then .skip else l) (if P then .skip else l) := by
  by_cases hq : Q
  · exact .inl (if_pos hq)
  · rw [if_neg hq, if_neg fun hp => hq (h hp)]
    exact .inr rfl

theorem all_less {P Q : Prop} [Decidable P] [Decidable Q] (h : P → Q) {a a' b : List Look} (ha : List.Forall₂ LessLook a' a)
    (hab : List.Forall₂ LessLook a' b) : List.Forall₂ LessLook (if Q then a' else b) (if P then a else b) := by
  by_cases hq : Q
  · rw [if_pos hq]
    split
    · exact ha
    · exact hab
  · rw [if_neg hq, if_neg fun hp => hq (h hp)]
    exact less_refl b

theorem leaf_less (h : cx.Stricter cx') (e : Node) (l : Look) :
    LessLook (if leaf cx' e then l else .skip) (if leaf cx e then l else .skip) := by
  by_cases hl : leaf cx' e = true
  · rw [if_pos hl, if_pos (leaf_of h hl)]
    exact .inr rfl
  · exact .inl (if_neg hl)

/-- The parts of a construct that is not excluded. -/
theorem looks_less (h : cx.Stricter cx') (l : Look) (n : Node) (hn : n.hintable = true → cx'.hinted n = false) :
    List.Forall₂ LessLook (looks cx' l n) (looks cx l n) := by
  unfold looks
  split
  · exact lookStmts_less h _
  · exact .cons (.inr rfl) (lookStmts_less h _)
  · exact less_refl _
  · refine .cons (.inr rfl) (.cons ?_ .nil)
    split
    · exact .inr rfl
    · exact ite_less (hinted_of h) _
  · next sp _ _ alt =>
    have hs : cx'.hint sp = cx.hint sp := by
      rcases h.hint sp with e | e
      · exact e
      · have := hn rfl
        unfold Ctx.hinted at this
        exact absurd e (of_decide_eq_false this)
    rw [hs]
    exact less_refl _
  · exact less_refl _
  · exact lookLoop_less h l _
  · exact less_refl _
  · exact all_less (excludes_of h) (less_refl _) (.cons (.inl rfl) (.cons (.inl rfl) .nil))
  · refine all_less (fun hh => ?_) (less_refl _) (.cons (.inl rfl) (.cons (.inl rfl) .nil))
    rw [Bool.or_eq_true] at hh ⊢
    exact hh.imp id (excludes_of h)
  · exact all_less (excludes_of h) (less_refl _) (.cons (.inl rfl) (.cons (.inl rfl) .nil))
  · exact all_less (excludes_of h) (less_refl _) (.cons (.inl rfl) (.cons (.inl rfl) .nil))
  · exact all_less (excludes_of h) (less_refl _) (.cons (.inl rfl) (.cons (.inl rfl) (.cons (.inl rfl) (.cons (.inl rfl) .nil))))
  · split
    · exact .cons (leaf_less h _ _) (.cons (leaf_less h _ _) .nil)
    · exact less_refl _
  · exact .cons (.inr rfl) (.cons (leaf_less h _ _) .nil)
  · exact less_refl _

/-! ### Arms -/

mutual
theorem leaves_less (h : cx.Stricter cx') : ∀ n : Node, (leaves cx' n).Sublist (leaves cx n)
  | mk k sp cs => by
    unfold leaves
    by_cases hh : (!k.noExpr && cx'.hint sp = some .next) = true
    · rw [if_pos hh]
      exact List.nil_sublist _
    · rw [if_neg hh, if_neg]
      · split
        · split
          · exact operands_less h _
          · exact leavesList_less h _
        · exact leavesList_less h _
      · intro h1
        simp only [Bool.and_eq_true, decide_eq_true_eq] at h1 hh
        refine hh ⟨h1.1, ?_⟩
        rcases h.hint sp with e | e
        · exact e.trans h1.2
        · exact e

theorem leavesList_less (h : cx.Stricter cx') : ∀ cs : List Node, (leavesList cx' cs).Sublist (leavesList cx cs)
  | [] => .slnil
  | c :: cs => by
    unfold leavesList
    exact (leaves_less h c).append (leavesList_less h cs)

theorem operands_less (h : cx.Stricter cx') : ∀ es : List Node, (operands cx' es).Sublist (operands cx es)
  | [] => by
    unfold operands
    exact .slnil
  | e :: es => by
    unfold operands
    refine List.Sublist.append ?_ (operands_less h es)
    by_cases hh : cx'.hinted e = true
    · rw [if_pos hh]
      exact List.nil_sublist _
    · rw [if_neg hh, if_neg fun h1 => hh (hinted_of h h1)]
      split
      · exact leaves_less h e
      · exact List.Sublist.refl _
end

theorem filter_less {α : Type} {P Q : α → Bool} (h : ∀ a, P a = true → Q a = true) (l : List α) : (l.filter P).Sublist (l.filter Q) :=
  List.monotone_filter_right l h

theorem choices_less (h : cx.Stricter cx') (n : Node) : (n.choices cx').Sublist (n.choices cx) := by
  have hb : ∀ e, (!cx'.hinted e) = true → (!cx.hinted e) = true := fun e he => by
    cases hc : cx.hinted e with
    | false => rfl
    | true => rw [hinted_of h hc] at he; cases he
  unfold Node.choices
  split
  · exact filter_less hb _
  · refine filter_less (fun c hc => ?_) _
    rw [Bool.and_eq_true] at hc ⊢
    exact ⟨hc.1, hb c hc.2⟩
  · exact operands_less h _
  · split
    · exact operands_less h _
    · exact .slnil
  · exact .slnil

theorem fnHead_less (h : cx.Stricter cx') (n : Node) : fnHead cx' n = none ∨ fnHead cx' n = fnHead cx n := by
  have key : ∀ (x : Option String) (o : Option (Option String × Span)),
      (if cx'.excludes x = true then none else o) = none ∨
        (if cx'.excludes x = true then none else o) = if cx.excludes x = true then none else o := fun x o => by
    by_cases hx : cx'.excludes x = true
    · exact .inl (if_pos hx)
    · rw [if_neg hx, if_neg fun h1 => hx (excludes_of h h1)]
      exact .inr rfl
  unfold fnHead
  split
  · exact .inr rfl
  · exact key _ _
  · exact .inr rfl
  · next key' _ =>
    by_cases hx : (decide (key'.propName? = none) || cx'.excludes key'.propName?) = true
    · exact .inl (if_pos hx)
    · rw [if_neg hx, if_neg]
      · exact .inr rfl
      · intro h1
        rw [Bool.or_eq_true] at h1 hx
        exact hx (h1.imp id (excludes_of h))
  · exact key _ _
  · exact key _ _
  · exact key _ _
  · exact .inr rfl

abbrev FewerEntries : List Entry → List Entry → Prop := Fewer Entry.Less

theorem fewer_refl (l : List Entry) : FewerEntries l l := Fewer.refl .same l

theorem head_less (h : cx.Stricter cx') (n : Node) (hn : n.hintable = true → cx'.hinted n = false) : FewerEntries (head cx' n) (head cx n) := by
  unfold head Node.branch?
  cases hk : n.branchKind with
  | none =>
    simp only [Option.map_none]
    rcases fnHead_less h n with e | e
    · rw [e]
      exact Fewer.none _
    · rw [e]
      cases fnHead cx n with
      | none => exact .nil
      | some d =>
        cases bodyOf n with
        | none => exact .nil
        | some b =>
          simp only [range_eq h]
          exact fewer_refl _
  | some t =>
    simp only [Option.map_some, range_eq h]
    refine .keep (.arms ?_) .nil
    by_cases ht : t = .if
    · rw [if_pos ht, if_pos ht]
      have hs : cx'.hint n.span = cx.hint n.span := by
        rcases h.hint n.span with e | e
        · exact e
        · have hh : n.hintable = true := by
            unfold Node.branchKind at hk
            split at hk <;> first | rfl | cases hk
          have := hn hh
          unfold Ctx.hinted at this
          exact absurd e (of_decide_eq_false this)
      rw [hs]
    · rw [if_neg ht, if_neg ht]
      unfold Ctx.ranges
      simp only [range_eq h]
      exact (choices_less h n).map _

theorem ofInit_eq (h : cx.Stricter cx') (d : Bool) (e : Node) : ofInit cx' d e = ofInit cx d e := by
  unfold ofInit
  simp only [range_eq h]

theorem counted_less (h : cx.Stricter cx') (n : Node) : FewerEntries (counted cx' n) (counted cx n) := by
  unfold counted
  split <;> (try simp only [range_eq h, ofInit_eq h]) <;> first | exact fewer_refl _ | skip
  next b =>
    by_cases hb : (decide (b.kind = .block) || cx'.hinted b) = true
    · rw [if_pos hb]
      exact Fewer.none _
    · rw [if_neg hb, if_neg]
      · exact fewer_refl _
      · intro h1
        rw [Bool.or_eq_true] at h1 hb
        exact hb (h1.imp id (hinted_of h))

theorem excluded_of (h : cx.Stricter cx') {l : Look} {n : Node} (hn : excluded cx l n = true) : excluded cx' l n = true := by
  unfold excluded at hn ⊢
  rw [Bool.and_eq_true] at hn ⊢
  exact ⟨hinted_of h hn.1, hn.2⟩

theorem inOrder_less (n : Node) {a b : List (List Entry)} (h : List.Forall₂ FewerEntries a b) :
    List.Forall₂ FewerEntries (inOrder n a) (inOrder n b) := by
  have hl := h.length_eq
  unfold inOrder
  split
  · cases h with | cons h1 h => cases h with | cons h2 h => cases h with | cons h3 h =>
    cases h
    exact .cons h2 (.cons h3 (.cons h1 .nil))
  · next hne =>
    split
    · next sp' cs' t c a' =>
      cases h with | cons h1 h => cases h with | cons h2 h => cases h with | cons h3 h =>
      cases h
      exact absurd rfl (hne _ _ _ _ _ rfl)
    · exact h

mutual
/-- The entries of a construct where more is excluded. -/
theorem outline_less (h : cx.Stricter cx') : ∀ (n : Node) (l' l : Look), LessLook l' l → FewerEntries (outline cx' l' n) (outline cx l n)
  | mk k sp cs, l', l, hl => by
    unfold outline
    by_cases hs : l' = .skip
    · rw [if_pos hs]
      exact Fewer.none _
    obtain rfl := hl.resolve_left hs
    rw [if_neg hs, if_neg hs]
    by_cases hb : (decide (l' = .body) && decide (k = .block)) = true
    · rw [if_pos hb, if_pos hb]
      exact Fewer.flatten (outlines_less h cs _ _ (lookStmts_less h cs))
    rw [if_neg hb, if_neg hb]
    by_cases he : excluded cx' l' (mk k sp cs) = true
    · rw [if_pos he]
      exact Fewer.none _
    rw [if_neg he, if_neg fun h1 => he (excluded_of h h1)]
    have hn : (mk k sp cs).hintable = true → cx'.hinted (mk k sp cs) = false := fun hh => by
      cases hx : cx'.hinted (mk k sp cs) with
      | false => rfl
      | true =>
        refine absurd ?_ he
        unfold excluded
        rw [hx, hh]
        rfl
    refine Fewer.append ((counted_less h _).append (head_less h _ hn)) (Fewer.flatten (inOrder_less _ ?_))
    exact outlines_less h cs _ _ (looks_less h _ _ hn)

theorem outlines_less (h : cx.Stricter cx') : ∀ (cs : List Node) (ls' ls : List Look), List.Forall₂ LessLook ls' ls →
    List.Forall₂ FewerEntries (outlines cx' ls' cs) (outlines cx ls cs)
  | [], _, _, hl => by
    cases hl <;> exact .nil
  | c :: cs, _, _, hl => by
    cases hl with
    | nil => exact .nil
    | cons h1 hl => exact .cons (outline_less h c _ _ h1) (outlines_less h cs _ _ hl)
end

/-- The entries of a program where more is excluded. -/
theorem programOutline_less (h : cx.Stricter cx') (p : Node) : FewerEntries (programOutline cx' p) (programOutline cx p) := by
  unfold programOutline
  split
  · next sp items =>
    by_cases hf : Hint.shouldIgnoreFile cx'.cc cx'.comments sp = true
    · rw [if_pos hf]
      exact Fewer.none _
    rw [if_neg hf, if_neg fun h1 => hf (h.file sp h1)]
    refine Fewer.flatMap _ fun i _ => ?_
    unfold itemOutline
    split
    · exact .nil
    · rw [range_eq h]
      exact (fewer_refl _).append (outline_less h i _ _ (ite_less (hinted_of h) _))
  · next sp items =>
    by_cases hf : Hint.shouldIgnoreFile cx'.cc cx'.comments sp = true
    · rw [if_pos hf]
      exact Fewer.none _
    rw [if_neg hf, if_neg fun h1 => hf (h.file sp h1)]
    exact Fewer.flatMap _ fun i _ => outline_less h i _ _ (.inr rfl)
  · exact .nil

end Node

/-! ### The tables -/

/-- The same branch, maybe with fewer arms. -/
def Branch.Less (b' b : Branch) : Prop :=
  b'.loc = b.loc ∧ b'.branchType = b.branchType ∧ b'.line = b.line ∧ b'.locations.Sublist b.locations

theorem branches_less {es' es : List Entry} (h : FewerEntries es' es) : Fewer Branch.Less (Entry.branches es') (Entry.branches es) := by
  induction h with
  | nil => exact .nil
  | @drop e _ _ _ ih => cases e <;> first | exact ih | exact .drop ih
  | @keep e _ _ _ r _ ih =>
    cases r with
    | same => cases e <;> first | exact ih | exact .keep ⟨rfl, rfl, rfl, List.Sublist.refl _⟩ ih
    | arms ha => exact .keep ⟨rfl, rfl, rfl, ha⟩ ih

theorem statements_less {es' es : List Entry} (h : FewerEntries es' es) : Fewer Eq (Entry.statements es') (Entry.statements es) := by
  induction h with
  | nil => exact .nil
  | @drop e _ _ _ ih => cases e <;> first | exact ih | exact .drop ih
  | @keep e _ _ _ r _ ih =>
    cases r with
    | same => cases e <;> first | exact ih | exact .keep rfl ih
    | arms ha => exact ih

/-- The functions of a list of entries, without numbers. -/
def Entry.heads : List Entry → List (Option String × Range × Range)
  | [] => []
  | function name decl loc :: es => (name, decl, loc) :: heads es
  | statement .. :: es | branch .. :: es => heads es

theorem heads_less {es' es : List Entry} (h : FewerEntries es' es) : Fewer Eq (Entry.heads es') (Entry.heads es) := by
  induction h with
  | nil => exact .nil
  | @drop e _ _ _ ih => cases e <;> first | exact ih | exact .drop ih
  | @keep e _ _ _ r _ ih =>
    cases r with
    | same => cases e <;> first | exact ih | exact .keep rfl ih
    | arms ha => exact ih

theorem functions_heads : ∀ (es : List Entry) (k i : Nat), (Entry.functions k es)[i]? = (Entry.heads es)[i]?.map fun h =>
    ⟨h.1.getD ("(anonymous_" ++ toString (k + i) ++ ")"), h.2.1, h.2.2, h.2.2.start.line⟩
  | [], _, _ => rfl
  | .statement .. :: es, k, i => functions_heads es k i
  | .branch .. :: es, k, i => functions_heads es k i
  | .function name decl loc :: es, k, 0 => rfl
  | .function name decl loc :: es, k, i + 1 => by
    show (Entry.functions (k + 1) es)[i]? = (Entry.heads es)[i]?.map _
    rw [functions_heads es (k + 1) i, Nat.add_right_comm, Nat.add_assoc]

end Verif
