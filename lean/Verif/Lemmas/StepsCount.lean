import Verif.Lemmas.StepsInv
/-
What instrumentation adds consists of few kinds of nodes: the number of all other nodes stays the same.
-/
namespace Verif
open Node RegOp

namespace Node

theorem countKindsList_append (p : Kind → Bool) (a b : List Node) :
    countKindsList p (a ++ b) = countKindsList p a + countKindsList p b := by
  induction a with
  | nil => simp [countKindsList]
  | cons c a ih => simp [countKindsList, ih, Nat.add_assoc]

theorem countKinds_mk (p : Kind → Bool) (k : Kind) (sp : Span) (cs : List Node) :
    countKinds p (mk k sp cs) = (if p k then 1 else 0) + countKindsList p cs := by
  rw [countKinds]

theorem countKinds_eq_zero_iff (p : Kind → Bool) (n : Node) : countKinds p n = 0 ↔ n.any p = false := by
  induction n using Node.ind with
  | h k sp cs ih =>
    have hl : ∀ l : List Node, (∀ c ∈ l, c ∈ cs) → (countKindsList p l = 0 ↔ anyList p l = false) := by
      intro l hl
      induction l with
      | nil => simp [countKindsList, anyList]
      | cons c l ihl =>
        have h1 := ih c (hl c (by simp))
        have h2 := ihl fun x hx => hl x (by simp [hx])
        simp only [countKindsList, anyList, Nat.add_eq_zero_iff, Bool.or_eq_false_iff, h1, h2]
    rw [countKinds_mk, any, Nat.add_eq_zero_iff, Bool.or_eq_false_iff, hl cs fun c hc => hc]
    cases p k <;> simp

variable {p : Kind → Bool} (hp : ∀ k, k.added = true → p k = false)
include hp

theorem countKinds_counterStmt (c : Counter) : countKinds p (counterStmt c) = 0 := by
  simp [counterStmt, counterExpr, countKinds, countKindsList, hp _ (rfl : Kind.added .exprStmt = true),
    hp _ (rfl : Kind.added (.counter c) = true)]

theorem countKinds_wrapCounter (c : Counter) (e : Node) :
    countKinds p (wrapCounter c e) = countKinds p e := by
  simp [wrapCounter, counterExpr, countKinds, countKindsList, hp _ (rfl : Kind.added .paren = true),
    hp _ (rfl : Kind.added .seq = true), hp _ (rfl : Kind.added (.counter c) = true)]

theorem countKinds_zero_of_added (n : Node) (h : n.any (fun k => !k.added) = false) :
    countKinds p n = 0 := by
  induction n using Node.ind with
  | h k sp cs ih =>
    rw [any_mk, Bool.or_eq_false_iff, List.any_eq_false] at h
    have hk : p k = false := hp k (by simpa using h.1)
    have hl : ∀ l : List Node, (∀ c ∈ l, c ∈ cs) → countKindsList p l = 0 := by
      intro l hl
      induction l with
      | nil => rfl
      | cons c l ihl =>
        rw [countKindsList, ihl fun x hx => hl x (by simp [hx]),
          ih c (hl c (by simp)) (by simpa using h.2 c (hl c (by simp)))]
    rw [countKinds_mk, hk, hl cs fun c hc => hc]
    rfl

theorem countKinds_wrapTruth (b a : Nat) (e : Node) :
    countKinds p (wrapTruth b a e) = countKinds p e := by
  have h1 : countKinds p (truthCond b a) = 0 := countKinds_zero_of_added hp _ rfl
  simp [wrapTruth, increaseTrue, counterExpr, tempTarget, tempExpr, countKinds, countKindsList,
    hp _ (rfl : Kind.added .paren = true), hp _ (rfl : Kind.added (.assign "=") = true),
    hp _ (rfl : Kind.added (.temp true) = true), hp _ (rfl : Kind.added (.temp false) = true),
    hp _ (rfl : Kind.added .seq = true), hp _ (rfl : Kind.added (.counter (.b b a)) = true), h1]

end Node

namespace Steps
variable {cx : Ctx}

/-- Steps keep the number of nodes of kinds that instrumentation does not add. -/
theorem countKinds_eq {n q h n' q' h' o} (s : Steps cx n q h n' q' h' o) {p : Kind → Bool}
    (hp : ∀ k, k.added = true → p k = false) : countKinds p n' = countKinds p n := by
  have hblock : p .block = false := hp _ rfl
  induction s with
  | refl => rfl
  | trans _ _ ih1 ih2 => exact ih2.trans ih1
  | child k sp l r _ _ ih => simp only [countKinds_mk, countKindsList_append, countKindsList, ih]
  | @insert s q h s' q' h' o k sp l r hk st ih =>
    have ho : countKindsList p o = 0 := by
      have h := st.out_counters
      clear st ih
      induction o with
      | nil => rfl
      | cons x o ih =>
        obtain ⟨c, rfl⟩ := h x (by simp)
        rw [countKindsList, ih fun y hy => h y (by simp [hy]), countKinds_counterStmt hp]
    simp only [countKinds_mk, countKindsList_append, countKindsList, ih, ho, Nat.add_zero]
  | lose sp l r _ ih => simp only [countKinds_mk, countKindsList_append, countKindsList, ih]
  | register => rfl
  | emit => rfl
  | headBlock => simp only [countKinds_mk, countKindsList, countKinds_counterStmt hp, Nat.zero_add]
  | headCase => simp only [countKinds_mk, countKindsList, countKinds_counterStmt hp, Nat.zero_add]
  | wrap =>
    simp only [countKinds_mk, countKindsList_append, countKindsList, countKinds_wrapCounter hp]
  | truth =>
    simp only [countKinds_mk, countKindsList_append, countKindsList, countKinds_wrapTruth hp]
  | body =>
    simp [countKinds_mk, countKindsList_append, countKindsList, hblock]
  | addElse sp test cons alt q h hn =>
    have : countKinds p alt = 0 := by
      unfold Node.isNone at hn
      split at hn
      · simp [countKinds_mk, countKindsList, hp .none rfl]
      · cases hn
    simp [countKinds_mk, countKindsList, this, hblock]
  | arrow =>
    simp [countKinds_mk, countKindsList, hblock, hp .returnStmt rfl]

/-- Without assignment patterns there are no default-argument branches. -/
theorem no_defaultArg {n q h n' q' h' o} (s : Steps cx n q h n' q' h' o)
    (hn : n.any (· = .assignPat) = false) :
    ∀ x ∈ branches h', x ∈ branches h ∨ x.1 ≠ .defaultArg := by
  have hsub : ∀ {k : Kind} {sp : Span} {l r : List Node} {c : Node},
      (mk k sp (l ++ c :: r)).any (· = .assignPat) = false → c.any (· = .assignPat) = false := by
    intro k sp l r c h
    rw [any_mk, Bool.or_eq_false_iff, List.any_eq_false] at h
    simpa using h.2 c (by simp)
  induction s with
  | trans s1 s2 ih1 ih2 =>
    intro x hx
    have h1 : countKinds (· = .assignPat) _ = countKinds (· = .assignPat) _ :=
      s1.countKinds_eq fun k hk => by cases k <;> simp_all [Kind.added]
    rcases ih2 (by rw [← countKinds_eq_zero_iff, h1, countKinds_eq_zero_iff]; exact hn) x hx with h2 | h2
    · exact ih1 hn x h2
    · exact .inr h2
  | child k sp l r _ _ ih => exact ih (hsub hn)
  | insert k sp l r _ _ ih => exact ih (hsub hn)
  | lose sp l r _ ih => exact ih (hsub hn)
  | register n q h op hs =>
    intro x hx
    rw [branches_concat] at hx
    rcases List.mem_append.1 hx with hx | hx
    · exact .inl hx
    · right
      cases op with
      | branch t l g =>
        cases List.mem_singleton.1 hx
        intro ht
        have hk : n.kind = .assignPat := by
          have h1 := hs.1
          simp only at ht
          rw [ht] at h1
          generalize n.kind = k at h1
          cases k <;> simp [Kind.branchType] at h1 ⊢
        obtain ⟨k, sp, cs⟩ := n
        simp only [Node.kind] at hk
        subst hk
        simp [any_mk] at hn
      | _ => cases hx
  | _ => exact fun x hx => .inl hx

end Steps
end Verif
