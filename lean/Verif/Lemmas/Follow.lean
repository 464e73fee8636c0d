import Verif.Spec.Counts
import Verif.Lemmas.Sem
import Verif.Lemmas.Each
/-
The nodes an execution can come to, and how counters and tags are distributed over them.
-/
namespace Verif
open Node

namespace Sem

/-- What the execution of a node can come to next. -/
def comps (n : Node) : List Node :=
  match look n with
  | .counter _ => []
  | .wrap _ e => [e]
  | .truth _ e _ => [e]
  | .list ss => ss.filter fun s => !isInjectedItem s
  | .plain => kids n

/-- What the execution of a node can come to. -/
inductive Sub : Node → Node → Prop
  | here (n : Node) : Sub n n
  | step {n x m : Node} : x ∈ comps n → Sub x m → Sub n m

theorem Sub.trans {a b c : Node} (h : Sub a b) (h' : Sub b c) : Sub a c := by
  induction h with
  | here => exact h'
  | step hx _ ih => exact .step hx (ih h')

theorem Sub.comp {n m x : Node} (h : Sub n m) (hx : x ∈ comps m) : Sub n x := h.trans (.step hx (.here x))

/-- The sum of a measure. -/
def sumOf (μ : Node → Nat) (l : List Node) : Nat := (l.map μ).sum

theorem sumOf_cons (μ : Node → Nat) (x : Node) (l : List Node) : sumOf μ (x :: l) = μ x + sumOf μ l := by
  simp [sumOf]

theorem sumOf_append (μ : Node → Nat) (a b : List Node) : sumOf μ (a ++ b) = sumOf μ a + sumOf μ b := by
  simp [sumOf]

theorem sumOf_nil (μ : Node → Nat) : sumOf μ [] = 0 := rfl

theorem sumOf_le_of_mem {μ : Node → Nat} {x : Node} {l : List Node} (h : x ∈ l) : μ x ≤ sumOf μ l := by
  obtain ⟨a, b, rfl⟩ := List.append_of_mem h
  rw [sumOf_append, sumOf_cons]
  omega

theorem sumOf_two {μ : Node → Nat} {x y : Node} {l : List Node} (hx : x ∈ l) (hy : y ∈ l) (hn : x ≠ y) :
    μ x + μ y ≤ sumOf μ l := by
  obtain ⟨a, b, rfl⟩ := List.append_of_mem hx
  rw [sumOf_append, sumOf_cons]
  rcases List.mem_append.1 hy with hy | hy
  · have := sumOf_le_of_mem (μ := μ) hy
    omega
  · rcases List.mem_cons.1 hy with rfl | hy
    · exact absurd rfl hn
    · have := sumOf_le_of_mem (μ := μ) hy
      omega

theorem sumOf_filter (μ : Node → Nat) (p : Node → Bool) (l : List Node) :
    sumOf μ l = sumOf μ (l.filter p) + sumOf μ (l.filter fun x => !p x) := by
  induction l with
  | nil => rfl
  | cons x l ih =>
    rw [sumOf_cons, ih, List.filter_cons, List.filter_cons]
    cases p x <;> simp [sumOf_cons] <;> omega

/-- The distribution of a measure over the parts of a node. -/
theorem kids_sum {μ : Node → Nat} {own : Kind → Span → Nat} (hm : ∀ k sp cs, own k sp + sumOf μ cs ≤ μ (mk k sp cs))
    (hb : ∀ ss, μ (mk .block Span.dummy ss) = sumOf μ ss)
    (ha : ∀ a sp ps e, e.kind ≠ .block → own (.arrow a) sp + (μ ps + μ (mk .returnStmt e.span [e])) ≤ μ (mk (.arrow a) sp [ps, e]))
    (n : Node) : own n.kind n.span + sumOf μ (kids n) ≤ μ n := by
  have hbl : ∀ b : Node, μ (if b.kind = .block then b else mk .block Span.dummy [b]) = μ b := by
    intro b
    split
    · rfl
    · rw [hb]; simp [sumOf]
  have hlast : ∀ cs : List Node, sumOf μ (mapLast (fun b => if b.kind = .block then b else mk .block Span.dummy [b]) cs)
      = sumOf μ cs := by
    intro cs
    induction cs with
    | nil => rfl
    | cons c cs ih =>
      cases cs with
      | nil => simp only [mapLast, sumOf_cons, hbl]
      | cons d cs => rw [mapLast, sumOf_cons, ih, ← sumOf_cons]; simp
  obtain ⟨k, sp, cs⟩ := n
  have base := hm k sp cs
  show own k sp + _ ≤ _
  unfold kids
  split
  · simp only [sumOf_nil]; exact Nat.le_trans (by omega) base
  · simp only [sumOf_nil]; exact Nat.le_trans (by omega) base
  · simp only [sumOf_nil]; exact Nat.le_trans (by omega) base
  · next h =>
    cases h
    simp only [sumOf_cons, sumOf_nil, hb] at base ⊢
    exact Nat.le_trans (by omega) base
  · next k' sp' cs' _ _ _ _ h =>
    cases h
    unfold tidyBodies
    split
    · simp only [sumOf_cons, sumOf_nil] at base ⊢
      rw [hbl]
      split
      · rw [hb]
        simp only [sumOf_nil]
        omega
      · rw [hbl]
        omega
    · rw [hlast]; exact base
    · simp only [sumOf_cons, sumOf_nil] at base ⊢
      rw [hbl]
      exact base
    · rename_i a ps e _ _ _ _
      by_cases he : e.kind = .block
      · have : asArrowBody e = e := by
          obtain ⟨k, sp, cs⟩ := e
          cases he
          rfl
        rw [this]
        exact base
      · have := ha a sp ps e he
        rw [asArrowBody_of_ne he]
        simp only [sumOf_cons, sumOf_nil, hb]
        omega
    · exact base

/-! ### Counters -/

/-- How often the counter occurs. -/
def cc (c : Counter) (n : Node) : Nat := n.sites.count c

theorem sitesList_count (c : Counter) (cs : List Node) : (sitesList cs).count c = sumOf (cc c) cs := by
  induction cs with
  | nil => rfl
  | cons x cs ih => rw [sitesList_cons, List.count_append, ih, sumOf_cons]; rfl

theorem cc_mk (c : Counter) (k : Kind) (sp : Span) (cs : List Node) :
    cc c (mk k sp cs) = (if k = .counter c then 1 else 0) + sumOf (cc c) cs := by
  unfold cc
  rw [sites_mk, List.count_append, sitesList_count]
  congr 1
  cases k <;> simp [Kind.own, List.count_cons]

theorem cc_ge (c : Counter) (k : Kind) (sp : Span) (cs : List Node) : sumOf (cc c) cs ≤ cc c (mk k sp cs) := by
  rw [cc_mk]; omega

theorem cc_kids (c : Counter) (n : Node) : sumOf (cc c) (kids n) ≤ cc c n := by
  have h := kids_sum (μ := cc c) (own := fun _ _ => 0) (fun k sp cs => by have := cc_ge c k sp cs; omega)
    (fun ss => by rw [cc_mk]; simp)
    (fun a sp ps e _ => by
      rw [cc_mk, cc_mk]
      simp only [sumOf_cons, sumOf_nil, reduceCtorEq, if_false]
      omega) n
  omega

/-- A counter statement for `c`. -/
def isStmtOf (c : Counter) : Node → Bool
  | mk .exprStmt _ [mk (.counter c') _ _] => c' = c
  | _ => false

theorem isStmtOf_injected {c : Counter} {s : Node} (h : isStmtOf c s = true) : isInjectedItem s = true := by
  unfold isStmtOf at h
  split at h
  · rfl
  · cases h

theorem isStmtOf_cc {c : Counter} {s : Node} (h : isStmtOf c s = true) : 1 ≤ cc c s := by
  unfold isStmtOf at h
  split at h
  · have := of_decide_eq_true h
    subst this
    rw [cc_mk, sumOf_cons, cc_mk]
    simp
    omega
  · cases h

/-- How often `c` is incremented by the node itself. -/
def imm (c : Counter) (n : Node) : Nat :=
  match look n with
  | .counter c' => if c' = c then 1 else 0
  | .wrap c' _ => if c' = c then 1 else 0
  | .truth c' _ mid => (if c' = c then 1 else 0) + cc c mid
  | .list ss => ss.countP (isStmtOf c)
  | .plain => 0

theorem countP_stmts (c : Counter) (ss : List Node) :
    ss.countP (isStmtOf c) + sumOf (cc c) (ss.filter fun s => !isInjectedItem s) ≤ sumOf (cc c) ss := by
  induction ss with
  | nil => simp [sumOf]
  | cons s ss ih =>
    rw [List.countP_cons, List.filter_cons, sumOf_cons]
    cases hs : isStmtOf c s with
    | true =>
      have h1 := isStmtOf_injected hs
      have h2 := isStmtOf_cc hs
      simp only [h1, Bool.not_true, if_true]
      simp only [Bool.false_eq_true, if_false]
      omega
    | false =>
      cases isInjectedItem s
      · simp only [Bool.not_false, if_true, sumOf_cons]
        simp only [Bool.false_eq_true, if_false]
        omega
      · simp only [Bool.not_true, Bool.false_eq_true, if_false]
        omega

theorem cc_counter (c c' : Counter) (sp : Span) (cs : List Node) :
    (if c' = c then 1 else 0) ≤ cc c (mk (.counter c') sp cs) := by
  rw [cc_mk]
  by_cases h : c' = c
  · simp [h]
  · simp [h]

/-- The distribution of the occurrences of a counter. -/
theorem cc_comps (c : Counter) (n : Node) : imm c n + sumOf (cc c) (comps n) ≤ cc c n := by
  unfold imm comps
  generalize hl : look n = s
  unfold look at hl
  split at hl
  · subst hl
    exact Nat.le_trans (countP_stmts c _) (cc_ge ..)
  · subst hl
    exact Nat.le_trans (countP_stmts c _) (cc_ge ..)
  · subst hl
    exact Nat.le_trans (countP_stmts c _) (cc_ge ..)
  · subst hl
    simp only [sumOf_nil]
    exact cc_counter ..
  · next c' sp3 cs e =>
    subst hl
    simp only [sumOf_cons, sumOf_nil]
    have h1 := cc_ge c .paren
    refine Nat.le_trans ?_ (cc_ge ..)
    rw [sumOf_cons]
    refine Nat.le_trans ?_ (Nat.le_add_right ..)
    refine Nat.le_trans ?_ (cc_ge ..)
    have := cc_counter c c' sp3 cs
    simp only [sumOf_cons, sumOf_nil]
    omega
  · rename_i c' sp3 cs _ _ _ _ _ e mid _ _
    subst hl
    simp only [sumOf_cons, sumOf_nil]
    refine Nat.le_trans ?_ (cc_ge ..)
    simp only [sumOf_cons, sumOf_nil]
    have h1 := cc_counter c c' sp3 cs
    refine Nat.le_trans ?_ (Nat.add_le_add_left (Nat.le_trans (cc_ge ..) (Nat.le_add_right ..)) _)
    simp only [sumOf_cons, sumOf_nil]
    refine Nat.le_trans ?_ (Nat.add_le_add_left (Nat.add_le_add_right (cc_ge ..) _) _)
    simp only [sumOf_cons, sumOf_nil]
    omega
  · subst hl
    have := cc_kids c n
    simpa using this

/-! ### Tags -/

/-- The `return` an arrow function without a block stands for. -/
def extra (t : Tag) (k : Kind) (cs : List Node) : Nat :=
  match k, cs with
  | .arrow _, [_, e] => if e.kind = .block then 0 else if (Kind.returnStmt, e.span) = t then 1 else 0
  | _, _ => 0

mutual
/-- How often a tag occurs. -/
def weight (t : Tag) : Node → Nat
  | mk k sp cs => (if (k, sp) = t then 1 else 0) + extra t k cs + weightList t cs

/-- `weight` on lists. -/
def weightList (t : Tag) : List Node → Nat
  | [] => 0
  | c :: cs => weight t c + weightList t cs
end

theorem weightList_eq (t : Tag) (cs : List Node) : weightList t cs = sumOf (weight t) cs := by
  induction cs with
  | nil => rfl
  | cons c cs ih => rw [weightList, ih, sumOf_cons]

theorem weight_mk (t : Tag) (k : Kind) (sp : Span) (cs : List Node) :
    weight t (mk k sp cs) = (if (k, sp) = t then 1 else 0) + extra t k cs + sumOf (weight t) cs := by
  rw [weight, weightList_eq]

theorem weight_ge (t : Tag) (k : Kind) (sp : Span) (cs : List Node) :
    (if (k, sp) = t then 1 else 0) + sumOf (weight t) cs ≤ weight t (mk k sp cs) := by
  rw [weight_mk]; omega

theorem ne_dummy {t : Tag} (ht : t.2 ≠ Span.dummy) (k : Kind) : (k, Span.dummy) ≠ t := by
  rintro rfl
  exact ht rfl

theorem weight_kids {t : Tag} (ht : t.2 ≠ Span.dummy) (n : Node) :
    (if tag n = t then 1 else 0) + sumOf (weight t) (kids n) ≤ weight t n := by
  refine kids_sum (μ := weight t) (own := fun k sp => if (k, sp) = t then 1 else 0) (weight_ge t)
    (fun ss => ?_) (fun a sp ps e he => ?_) n
  · rw [weight_mk, if_neg (ne_dummy ht _)]
    simp [extra]
  · rw [weight_mk, weight_mk]
    simp only [sumOf_cons, sumOf_nil, extra, if_neg he]
    omega

/-- The distribution of the occurrences of a tag. -/
theorem weight_comps {t : Tag} (ht : t.2 ≠ Span.dummy) (n : Node) :
    sumOf (weight t) (comps n) + (match look n with
      | .list _ | .plain => if tag n = t then 1 else 0
      | _ => 0) ≤ weight t n := by
  have hf : ∀ ss : List Node, sumOf (weight t) (ss.filter fun s => !isInjectedItem s) ≤ sumOf (weight t) ss := by
    intro ss
    rw [sumOf_filter (weight t) (fun s => !isInjectedItem s) ss]
    omega
  unfold comps
  generalize hl : look n = s
  unfold look at hl
  split at hl
  · subst hl
    refine Nat.le_trans ?_ (weight_ge ..)
    have := hf ‹_›
    show _ + (if _ then _ else _) ≤ _
    exact Nat.add_comm .. ▸ Nat.add_le_add_left this _
  · subst hl
    refine Nat.le_trans ?_ (weight_ge ..)
    have := hf ‹_›
    show _ + (if _ then _ else _) ≤ _
    exact Nat.add_comm .. ▸ Nat.add_le_add_left this _
  · subst hl
    refine Nat.le_trans ?_ (weight_ge ..)
    have := hf ‹_›
    show _ + (if _ then _ else _) ≤ _
    exact Nat.add_comm .. ▸ Nat.add_le_add_left this _
  · subst hl
    simp [sumOf_nil]
  · subst hl
    simp only [sumOf_cons, sumOf_nil, Nat.add_zero]
    refine Nat.le_trans ?_ (Nat.le_trans (Nat.le_add_left ..) (weight_ge ..))
    simp only [sumOf_cons, sumOf_nil, Nat.add_zero]
    refine Nat.le_trans ?_ (Nat.le_trans (Nat.le_add_left ..) (weight_ge ..))
    simp only [sumOf_cons, sumOf_nil]
    omega
  · subst hl
    simp only [sumOf_cons, sumOf_nil, Nat.add_zero]
    refine Nat.le_trans ?_ (Nat.le_trans (Nat.le_add_left ..) (weight_ge ..))
    simp only [sumOf_cons, sumOf_nil, Nat.add_zero]
    refine Nat.le_trans ?_ (Nat.le_add_left ..)
    refine Nat.le_trans ?_ (Nat.le_trans (Nat.le_add_left ..) (weight_ge ..))
    simp only [sumOf_cons, sumOf_nil]
    refine Nat.le_trans ?_ (Nat.le_add_right ..)
    refine Nat.le_trans ?_ (Nat.le_trans (Nat.le_add_left ..) (weight_ge ..))
    simp only [sumOf_cons, sumOf_nil]
    omega
  · subst hl
    have := weight_kids ht n
    simp only
    omega

theorem Sub.cc_le (c : Counter) {n m : Node} (h : Sub n m) : cc c m ≤ cc c n := by
  induction h with
  | here => exact Nat.le_refl _
  | @step n x m hx _ ih =>
    have h1 := cc_comps c n
    have h2 := sumOf_le_of_mem (μ := cc c) hx
    omega

theorem Sub.weight_le {t : Tag} (ht : t.2 ≠ Span.dummy) {n m : Node} (h : Sub n m) : weight t m ≤ weight t n := by
  induction h with
  | here => exact Nat.le_refl _
  | @step n x m hx _ ih =>
    have h1 := weight_comps ht n
    have h2 := sumOf_le_of_mem (μ := weight t) hx
    omega

end Sem
end Verif
