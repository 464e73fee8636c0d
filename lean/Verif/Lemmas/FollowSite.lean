import Verif.Lemmas.FollowRun
/-
A counter that occurs once, and a tag that occurs once, go together in the whole program if they do so at one node.
-/
namespace Verif
open Node

namespace Sem
variable {c : Counter} {t : Tag} {j : Nat}

theorem lead_le_imm (c : Counter) (n : Node) : lead c n ≤ imm c n := by
  unfold lead imm
  cases look n with
  | counter c' => exact Nat.le_refl _
  | wrap c' e => exact Nat.le_refl _
  | truth c' e mid => exact Nat.le_add_right ..
  | list ss => exact leadL_le ..
  | plain => exact Nat.le_refl _

theorem imm_le (c : Counter) (n : Node) : imm c n ≤ cc c n := by
  have := cc_comps c n
  omega

theorem comp_cc {n x : Node} (c : Counter) (h : x ∈ comps n) : imm c n + cc c x ≤ cc c n := by
  have h1 := cc_comps c n
  have h2 := sumOf_le_of_mem (μ := cc c) h
  omega

theorem comp_cc_two {n x y : Node} (c : Counter) (h : x ∈ comps n) (h' : y ∈ comps n) (hn : x ≠ y) :
    imm c n + (cc c x + cc c y) ≤ cc c n := by
  have h1 := cc_comps c n
  have h2 := sumOf_two (μ := cc c) h h' hn
  omega

theorem comp_weight {n x : Node} (ht : t.2 ≠ Span.dummy) (h : x ∈ comps n) : weight t x ≤ weight t n := by
  have h1 := weight_comps ht n
  have h2 := sumOf_le_of_mem (μ := weight t) h
  omega

theorem comp_weight_two {n x y : Node} (ht : t.2 ≠ Span.dummy) (h : x ∈ comps n) (h' : y ∈ comps n) (hn : x ≠ y) :
    weight t x + weight t y ≤ weight t n := by
  have h1 := weight_comps ht n
  have h2 := sumOf_two (μ := weight t) h h' hn
  omega

theorem weight_opens {n : Node} (ht : t.2 ≠ Span.dummy) (hl : (look n).opens) :
    sumOf (weight t) (comps n) + (if tag n = t then 1 else 0) ≤ weight t n := by
  have h1 := weight_comps ht n
  cases h : look n with
  | list ss => rw [h] at h1; exact h1
  | plain => rw [h] at h1; exact h1
  | _ => rw [h] at hl; exact hl.elim

theorem sumOf_two_idx {μ : Node → Nat} {x y : Node} {i j : Nat} {l : List Node} (hx : l[i]? = some x)
    (hy : l[j]? = some y) (hn : i ≠ j) : μ x + μ y ≤ sumOf μ l := by
  induction l generalizing i j with
  | nil => cases hx
  | cons a l ih =>
    rw [sumOf_cons]
    cases i with
    | zero =>
      cases hx
      cases j with
      | zero => exact absurd rfl hn
      | succ j =>
        have := sumOf_le_of_mem (μ := μ) (List.mem_of_getElem? (l := l) (i := j) (by simpa using hy))
        omega
    | succ i =>
      cases j with
      | zero =>
        cases hy
        have := sumOf_le_of_mem (μ := μ) (List.mem_of_getElem? (l := l) (i := i) (by simpa using hx))
        omega
      | succ j =>
        have := ih (i := i) (j := j) (by simpa using hx) (by simpa using hy) (by omega)
        omega

/-! ### Parts -/

theorem enters_zero {n : Node} (ht : t.2 ≠ Span.dummy) (hc : cc c n = 0) (hw : weight t n = 0) :
    All (Enters c t j) n := by
  intro m hm
  have h1 := hm.cc_le c
  have h2 := hm.weight_le ht
  have h3 := lead_le_imm c m
  have h4 := imm_le c m
  have h5 : ∀ x ∈ comps m, lead c x = 0 := by
    intro x hx
    have h5 := comp_cc c hx
    have h6 := lead_le_imm c x
    have h7 := imm_le c x
    omega
  refine ⟨by omega, by omega, ?_, fun _ => h5⟩
  intro hl i x hx
  have h6 := weight_opens ht (n := m) (by rw [hl]; trivial)
  have h7 : tag m ≠ t := by
    intro h
    rw [if_pos h] at h6
    omega
  rw [if_neg fun h => h7 h.1]
  exact h5 x (by rw [comps_plain hl]; exact List.mem_of_getElem? hx)

/-- One part of the node with tag `t` starts with the counter: then this is so in the whole program. -/
theorem enters_of {n m y : Node} (ht : t.2 ≠ Span.dummy) (hs : Sub n m) (hl : look m = .plain) (hm : tag m = t)
    (hk : (kids m)[j]? = some y) (hy : 1 ≤ lead c y) (hc : cc c n ≤ 1) (hw : weight t n ≤ 1) :
    All (Enters c t j) n ∧ lead c n = 0 := by
  induction hs with
  | here n =>
    have l0 : lead c n = 0 := by unfold lead; rw [hl]
    have i0 : imm c n = 0 := by unfold imm; rw [hl]
    have hy1 := lead_le_imm c y
    have hy2 := imm_le c y
    have hmem : ∀ i x, (kids n)[i]? = some x → x ∈ comps n := fun i x h => by
      rw [comps_plain hl]; exact List.mem_of_getElem? h
    have hother : ∀ i x, (kids n)[i]? = some x → i ≠ j → cc c x = 0 := by
      intro i x hx hi
      have h1 := cc_kids c n
      have h2 := sumOf_two_idx (μ := cc c) hx hk hi
      omega
    have hweight : ∀ x ∈ comps n, weight t x = 0 := by
      intro x hx
      have h1 := weight_opens ht (n := n) (by rw [hl]; trivial)
      have h2 := sumOf_le_of_mem (μ := weight t) hx
      rw [if_pos hm] at h1
      omega
    have hyc := comp_cc c (hmem _ _ hk)
    refine ⟨fun m' hm' => ?_, l0⟩
    cases hm' with
    | here =>
      refine ⟨by omega, by omega, ?_, fun h => absurd hl h⟩
      intro _ i x hx
      by_cases hi : i = j
      · subst hi
        rw [hk] at hx
        cases hx
        rw [if_pos ⟨hm, rfl⟩]
        omega
      · rw [if_neg fun h => hi h.2]
        have h1 := hother i x hx hi
        have h2 := lead_le_imm c x
        have h3 := imm_le c x
        omega
    | @step _ x _ hx hm' =>
      obtain ⟨i, hi⟩ := List.mem_iff_getElem?.1 (show x ∈ kids n by rw [← comps_plain hl]; exact hx)
      by_cases hij : i = j
      · subst hij
        rw [hk] at hi
        cases hi
        cases hm' with
        | here =>
          refine ⟨by omega, by omega, fun h => ?_, fun _ z hz => ?_⟩
          · unfold lead at hy
            rw [h] at hy
            exact absurd hy (Nat.not_succ_le_zero 0)
          · have h1 := comp_cc c hz
            have h2 := lead_le_imm c z
            have h3 := imm_le c z
            omega
        | @step _ z _ hz hm' =>
          have h1 := comp_cc c hz
          have h2 := comp_weight ht hz
          have h3 := hweight y hx
          exact enters_zero ht (by omega) (by omega) _ hm'
      · exact enters_zero ht (hother i x hi hij) (hweight x hx) _ hm'
  | @step n x m hx hs ih =>
    have hxc := comp_cc c hx
    have hxw := comp_weight ht hx
    obtain ⟨h1, h2⟩ := ih hl hm hk (by omega) (by omega)
    have hmc : 1 ≤ cc c m := by
      have h3 := lead_le_imm c y
      have h4 := imm_le c y
      have h5 := comp_cc c (show y ∈ comps m by rw [comps_plain hl]; exact List.mem_of_getElem? hk)
      omega
    have hmw : 1 ≤ weight t m := by
      have h3 := weight_opens ht (n := m) (by rw [hl]; trivial)
      rw [if_pos hm] at h3
      omega
    have hxc1 := hs.cc_le c
    have hxw1 := hs.weight_le ht
    have hlead : lead c n = 0 := by
      have := lead_le_imm c n
      omega
    have hcomp : ∀ z ∈ comps n, lead c z = 0 := by
      intro z hz
      by_cases hzx : z = x
      · rw [hzx]; exact h2
      · have h3 := comp_cc_two c hz hx hzx
        have h4 := lead_le_imm c z
        have h5 := imm_le c z
        omega
    refine ⟨fun m' hm' => ?_, hlead⟩
    cases hm' with
    | here =>
      refine ⟨by omega, by omega, ?_, fun _ => hcomp⟩
      intro hl' i z hz
      have h3 := weight_opens ht (n := n) (by rw [hl']; trivial)
      have h4 := sumOf_le_of_mem (μ := weight t) hx
      rw [if_neg]
      · exact hcomp z (by rw [comps_plain hl']; exact List.mem_of_getElem? hz)
      · intro h
        rw [if_pos h.1] at h3
        omega
    | @step _ z _ hz hm' =>
      by_cases hzx : z = x
      · subst hzx
        exact h1 _ hm'
      · have h3 := comp_cc_two c hz hx hzx
        have h4 := comp_weight_two ht hz hx hzx
        exact enters_zero ht (by omega) (by omega) _ hm'

/-! ### Statements and expressions -/

theorem debt_le_weight (ht : t.2 ≠ Span.dummy) (c : Counter) (n : Node) : debt c t n ≤ weight t n := by
  generalize hk : sizeOf n = k
  induction k using Nat.strongRecOn generalizing n with
  | ind k ih =>
    cases hl : look n with
    | counter c' => rw [debt_counter hl]; exact Nat.zero_le _
    | wrap c' e =>
      have h1 := comp_weight ht (comps_wrap hl)
      have h2 : sizeOf e < k := by
        subst hk
        unfold look at hl
        split at hl <;> first | (cases hl; done) | skip
        cases hl
        simp +arith
      have h3 := ih _ h2 e rfl
      rw [debt_wrap hl]
      omega
    | truth c' e mid =>
      have h1 := comp_weight ht (comps_truth hl)
      have h2 : sizeOf e < k := by
        subst hk
        unfold look at hl
        split at hl <;> first | (cases hl; done) | skip
        cases hl
        simp +arith
      have h3 := ih _ h2 e rfl
      rw [debt_truth hl]
      omega
    | list ss =>
      have h1 := weight_opens ht (n := n) (by rw [hl]; trivial)
      rw [debt_solid (by rw [hl]; trivial)]
      omega
    | plain =>
      have h1 := weight_opens ht (n := n) (by rw [hl]; trivial)
      rw [debt_solid (by rw [hl]; trivial)]
      omega

theorem walk_skip {a r : List Node} (hd : ∀ s ∈ a, isInjectedItem s = false → debt c t s = 0)
    (hc : a.countP (isStmtOf c) = 0) : Walk c t 0 (a ++ r) ↔ Walk c t 0 r := by
  induction a with
  | nil => exact Iff.rfl
  | cons s a ih =>
    rw [List.countP_cons] at hc
    have ih := ih (fun s hs => hd s (List.mem_cons_of_mem _ hs)) (by omega)
    have hs : isStmtOf c s = false := by
      cases h : isStmtOf c s with
      | false => rfl
      | true => rw [h] at hc; simp at hc
    rw [List.cons_append, Walk, hs]
    cases hi : isInjectedItem s with
    | true => simpa using ih
    | false =>
      rw [hd s List.mem_cons_self hi]
      simpa using ih

theorem walk_injected {b r : List Node} (hb : ∀ s ∈ b, isInjectedItem s = true) (d : Nat) :
    Walk c t d (b ++ r) ↔ Walk c t (d + b.countP (isStmtOf c)) r := by
  induction b generalizing d with
  | nil => exact Iff.rfl
  | cons s b ih =>
    rw [List.cons_append, Walk, if_pos (hb s List.mem_cons_self), ih fun s hs => hb s (List.mem_cons_of_mem _ hs),
      List.countP_cons]
    have h : ∀ x y z : Nat, x + y + z = x + (z + y) := by omega
    rw [h]

theorem walk_zero {ss : List Node} (hd : ∀ s ∈ ss, isInjectedItem s = false → debt c t s = 0)
    (hc : ss.countP (isStmtOf c) = 0) : Walk c t 0 ss := by
  have := (walk_skip (r := []) hd hc).2 rfl
  rwa [List.append_nil] at this

/-- A node that does not contain the counter and whose parts are due none. -/
theorem pays_here {n : Node} (hi : imm c n = 0) (hd : ∀ x ∈ comps n, debt c t x = 0) : Pays c t n := by
  unfold Pays
  unfold imm at hi
  cases hl : look n with
  | counter c' =>
    rw [hl] at hi
    intro h
    simp [h] at hi
  | wrap c' e =>
    rw [hl] at hi
    simp only at hi ⊢
    omega
  | truth c' e mid =>
    rw [hl] at hi
    simp only at hi ⊢
    omega
  | list ss =>
    rw [hl] at hi
    exact walk_zero (fun s hs hi => hd s (comps_list hl hs hi)) hi
  | plain => exact fun x hx => hd x (by rw [comps_plain hl]; exact hx)

theorem pays_zero {n : Node} (ht : t.2 ≠ Span.dummy) (hc : cc c n = 0) (hw : weight t n = 0) : All (Pays c t) n := by
  intro m hm
  have h1 := hm.cc_le c
  have h2 := hm.weight_le ht
  have h3 := imm_le c m
  refine pays_here (by omega) fun x hx => ?_
  have h4 := comp_weight ht hx
  have h5 := debt_le_weight ht c x
  omega

/-- The node with tag `t` does not contain the counter. -/
theorem pays_self {n : Node} (ht : t.2 ≠ Span.dummy) (hc : cc c n = 0) (hw : weight t n ≤ 1) (hl : (look n).opens)
    (hn : tag n = t) : All (Pays c t) n := by
  have h1 := weight_opens ht hl
  rw [if_pos hn] at h1
  have h2 : ∀ x ∈ comps n, weight t x = 0 := by
    intro x hx
    have := sumOf_le_of_mem (μ := weight t) hx
    omega
  intro m hm
  cases hm with
  | here =>
    have h3 := imm_le c n
    refine pays_here (by omega) fun x hx => ?_
    have h4 := h2 x hx
    have h5 := debt_le_weight ht c x
    omega
  | @step _ x _ hx hm =>
    have h3 := comp_cc c hx
    exact pays_zero ht (by omega) (h2 x hx) _ hm

/-- From one node to the whole program. -/
theorem pays_up {n m : Node} (ht : t.2 ≠ Span.dummy) (hs : Sub n m) (hc1 : 1 ≤ cc c m) (hw1 : 1 ≤ weight t m)
    (hm : All (Pays c t) m) (hd : debt c t m = 0) (hc : cc c n ≤ 1) (hw : weight t n ≤ 1) :
    All (Pays c t) n ∧ debt c t n = 0 := by
  induction hs with
  | here => exact ⟨hm, hd⟩
  | @step n x m hx hs ih =>
    have hxc := comp_cc c hx
    have hxw := comp_weight ht hx
    obtain ⟨h1, h2⟩ := ih hc1 hw1 hm hd (by omega) (by omega)
    have hxc1 := hs.cc_le c
    have hxw1 := hs.weight_le ht
    have hcomp : ∀ z ∈ comps n, debt c t z = 0 := by
      intro z hz
      by_cases hzx : z = x
      · rw [hzx]; exact h2
      · have h3 := comp_weight_two ht hz hx hzx
        have h4 := debt_le_weight ht c z
        omega
    constructor
    · intro m' hm'
      cases hm' with
      | here => exact pays_here (by omega) hcomp
      | @step _ z _ hz hm' =>
        by_cases hzx : z = x
        · subst hzx
          exact h1 _ hm'
        · have h3 := comp_cc_two c hz hx hzx
          have h4 := comp_weight_two ht hz hx hzx
          exact pays_zero ht (by omega) (by omega) _ hm'
    · cases hl : look n with
      | counter c' => exact debt_counter hl
      | wrap c' e =>
        rw [debt_wrap hl, hcomp e (comps_wrap hl)]
        omega
      | truth c' e mid =>
        rw [debt_truth hl, hcomp e (comps_truth hl)]
        omega
      | list ss =>
        have h3 := weight_opens ht (n := n) (by rw [hl]; trivial)
        have h4 := sumOf_le_of_mem (μ := weight t) hx
        rw [debt_solid (by rw [hl]; trivial), if_neg]
        intro h
        rw [if_pos h] at h3
        omega
      | plain =>
        have h3 := weight_opens ht (n := n) (by rw [hl]; trivial)
        have h4 := sumOf_le_of_mem (μ := weight t) hx
        rw [debt_solid (by rw [hl]; trivial), if_neg]
        intro h
        rw [if_pos h] at h3
        omega

/-- The counter is among the injected statements before the statement with tag `t`. -/
theorem pays_list_of {n m s : Node} {a b r : List Node} (ht : t.2 ≠ Span.dummy) (hs : Sub n m)
    (hl : look m = .list (a ++ (b ++ s :: r))) (hb : ∀ x ∈ b, isInjectedItem x = true) (hcb : ∃ x ∈ b, isStmtOf c x = true)
    (hi : isInjectedItem s = false) (ho : (look s).opens) (hst : tag s = t) (hc : cc c n ≤ 1) (hw : weight t n ≤ 1) :
    All (Pays c t) n ∧ debt c t n = 0 := by
  have hmc := hs.cc_le c
  have hmw := hs.weight_le ht
  have himm : imm c m = a.countP (isStmtOf c) + (b.countP (isStmtOf c) + (s :: r).countP (isStmtOf c)) := by
    unfold imm
    rw [hl]
    simp only [List.countP_append]
  have hb1 : 1 ≤ b.countP (isStmtOf c) := List.countP_pos_iff.2 hcb
  have hm1 := imm_le c m
  have hsm : s ∈ comps m := comps_list hl (by simp) hi
  have hs1 : 1 ≤ weight t s := by
    have := weight_opens ht ho
    rw [if_pos hst] at this
    omega
  have hcomps : comps m = a.filter (fun s => !isInjectedItem s) ++ s :: r.filter fun s => !isInjectedItem s := by
    unfold comps
    rw [hl]
    have : b.filter (fun s => !isInjectedItem s) = [] := by
      rw [List.filter_eq_nil_iff]
      intro x hx
      simp [hb x hx]
    simp only [List.filter_append, this, List.nil_append, List.filter_cons, hi, Bool.not_false, if_true]
  have hsum := weight_opens ht (n := m) (by rw [hl]; trivial)
  rw [hcomps, sumOf_append, sumOf_cons] at hsum
  have hz : ∀ x, (x ∈ a ∨ x ∈ r) → isInjectedItem x = false → weight t x = 0 := by
    intro x hx hxi
    rcases hx with hx | hx
    · have := sumOf_le_of_mem (μ := weight t) (l := a.filter fun s => !isInjectedItem s) (x := x)
        (List.mem_filter.2 ⟨hx, by simp [hxi]⟩)
      omega
    · have := sumOf_le_of_mem (μ := weight t) (l := r.filter fun s => !isInjectedItem s) (x := x)
        (List.mem_filter.2 ⟨hx, by simp [hxi]⟩)
      omega
  have hcc : ∀ x ∈ comps m, cc c x = 0 := by
    intro x hx
    have := comp_cc c hx
    omega
  refine pays_up ht hs (by omega) (by omega) ?_ ?_ hc hw
  · intro m' hm'
    cases hm' with
    | here =>
      unfold Pays
      rw [hl]
      have hd : ∀ x, (x ∈ a ∨ x ∈ r) → isInjectedItem x = false → debt c t x = 0 := by
        intro x hx hxi
        have h1 := hz x hx hxi
        have h2 := debt_le_weight ht c x
        omega
      rw [List.countP_cons] at himm
      simp only
      rw [walk_skip (fun x hx => hd x (.inl hx)) (by omega), walk_injected hb, Walk, hi]
      simp only [Bool.false_eq_true, if_false]
      refine ⟨?_, walk_zero (fun x hx => hd x (.inr hx)) (by omega)⟩
      rw [debt_solid ho, if_pos hst]
      omega
    | @step _ x _ hx hm' =>
      by_cases hxs : x = s
      · subst hxs
        exact pays_self ht (hcc _ hx) (by have := comp_weight ht hx; omega) ho hst _ hm'
      · refine pays_zero ht (hcc _ hx) ?_ _ hm'
        have := comp_weight_two ht hx hsm hxs
        omega
  · rw [debt_solid (by rw [hl]; trivial), if_neg]
    intro h
    rw [if_pos h] at hsum
    omega

/-- The counter is around the expression with tag `t`. -/
theorem pays_wrap_of {n m e : Node} (ht : t.2 ≠ Span.dummy) (hs : Sub n m)
    (hl : look m = .wrap c e ∨ ∃ mid, look m = .truth c e mid) (ho : (look e).opens) (het : tag e = t) (hc : cc c n ≤ 1)
    (hw : weight t n ≤ 1) : All (Pays c t) n ∧ debt c t n = 0 := by
  have hmc := hs.cc_le c
  have hmw := hs.weight_le ht
  have hm1 := imm_le c m
  have hem : e ∈ comps m := by
    rcases hl with hl | ⟨mid, hl⟩
    · exact comps_wrap hl
    · exact comps_truth hl
  have himm : 1 ≤ imm c m := by
    unfold imm
    rcases hl with hl | ⟨mid, hl⟩
    · rw [hl]; simp
    · rw [hl]; simp
  have he1 := comp_cc c hem
  have he2 := comp_weight ht hem
  have hew : 1 ≤ weight t e := by
    have := weight_opens ht ho
    rw [if_pos het] at this
    omega
  have hde : debt c t e = 1 := by rw [debt_solid ho, if_pos het]
  have hcomps : comps m = [e] := by
    unfold comps
    rcases hl with hl | ⟨mid, hl⟩ <;> rw [hl]
  refine pays_up ht hs (by omega) (by omega) ?_ ?_ hc hw
  · intro m' hm'
    cases hm' with
    | here =>
      unfold Pays
      rcases hl with hl | ⟨mid, hl⟩
      · rw [hl]
        simp only [if_true]
        omega
      · unfold imm at hm1
        rw [hl] at hm1 ⊢
        simp only [if_true] at hm1 ⊢
        exact ⟨by omega, by omega⟩
    | @step _ x _ hx hm' =>
      rw [hcomps] at hx
      cases List.mem_singleton.1 hx
      exact pays_self ht (by omega) (by omega) ho het _ hm'
  · rcases hl with hl | ⟨mid, hl⟩
    · rw [debt_wrap hl, hde]; simp
    · rw [debt_truth hl, hde]; simp

/-! ### Executions -/

variable {V A : Type} {solid : V → Bool}

theorem exec_entered {p : Node} (hp : All (Enters c t j) p) (hl : lead c p = 0) {tr : List (Ev V A)} {o o' : Outcome V A}
    (h : Exec solid p tr o o') : ∃ ε, ε ≤ o.slack + o'.slack ∧ counted c tr + ε = entered t j tr := by
  obtain ⟨tr1, tr2, st1, st2, rfl, h1, h2⟩ := h
  obtain ⟨h3, ε, h4, h5⟩ := run_entered h1 (by intro x hx; cases hx) hp
  obtain ⟨-, ε', h6, h7⟩ := run_entered h2 h3 trivial
  refine ⟨ε + ε', by omega, ?_⟩
  simp only [Task.lead, hl] at h5 h7
  rw [counted_append, entered_append]
  omega

theorem exec_began {p : Node} (hp : All (Pays c t) p) (hd : debt c t p = 0) {tr : List (Ev V A)} {o o' : Outcome V A}
    (h : Exec solid p tr o o') : ∃ ε, ε ≤ o.slack + o'.slack ∧ counted c tr = began t tr + ε := by
  obtain ⟨tr1, tr2, st1, st2, rfl, h1, h2⟩ := h
  obtain ⟨h3, ε, h4, h5⟩ := run_began h1 (d := 0) (by intro x hx; cases hx) ⟨hp, hd.symm⟩
  obtain ⟨-, ε', h6, h7⟩ := run_began h2 (d := 0) h3 rfl
  refine ⟨ε + ε', by omega, ?_⟩
  rw [counted_append, began_append]
  omega

end Sem
end Verif
