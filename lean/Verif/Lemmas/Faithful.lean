import Verif.Spec.Naming
import Verif.Lemmas.Each
import Verif.Lemmas.Sem
import Verif.Lemmas.Outcome
/-
Emitted programs are faithful (`Spec/Sem.lean`) if the source has few directives and no anonymous functions as fields or
default values.
-/
namespace Verif
open Node Sem

namespace Steps
variable {cx : Ctx}

/-- Collecting information that does not look at counters. -/
theorem collect_eq {β : Type} {f : Node → List β} (hs : ∀ a b, strip a = strip b → f a = f b)
    (ha : ∀ n, n.kind.added = true → f n = []) {n q h n' q' h' o} (s : Steps cx n q h n' q' h' o) :
    (each n').flatMap f = (each n).flatMap f := by
  have hroot := fun {a q h b q' h' o} (s : Steps cx a q h b q' h' o) => hs _ _ s.strip_eq
  have hmk : ∀ k sp cs, (each (mk k sp cs)).flatMap f = f (mk k sp cs) ++ cs.flatMap fun c => (each c).flatMap f := by
    intro k sp cs
    rw [each, List.flatMap_cons, eachList_eq, List.flatMap_assoc]
  have hfixed : ∀ x : Node, x.any (fun k => !k.added) = false → (each x).flatMap f = [] := by
    intro x hx
    rw [List.flatMap_eq_nil_iff]
    intro m hm
    exact ha m (by simpa using each_of_any hx m hm)
  have hcounter : ∀ c, (each (counterStmt c)).flatMap f = [] := fun c => hfixed _ rfl
  have hwrap : ∀ c e, (each (wrapCounter c e)).flatMap f = (each e).flatMap f := by
    intro c e
    unfold wrapCounter
    rw [hmk, ha _ rfl]
    simp only [List.flatMap_cons, List.flatMap_nil, List.append_nil, List.nil_append]
    rw [hmk, ha _ rfl]
    simp only [List.flatMap_cons, List.flatMap_nil, List.append_nil, List.nil_append]
    rw [hfixed (counterExpr c) rfl, List.nil_append]
  have htruth : ∀ b a e, (each (wrapTruth b a e)).flatMap f = (each e).flatMap f := by
    intro b a e
    unfold wrapTruth increaseTrue
    rw [hmk, ha _ rfl]
    simp only [List.flatMap_cons, List.flatMap_nil, List.append_nil, List.nil_append]
    rw [hfixed (counterExpr _) rfl, hmk, ha _ rfl]
    simp only [List.flatMap_cons, List.flatMap_nil, List.append_nil, List.nil_append]
    rw [hmk, ha _ rfl]
    simp only [List.flatMap_cons, List.flatMap_nil, List.append_nil, List.nil_append]
    rw [hfixed tempTarget rfl, hfixed (mk .paren Span.dummy [truthCond b a]) rfl, hfixed tempExpr rfl]
    simp
  induction s with
  | refl => rfl
  | trans _ _ ih1 ih2 => exact ih2.trans ih1
  | child k sp l r hc st ih =>
    rw [hmk, hmk, hroot (.child k sp l r hc st)]
    simp only [List.flatMap_append, List.flatMap_cons, ih]
  | @insert c q h c' q' h' o k sp l r hk st ih =>
    rw [hmk, hmk, hroot (.insert k sp l r hk st)]
    have ho : (o.flatMap fun c => (each c).flatMap f) = [] := by
      rw [List.flatMap_eq_nil_iff]
      intro x hx
      obtain ⟨d, rfl⟩ := st.out_counters x hx
      exact hcounter d
    simp only [List.flatMap_append, List.flatMap_cons, ih, ho, List.append_nil]
  | lose sp l r st ih =>
    rw [hmk, hmk, hroot (.lose sp l r st)]
    simp only [List.flatMap_append, List.flatMap_cons, ih]
  | register => rfl
  | emit => rfl
  | headBlock sp ss q1 c q2 h =>
    rw [hmk, hmk, hroot (.headBlock sp ss q1 c q2 h)]
    simp only [List.flatMap_cons, hcounter, List.nil_append]
  | headCase sp test ss q1 c q2 h =>
    rw [hmk, hmk, hroot (.headCase sp test ss q1 c q2 h)]
    simp only [List.flatMap_cons, hcounter, List.nil_append]
  | wrap k sp l e r q1 c q2 h h1 h2 =>
    rw [hmk, hmk, hroot (.wrap k sp l e r q1 c q2 h h1 h2)]
    simp only [List.flatMap_append, List.flatMap_cons, hwrap]
  | truth k sp l e r q1 b a q2 h h1 h2 h3 h4 =>
    rw [hmk, hmk, hroot (.truth k sp l e r q1 b a q2 h h1 h2 h3 h4)]
    simp only [List.flatMap_append, List.flatMap_cons, htruth]
  | body k sp l s r q h h1 h2 h3 =>
    rw [hmk, hmk, hroot (.body k sp l s r q h h1 h2 h3)]
    simp only [List.flatMap_append, List.flatMap_cons]
    rw [hmk .block, ha (mk .block Span.dummy [s]) rfl]
    simp
  | addElse sp test cons alt q h hn =>
    rw [hmk, hmk, hroot (.addElse sp test cons alt q h hn)]
    simp only [List.flatMap_cons]
    rw [hmk .block, ha (mk .block Span.dummy []) rfl]
    have : (each alt).flatMap f = [] := by
      rw [List.flatMap_eq_nil_iff]
      intro m hm
      rw [each_isNone hn hm]
      refine ha _ ?_
      unfold Node.isNone at hn
      split at hn
      · rfl
      · cases hn
    rw [this]
    simp
  | arrow a sp params e q h hk =>
    rw [hmk, hmk, hroot (.arrow a sp params e q h hk)]
    simp only [List.flatMap_cons]
    rw [hmk .block, ha (mk .block Span.dummy _) rfl]
    simp only [List.flatMap_cons, List.flatMap_nil, List.append_nil, List.nil_append]
    rw [hmk .returnStmt, ha (mk .returnStmt e.span _) rfl]
    simp

end Steps

namespace Sem

theorem shape_solid_strip (s : Shape) : s.strip.solid ↔ s.solid := by
  cases s <;> exact Iff.rfl

theorem unwrap_self_iff {n : Node} : unwrap n = n ↔ (look n).solid := by
  constructor
  · intro h
    have := unwrap_is_solid n
    rwa [h] at this
  · exact unwrap_solid

theorem unwrap_self_of_strip {a b : Node} (h : strip a = strip b) (ha : unwrap a = a) : unwrap b = b := by
  rw [unwrap_self_iff] at ha ⊢
  rw [← shape_solid_strip, ← look_strip, ← h, look_strip, shape_solid_strip]
  exact ha

theorem isFnDef_of_unwrap {n : Node} (h : isFnDef n = true) : unwrap n = n := by
  fun_induction unwrap n with
  | case1 => cases h
  | case2 => cases h
  | case3 => rfl

theorem hoisting_of_isFnDef {n : Node} (h : isFnDef n = true) : n.any Kind.isHoisting = true := by
  fun_induction isFnDef n with
  | case1 => rfl
  | case2 => rfl
  | case3 => rfl
  | case4 sp e ih => rw [any_mk]; simp [ih h]
  | case5 => cases h

/-- Initialisers of variables that contain functions or classes are not wrapped. -/
def DirectInits (p : Node) : Prop :=
  ∀ m ∈ each p, m.kind = .varDeclarator → ∀ c ∈ m.children, c.any Kind.isHoisting = true → unwrap c = c

end Sem

/-- Class fields. -/
def Kind.isProp : Kind → Bool
  | .classProp | .privateProp => true
  | _ => false

/-- Class fields that are anonymous functions or classes are not wrapped, because they have a block in them. -/
def Sem.DirectFields (p : Node) : Prop :=
  ∀ m ∈ each p, m.kind.isProp = true → ∀ c ∈ m.children, isFnDef (unwrap c) = true →
    unwrap c = c ∧ c.any Kind.isBlock = true

theorem Kind.not_hoisting_of_added {k : Kind} (h : k.added = true) : k.isHoisting = false := by
  cases k <;> first | rfl | cases h

namespace Steps
variable {cx : Ctx}

theorem directInits {n q h n' q' h' o} (s : Steps cx n q h n' q' h' o) (hn : DirectInits n) : DirectInits n' := by
  have hmk : ∀ {k sp cs}, DirectInits (mk k sp cs) ↔ (k = .varDeclarator → ∀ c ∈ cs, c.any Kind.isHoisting = true →
      unwrap c = c) ∧ ∀ c ∈ cs, DirectInits c := by
    intro k sp cs
    constructor
    · intro h
      exact ⟨h _ (each_self _), fun c hc m hm => h m (mem_each_mk.2 (.inr ⟨c, hc, hm⟩))⟩
    · rintro ⟨h1, h2⟩ m hm
      rcases mem_each_mk.1 hm with rfl | ⟨c, hc, hm⟩
      · exact h1
      · exact h2 c hc m hm
  have hfixed : ∀ x : Node, x.any (fun k => !k.added) = false → DirectInits x := by
    intro x hx m hm hk
    have := each_of_any hx m hm
    rw [hk] at this
    cases this
  have hadded : ∀ {k sp cs}, k ≠ .varDeclarator → (∀ c ∈ cs, DirectInits c) → DirectInits (mk k sp cs) :=
    fun hk hc => hmk.2 ⟨fun h => (hk h).elim, hc⟩
  have hstep : ∀ {c q h c' q' h' o}, Steps cx c q h c' q' h' o → (c.any Kind.isHoisting = true → unwrap c = c) →
      c'.any Kind.isHoisting = true → unwrap c' = c' := by
    intro c q h c' q' h' o st hc hh
    rw [st.any_eq fun k => Kind.not_hoisting_of_added] at hh
    exact unwrap_self_of_strip st.strip_eq.symm (hc hh)
  have hwrap : ∀ c e, DirectInits e → DirectInits (wrapCounter c e) := by
    intro c e he
    refine hadded (by simp) ?_
    simp only [List.mem_singleton, forall_eq]
    refine hadded (by simp) ?_
    simp only [List.mem_cons, List.not_mem_nil, or_false, forall_eq_or_imp, forall_eq]
    exact ⟨hfixed _ rfl, he⟩
  have htruth : ∀ b a e, DirectInits e → DirectInits (wrapTruth b a e) := by
    intro b a e he
    refine hadded (by simp) ?_
    simp only [List.mem_cons, List.not_mem_nil, or_false, forall_eq_or_imp, forall_eq]
    refine ⟨hfixed _ rfl, hadded (by simp) ?_⟩
    simp only [List.mem_cons, List.not_mem_nil, or_false, forall_eq_or_imp, forall_eq]
    refine ⟨hadded (by simp) ?_, hfixed _ rfl, hfixed _ rfl⟩
    simp only [List.mem_cons, List.not_mem_nil, or_false, forall_eq_or_imp, forall_eq]
    exact ⟨hfixed _ rfl, he⟩
  induction s with
  | refl => exact hn
  | trans _ _ ih1 ih2 => exact ih2 (ih1 hn)
  | @child c q h c' q' h' o k sp l r _ st ih =>
    obtain ⟨h1, h2⟩ := hmk.1 hn
    refine hmk.2 ⟨fun hk x hx => ?_, fun x hx => ?_⟩
    · rcases List.mem_append.1 hx with hx | hx
      · exact h1 hk x (by simp [hx])
      · rcases List.mem_cons.1 hx with rfl | hx
        · exact hstep st (h1 hk c (by simp))
        · exact h1 hk x (by simp [hx])
    · rcases List.mem_append.1 hx with hx | hx
      · exact h2 x (by simp [hx])
      · rcases List.mem_cons.1 hx with rfl | hx
        · exact ih (h2 c (by simp))
        · exact h2 x (by simp [hx])
  | @insert c q h c' q' h' o k sp l r hk st ih =>
    obtain ⟨h1, h2⟩ := hmk.1 hn
    refine hadded (by rintro rfl; cases hk) fun x hx => ?_
    rcases List.mem_append.1 hx with hx | hx
    · rcases List.mem_append.1 hx with hx | hx
      · exact h2 x (by simp [hx])
      · obtain ⟨d, rfl⟩ := st.out_counters x hx
        exact hfixed _ rfl
    · rcases List.mem_cons.1 hx with rfl | hx
      · exact ih (h2 c (by simp))
      · exact h2 x (by simp [hx])
  | @lose c q h c' q' h' o sp l r st ih =>
    obtain ⟨h1, h2⟩ := hmk.1 hn
    refine hadded (by simp) fun x hx => ?_
    rcases List.mem_append.1 hx with hx | hx
    · exact h2 x (by simp [hx])
    · rcases List.mem_cons.1 hx with rfl | hx
      · exact ih (h2 c (by simp))
      · exact h2 x (by simp [hx])
  | register => exact hn
  | emit => exact hn
  | headBlock sp ss =>
    refine hadded (by simp) fun x hx => ?_
    rcases List.mem_cons.1 hx with rfl | hx
    · exact hfixed _ rfl
    · exact (hmk.1 hn).2 x hx
  | headCase sp test ss =>
    refine hadded (by simp) fun x hx => ?_
    rcases List.mem_cons.1 hx with rfl | hx
    · exact (hmk.1 hn).2 x (by simp)
    · rcases List.mem_cons.1 hx with rfl | hx
      · exact hfixed _ rfl
      · exact (hmk.1 hn).2 x (by simp [hx])
  | wrap k sp l e r q1 c q2 h hw hh =>
    obtain ⟨h1, h2⟩ := hmk.1 hn
    refine hmk.2 ⟨fun hk x hx => ?_, fun x hx => ?_⟩
    · rcases List.mem_append.1 hx with hx | hx
      · exact h1 hk x (by simp [hx])
      · rcases List.mem_cons.1 hx with rfl | hx
        · intro ha
          have : (wrapCounter c e).any Kind.isHoisting = e.any Kind.isHoisting := by
            simp [wrapCounter, counterExpr, any_mk, Kind.isHoisting]
          rw [this, (hh (by rw [hk]; rfl)).2 hk] at ha
          cases ha
        · exact h1 hk x (by simp [hx])
    · rcases List.mem_append.1 hx with hx | hx
      · exact h2 x (by simp [hx])
      · rcases List.mem_cons.1 hx with rfl | hx
        · exact hwrap _ _ (h2 e (by simp))
        · exact h2 x (by simp [hx])
  | truth k sp l e r q1 b a q2 h hw hh =>
    obtain ⟨h1, h2⟩ := hmk.1 hn
    refine hadded (by rintro rfl; cases hh) fun x hx => ?_
    rcases List.mem_append.1 hx with hx | hx
    · exact h2 x (by simp [hx])
    · rcases List.mem_cons.1 hx with rfl | hx
      · exact htruth _ _ _ (h2 e (by simp))
      · exact h2 x (by simp [hx])
  | body k sp l s r q h hp =>
    obtain ⟨h1, h2⟩ := hmk.1 hn
    refine hadded (by rintro rfl; cases hp) fun x hx => ?_
    rcases List.mem_append.1 hx with hx | hx
    · exact h2 x (by simp [hx])
    · rcases List.mem_cons.1 hx with rfl | hx
      · refine hadded (by simp) fun x hx => ?_
        cases List.mem_singleton.1 hx
        exact h2 s (by simp)
      · exact h2 x (by simp [hx])
  | addElse sp test cons alt =>
    obtain ⟨h1, h2⟩ := hmk.1 hn
    refine hadded (by simp) fun x hx => ?_
    simp only [List.mem_cons, List.not_mem_nil, or_false] at hx
    rcases hx with rfl | rfl | rfl
    · exact h2 _ (by simp)
    · exact h2 _ (by simp)
    · exact hfixed _ rfl
  | arrow a sp params e =>
    obtain ⟨h1, h2⟩ := hmk.1 hn
    refine hadded (by simp) fun x hx => ?_
    simp only [List.mem_cons, List.not_mem_nil, or_false] at hx
    rcases hx with rfl | rfl
    · exact h2 _ (by simp)
    · refine hadded (by simp) fun x hx => ?_
      cases List.mem_singleton.1 hx
      refine hadded (by simp) fun x hx => ?_
      cases List.mem_singleton.1 hx
      exact h2 _ (by simp)

/-- Steps do not remove blocks. -/
theorem any_block {n q h n' q' h' o} (s : Steps cx n q h n' q' h' o) (hn : n.any Kind.isBlock = true) :
    n'.any Kind.isBlock = true := by
  induction s with
  | refl => exact hn
  | trans _ _ ih1 ih2 => exact ih2 (ih1 hn)
  | child k sp l r hc st ih =>
    simp only [any_mk, List.any_append, List.any_cons, Bool.or_eq_true] at hn ⊢
    grind
  | insert k sp l r hk st ih =>
    simp only [any_mk, List.any_append, List.any_cons, Bool.or_eq_true] at hn ⊢
    grind
  | lose sp l r st ih =>
    simp only [any_mk, List.any_append, List.any_cons, Bool.or_eq_true] at hn ⊢
    grind
  | register => exact hn
  | emit => exact hn
  | headBlock sp ss q1 c q2 h => rfl
  | headCase sp test ss q1 c q2 h =>
    simp only [any_mk, List.any_cons, Bool.or_eq_true] at hn ⊢
    grind
  | wrap k sp l e r q1 c q2 h h1 h2 =>
    simp only [any_mk, List.any_append, List.any_cons, Bool.or_eq_true, wrapCounter] at hn ⊢
    grind
  | truth k sp l e r q1 b a q2 h h1 h2 h3 h4 =>
    simp only [any_mk, List.any_append, List.any_cons, Bool.or_eq_true, wrapTruth, increaseTrue] at hn ⊢
    grind
  | body k sp l s r q h h1 h2 h3 =>
    simp only [any_mk, List.any_append, List.any_cons, Bool.or_eq_true, Kind.isBlock]
    grind
  | addElse sp test cons alt q h hn => simp [any_mk, Kind.isBlock]
  | arrow a sp params e q h hk => simp [any_mk, Kind.isBlock]

theorem directFields {n q h n' q' h' o} (s : Steps cx n q h n' q' h' o) (hn : DirectFields n) : DirectFields n' := by
  have hmk : ∀ {k sp cs}, DirectFields (mk k sp cs) ↔ (k.isProp = true → ∀ c ∈ cs, isFnDef (unwrap c) = true →
      unwrap c = c ∧ c.any Kind.isBlock = true) ∧ ∀ c ∈ cs, DirectFields c := by
    intro k sp cs
    constructor
    · intro h
      exact ⟨h _ (each_self _), fun c hc m hm => h m (mem_each_mk.2 (.inr ⟨c, hc, hm⟩))⟩
    · rintro ⟨h1, h2⟩ m hm
      rcases mem_each_mk.1 hm with rfl | ⟨c, hc, hm⟩
      · exact h1
      · exact h2 c hc m hm
  have hfixed : ∀ x : Node, x.any (fun k => !k.added) = false → DirectFields x := by
    intro x hx m hm hk
    have := each_of_any hx m hm
    exfalso
    revert hk this
    cases m.kind <;> simp [Kind.isProp, Kind.added]
  have hadded : ∀ {k sp cs}, k.isProp = false → (∀ c ∈ cs, DirectFields c) → DirectFields (mk k sp cs) :=
    fun hk hc => hmk.2 ⟨fun h => (by rw [hk] at h; cases h), hc⟩
  have hstep : ∀ {c q h c' q' h' o}, Steps cx c q h c' q' h' o →
      (isFnDef (unwrap c) = true → unwrap c = c ∧ c.any Kind.isBlock = true) →
      isFnDef (unwrap c') = true → unwrap c' = c' ∧ c'.any Kind.isBlock = true := by
    intro c q h c' q' h' o st hc hh
    have hu : isFnDef (unwrap c') = isFnDef (unwrap c) := by
      rw [← isFnDef_strip, ← strip_unwrap, st.strip_eq, strip_unwrap, isFnDef_strip]
    rw [hu] at hh
    exact ⟨unwrap_self_of_strip st.strip_eq.symm (hc hh).1, st.any_block (hc hh).2⟩
  have hwrap : ∀ c e, DirectFields e → DirectFields (wrapCounter c e) := by
    intro c e he
    refine hadded rfl ?_
    simp only [List.mem_singleton, forall_eq]
    refine hadded rfl ?_
    simp only [List.mem_cons, List.not_mem_nil, or_false, forall_eq_or_imp, forall_eq]
    exact ⟨hfixed _ rfl, he⟩
  have htruth : ∀ b a e, DirectFields e → DirectFields (wrapTruth b a e) := by
    intro b a e he
    refine hadded rfl ?_
    simp only [List.mem_cons, List.not_mem_nil, or_false, forall_eq_or_imp, forall_eq]
    refine ⟨hfixed _ rfl, hadded rfl ?_⟩
    simp only [List.mem_cons, List.not_mem_nil, or_false, forall_eq_or_imp, forall_eq]
    refine ⟨hadded rfl ?_, hfixed _ rfl, hfixed _ rfl⟩
    simp only [List.mem_cons, List.not_mem_nil, or_false, forall_eq_or_imp, forall_eq]
    exact ⟨hfixed _ rfl, he⟩
  induction s with
  | refl => exact hn
  | trans _ _ ih1 ih2 => exact ih2 (ih1 hn)
  | @child c q h c' q' h' o k sp l r _ st ih =>
    obtain ⟨h1, h2⟩ := hmk.1 hn
    refine hmk.2 ⟨fun hk x hx => ?_, fun x hx => ?_⟩
    · rcases List.mem_append.1 hx with hx | hx
      · exact h1 hk x (by simp [hx])
      · rcases List.mem_cons.1 hx with rfl | hx
        · exact hstep st (h1 hk c (by simp))
        · exact h1 hk x (by simp [hx])
    · rcases List.mem_append.1 hx with hx | hx
      · exact h2 x (by simp [hx])
      · rcases List.mem_cons.1 hx with rfl | hx
        · exact ih (h2 c (by simp))
        · exact h2 x (by simp [hx])
  | @insert c q h c' q' h' o k sp l r hk st ih =>
    obtain ⟨h1, h2⟩ := hmk.1 hn
    refine hadded (by cases k <;> first | rfl | cases hk) fun x hx => ?_
    rcases List.mem_append.1 hx with hx | hx
    · rcases List.mem_append.1 hx with hx | hx
      · exact h2 x (by simp [hx])
      · obtain ⟨d, rfl⟩ := st.out_counters x hx
        exact hfixed _ rfl
    · rcases List.mem_cons.1 hx with rfl | hx
      · exact ih (h2 c (by simp))
      · exact h2 x (by simp [hx])
  | @lose c q h c' q' h' o sp l r st ih =>
    obtain ⟨h1, h2⟩ := hmk.1 hn
    refine hadded rfl fun x hx => ?_
    rcases List.mem_append.1 hx with hx | hx
    · exact h2 x (by simp [hx])
    · rcases List.mem_cons.1 hx with rfl | hx
      · exact ih (h2 c (by simp))
      · exact h2 x (by simp [hx])
  | register => exact hn
  | emit => exact hn
  | headBlock sp ss =>
    refine hadded rfl fun x hx => ?_
    rcases List.mem_cons.1 hx with rfl | hx
    · exact hfixed _ rfl
    · exact (hmk.1 hn).2 x hx
  | headCase sp test ss =>
    refine hadded rfl fun x hx => ?_
    rcases List.mem_cons.1 hx with rfl | hx
    · exact (hmk.1 hn).2 x (by simp)
    · rcases List.mem_cons.1 hx with rfl | hx
      · exact hfixed _ rfl
      · exact (hmk.1 hn).2 x (by simp [hx])
  | wrap k sp l e r q1 c q2 h hw hh =>
    obtain ⟨h1, h2⟩ := hmk.1 hn
    refine hmk.2 ⟨fun hk x hx => ?_, fun x hx => ?_⟩
    · rcases List.mem_append.1 hx with hx | hx
      · exact h1 hk x (by simp [hx])
      · rcases List.mem_cons.1 hx with rfl | hx
        · intro ha
          have hu : unwrap (wrapCounter c e) = unwrap e := by
            unfold wrapCounter counterExpr
            rw [unwrap]
          rw [hu] at ha
          have h3 := (h1 hk e (by simp) ha).2
          rw [(hh (by cases k <;> first | rfl | cases hk)).1] at h3
          cases h3
        · exact h1 hk x (by simp [hx])
    · rcases List.mem_append.1 hx with hx | hx
      · exact h2 x (by simp [hx])
      · rcases List.mem_cons.1 hx with rfl | hx
        · exact hwrap _ _ (h2 e (by simp))
        · exact h2 x (by simp [hx])
  | truth k sp l e r q1 b a q2 h hw hh =>
    obtain ⟨h1, h2⟩ := hmk.1 hn
    refine hadded (by cases k <;> first | rfl | cases hh) fun x hx => ?_
    rcases List.mem_append.1 hx with hx | hx
    · exact h2 x (by simp [hx])
    · rcases List.mem_cons.1 hx with rfl | hx
      · exact htruth _ _ _ (h2 e (by simp))
      · exact h2 x (by simp [hx])
  | body k sp l s r q h hp =>
    obtain ⟨h1, h2⟩ := hmk.1 hn
    refine hadded (by cases k <;> first | rfl | cases hp) fun x hx => ?_
    rcases List.mem_append.1 hx with hx | hx
    · exact h2 x (by simp [hx])
    · rcases List.mem_cons.1 hx with rfl | hx
      · refine hadded rfl fun x hx => ?_
        cases List.mem_singleton.1 hx
        exact h2 s (by simp)
      · exact h2 x (by simp [hx])
  | addElse sp test cons alt =>
    obtain ⟨h1, h2⟩ := hmk.1 hn
    refine hadded rfl fun x hx => ?_
    simp only [List.mem_cons, List.not_mem_nil, or_false] at hx
    rcases hx with rfl | rfl | rfl
    · exact h2 _ (by simp)
    · exact h2 _ (by simp)
    · exact hfixed _ rfl
  | arrow a sp params e =>
    obtain ⟨h1, h2⟩ := hmk.1 hn
    refine hadded rfl fun x hx => ?_
    simp only [List.mem_cons, List.not_mem_nil, or_false] at hx
    rcases hx with rfl | rfl
    · exact h2 _ (by simp)
    · refine hadded rfl fun x hx => ?_
      cases List.mem_singleton.1 hx
      refine hadded rfl fun x hx => ?_
      cases List.mem_singleton.1 hx
      exact h2 _ (by simp)

end Steps

namespace Sem

theorem faithful_iff {n : Node} : faithful n = true ↔ ∀ m ∈ each n, faithfulAt m = true := by
  induction n using Node.ind with
  | h k sp cs ih =>
    rw [faithful_mk]
    constructor
    · rintro ⟨h1, h2⟩ m hm
      rcases mem_each_mk.1 hm with rfl | ⟨c, hc, hm⟩
      · exact h1
      · exact (ih c hc).1 (h2 c hc) m hm
    · intro h
      exact ⟨h _ (each_self _), fun c hc => (ih c hc).2 fun m hm => h m (mem_each_mk.2 (.inr ⟨c, hc, hm⟩))⟩

theorem clean_each {n m : Node} (h : Clean n) (hm : m ∈ each n) : Clean m := by
  induction n using Node.ind with
  | h k sp cs ih =>
    rcases mem_each_mk.1 hm with rfl | ⟨c, hc, hm⟩
    · exact h
    · exact ih c hc ((clean_mk.1 h).2 c hc) hm

theorem clean_faithfulAt {n : Node} (h : Clean n) : faithfulAt n = true := by
  have hc : ∀ c ∈ n.children, Clean c := by
    cases n; exact (clean_mk.1 h).2
  have hcode : ∀ c ∈ codeOf n, Clean c := by
    have hb : ∀ sp ss, mk .block sp ss ∈ n.children → ∀ c ∈ ss, Clean c := fun sp ss hm =>
      (clean_mk.1 (hc _ hm)).2
    intro c hcc
    unfold codeOf at hcc
    split at hcc
    · exact hc c hcc
    · exact hc c hcc
    · next sp ss => exact hb sp ss (by simp [Node.children]) c hcc
    · next sp ss => exact hb sp ss (by simp [Node.children]) c hcc
    · next sp ss => exact hb sp ss (by simp [Node.children]) c hcc
    · next sp ss => exact hb sp ss (by simp [Node.children]) c hcc
    · cases hcc
  unfold faithfulAt
  rw [Bool.and_eq_true]
  constructor
  · rw [Bool.or_eq_true]
    right
    rw [List.all_eq_true]
    intro c hcc
    rw [clean_unwrap (hc c hcc)]
    simp
  · rw [decide_eq_true_eq, List.filter_eq_self.2]
    intro c hcc
    simp [clean_not_item (hcode c hcc)]

/-- Source programs are faithful. -/
theorem clean_faithful {n : Node} (h : Clean n) : faithful n = true :=
  faithful_iff.2 fun _ hm => clean_faithfulAt (clean_each h hm)

theorem directivesOf_filter_nil {ss : List Node} (h : directivesOf (ss.filter fun s => !isInjectedItem s) = []) :
    directivesOf ss = [] := by
  cases ss with
  | nil => rfl
  | cons s ss =>
    cases hd : directive? s with
    | none => simp [directivesOf, hd]
    | some v =>
      have hi : isInjectedItem s = false := by
        unfold directive? at hd
        split at hd
        · rfl
        · cases hd
      rw [List.filter_cons] at h
      simp [hi, directivesOf, hd] at h

/-- The parts of a node that may be wrapped, up to counters. -/
theorem fields_strip {n : Node} (hk : n.kind.wraps = true) :
    (strip n).children.map isFnDef = n.children.map fun c => isFnDef (unwrap c) := by
  obtain ⟨h1, h2⟩ := kids_strip_of_wraps hk
  have h3 : (strip n).kind.wraps = true := by rw [strip_kind]; exact hk
  rw [← (kids_strip_of_wraps h3).1, h2, List.map_map]
  refine List.map_congr_left fun c _ => ?_
  simp only [Function.comp, strip_unwrap, isFnDef_strip]

theorem wraps_of_field {k : Kind} (h : fieldKinds.contains k = true) : k.wraps = true := by
  simp only [fieldKinds, List.contains_cons, List.contains_nil, Bool.or_false, Bool.or_eq_true, beq_iff_eq] at h
  rcases h with rfl | rfl | rfl <;> rfl

theorem names_wraps {k : Kind} (h : (names k && k.wraps) = true) :
    fieldKinds.contains k = true ∨ k = .varDeclarator := by
  cases k <;> first | (left; rfl) | (right; rfl) | cases h

/-- No anonymous functions as default values, not looking at counters. -/
def FieldsAt (m : Node) : Prop :=
  m.kind = .assignPat → ((strip m).children.map isFnDef).all (!·) = true

/-- No directives, not looking at counters. -/
def NoDirectivesAt (m : Node) : Prop := directivesOf (codeOf (strip m)) = []

theorem FieldsAt.of_strip (a b : Node) (h : strip a = strip b) (ha : FieldsAt a) : FieldsAt b := by
  unfold FieldsAt at ha ⊢
  rw [← strip_kind b, ← h, strip_kind]
  exact ha

theorem FieldsAt.of_added (n : Node) (h : n.kind.added = true) : FieldsAt n := by
  intro hk
  rw [hk] at h
  cases h

theorem NoDirectivesAt.of_strip (a b : Node) (h : strip a = strip b) (ha : NoDirectivesAt a) :
    NoDirectivesAt b := by
  unfold NoDirectivesAt at ha ⊢
  rw [← h]; exact ha

theorem codeOf_nil {n : Node} (h : isCode n.kind = false) : codeOf n = [] := by
  obtain ⟨k, sp, cs⟩ := n
  cases k <;> first | rfl | cases h

theorem NoDirectivesAt.of_added (n : Node) (h : n.kind.added = true) : NoDirectivesAt n := by
  unfold NoDirectivesAt
  rw [codeOf_nil]
  · rfl
  · rw [strip_kind]
    generalize n.kind = k at h
    cases k <;> first | rfl | cases h

/-- What is needed of one node. -/
theorem faithfulAt_of {m : Node} (h1 : FieldsAt m)
    (h0 : m.kind.isProp = true → ∀ c ∈ m.children, isFnDef (unwrap c) = true →
      unwrap c = c ∧ c.any Kind.isBlock = true)
    (h2 : m.kind = .varDeclarator → ∀ c ∈ m.children, c.any Kind.isHoisting = true → unwrap c = c)
    (h3 : directivesOf (codeOf m) = directivesOf ((codeOf m).filter fun s => !isInjectedItem s)) :
    faithfulAt m = true := by
  unfold faithfulAt
  rw [Bool.and_eq_true, decide_eq_true_eq]
  refine ⟨?_, h3⟩
  cases hk : names m.kind && m.kind.wraps with
  | false => rfl
  | true =>
    simp only [Bool.not_true, Bool.false_or, List.all_eq_true]
    intro c hc
    rw [beq_iff_eq]
    cases hd : isFnDef c with
    | true => rw [isFnDef_of_unwrap hd, hd]
    | false =>
      cases hu : isFnDef (unwrap c) with
      | false => rfl
      | true =>
        exfalso
        rcases names_wraps hk with hf | hf
        · by_cases ha : m.kind = .assignPat
          · have := h1 ha
            rw [fields_strip (wraps_of_field hf), List.all_eq_true] at this
            have := this _ (List.mem_map.2 ⟨c, hc, rfl⟩)
            rw [hu] at this
            cases this
          · have hp : m.kind.isProp = true := by
              generalize m.kind = k at hf ha
              cases k <;> first | rfl | exact absurd rfl ha | cases hf
            rw [(h0 hp c hc hu).1, hd] at hu
            cases hu
        · cases hh : c.any Kind.isHoisting with
          | true => rw [h2 hf c hc hh, hd] at hu; cases hu
          | false =>
            have : ∀ m : Node, m.any Kind.isHoisting = false → (unwrap m).any Kind.isHoisting = false := by
              intro m hm
              fun_induction unwrap m with
              | case1 sp sp' c sp'' cs e ih =>
                exact ih (by simp [any_mk] at hm ⊢; exact hm.2.2.2)
              | case2 sp c sp' cs sp'' op sp3 sp4 cs' e mid sp5 cs'' ih =>
                exact ih (by simp [any_mk] at hm ⊢; exact hm.2.2.2.1.2.2)
              | case3 => exact hm
            have h4 := hoisting_of_isFnDef hu
            rw [this c hh] at h4
            cases h4

end Sem
end Verif
