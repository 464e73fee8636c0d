import Verif.Spec.Each
import Verif.Lemmas.StepsInv
import Verif.Lemmas.StepsCount
/-
Properties of all nodes of a tree, through steps.
-/
namespace Verif
open Node

namespace Node

theorem eachList_eq (cs : List Node) : eachList cs = cs.flatMap each := by
  induction cs with
  | nil => rfl
  | cons c cs ih => simp [eachList, ih]

theorem mem_eachList {cs : List Node} {m : Node} : m ∈ eachList cs ↔ ∃ c ∈ cs, m ∈ each c := by
  rw [eachList_eq, List.mem_flatMap]

theorem mem_each {n m : Node} : m ∈ each n ↔ m = n ∨ m ∈ inner n := by
  cases n with
  | mk k sp cs => rw [each, List.mem_cons]; rfl

theorem mem_each_mk {k : Kind} {sp : Span} {cs : List Node} {m : Node} :
    m ∈ each (mk k sp cs) ↔ m = mk k sp cs ∨ ∃ c ∈ cs, m ∈ each c := by
  rw [mem_each]
  unfold inner
  rw [mem_eachList]
  rfl

theorem each_self (n : Node) : n ∈ each n := mem_each.2 (.inl rfl)

theorem mem_inner_mk {k : Kind} {sp : Span} {cs : List Node} {m : Node} :
    m ∈ inner (mk k sp cs) ↔ ∃ c ∈ cs, m ∈ each c := mem_eachList

theorem any_iff {p : Kind → Bool} {n : Node} : n.any p = true ↔ ∃ m ∈ each n, p m.kind = true := by
  induction n using Node.ind with
  | h k sp cs ih =>
    rw [any_mk, Bool.or_eq_true, List.any_eq_true]
    constructor
    · rintro (h | ⟨c, hc, h⟩)
      · exact ⟨_, each_self _, h⟩
      · obtain ⟨m, h1, h2⟩ := (ih c hc).1 h
        exact ⟨m, mem_each_mk.2 (.inr ⟨c, hc, h1⟩), h2⟩
    · rintro ⟨m, h1, h2⟩
      rcases mem_each_mk.1 h1 with rfl | ⟨c, hc, h1⟩
      · exact .inl h2
      · exact .inr ⟨c, hc, (ih c hc).2 ⟨m, h1, h2⟩⟩

theorem each_of_any {p : Kind → Bool} {n : Node} (h : n.any p = false) : ∀ m ∈ each n, p m.kind = false := by
  intro m hm
  cases hp : p m.kind with
  | false => rfl
  | true => rw [any_iff.2 ⟨m, hm, hp⟩] at h; cases h

theorem each_counterStmt {c : Counter} {m : Node} (h : m ∈ each (counterStmt c)) : m.kind.added = true := by
  have := each_of_any (p := fun k => !k.added) (n := counterStmt c) rfl m h
  simpa using this

theorem each_wrapCounter {c : Counter} {e m : Node} (h : m ∈ each (wrapCounter c e)) :
    m.kind.added = true ∨ m ∈ each e := by
  replace h := mem_each_mk.1 h
  rcases h with rfl | ⟨x, hx, h⟩
  · exact .inl rfl
  · cases List.mem_singleton.1 hx
    replace h := mem_each_mk.1 h
    rcases h with rfl | ⟨x, hx, h⟩
    · exact .inl rfl
    · simp only [List.mem_cons, List.not_mem_nil, or_false] at hx
      rcases hx with rfl | rfl
      · replace h := mem_each_mk.1 h
        rcases h with rfl | ⟨x, hx, h⟩
        · exact .inl rfl
        · cases hx
      · exact .inr h

theorem each_wrapTruth {b a : Nat} {e m : Node} (h : m ∈ each (wrapTruth b a e)) :
    m.kind.added = true ∨ m ∈ each e := by
  have fixed : ∀ x : Node, x.any (fun k => !k.added) = false → m ∈ each x → m.kind.added = true := by
    intro x hx hm
    simpa using each_of_any hx m hm
  replace h := mem_each_mk.1 h
  rcases h with rfl | ⟨x, hx, h⟩
  · exact .inl rfl
  · simp only [List.mem_cons, List.not_mem_nil, or_false] at hx
    rcases hx with rfl | rfl
    · exact .inl (fixed _ rfl h)
    · replace h := mem_each_mk.1 h
      rcases h with rfl | ⟨x, hx, h⟩
      · exact .inl rfl
      · simp only [List.mem_cons, List.not_mem_nil, or_false] at hx
        rcases hx with rfl | rfl | rfl
        · replace h := mem_each_mk.1 h
          rcases h with rfl | ⟨x, hx, h⟩
          · exact .inl rfl
          · simp only [List.mem_cons, List.not_mem_nil, or_false] at hx
            rcases hx with rfl | rfl
            · exact .inl (fixed _ rfl h)
            · exact .inr h
        · exact .inl (fixed _ rfl h)
        · exact .inl (fixed _ rfl h)

theorem each_isNone {n m : Node} (hn : n.isNone = true) (h : m ∈ each n) : m = n := by
  unfold Node.isNone at hn
  split at hn
  · replace h := mem_each_mk.1 h
    rcases h with rfl | ⟨x, hx, h⟩
    · rfl
    · cases hx
  · cases hn

end Node

namespace Steps
variable {cx : Ctx}

/-- A property that does not look at counters, and holds for what instrumentation adds, is kept for all nodes
below the root. -/
theorem below_keep {P : Node → Prop} (hs : ∀ a b, strip a = strip b → P a → P b)
    (ha : ∀ n, n.kind.added = true → P n) {n q h n' q' h' o} (s : Steps cx n q h n' q' h' o)
    (hn : ∀ m ∈ inner n, P m) : ∀ m ∈ inner n', P m := by
  induction s with
  | refl => exact hn
  | trans _ _ ih1 ih2 => exact ih2 (ih1 hn)
  | @child c q h c' q' h' o k sp l r _ st ih =>
    intro m hm
    rw [mem_inner_mk] at hm
    obtain ⟨x, hx, hm⟩ := hm
    have hsub : ∀ y ∈ l ++ c :: r, ∀ m ∈ each y, P m := fun y hy m hm => hn m (mem_inner_mk.2 ⟨y, hy, hm⟩)
    rcases List.mem_append.1 hx with hx | hx
    · exact hsub x (by simp [hx]) m hm
    · rcases List.mem_cons.1 hx with rfl | hx
      · rcases mem_each.1 hm with rfl | hm
        · exact hs c _ st.strip_eq.symm (hsub c (by simp) c (each_self c))
        · exact ih (fun m hm => hsub c (by simp) m (mem_each.2 (.inr hm))) m hm
      · exact hsub x (by simp [hx]) m hm
  | @insert c q h c' q' h' o k sp l r _ st ih =>
    intro m hm
    rw [mem_inner_mk] at hm
    obtain ⟨x, hx, hm⟩ := hm
    have hsub : ∀ y ∈ l ++ c :: r, ∀ m ∈ each y, P m := fun y hy m hm => hn m (mem_inner_mk.2 ⟨y, hy, hm⟩)
    rcases List.mem_append.1 hx with hx | hx
    · rcases List.mem_append.1 hx with hx | hx
      · exact hsub x (by simp [hx]) m hm
      · obtain ⟨d, rfl⟩ := st.out_counters x hx
        exact ha m (each_counterStmt hm)
    · rcases List.mem_cons.1 hx with rfl | hx
      · rcases mem_each.1 hm with rfl | hm
        · exact hs c _ st.strip_eq.symm (hsub c (by simp) c (each_self c))
        · exact ih (fun m hm => hsub c (by simp) m (mem_each.2 (.inr hm))) m hm
      · exact hsub x (by simp [hx]) m hm
  | @lose c q h c' q' h' o sp l r st ih =>
    intro m hm
    rw [mem_inner_mk] at hm
    obtain ⟨x, hx, hm⟩ := hm
    have hsub : ∀ y ∈ l ++ c :: r, ∀ m ∈ each y, P m := fun y hy m hm => hn m (mem_inner_mk.2 ⟨y, hy, hm⟩)
    rcases List.mem_append.1 hx with hx | hx
    · exact hsub x (by simp [hx]) m hm
    · rcases List.mem_cons.1 hx with rfl | hx
      · rcases mem_each.1 hm with rfl | hm
        · exact hs c _ st.strip_eq.symm (hsub c (by simp) c (each_self c))
        · exact ih (fun m hm => hsub c (by simp) m (mem_each.2 (.inr hm))) m hm
      · exact hsub x (by simp [hx]) m hm
  | register => exact hn
  | emit => exact hn
  | headBlock sp ss =>
    intro m hm
    rw [mem_inner_mk] at hm
    obtain ⟨x, hx, hm⟩ := hm
    rcases List.mem_cons.1 hx with rfl | hx
    · exact ha m (each_counterStmt hm)
    · exact hn m (mem_inner_mk.2 ⟨x, hx, hm⟩)
  | headCase sp test ss =>
    intro m hm
    rw [mem_inner_mk] at hm
    obtain ⟨x, hx, hm⟩ := hm
    rcases List.mem_cons.1 hx with rfl | hx
    · exact hn m (mem_inner_mk.2 ⟨x, by simp, hm⟩)
    · rcases List.mem_cons.1 hx with rfl | hx
      · exact ha m (each_counterStmt hm)
      · exact hn m (mem_inner_mk.2 ⟨x, by simp [hx], hm⟩)
  | wrap k sp l e r =>
    intro m hm
    rw [mem_inner_mk] at hm
    obtain ⟨x, hx, hm⟩ := hm
    rcases List.mem_append.1 hx with hx | hx
    · exact hn m (mem_inner_mk.2 ⟨x, by simp [hx], hm⟩)
    · rcases List.mem_cons.1 hx with rfl | hx
      · rcases each_wrapCounter hm with h | hm
        · exact ha m h
        · exact hn m (mem_inner_mk.2 ⟨e, by simp, hm⟩)
      · exact hn m (mem_inner_mk.2 ⟨x, by simp [hx], hm⟩)
  | truth k sp l e r =>
    intro m hm
    rw [mem_inner_mk] at hm
    obtain ⟨x, hx, hm⟩ := hm
    rcases List.mem_append.1 hx with hx | hx
    · exact hn m (mem_inner_mk.2 ⟨x, by simp [hx], hm⟩)
    · rcases List.mem_cons.1 hx with rfl | hx
      · rcases each_wrapTruth hm with h | hm
        · exact ha m h
        · exact hn m (mem_inner_mk.2 ⟨e, by simp, hm⟩)
      · exact hn m (mem_inner_mk.2 ⟨x, by simp [hx], hm⟩)
  | body k sp l s r =>
    intro m hm
    rw [mem_inner_mk] at hm
    obtain ⟨x, hx, hm⟩ := hm
    rcases List.mem_append.1 hx with hx | hx
    · exact hn m (mem_inner_mk.2 ⟨x, by simp [hx], hm⟩)
    · rcases List.mem_cons.1 hx with rfl | hx
      · rcases mem_each_mk.1 hm with rfl | ⟨y, hy, hm⟩
        · exact ha _ rfl
        · cases List.mem_singleton.1 hy
          exact hn m (mem_inner_mk.2 ⟨s, by simp, hm⟩)
      · exact hn m (mem_inner_mk.2 ⟨x, by simp [hx], hm⟩)
  | addElse sp test cons alt =>
    intro m hm
    rw [mem_inner_mk] at hm
    obtain ⟨x, hx, hm⟩ := hm
    simp only [List.mem_cons, List.not_mem_nil, or_false] at hx
    rcases hx with rfl | rfl | rfl
    · exact hn m (mem_inner_mk.2 ⟨x, by simp, hm⟩)
    · exact hn m (mem_inner_mk.2 ⟨x, by simp, hm⟩)
    · rcases mem_each_mk.1 hm with rfl | ⟨y, hy, hm⟩
      · exact ha _ rfl
      · cases hy
  | arrow a sp params e =>
    intro m hm
    rw [mem_inner_mk] at hm
    obtain ⟨x, hx, hm⟩ := hm
    simp only [List.mem_cons, List.not_mem_nil, or_false] at hx
    rcases hx with rfl | rfl
    · exact hn m (mem_inner_mk.2 ⟨x, by simp, hm⟩)
    · rcases mem_each_mk.1 hm with rfl | ⟨y, hy, hm⟩
      · exact ha _ rfl
      · cases List.mem_singleton.1 hy
        rcases mem_each_mk.1 hm with rfl | ⟨y, hy, hm⟩
        · exact ha _ rfl
        · cases List.mem_singleton.1 hy
          exact hn m (mem_inner_mk.2 ⟨e, by simp, hm⟩)

/-- The same for all nodes. -/
theorem each_keep {P : Node → Prop} (hs : ∀ a b, strip a = strip b → P a → P b)
    (ha : ∀ n, n.kind.added = true → P n) {n q h n' q' h' o} (s : Steps cx n q h n' q' h' o)
    (hn : ∀ m ∈ each n, P m) : ∀ m ∈ each n', P m := by
  intro m hm
  rcases mem_each.1 hm with rfl | hm
  · exact hs n _ s.strip_eq.symm (hn n (each_self n))
  · exact s.below_keep hs ha (fun m hm => hn m (mem_each.2 (.inr hm))) m hm

/-- Steps keep whether there are nodes of a kind that instrumentation does not add. -/
theorem any_eq {n q h n' q' h' o} (s : Steps cx n q h n' q' h' o) {p : Kind → Bool}
    (hp : ∀ k, k.added = true → p k = false) : n'.any p = n.any p := by
  have h1 := s.countKinds_eq hp
  cases h2 : n.any p with
  | false =>
    rw [← countKinds_eq_zero_iff] at h2 ⊢
    rw [h1, h2]
  | true =>
    cases h3 : n'.any p with
    | true => rfl
    | false =>
      rw [← countKinds_eq_zero_iff, h1, countKinds_eq_zero_iff] at h3
      rw [h3] at h2; cases h2

end Steps
end Verif
