import Verif.Lemmas.Template
import Verif.Spec.Runtime
/-
Changing one cell of a tree on the heap.
-/
namespace Verif

namespace IndexMap

theorem insert_same {K V : Type} [DecidableEq K] {m : IndexMap K V} {k : K} {v : V} (h : m.get k = some v) :
    m.insert k v = m := by
  induction m with
  | nil => cases h
  | cons e m ih =>
    obtain ⟨k', v'⟩ := e
    simp only [get] at h
    simp only [insert]
    split
    · rename_i hk
      rw [if_pos hk] at h
      injection h with h
      rw [h]
    · rename_i hk
      rw [if_neg hk] at h
      rw [ih h]

theorem get_filter {V : Type} {m : IndexMap String V} {p : String → Bool} {k : String} (hk : p k = true) :
    IndexMap.get (List.filter (fun e => p e.1) m) k = m.get k := by
  induction m with
  | nil => rfl
  | cons e m ih =>
    obtain ⟨k', v'⟩ := e
    simp only [List.filter_cons, get]
    by_cases hp : p k' = true
    · rw [if_pos hp]
      simp only [get, ih]
    · rw [if_neg hp, ih, if_neg]
      intro e
      subst e
      exact hp hk

theorem filter_insert {V : Type} {m : IndexMap String V} {p : String → Bool} {k : String} {v : V}
    (hk : p k = false) : List.filter (fun e => p e.1) (m.insert k v) = List.filter (fun e => p e.1) m := by
  induction m with
  | nil => simp [insert, hk]
  | cons e m ih =>
    obtain ⟨k', v'⟩ := e
    simp only [insert]
    split
    · rename_i h
      subst h
      simp [hk]
    · simp only [List.filter_cons, ih]

end IndexMap

namespace Js
open Template

theorem ReadsAll.get {h : List Obj} {lo hi : Nat} {ps : List (String × Cell)} {fs : List (String × Data)}
    {k : String} {d : Data} (hr : ReadsAll h lo hi ps fs) (hg : IndexMap.get fs k = some d) :
    ∃ lo' hi' v, lo ≤ lo' ∧ hi' ≤ hi ∧ IndexMap.get ps k = some (.data v) ∧ Reads h lo' hi' v d := by
  induction fs generalizing lo ps with
  | nil => cases hg
  | cons e fs ih =>
    cases hr with
    | @cons _ m _ k' v d' ps' _ h1 h2 =>
      simp only [IndexMap.get] at hg ⊢
      split at hg
      · rename_i hk
        injection hg with hg
        subst hg
        exact ⟨lo, m, v, Nat.le_refl _, h2.le, by rw [if_pos hk], h1⟩
      · rename_i hk
        obtain ⟨lo', hi', u, a1, a2, a3, a4⟩ := ih h2 hg
        exact ⟨lo', hi', u, Nat.le_trans h1.le a1, a2, by rw [if_neg hk]; exact a3, a4⟩

/-- Replacing one field. -/
theorem ReadsAll.focus {h : List Obj} {lo hi : Nat} {ps : List (String × Cell)} {fs : List (String × Data)}
    {k : String} {d : Data} (hr : ReadsAll h lo hi ps fs) (hg : IndexMap.get fs k = some d) :
    ∃ lo' hi' v, lo ≤ lo' ∧ hi' ≤ hi ∧ IndexMap.get ps k = some (.data v) ∧ Reads h lo' hi' v d ∧
      ∀ h' v' d', (∀ a, lo ≤ a → a < hi → (a < lo' ∨ hi' ≤ a) → h'[a]? = h[a]?) → Reads h' lo' hi' v' d' →
        ReadsAll h' lo hi (IndexMap.insert ps k (.data v')) (IndexMap.insert fs k d') := by
  induction fs generalizing lo ps with
  | nil => cases hg
  | cons e fs ih =>
    cases hr with
    | @cons _ m _ k' v d' ps' _ h1 h2 =>
      simp only [IndexMap.get] at hg
      split at hg
      · rename_i hk
        injection hg with hg
        subst hg
        refine ⟨lo, m, v, Nat.le_refl _, h2.le, by simp only [IndexMap.get]; rw [if_pos hk], h1, ?_⟩
        intro h' v' d' hag hr'
        simp only [IndexMap.insert]
        rw [if_pos hk, if_pos hk]
        have : m ≤ hi := h2.le
        have hl := h1.le
        exact .cons hr' (h2.agree fun a ha hb => hag a (by omega) hb (Or.inr ha))
      · rename_i hk
        obtain ⟨lo', hi', u, a1, a2, a3, a4, a5⟩ := ih h2 hg
        have hl := h1.le
        refine ⟨lo', hi', u, by omega, a2, by simp only [IndexMap.get]; rw [if_neg hk]; exact a3, a4, ?_⟩
        intro h' v' d' hag hr'
        simp only [IndexMap.insert]
        rw [if_neg hk, if_neg hk]
        have hm : m ≤ hi := h2.le
        refine .cons (h1.agree fun a ha hb => hag a ha (by omega) (Or.inl (by omega))) ?_
        exact a5 h' v' d' (fun a ha hb hc => hag a (by omega) hb hc) hr'

/-! ### Tables -/

theorem tree_modify {V : Type} (g : V → Data) (m : IndexMap Nat V) (id : Nat) (v : V) (u : V → V)
    (h : m.get id = some v) :
    IndexMap.get (m.map fun e => (toString e.1, g e.2)) (toString id) = some (g v) ∧
    IndexMap.insert (m.map fun e => (toString e.1, g e.2)) (toString id) (g (u v))
      = (m.modify id u).map fun e => (toString e.1, g e.2) := by
  induction m with
  | nil => cases h
  | cons e m ih =>
    obtain ⟨k, v'⟩ := e
    simp only [IndexMap.get] at h
    simp only [List.map_cons, IndexMap.get, IndexMap.insert, IndexMap.modify]
    by_cases hk : k = id
    · rw [if_pos hk] at h
      injection h with h
      subst h
      rw [if_pos (by rw [hk]), if_pos (by rw [hk]), if_pos hk]
      exact ⟨rfl, rfl⟩
    · rw [if_neg hk] at h
      have hk' : toString k ≠ toString id := fun e => hk (toString_inj e)
      rw [if_neg hk', if_neg hk', if_neg hk]
      obtain ⟨h1, h2⟩ := ih h
      exact ⟨h1, by rw [h2]; rfl⟩

theorem indexed_modify (l : List Nat) (i arm n : Nat) (u : Nat → Nat) (h : l[arm]? = some n) :
    IndexMap.get (indexed i (l.map .num)) (toString (i + arm)) = some (.num n) ∧
    IndexMap.insert (indexed i (l.map .num)) (toString (i + arm)) (.num (u n))
      = indexed i ((l.modify arm u).map .num) := by
  induction l generalizing i arm with
  | nil => simp at h
  | cons x l ih =>
    simp only [List.map_cons, indexed, IndexMap.get, IndexMap.insert]
    cases arm with
    | zero =>
      simp only [List.getElem?_cons_zero, Option.some.injEq] at h
      subst h
      simp [indexed]
    | succ arm =>
      simp only [List.getElem?_cons_succ] at h
      have hne : toString i ≠ toString (i + (arm + 1)) := fun e => by
        have := toString_inj e
        omega
      rw [if_neg hne, if_neg hne]
      obtain ⟨h1, h2⟩ := ih (i + 1) arm h
      have e : i + (arm + 1) = i + 1 + arm := by omega
      rw [e]
      refine ⟨h1, ?_⟩
      rw [h2]
      simp [indexed]

/-- The tree after one of its number cells, in the object itself, was overwritten. -/
theorem reads_counts_incr {h : List Obj} {lo hi : Nat} {v : Value} {l : List Nat} {arm n : Nat}
    (hr : Reads h lo hi v (countsTree l)) (hl : l[arm]? = some n) :
    ∃ a ps, v = .ref a ∧ lo ≤ a ∧ a < hi ∧ h[a]? = some ⟨.array, some arrayProto, ps⟩ ∧
      ps.get (toString arm) = some (.data (.num n)) ∧
      Reads (h.set a ⟨.array, some arrayProto, ps.insert (toString arm) (.data (.num (bump n)))⟩) lo hi v
        (countsTree (l.modify arm bump)) := by
  unfold countsTree at hr
  cases hr with
  | @arr _ _ m a ps _ ha hm hlt hrs =>
    obtain ⟨h1, h2⟩ := indexed_modify l 0 arm n bump hl
    rw [Nat.zero_add] at h1 h2
    obtain ⟨lo', hi', u, b1, b2, b3, b4, b5⟩ := hrs.focus h1
    have hu : u = .num n := by cases b4; rfl
    subst hu
    have hml := hrs.le
    refine ⟨a, ps, rfl, by omega, hlt, ha, b3, ?_⟩
    have hlen : a < h.length := (List.getElem?_eq_some_iff.1 ha).1
    refine .arr (m := m) (List.getElem?_set_self hlen) hm hlt ?_
    rw [← h2]
    refine b5 _ _ _ (fun b hb1 hb2 _ => List.getElem?_set_ne (by omega)) (.num _ b4.le)

theorem reads_table_incr {h : List Obj} {lo hi : Nat} {v : Value} {t : IndexMap Nat Nat} {id n : Nat}
    (hr : Reads h lo hi v (tableTree .num t)) (hl : t.get id = some n) :
    ∃ a ps, v = .ref a ∧ lo ≤ a ∧ a < hi ∧ h[a]? = some ⟨.plain, some objectProto, ps⟩ ∧
      ps.get (toString id) = some (.data (.num n)) ∧
      Reads (h.set a ⟨.plain, some objectProto, ps.insert (toString id) (.data (.num (bump n)))⟩) lo hi v
        (tableTree .num (t.modify id bump)) := by
  unfold tableTree at hr
  cases hr with
  | @obj _ _ m a ps _ ha hm hlt hrs =>
    obtain ⟨h1, h2⟩ := tree_modify Data.num t id n bump hl
    obtain ⟨lo', hi', u, b1, b2, b3, b4, b5⟩ := hrs.focus h1
    have hu : u = .num n := by cases b4; rfl
    subst hu
    have hml := hrs.le
    refine ⟨a, ps, rfl, by omega, hlt, ha, b3, ?_⟩
    have hlen : a < h.length := (List.getElem?_eq_some_iff.1 ha).1
    refine .obj (m := m) (List.getElem?_set_self hlen) hm hlt ?_
    rw [← h2]
    refine b5 _ _ _ (fun b hb1 hb2 _ => List.getElem?_set_ne (by omega)) (.num _ b4.le)

theorem reads_arms_incr {h : List Obj} {lo hi : Nat} {v : Value} {t : IndexMap Nat (List Nat)} {id arm n : Nat}
    {l : List Nat} (hr : Reads h lo hi v (tableTree countsTree t)) (hl : t.get id = some l)
    (hn : l[arm]? = some n) :
    ∃ r rs a ps, v = .ref r ∧ h[r]? = some ⟨.plain, some objectProto, rs⟩ ∧
      rs.get (toString id) = some (.data (.ref a)) ∧ lo ≤ a ∧ a < hi ∧
      h[a]? = some ⟨.array, some arrayProto, ps⟩ ∧
      ps.get (toString arm) = some (.data (.num n)) ∧
      Reads (h.set a ⟨.array, some arrayProto, ps.insert (toString arm) (.data (.num (bump n)))⟩) lo hi v
        (tableTree countsTree (t.modify id fun l => l.modify arm bump)) := by
  unfold tableTree at hr
  cases hr with
  | @obj _ _ m r rs _ ha hm hlt hrs =>
    obtain ⟨h1, h2⟩ := tree_modify countsTree t id l (fun l => l.modify arm bump) hl
    obtain ⟨lo', hi', u, b1, b2, b3, b4, b5⟩ := hrs.focus h1
    obtain ⟨a, ps, rfl, c2, c3, c4, c5, c6⟩ := reads_counts_incr b4 hn
    have hml := hrs.le
    refine ⟨r, rs, a, ps, rfl, ha, b3, by omega, by omega, c4, c5, ?_⟩
    refine .obj (m := m) (ps := rs) ?_ hm hlt ?_
    · rw [List.getElem?_set_ne (by omega)]
      exact ha
    · have := b5 _ _ _ (fun b hb1 hb2 hb3 => List.getElem?_set_ne (by omega)) c6
      rw [IndexMap.insert_same b3] at this
      rw [← h2]
      exact this

end Js
end Verif
