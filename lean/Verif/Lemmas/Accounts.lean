import Verif.Lemmas.Loads
/-
Facts about the books alone.
-/
namespace Verif.Runtime
open Js Template

/-- The indices of the books point at data sets of the right path. -/
structure Sane (b : Books) (paths : List String) : Prop where
  current : ∀ p n, b.current.get p = some n → ∃ e, b.sets[n]? = some e ∧ e.1.path = p
  len : paths.length = b.writes.length
  writes : ∀ (k : Nat) n, b.writes[k]? = some n → ∃ e, b.sets[n]? = some e ∧ paths[k]? = some e.1.path

theorem Sane.empty : Sane .empty [] :=
  ⟨(fun _ _ h => by cases h), rfl, (fun _ _ h => by cases h)⟩

theorem kept_some {b : Books} {i : Input} {n : Nat} (h : b.kept i = some n) :
    b.current.get i.path = some n ∧ ∃ e, b.sets[n]? = some e ∧ e.1.hash = i.hash := by
  unfold Books.kept at h
  split at h
  · cases h
  · rename_i m hm
    split at h
    · rename_i i' c he
      by_cases hh : i'.hash = i.hash
      · rw [if_pos hh] at h
        injection h with h
        subst h
        exact ⟨hm, _, he, hh⟩
      · rw [if_neg hh] at h
        cases h
    · cases h

theorem getElem?_push {α : Type} {l : List α} {a x : α} {n : Nat} (h : (l ++ [a])[n]? = some x) :
    l[n]? = some x ∨ (n = l.length ∧ x = a) := by
  by_cases hn : n < l.length
  · rw [List.getElem?_append_left hn] at h
    exact Or.inl h
  · have hl := lt_of_getElem? h
    simp at hl
    have : n = l.length := by omega
    subst this
    simp at h
    exact Or.inr ⟨rfl, h.symm⟩

theorem load_kept {b : Books} {i : Input} {n : Nat} (h : b.kept i = some n) :
    b.load i = ⟨b.sets, b.current, b.writes ++ [n]⟩ := by
  unfold Books.load
  rw [h]

theorem load_none {b : Books} {i : Input} (h : b.kept i = none) :
    b.load i = ⟨b.sets ++ [(i, i.data)], b.current.insert i.path b.sets.length, b.writes ++ [b.sets.length]⟩ := by
  unfold Books.load
  rw [h]

theorem Sane.load {b : Books} {paths : List String} (hs : Sane b paths) (i : Input) :
    Sane (b.load i) (paths ++ [i.path]) := by
  cases hk : b.kept i with
  | some n =>
    obtain ⟨h1, e, h2, _⟩ := kept_some hk
    obtain ⟨e', h3, h4⟩ := hs.current _ _ h1
    rw [h2] at h3
    injection h3 with h3
    subst h3
    rw [load_kept hk]
    refine ⟨hs.current, by simp [hs.len], fun k m hm => ?_⟩
    rcases getElem?_push hm with hm | ⟨rfl, rfl⟩
    · obtain ⟨e', k1, k2⟩ := hs.writes k m hm
      exact ⟨e', k1, prefix_get (List.prefix_append _ _) k2⟩
    · exact ⟨e, h2, by rw [← hs.len, h4]; simp⟩
  | none =>
    rw [load_none hk]
    refine ⟨fun p n hn => ?_, by simp [hs.len], fun k m hm => ?_⟩
    · simp only [IndexMap.get_insert] at hn
      by_cases hp : i.path = p
      · rw [if_pos hp] at hn
        injection hn with hn
        subst hn
        exact ⟨(i, i.data), by simp, hp⟩
      · rw [if_neg hp] at hn
        obtain ⟨e, h1, h2⟩ := hs.current p n hn
        exact ⟨e, prefix_get (List.prefix_append _ _) h1, h2⟩
    · rcases getElem?_push hm with hm | ⟨rfl, rfl⟩
      · obtain ⟨e', k1, k2⟩ := hs.writes k m hm
        exact ⟨e', prefix_get (List.prefix_append _ _) k1, prefix_get (List.prefix_append _ _) k2⟩
      · exact ⟨(i, i.data), by simp, by rw [← hs.len]; simp⟩

/-- One data set after a hit. -/
theorem hit_sets {b : Books} {k n : Nat} {c : Counter} (h : b.writes[k]? = some n) :
    b.hit k c = { b with sets := b.sets.modify n fun e => (e.1, e.2.hit c) } := by
  unfold Books.hit
  rw [h]

theorem get_modify {l : List (Input × FileCoverage)} {n m : Nat} {c : Counter} {e : Input × FileCoverage}
    (h : l[m]? = some e) : (l.modify n fun e => (e.1, e.2.hit c))[m]? =
      some (e.1, if n = m then e.2.hit c else e.2) := by
  rw [List.getElem?_modify, h]
  by_cases hn : n = m <;> simp [hn]

theorem Sane.hit {b : Books} {paths : List String} (hs : Sane b paths) (k : Nat) (c : Counter) :
    Sane (b.hit k c) paths := by
  cases hk : b.writes[k]? with
  | none =>
    unfold Books.hit
    rw [hk]
    exact hs
  | some n =>
    rw [hit_sets hk]
    refine ⟨fun p m hm => ?_, hs.len, fun j m hm => ?_⟩
    · obtain ⟨e, h1, h2⟩ := hs.current p m hm
      exact ⟨_, get_modify h1, h2⟩
    · obtain ⟨e, h1, h2⟩ := hs.writes j m hm
      exact ⟨_, get_modify h1, h2⟩

theorem Sane.after {b : Books} {paths : List String} (hs : Sane b paths) (es : List Event) :
    Sane (b.after es) (pathsAfter paths es) := by
  induction es generalizing b paths with
  | nil => exact hs
  | cons e es ih =>
    cases e with
    | load i => exact ih (hs.load i)
    | hit n c => exact ih (hs.hit n c)

theorem after_append (b : Books) (es fs : List Event) : b.after (es ++ fs) = (b.after es).after fs := by
  induction es generalizing b with
  | nil => rfl
  | cons e es ih => exact ih _

theorem allows_append {gcv : String} {b : Books} {es fs : List Event} :
    b.AllowsAll gcv (es ++ fs) ↔ b.AllowsAll gcv es ∧ (b.after es).AllowsAll gcv fs := by
  induction es generalizing b with
  | nil => simp [Books.AllowsAll, Books.after]
  | cons e es ih =>
    simp only [List.cons_append, Books.AllowsAll, Books.after, ih]
    exact ⟨fun ⟨a, b, c⟩ => ⟨⟨a, b⟩, c⟩, fun ⟨⟨a, b⟩, c⟩ => ⟨a, b, c⟩⟩

/-- Loading a file does not change the entries of other paths. -/
theorem at_load_other {b : Books} {paths : List String} (hs : Sane b paths) {i : Input} {p : String}
    (hp : p ≠ i.path) : (b.load i).at p = b.at p := by
  cases hk : b.kept i with
  | some n =>
    rw [load_kept hk]
    rfl
  | none =>
    rw [load_none hk]
    unfold Books.at
    simp only [IndexMap.get_insert, if_neg (fun e => hp e.symm : ¬ i.path = p)]
    cases hn : b.current.get p with
    | none => rfl
    | some n =>
      obtain ⟨e, h1, _⟩ := hs.current p n hn
      exact (prefix_get (List.prefix_append _ _) h1).trans h1.symm

/-- Loading a file with the hash of the entry does not change the entry. -/
theorem at_load_same {b : Books} {i : Input} {e : Input × FileCoverage} (he : b.at i.path = some e)
    (hh : e.1.hash = i.hash) : (b.load i).at i.path = some e := by
  have hk : ∃ n, b.kept i = some n := by
    unfold Books.at at he
    unfold Books.kept
    cases hn : b.current.get i.path with
    | none =>
      rw [hn] at he
      cases he
    | some n =>
      rw [hn] at he
      simp only at he ⊢
      rw [he]
      exact ⟨n, if_pos hh⟩
  obtain ⟨n, hk⟩ := hk
  rw [load_kept hk]
  exact he

/-- Loading a file with another hash, or for the first time, opens new data. -/
theorem at_load_fresh {b : Books} {i : Input} (hh : ∀ e, b.at i.path = some e → e.1.hash ≠ i.hash) :
    (b.load i).at i.path = some (i, i.data) := by
  have hk : b.kept i = none := by
    cases hk : b.kept i with
    | none => rfl
    | some n =>
      obtain ⟨h1, e, h2, h3⟩ := kept_some hk
      refine absurd h3 (hh e ?_)
      unfold Books.at
      rw [h1]
      exact h2
  rw [load_none hk]
  unfold Books.at
  simp only [IndexMap.get_insert, if_true]
  simp

/-- A counter of an instance of one file does not change the entries of other paths. -/
theorem at_hit_other {b : Books} {paths : List String} (hs : Sane b paths) {k : Nat} {c : Counter} {p : String}
    (hp : paths[k]? ≠ some p) : (b.hit k c).at p = b.at p := by
  cases hk : b.writes[k]? with
  | none =>
    unfold Books.hit
    rw [hk]
  | some n =>
    rw [hit_sets hk]
    unfold Books.at
    simp only
    cases hm : b.current.get p with
    | none => rfl
    | some m =>
      obtain ⟨e, h1, h2⟩ := hs.current p m hm
      obtain ⟨e', h3, h4⟩ := hs.writes k n hk
      simp only
      rw [get_modify h1, h1]
      have hnm : n ≠ m := by
        intro e0
        subst e0
        rw [h1] at h3
        injection h3 with h3
        subst h3
        rw [h2] at h4
        exact hp h4
      rw [if_neg hnm]

/-- All data sets of the path are the current one. -/
def Single (p h : String) (b : Books) : Prop :=
  ∀ (n : Nat) e, b.sets[n]? = some e → e.1.path = p → b.current.get p = some n ∧ e.1.hash = h

theorem accumulate {p h : String} {d : FileCoverage} {i0 : Input} (es : List Event) :
    ∀ {b : Books} {paths : List String} {l : List Counter}, Sane b paths → Single p h b → SameHash p h es →
      b.at p = some (i0, d.hits l) →
        Single p h (b.after es) ∧ (b.after es).at p = some (i0, d.hits (l ++ hitsOf p paths es)) := by
  induction es with
  | nil =>
    intro b paths l _ h1 _ ha
    exact ⟨h1, by simpa [hitsOf, Books.after] using ha⟩
  | cons e es ih =>
    intro b paths l hs h1 hh ha
    cases e with
    | load i =>
      have hh' : SameHash p h es := fun i hi => hh i (List.mem_cons_of_mem _ hi)
      simp only [hitsOf]
      refine ih (b := b.load i) (hs.load i) ?_ hh' ?_
      · by_cases hp : i.path = p
        · have hn : ∃ n, b.current.get p = some n ∧ b.sets[n]? = some (i0, d.hits l) := by
            unfold Books.at at ha
            split at ha
            · cases ha
            · exact ⟨_, by assumption, ha⟩
          obtain ⟨n, hn1, hn2⟩ := hn
          obtain ⟨e', k1, k2⟩ := hs.current p n hn1
          rw [hn2] at k1
          injection k1 with k1
          subst k1
          have hk : b.kept i = some n := by
            unfold Books.kept
            rw [hp, hn1]
            simp only [hn2]
            rw [if_pos]
            rw [(h1 n _ hn2 k2).2, hh i List.mem_cons_self hp]
          rw [load_kept hk]
          exact h1
        · cases hk : b.kept i with
          | some n =>
            rw [load_kept hk]
            exact h1
          | none =>
            rw [load_none hk]
            intro n e he hep
            rcases getElem?_push he with he | ⟨_, rfl⟩
            · obtain ⟨k1, k2⟩ := h1 n e he hep
              exact ⟨by rw [IndexMap.get_insert, if_neg hp]; exact k1, k2⟩
            · exact absurd hep hp
      · by_cases hp : i.path = p
        · subst hp
          refine at_load_same ha ?_
          have hn : ∃ n, b.current.get i.path = some n ∧ b.sets[n]? = some (i0, d.hits l) := by
            unfold Books.at at ha
            split at ha
            · cases ha
            · exact ⟨_, by assumption, ha⟩
          obtain ⟨n, hn1, hn2⟩ := hn
          obtain ⟨e', k1, k2⟩ := hs.current _ n hn1
          rw [hn2] at k1
          injection k1 with k1
          subst k1
          rw [(h1 n _ hn2 k2).2, hh i List.mem_cons_self rfl]
        · rw [at_load_other hs (fun e => hp e.symm)]
          exact ha
    | hit k c =>
      have hh' : SameHash p h es := fun i hi => hh i (List.mem_cons_of_mem _ hi)
      have h1' : Single p h (b.hit k c) := by
        cases hk : b.writes[k]? with
        | none =>
          unfold Books.hit
          rw [hk]
          exact h1
        | some n =>
          rw [hit_sets hk]
          intro m e he hep
          have hm : m < b.sets.length := by
            have := lt_of_getElem? he
            simpa using this
          obtain ⟨e0, he0⟩ : ∃ e0, b.sets[m]? = some e0 := ⟨_, List.getElem?_eq_getElem hm⟩
          have := get_modify (n := n) (c := c) he0
          simp only at he
          rw [this] at he
          injection he with he
          subst he
          exact h1 m e0 he0 hep
      simp only [hitsOf]
      by_cases hp : paths[k]? = some p
      · rw [if_pos hp]
        have hk : ∃ n, b.writes[k]? = some n := by
          have := lt_of_getElem? hp
          rw [hs.len] at this
          exact ⟨_, List.getElem?_eq_getElem this⟩
        obtain ⟨n, hk⟩ := hk
        obtain ⟨e', k3, k4⟩ := hs.writes k n hk
        rw [hp] at k4
        injection k4 with k4
        obtain ⟨k5, k6⟩ := h1 n e' k3 k4.symm
        have hat : b.at p = some e' := by
          unfold Books.at
          rw [k5]
          exact k3
        rw [ha] at hat
        injection hat with hat
        subst hat
        have ha' : (b.hit k c).at p = some (i0, d.hits (l ++ [c])) := by
          rw [hit_sets hk]
          unfold Books.at
          simp only [k5]
          rw [get_modify k3, if_pos rfl]
          simp [FileCoverage.hits]
        have := ih (hs.hit k c) h1' hh' ha'
        rw [List.append_assoc] at this
        exact this
      · rw [if_neg hp]
        exact ih (b := b.hit k c) (hs.hit k c) h1' hh' (by rw [at_hit_other hs hp]; exact ha)

/-- A path that has not been loaded has no entry. -/
theorem at_none {p : String} (es : List Event) :
    ∀ {b : Books} {paths : List String}, Sane b paths → (∀ i, Event.load i ∈ es → i.path ≠ p) →
      (b.after es).at p = b.at p ∨ p ∈ paths := by
  induction es with
  | nil =>
    intro b paths _ _
    exact Or.inl rfl
  | cons e es ih =>
    intro b paths hs hn
    by_cases hp : p ∈ paths
    · exact Or.inr hp
    have hn' : ∀ i, Event.load i ∈ es → i.path ≠ p := fun i hi => hn i (List.mem_cons_of_mem _ hi)
    left
    cases e with
    | load i =>
      have hi : p ≠ i.path := fun e => hn i List.mem_cons_self e.symm
      rcases ih (hs.load i) hn' with h | h
      · exact h.trans (at_load_other hs hi)
      · rcases List.mem_append.1 h with h | h
        · exact absurd h hp
        · exact absurd (List.mem_singleton.1 h) hi
    | hit k c =>
      rcases ih (hs.hit k c) hn' with h | h
      · refine h.trans (at_hit_other hs fun h => hp ?_)
        exact List.mem_of_getElem? h
      · exact absurd h hp

/-- Only loaded paths have data sets. -/
theorem sets_loaded {p : String} (es : List Event) :
    ∀ {b : Books}, (∀ (n : Nat) e, b.sets[n]? = some e → e.1.path ≠ p) → (∀ i, Event.load i ∈ es → i.path ≠ p) →
      ∀ (n : Nat) e, (b.after es).sets[n]? = some e → e.1.path ≠ p := by
  induction es with
  | nil =>
    intro b h _
    exact h
  | cons e es ih =>
    intro b h hn
    have hn' : ∀ i, Event.load i ∈ es → i.path ≠ p := fun i hi => hn i (List.mem_cons_of_mem _ hi)
    cases e with
    | load i =>
      refine ih (b := b.load i) ?_ hn'
      cases hk : b.kept i with
      | some n =>
        rw [load_kept hk]
        exact h
      | none =>
        rw [load_none hk]
        intro n e he
        rcases getElem?_push he with he | ⟨_, rfl⟩
        · exact h n e he
        · exact hn i List.mem_cons_self
    | hit k c =>
      refine ih (b := b.hit k c) ?_ hn'
      cases hk : b.writes[k]? with
      | none =>
        unfold Books.hit
        rw [hk]
        exact h
      | some n =>
        rw [hit_sets hk]
        intro m e he
        have hm : m < b.sets.length := by
          have := lt_of_getElem? he
          simpa using this
        obtain ⟨e0, he0⟩ : ∃ e0, b.sets[m]? = some e0 := ⟨_, List.getElem?_eq_getElem hm⟩
        simp only at he
        rw [get_modify he0] at he
        injection he with he
        subst he
        exact h m e0 he0

/-! ### What is shown is determined -/

theorem indexed_inj {i : Nat} {l l' : List Data} (h : indexed i l = indexed i l') : l = l' := by
  induction l generalizing i l' with
  | nil => cases l' with
    | nil => rfl
    | cons d l' => simp [indexed] at h
  | cons d l ih => cases l' with
    | nil => simp [indexed] at h
    | cons d' l' =>
      simp only [indexed, List.cons.injEq, Prod.mk.injEq, true_and] at h
      rw [h.1, ih h.2]

mutual
theorem reads_det {h : List Obj} {lo hi lo' hi' : Nat} {v : Value} {d d' : Data} (h1 : Reads h lo hi v d)
    (h2 : Reads h lo' hi' v d') : d = d' := by
  match h1 with
  | .null _ => cases h2; rfl
  | .bool _ _ => cases h2; rfl
  | .num _ _ => cases h2; rfl
  | .str _ _ => cases h2; rfl
  | .obj a1 _ _ a2 =>
    match h2 with
    | .obj b1 _ _ b2 =>
      rw [a1] at b1
      injection b1 with b1
      injection b1 with _ _ b1
      subst b1
      rw [readsAll_det a2 b2]
    | .arr b1 _ _ _ =>
      rw [a1] at b1
      injection b1 with b1
      injection b1 with b1
      cases b1
  | .arr a1 _ _ a2 =>
    match h2 with
    | .obj b1 _ _ _ =>
      rw [a1] at b1
      injection b1 with b1
      injection b1 with b1
      cases b1
    | .arr b1 _ _ b2 =>
      rw [a1] at b1
      injection b1 with b1
      injection b1 with _ _ b1
      subst b1
      rw [indexed_inj (readsAll_det a2 b2)]

theorem readsAll_det {h : List Obj} {lo hi lo' hi' : Nat} {ps : List (String × Cell)} {fs fs' : List (String × Data)}
    (h1 : ReadsAll h lo hi ps fs) (h2 : ReadsAll h lo' hi' ps fs') : fs = fs' := by
  match h1 with
  | .nil _ => cases h2; rfl
  | .cons a1 a2 =>
    match h2 with
    | .cons b1 b2 => rw [reads_det a1 b1, readsAll_det a2 b2]
end

theorem shows_det {st : State} {v : Value} {c c' : FileCoverage} {m m' h h' : String} (h1 : Shows st v c m h)
    (h2 : Shows st v c' m' h') : c = c' ∧ m = m' ∧ h = h' := by
  obtain ⟨a, ps, lo, hi, fs, rfl, a1, a2, a3, a4, a5⟩ := h1
  obtain ⟨a', ps', lo', hi', fs', e, b1, b2, b3, b4, b5⟩ := h2
  injection e with e
  subst e
  rw [a1] at b1
  injection b1 with b1
  injection b1 with _ _ b1
  subst b1
  have := readsAll_det a2 b2
  subst this
  rw [a3] at b3
  rw [a4] at b4
  rw [a5] at b5
  injection b3 with b3
  injection b3 with b3
  injection b4 with b4
  injection b4 with b4
  injection b5 with b5
  exact ⟨b5, b3, b4⟩

theorem reports_det {gcv p : String} {st : State} {i i' : Input} {c c' : FileCoverage}
    (h1 : Reports gcv st p i c) (h2 : Reports gcv st p i' c') : c = c' ∧ i.magic = i'.magic ∧ i.hash = i'.hash := by
  obtain ⟨ps, v, a1, a2, a3⟩ := h1
  obtain ⟨ps', v', b1, b2, b3⟩ := h2
  rw [a1] at b1
  injection b1 with b1
  subst b1
  rw [a2] at b2
  injection b2 with b2
  injection b2 with b2
  subst b2
  exact shows_det a3 b3

theorem Reports.cast {gcv p : String} {st : State} {i i' : Input} {c : FileCoverage} (h : Reports gcv st p i c)
    (hm : i.magic = i'.magic) (hh : i.hash = i'.hash) : Reports gcv st p i' c := by
  obtain ⟨ps, v, a1, a2, a3⟩ := h
  exact ⟨ps, v, a1, a2, by rw [← hm, ← hh]; exact a3⟩

theorem play_snoc {w : World} {insts : List Instance} {es : List Event} {e : Event} {st st1 : State}
    {insts1 : List Instance} (h : play w insts es st = .ok (st1, insts1)) :
    play w insts (es ++ [e]) st = playOne w insts1 e st1 := by
  induction es generalizing insts st with
  | nil =>
    injection h with h
    injection h with h1 h2
    subst h1 h2
    show M.bind (playOne w insts e) _ st = _
    unfold M.bind
    cases hh : playOne w insts e st with
    | error _ => rfl
    | ok p =>
      obtain ⟨a, b⟩ := p
      rfl
  | cons e0 es ih =>
    change M.bind (playOne w insts e0) _ st = _ at h
    show M.bind (playOne w insts e0) _ st = _
    unfold M.bind at h ⊢
    cases hh : playOne w insts e0 st with
    | error _ =>
      rw [hh] at h
      cases h
    | ok p =>
      obtain ⟨a, b⟩ := p
      rw [hh] at h
      exact ih h

end Verif.Runtime
