import Verif.Model.IndexMap
namespace Verif.IndexMap

variable {K V : Type} [DecidableEq K]

theorem get_insert (m : IndexMap K V) (k k' : K) (v : V) :
    get (insert m k v) k' = if k = k' then some v else get m k' := by
  induction m with
  | nil => simp [insert, get]
  | cons e m ih =>
    obtain ⟨k₀, v₀⟩ := e
    by_cases h : k₀ = k
    · subst h
      simp only [insert, if_true, get]
      by_cases h' : k₀ = k' <;> simp [h']
    · simp only [insert, h, if_false, get, ih]
      by_cases h' : k₀ = k'
      · subst h'; simp [Ne.symm h]
      · simp [h']

theorem get_upsert (m : IndexMap K V) (k k' : K) (f : V → V) (v : V) :
    get (upsert m k f v) k' =
      if k = k' then some (match get m k with | some x => f x | none => v) else get m k' := by
  induction m with
  | nil => simp [upsert, get]
  | cons e m ih =>
    obtain ⟨k₀, v₀⟩ := e
    by_cases h : k₀ = k
    · subst h
      simp only [upsert, if_true, get]
      by_cases h' : k₀ = k' <;> simp [h']
    · simp only [upsert, h, if_false, get, ih]
      by_cases h' : k₀ = k'
      · subst h'; simp [Ne.symm h]
      · simp [h']

theorem get_modify (m : IndexMap K V) (k k' : K) (f : V → V) :
    get (modify m k f) k' = if k = k' then (get m k).map f else get m k' := by
  induction m with
  | nil => simp [modify, get]
  | cons e m ih =>
    obtain ⟨k₀, v₀⟩ := e
    by_cases h : k₀ = k
    · subst h
      simp only [modify, if_true, get]
      by_cases h' : k₀ = k' <;> simp [h']
    · simp only [modify, h, if_false, get, ih]
      by_cases h' : k₀ = k'
      · subst h'; simp [Ne.symm h]
      · simp [h']

theorem mem_keys_iff (m : IndexMap K V) (k : K) : k ∈ keys m ↔ ∃ v, get m k = some v := by
  induction m with
  | nil => simp [keys, get]
  | cons e m ih =>
    obtain ⟨k₀, v₀⟩ := e
    simp only [keys, List.map_cons, List.mem_cons, get] at ih ⊢
    by_cases h : k₀ = k
    · simp [h]
    · simp [h, Ne.symm h, ← ih]

theorem get_eq_none_iff (m : IndexMap K V) (k : K) : get m k = none ↔ k ∉ keys m := by
  rw [mem_keys_iff]; cases get m k <;> simp

theorem get_isSome_of_mem {m : IndexMap K V} {k : K} (h : k ∈ keys m) : ∃ v, get m k = some v :=
  (mem_keys_iff m k).1 h

theorem mem_of_get {m : IndexMap K V} {k : K} {v : V} (h : get m k = some v) : (k, v) ∈ m := by
  induction m with
  | nil => simp [get] at h
  | cons e m ih =>
    obtain ⟨k₀, v₀⟩ := e
    simp only [get] at h
    split at h
    · rename_i hk; subst hk; cases h; exact List.mem_cons_self
    · exact List.mem_cons_of_mem _ (ih h)

theorem get_of_mem {m : IndexMap K V} (hn : NodupKeys m) {k : K} {v : V} (h : (k, v) ∈ m) :
    get m k = some v := by
  induction m with
  | nil => cases h
  | cons e m ih =>
    obtain ⟨k₀, v₀⟩ := e
    simp only [NodupKeys, keys, List.map_cons, List.nodup_cons] at hn
    rcases List.mem_cons.1 h with h | h
    · cases h; simp [get]
    · have hk : k ∈ m.map (·.1) := List.mem_map.2 ⟨(k, v), h, rfl⟩
      have : k₀ ≠ k := fun e => hn.1 (e ▸ hk)
      simp only [get, this, if_false]
      exact ih hn.2 h

omit [DecidableEq K] in
theorem mem_keys_of_mem {m : IndexMap K V} {k : K} {v : V} (h : (k, v) ∈ m) : k ∈ keys m :=
  List.mem_map.2 ⟨(k, v), h, rfl⟩

theorem keys_insert (m : IndexMap K V) (k : K) (v : V) :
    keys (insert m k v) = if k ∈ keys m then keys m else keys m ++ [k] := by
  induction m with
  | nil => simp [insert, keys]
  | cons e m ih =>
    obtain ⟨k₀, v₀⟩ := e
    simp only [keys] at ih ⊢
    by_cases h : k₀ = k
    · subst h; simp [insert]
    · simp only [insert, h, if_false, List.map_cons, ih, List.mem_cons, Ne.symm h, false_or]
      by_cases hk : k ∈ List.map (fun x => x.1) m <;> simp [hk]

theorem keys_upsert (m : IndexMap K V) (k : K) (f : V → V) (v : V) :
    keys (upsert m k f v) = if k ∈ keys m then keys m else keys m ++ [k] := by
  induction m with
  | nil => simp [upsert, keys]
  | cons e m ih =>
    obtain ⟨k₀, v₀⟩ := e
    simp only [keys] at ih ⊢
    by_cases h : k₀ = k
    · subst h; simp [upsert]
    · simp only [upsert, h, if_false, List.map_cons, ih, List.mem_cons, Ne.symm h, false_or]
      by_cases hk : k ∈ List.map (fun x => x.1) m <;> simp [hk]

theorem keys_modify (m : IndexMap K V) (k : K) (f : V → V) : keys (modify m k f) = keys m := by
  induction m with
  | nil => simp [modify, keys]
  | cons e m ih =>
    obtain ⟨k₀, v₀⟩ := e
    simp only [keys] at ih ⊢
    by_cases h : k₀ = k
    · subst h; simp [modify]
    · simp [modify, h, ih]

theorem nodupKeys_insert {m : IndexMap K V} (h : NodupKeys m) (k : K) (v : V) :
    NodupKeys (insert m k v) := by
  unfold NodupKeys at h ⊢
  rw [keys_insert]
  split
  · exact h
  · rename_i hk
    rw [List.nodup_append]
    refine ⟨h, by simp, ?_⟩
    intro a ha b hb
    simp only [List.mem_singleton] at hb
    subst hb; intro e; exact hk (e ▸ ha)

theorem nodupKeys_upsert {m : IndexMap K V} (h : NodupKeys m) (k : K) (f : V → V) (v : V) :
    NodupKeys (upsert m k f v) := by
  have := nodupKeys_insert h k v
  unfold NodupKeys at this ⊢
  rwa [keys_upsert, ← keys_insert m k v]

theorem nodupKeys_modify {m : IndexMap K V} (h : NodupKeys m) (k : K) (f : V → V) :
    NodupKeys (modify m k f) := by
  unfold NodupKeys at *; rwa [keys_modify]

/-- Inserting an absent key appends. -/
theorem insert_of_not_mem {m : IndexMap K V} {k : K} (h : k ∉ keys m) (v : V) :
    insert m k v = m ++ [(k, v)] := by
  induction m with
  | nil => rfl
  | cons e m ih =>
    obtain ⟨k₀, v₀⟩ := e
    simp only [keys, List.map_cons, List.mem_cons, not_or] at h
    simp only [insert, Ne.symm h.1, if_false, List.cons_append]
    rw [ih h.2]

theorem upsert_of_not_mem {m : IndexMap K V} {k : K} (h : k ∉ keys m) (f : V → V) (v : V) :
    upsert m k f v = m ++ [(k, v)] := by
  induction m with
  | nil => rfl
  | cons e m ih =>
    obtain ⟨k₀, v₀⟩ := e
    simp only [keys, List.map_cons, List.mem_cons, not_or] at h
    simp only [upsert, Ne.symm h.1, if_false, List.cons_append]
    rw [ih h.2]

/-- An invariant of the values is preserved by `insert`. -/
theorem forall_insert {P : K → V → Prop} {m : IndexMap K V} (h : ∀ e ∈ m, P e.1 e.2) {k : K} {v : V}
    (hv : P k v) : ∀ e ∈ insert m k v, P e.1 e.2 := by
  induction m with
  | nil => simpa [insert] using hv
  | cons e m ih =>
    obtain ⟨k₀, v₀⟩ := e
    have h₀ := h (k₀, v₀) List.mem_cons_self
    have h₁ := ih fun e he => h e (List.mem_cons_of_mem _ he)
    by_cases hk : k₀ = k
    · subst hk
      intro e he
      simp only [insert, if_true, List.mem_cons] at he
      rcases he with he | he
      · subst he; exact hv
      · exact h e (List.mem_cons_of_mem _ he)
    · intro e he
      simp only [insert, hk, if_false, List.mem_cons] at he
      rcases he with he | he
      · subst he; exact h₀
      · exact h₁ e he

theorem forall_upsert {P : K → V → Prop} {m : IndexMap K V} (h : ∀ e ∈ m, P e.1 e.2) {k : K}
    {f : V → V} {v : V} (hf : ∀ x, P k x → P k (f x)) (hv : P k v) :
    ∀ e ∈ upsert m k f v, P e.1 e.2 := by
  induction m with
  | nil => simpa [upsert] using hv
  | cons e m ih =>
    obtain ⟨k₀, v₀⟩ := e
    have h₀ := h (k₀, v₀) List.mem_cons_self
    have h₁ := ih fun e he => h e (List.mem_cons_of_mem _ he)
    by_cases hk : k₀ = k
    · subst hk
      intro e he
      simp only [upsert, if_true, List.mem_cons] at he
      rcases he with he | he
      · subst he; exact hf _ h₀
      · exact h e (List.mem_cons_of_mem _ he)
    · intro e he
      simp only [upsert, hk, if_false, List.mem_cons] at he
      rcases he with he | he
      · subst he; exact h₀
      · exact h₁ e he

end Verif.IndexMap
