import Verif.Model.FileCoverage
import Verif.Spec.Report
import Verif.Lemmas.IndexMap
import Verif.Lemmas.Key
namespace Verif

open IndexMap

/-- Sum of a measure of the counts recorded for a location; `countAt` and `armAt` are instances. -/
def sumAt {H : Type} (μ : H → Nat) (tab : List (Range × H)) (r : Range) : Nat :=
  ((tab.filter fun e => decide (e.1 = r)).map (fun e => μ e.2)).sum

theorem countAt_eq (tab r) : countAt tab r = sumAt (fun h => h) tab r := rfl
theorem armAt_eq (tab r i) : armAt tab r i = sumAt (fun h : List Nat => h.getD i 0) tab r := rfl

section
variable {H T : Type}

theorem sumAt_nil (μ : H → Nat) (r) : sumAt μ [] r = 0 := rfl

theorem sumAt_cons (μ : H → Nat) (e : Range × H) (tab r) :
    sumAt μ (e :: tab) r = (if e.1 = r then μ e.2 else 0) + sumAt μ tab r := by
  unfold sumAt
  by_cases h : e.1 = r <;> simp [h]

theorem sumAt_append (μ : H → Nat) (t t' : List (Range × H)) (r) :
    sumAt μ (t ++ t') r = sumAt μ t r + sumAt μ t' r := by
  simp [sumAt]

theorem sumAt_eq_zero (μ : H → Nat) {tab : List (Range × H)} {r} (h : r ∉ tab.map (·.1)) :
    sumAt μ tab r = 0 := by
  induction tab with
  | nil => rfl
  | cons e tab ih =>
    simp only [List.map_cons, List.mem_cons, not_or] at h
    rw [sumAt_cons, ih h.2, if_neg (Ne.symm h.1)]

/-- Every count entry has an item with a location. -/
def Located (loc : T → Option Range) (hits : List (Nat × H)) (map : IndexMap Nat T) : Prop :=
  ∀ e ∈ hits, ∃ t r, map.get e.1 = some t ∧ loc t = some r

/-- The table an intermediate `items` map stands for. -/
def itemTable (loc : T → Option Range) (items : IndexMap String (H × T)) : List (Range × H) :=
  items.filterMap fun e => (loc e.2.2).map (·, e.2.1)

/-- Invariant of `items`: keys are distinct and are the textual key of the item's location. -/
structure ItemsInv (loc : T → Option Range) (items : IndexMap String (H × T)) : Prop where
  nodup : NodupKeys items
  keyed : ∀ e ∈ items, ∃ r, loc e.2.2 = some r ∧ e.1 = keyFromLoc r

variable {loc : T → Option Range} {key : T → Except Panic String}

theorem ItemsInv.nil : ItemsInv loc ([] : IndexMap String (H × T)) :=
  ⟨by simp [NodupKeys, keys], by simp⟩

theorem ItemsInv.insert {items : IndexMap String (H × T)} (hi : ItemsInv loc items) {h : H} {t : T}
    {r : Range} (hr : loc t = some r) : ItemsInv loc (items.insert (keyFromLoc r) (h, t)) := by
  refine ⟨nodupKeys_insert hi.nodup _ _, ?_⟩
  exact forall_insert (P := fun k (v : H × T) => ∃ r, loc v.2 = some r ∧ k = keyFromLoc r) hi.keyed ⟨r, hr, rfl⟩

theorem ItemsInv.upsert {items : IndexMap String (H × T)} (hi : ItemsInv loc items) {h : H} {t : T}
    {r : Range} (hr : loc t = some r) (f : H × T → H × T) (hf : ∀ x, (f x).2 = x.2) :
    ItemsInv loc (items.upsert (keyFromLoc r) f (h, t)) := by
  refine ⟨nodupKeys_upsert hi.nodup _ _ _, ?_⟩
  refine forall_upsert (P := fun k (v : H × T) => ∃ r, loc v.2 = some r ∧ k = keyFromLoc r) hi.keyed ?_
    ⟨r, hr, rfl⟩
  rintro x ⟨r', h1, h2⟩
  exact ⟨r', by rw [hf]; exact h1, h2⟩

theorem ItemsInv.tail {e} {items : IndexMap String (H × T)} (hi : ItemsInv loc (e :: items)) :
    ItemsInv loc items :=
  ⟨(List.nodup_cons.1 hi.nodup).2, fun x hx => hi.keyed x (List.mem_cons_of_mem _ hx)⟩

/-- Keys and locations of `items` correspond. -/
theorem ItemsInv.keys_eq {items : IndexMap String (H × T)} (hi : ItemsInv loc items) :
    keys items = ((itemTable loc items).map (·.1)).map keyFromLoc := by
  induction items with
  | nil => rfl
  | cons e items ih =>
    obtain ⟨r, hr, hk⟩ := hi.keyed e List.mem_cons_self
    have := ih hi.tail
    simp only [keys, itemTable] at this ⊢
    simp [hr, hk, this]

theorem ItemsInv.mem_keys {items : IndexMap String (H × T)} (hi : ItemsInv loc items) (r : Range) :
    keyFromLoc r ∈ keys items ↔ r ∈ (itemTable loc items).map (·.1) := by
  rw [hi.keys_eq, List.mem_map]
  exact ⟨fun ⟨r', h, e⟩ => keyFromLoc_inj e ▸ h, fun h => ⟨r, h, rfl⟩⟩

theorem ItemsInv.nodup_locs {items : IndexMap String (H × T)} (hi : ItemsInv loc items) :
    ((itemTable loc items).map (·.1)).Nodup := by
  have h := hi.nodup
  unfold NodupKeys at h
  rw [hi.keys_eq] at h
  exact List.Pairwise.imp (fun h e => h (by rw [e])) (List.pairwise_map.1 h)

/-- The count stored for a location. -/
theorem ItemsInv.sumAt_eq {items : IndexMap String (H × T)} (hi : ItemsInv loc items) (μ : H → Nat)
    (r : Range) :
    sumAt μ (itemTable loc items) r =
      match items.get (keyFromLoc r) with | some p => μ p.1 | none => 0 := by
  induction items with
  | nil => rfl
  | cons e items ih =>
    obtain ⟨r', hr, hk⟩ := hi.keyed e List.mem_cons_self
    have ih := ih hi.tail
    have hnd := List.nodup_cons.1 hi.nodup
    obtain ⟨k, h, t⟩ := e
    simp only at hr hk
    have ht : itemTable loc ((k, h, t) :: items) = (r', h) :: itemTable loc items := by
      simp [itemTable, hr]
    rw [ht, sumAt_cons]
    by_cases e : r' = r
    · subst e
      rw [sumAt_eq_zero]
      · simp [IndexMap.get, hk]
      · rw [← hi.tail.mem_keys, ← hk]; exact hnd.1
    · have : k ≠ keyFromLoc r := fun h => e (keyFromLoc_inj (hk ▸ h))
      simp only [e, if_false, IndexMap.get, this, Nat.zero_add]
      exact ih

theorem itemTable_append (a b : IndexMap String (H × T)) :
    itemTable loc (a ++ b) = itemTable loc a ++ itemTable loc b := by
  simp [itemTable]

theorem located_cons (k : Nat) (h : H) (rest : List (Nat × H)) (map : IndexMap Nat T) {t : T}
    {r : Range} (ht : map.get k = some t) (hr : loc t = some r) :
    located loc ((k, h) :: rest) map = (r, h) :: located loc rest map := by
  simp [located, ht, hr]

/-- The items a list of count entries stands for. -/
def entryItems (map : IndexMap Nat T) (hits : List (Nat × H)) : List T :=
  hits.filterMap fun e => map.get e.1

theorem mergeFirst_ok (hkey : ∀ t r, loc t = some r → key t = .ok (keyFromLoc r))
    {map : IndexMap Nat T} : ∀ (hits : List (Nat × H)) (items : IndexMap String (H × T)),
      Located loc hits map → ItemsInv loc items →
      ∃ items', mergeFirst key map hits items = .ok items' ∧ ItemsInv loc items' ∧
        (∀ r, r ∈ (itemTable loc items').map (·.1) ↔
          r ∈ (itemTable loc items).map (·.1) ∨ r ∈ (located loc hits map).map (·.1)) ∧
        (((itemTable loc items ++ located loc hits map).map (·.1)).Nodup →
          itemTable loc items' = itemTable loc items ++ located loc hits map ∧
          items'.map (·.2.2) = items.map (·.2.2) ++ entryItems map hits)
  | [], items, _, hi => ⟨items, rfl, hi, by simp [located], by simp [located, entryItems]⟩
  | (k, h) :: rest, items, hl, hi => by
    obtain ⟨t, r, ht, hr⟩ := hl (k, h) List.mem_cons_self
    have hl' : Located loc rest map := fun e he => hl e (List.mem_cons_of_mem _ he)
    simp only at ht
    obtain ⟨items', h1, h2, h3, h4⟩ :=
      mergeFirst_ok hkey rest (items.insert (keyFromLoc r) (h, t)) hl' (hi.insert hr)
    refine ⟨items', ?_, h2, ?_, ?_⟩
    · simp only [mergeFirst, ht, hkey t r hr]; exact h1
    · intro x
      rw [h3, located_cons k h rest map ht hr, ← (hi.insert hr).mem_keys, ← hi.mem_keys, keys_insert]
      simp only [List.map_cons, List.mem_cons]
      by_cases hx : x = r
      · subst hx; split <;> simp_all
      · have : keyFromLoc x ≠ keyFromLoc r := fun e => hx (keyFromLoc_inj e)
        split <;> simp [hx, this]
    · rw [located_cons k h rest map ht hr]
      intro hnd
      have hr' : keyFromLoc r ∉ keys items := by
        rw [hi.mem_keys]
        intro hmem
        rw [List.map_append, List.nodup_append] at hnd
        exact hnd.2.2 r hmem r (by simp) rfl
      have hins : IndexMap.insert items (keyFromLoc r) (h, t) = items ++ [(keyFromLoc r, (h, t))] :=
        insert_of_not_mem hr' _
      rw [hins, itemTable_append] at h4
      have hsing : itemTable loc [(keyFromLoc r, (h, t))] = [(r, h)] := by
        simp [itemTable, hr]
      rw [hsing] at h4
      obtain ⟨h5, h6⟩ := h4 (by simpa using hnd)
      refine ⟨by rw [h5]; simp, ?_⟩
      rw [h6]
      simp [entryItems, ht]

theorem mergeSecond_ok (hkey : ∀ t r, loc t = some r → key t = .ok (keyFromLoc r))
    (comb : H → H → H)
    {map : IndexMap Nat T} : ∀ (hits : List (Nat × H)) (items : IndexMap String (H × T)),
      Located loc hits map → ItemsInv loc items →
      ∃ items', mergeSecond key comb map hits items = .ok items' ∧ ItemsInv loc items' ∧
        (∀ r, r ∈ (itemTable loc items').map (·.1) ↔
          r ∈ (itemTable loc items).map (·.1) ∨ r ∈ (located loc hits map).map (·.1)) ∧
        (∀ μ : H → Nat, (∀ a b, μ (comb a b) = μ a + μ b) → ∀ r,
          sumAt μ (itemTable loc items') r =
            sumAt μ (itemTable loc items) r + sumAt μ (located loc hits map) r) ∧
        (∃ suf, items'.map (·.2.2) = items.map (·.2.2) ++ suf)
  | [], items, _, hi => ⟨items, rfl, hi, by simp [located], by simp [located, sumAt_nil], [], by simp⟩
  | (k, h) :: rest, items, hl, hi => by
    obtain ⟨t, r, ht, hr⟩ := hl (k, h) List.mem_cons_self
    have hl' : Located loc rest map := fun e he => hl e (List.mem_cons_of_mem _ he)
    simp only at ht
    have hinv : ItemsInv loc (items.upsert (keyFromLoc r) (fun p => (comb p.1 h, p.2)) (h, t)) :=
      hi.upsert hr _ (fun _ => rfl)
    obtain ⟨items', h1, h2, h3, h4, suf, h5⟩ := mergeSecond_ok hkey comb rest _ hl' hinv
    refine ⟨items', ?_, h2, ?_, ?_, ?_⟩
    · simp only [mergeSecond, ht, hkey t r hr]; exact h1
    · intro x
      rw [h3, located_cons k h rest map ht hr, ← hinv.mem_keys, ← hi.mem_keys, keys_upsert]
      simp only [List.map_cons, List.mem_cons]
      by_cases hx : x = r
      · subst hx; split <;> simp_all
      · have : keyFromLoc x ≠ keyFromLoc r := fun e => hx (keyFromLoc_inj e)
        split <;> simp [hx, this]
    · intro μ hμ x
      rw [h4 μ hμ, located_cons k h rest map ht hr, sumAt_cons, hinv.sumAt_eq, hi.sumAt_eq,
        get_upsert]
      by_cases hx : r = x
      · subst hx
        simp only [if_true]
        cases IndexMap.get items (keyFromLoc r) with
        | none => simp
        | some p => simp only [hμ, Nat.add_assoc]
      · have : keyFromLoc r ≠ keyFromLoc x := fun e => hx (keyFromLoc_inj e)
        simp [hx, this]
    · have hp : ∃ suf', (IndexMap.upsert items (keyFromLoc r) (fun p => (comb p.1 h, p.2)) (h, t)).map
          (·.2.2) = items.map (·.2.2) ++ suf' := by
        clear h1 h2 h3 h4 h5 hinv hi
        induction items with
        | nil => exact ⟨[t], rfl⟩
        | cons e items ih =>
          obtain ⟨k₀, v₀⟩ := e
          by_cases hk : k₀ = keyFromLoc r
          · exact ⟨[], by simp [IndexMap.upsert, hk]⟩
          · obtain ⟨s, hs⟩ := ih
            exact ⟨s, by simp [IndexMap.upsert, hk, hs]⟩
      obtain ⟨suf', hp⟩ := hp
      exact ⟨suf' ++ suf, by rw [h5, hp, List.append_assoc]⟩

/-! Renumbering -/

theorem reindexFrom_keys {A : Type} (i : Nat) (l : List A) :
    keys (reindexFrom i l) = (List.range' i l.length) := by
  induction l generalizing i with
  | nil => rfl
  | cons a l ih =>
    simp only [reindexFrom, keys, List.map_cons, List.length_cons, List.range'_succ]
    congr 1
    exact ih (i + 1)

theorem reindexFrom_length {A : Type} (i : Nat) (l : List A) : (reindexFrom i l).length = l.length := by
  induction l generalizing i with
  | nil => rfl
  | cons a l ih => simp [reindexFrom, ih]

theorem reindexFrom_get {A : Type} (i : Nat) (l : List A) (n : Nat) :
    (reindexFrom i l).get (i + n) = l[n]? := by
  induction l generalizing i n with
  | nil => simp [reindexFrom, IndexMap.get]
  | cons a l ih =>
    cases n with
    | zero => simp [reindexFrom, IndexMap.get]
    | succ n =>
      have := ih (i + 1) n
      simp only [reindexFrom, IndexMap.get]
      rw [if_neg (by omega)]
      rw [show i + (n + 1) = i + 1 + n by omega, this]
      simp

theorem reindexFrom_get_lt {A : Type} (i : Nat) (l : List A) (n : Nat) (h : n < i) :
    (reindexFrom i l).get n = none := by
  rw [get_eq_none_iff, reindexFrom_keys]
  simp only [List.mem_range'_1]
  omega

theorem located_skip {H T : Type} (loc : T → Option Range) (k : Nat) (t : T) (hits : List (Nat × H))
    (map : IndexMap Nat T) (h : ∀ e ∈ hits, e.1 ≠ k) :
    located loc hits ((k, t) :: map) = located loc hits map := by
  induction hits with
  | nil => rfl
  | cons e hits ih =>
    have ih := ih fun x hx => h x (List.mem_cons_of_mem _ hx)
    have he := Ne.symm (h e List.mem_cons_self)
    unfold located at ih ⊢
    rw [List.filterMap_cons, List.filterMap_cons, ih]
    simp [IndexMap.get, he]

/-- Renumbering does not change what the table says. -/
theorem located_reindex (i : Nat) (items : List (String × H × T)) :
    located loc (reindexFrom i (items.map (·.2.1))) (reindexFrom i (items.map (·.2.2))) =
      itemTable loc items := by
  induction items generalizing i with
  | nil => rfl
  | cons e items ih =>
    obtain ⟨k, h, t⟩ := e
    simp only [List.map_cons, reindexFrom, itemTable, List.filterMap_cons]
    have hskip : located loc (reindexFrom (i + 1) (items.map (·.2.1)))
        ((i, t) :: reindexFrom (i + 1) (items.map (·.2.2))) = itemTable loc items := by
      rw [located_skip, ih]
      intro e he
      have : e.1 ∈ keys (reindexFrom (i + 1) (items.map (·.2.1))) := mem_keys_of_mem he
      rw [reindexFrom_keys, List.mem_range'_1] at this
      omega
    unfold located at hskip ⊢
    rw [List.filterMap_cons, hskip]
    simp [IndexMap.get, itemTable]

/-- Everything the property theorems need about one run of `mergePropsWith`. -/
theorem mergePropsWith_ok (hkey : ∀ t r, loc t = some r → key t = .ok (keyFromLoc r))
    (comb : H → H → H) {h₁ : IndexMap Nat H} {m₁ : IndexMap Nat T} {h₂ : IndexMap Nat H}
    {m₂ : IndexMap Nat T} (hl₁ : Located loc h₁ m₁) (hl₂ : Located loc h₂ m₂) :
    ∃ h m, mergePropsWith key comb h₁ m₁ h₂ m₂ = .ok (h, m) ∧
      keys h = List.range h.length ∧ keys m = List.range h.length ∧
      Located loc h m ∧
      ((located loc h m).map (·.1)).Nodup ∧
      h.length = (located loc h m).length ∧
      (∀ e ∈ m, ∃ r, loc e.2 = some r) ∧
      (∀ r, r ∈ (located loc h m).map (·.1) ↔
        r ∈ (located loc h₁ m₁).map (·.1) ∨ r ∈ (located loc h₂ m₂).map (·.1)) ∧
      (((located loc h₁ m₁).map (·.1)).Nodup →
        (∀ μ : H → Nat, (∀ a b, μ (comb a b) = μ a + μ b) → ∀ r,
          sumAt μ (located loc h m) r = sumAt μ (located loc h₁ m₁) r + sumAt μ (located loc h₂ m₂) r) ∧
        (∃ suf, m = reindexFrom 0 (entryItems m₁ h₁ ++ suf))) ∧
      (∀ μ : H → Nat, (∀ a b, μ (comb a b) = μ a + μ b) → ∀ r,
          sumAt μ (located loc h₂ m₂) r ≤ sumAt μ (located loc h m) r) := by
  obtain ⟨i₁, e₁, inv₁, mem₁, app₁⟩ := mergeFirst_ok hkey h₁ [] hl₁ ItemsInv.nil
  obtain ⟨i₂, e₂, inv₂, mem₂, sum₂, suf, pre₂⟩ := mergeSecond_ok hkey comb h₂ i₁ hl₂ inv₁
  have hv : ∀ {B : Type} (g : H × T → B), i₂.values.map g = i₂.map (fun e => g e.2) := by
    intro B g; simp [values]
  have htab := located_reindex (loc := loc) 0 i₂
  refine ⟨reindexFrom 0 (i₂.map (·.2.1)), reindexFrom 0 (i₂.map (·.2.2)), ?_, ?_, ?_, ?_, ?_, ?_, ?_,
    ?_, ?_, ?_⟩
  · simp only [mergePropsWith, e₁, e₂, hv]
  · rw [reindexFrom_keys, reindexFrom_length, List.range_eq_range']
  · rw [reindexFrom_keys, reindexFrom_length, List.range_eq_range']; simp
  · intro e he
    have hk : e.1 ∈ keys (reindexFrom 0 (i₂.map (·.2.1))) := mem_keys_of_mem he
    rw [reindexFrom_keys, List.mem_range'_1] at hk
    have hlt : e.1 < i₂.length := by simpa using hk.2
    have hg := reindexFrom_get 0 (i₂.map (·.2.2)) e.1
    rw [Nat.zero_add] at hg
    obtain ⟨r, hr, _⟩ := inv₂.keyed i₂[e.1] (List.getElem_mem hlt)
    exact ⟨_, r, by rw [hg]; simp [hlt], hr⟩
  · rw [htab]; exact inv₂.nodup_locs
  · rw [htab, reindexFrom_length]
    have := congrArg List.length inv₂.keys_eq
    simpa [keys] using this
  · intro e he
    have : e.2 ∈ i₂.map (·.2.2) := by
      have h2 : ∀ (i : Nat) (l : List T), e ∈ reindexFrom i l → e.2 ∈ l := by
        intro i l
        induction l generalizing i with
        | nil => intro h; cases h
        | cons a l ih =>
          intro h
          rcases List.mem_cons.1 h with h | h
          · subst h; simp
          · exact List.mem_cons_of_mem _ (ih _ h)
      exact h2 _ _ he
    obtain ⟨x, hx, hxe⟩ := List.mem_map.1 this
    obtain ⟨r, hr, _⟩ := inv₂.keyed x hx
    exact ⟨r, by rw [← hxe]; exact hr⟩
  · intro r; rw [htab, mem₂, mem₁]; simp [itemTable]
  · intro hnd
    obtain ⟨a1, a2⟩ := app₁ (by simpa [itemTable] using hnd)
    refine ⟨?_, suf, ?_⟩
    · intro μ hμ r
      rw [htab, sum₂ μ hμ r, a1]; simp [itemTable]
    · rw [pre₂, a2]; simp
  · intro μ hμ r
    rw [htab, sum₂ μ hμ r]; omega

end
end Verif
