import Verif.Lemmas.MergeFile
/-
What a merge does to the counts of a receiver that lists a location more than once: the last count is kept.
-/
namespace Verif
open IndexMap FileCoverage

/-- A measure of the last count recorded for a location; `lastCount` and `lastArm` are instances. -/
def lastOf {H : Type} (μ : H → Nat) (tab : List (Range × H)) (r : Range) : Nat :=
  ((tab.filter fun e => decide (e.1 = r)).map (fun e => μ e.2)).getLastD 0

theorem lastAt_eq (tab r) : lastAt tab r = lastOf (fun h => h) tab r := rfl
theorem lastArmAt_eq (tab r i) : lastArmAt tab r i = lastOf (fun h : List Nat => h.getD i 0) tab r := rfl

section
variable {H T : Type} {loc : T → Option Range} {key : T → Except Panic String}

theorem getLastD_of_ne {A : Type} {l : List A} (h : l ≠ []) (a b : A) : l.getLastD a = l.getLastD b := by
  cases l with
  | nil => exact absurd rfl h
  | cons x l => rfl

theorem lastOf_cons (μ : H → Nat) (e : Range × H) (tab r) :
    lastOf μ (e :: tab) r = if r ∈ tab.map (·.1) then lastOf μ tab r else if e.1 = r then μ e.2 else 0 := by
  unfold lastOf
  by_cases hm : r ∈ tab.map (·.1)
  · rw [if_pos hm]
    obtain ⟨x, hx, rfl⟩ := List.mem_map.1 hm
    have hne : (tab.filter fun e => decide (e.1 = x.1)).map (fun e => μ e.2) ≠ [] := by
      intro h
      rw [List.map_eq_nil_iff, List.filter_eq_nil_iff] at h
      exact h x hx (by simp)
    by_cases h : e.1 = x.1
    · rw [List.filter_cons_of_pos (by simpa using h), List.map_cons, List.getLastD_cons]
      exact getLastD_of_ne hne _ _
    · rw [List.filter_cons_of_neg (by simpa using h)]
  · rw [if_neg hm]
    have hnil : (tab.filter fun e => decide (e.1 = r)) = [] := by
      rw [List.filter_eq_nil_iff]
      intro x hx h
      exact hm (List.mem_map.2 ⟨x, hx, by simpa using h⟩)
    by_cases h : e.1 = r
    · rw [List.filter_cons_of_pos (by simpa using h), hnil, if_pos h]; rfl
    · rw [List.filter_cons_of_neg (by simpa using h), hnil, if_neg h]; rfl

/-- The first loop keeps the last count of every location. -/
theorem mergeFirst_last (hkey : ∀ t r, loc t = some r → key t = .ok (keyFromLoc r)) {map : IndexMap Nat T} (μ : H → Nat) :
    ∀ (hits : List (Nat × H)) (items items' : IndexMap String (H × T)), Located loc hits map → ItemsInv loc items →
      mergeFirst key map hits items = .ok items' → ∀ x, sumAt μ (itemTable loc items') x =
        if x ∈ (located loc hits map).map (·.1) then lastOf μ (located loc hits map) x else sumAt μ (itemTable loc items) x
  | [], items, items', _, _, h, x => by cases h; simp [located]
  | (k, c) :: rest, items, items', hl, hi, h, x => by
    obtain ⟨t, r, ht, hr⟩ := hl (k, c) List.mem_cons_self
    have hl' : Located loc rest map := fun e he => hl e (List.mem_cons_of_mem _ he)
    simp only at ht
    simp only [mergeFirst, ht, hkey t r hr] at h
    rw [mergeFirst_last hkey μ rest _ items' hl' (hi.insert hr) h x, located_cons k c rest map ht hr, lastOf_cons]
    by_cases hx : x ∈ (located loc rest map).map (·.1)
    · rw [if_pos hx, if_pos (by simp only [List.map_cons, List.mem_cons]; exact .inr hx), if_pos hx]
    · rw [if_neg hx, if_neg hx, (hi.insert hr).sumAt_eq, hi.sumAt_eq, get_insert]
      by_cases hxr : r = x
      · subst hxr
        simp
      · have : keyFromLoc r ≠ keyFromLoc x := fun e => hxr (keyFromLoc_inj e)
        rw [if_neg this, if_neg (by simp only [List.map_cons, List.mem_cons, not_or]; exact ⟨Ne.symm hxr, hx⟩)]

/-- One run of `mergePropsWith`: the last count of the first, plus all counts of the second. -/
theorem mergePropsWith_last (hkey : ∀ t r, loc t = some r → key t = .ok (keyFromLoc r))
    (comb : H → H → H) {h₁ : IndexMap Nat H} {m₁ : IndexMap Nat T} {h₂ : IndexMap Nat H}
    {m₂ : IndexMap Nat T} (hl₁ : Located loc h₁ m₁) (hl₂ : Located loc h₂ m₂) {h : IndexMap Nat H} {m : IndexMap Nat T}
    (hm : mergePropsWith key comb h₁ m₁ h₂ m₂ = .ok (h, m)) (μ : H → Nat) (hμ : ∀ a b, μ (comb a b) = μ a + μ b) (r : Range) :
    sumAt μ (located loc h m) r = lastOf μ (located loc h₁ m₁) r + sumAt μ (located loc h₂ m₂) r := by
  obtain ⟨i₁, e₁, inv₁, mem₁, app₁⟩ := mergeFirst_ok hkey h₁ [] hl₁ ItemsInv.nil
  obtain ⟨i₂, e₂, inv₂, mem₂, sum₂, -⟩ := mergeSecond_ok hkey comb h₂ i₁ hl₂ inv₁
  have hv : ∀ {B : Type} (g : H × T → B), i₂.values.map g = i₂.map (fun e => g e.2) := by
    intro B g; simp [values]
  simp only [mergePropsWith, e₁, e₂, hv] at hm
  cases hm
  rw [located_reindex, sum₂ μ hμ, mergeFirst_last hkey μ h₁ [] i₁ hl₁ ItemsInv.nil e₁ r]
  congr 1
  split
  · rfl
  · next hx =>
    symm
    unfold lastOf
    rw [List.filter_eq_nil_iff.2]
    · rfl
    · intro x hx' h
      exact hx (List.mem_map.2 ⟨x, hx', by simpa using h⟩)

/-! Order of the locations -/

theorem eraseDups_snoc_mem {A : Type} [BEq A] [LawfulBEq A] {l : List A} {x : A} (h : x ∈ l) :
    (l ++ [x]).eraseDups = l.eraseDups := by
  rw [List.eraseDups_append]
  simp [List.removeAll, h]

theorem eraseDups_snoc_not_mem {A : Type} [BEq A] [LawfulBEq A] {l : List A} {x : A} (h : x ∉ l) :
    (l ++ [x]).eraseDups = l.eraseDups ++ [x] := by
  rw [List.eraseDups_append]
  simp [List.removeAll, h, List.eraseDups_cons]

/-- One more key. -/
theorem ItemsInv.locs_snoc {items items' : IndexMap String (H × T)} (hi : ItemsInv loc items) (hi' : ItemsInv loc items')
    {r : Range} {P : List Range} (hP : (itemTable loc items).map (·.1) = P.eraseDups)
    (hk : keys items' = if keyFromLoc r ∈ keys items then keys items else keys items ++ [keyFromLoc r]) :
    (itemTable loc items').map (·.1) = (P ++ [r]).eraseDups := by
  apply (List.map_inj_right (f := keyFromLoc) (fun _ _ => keyFromLoc_inj)).1
  have hm : keyFromLoc r ∈ keys items ↔ r ∈ P := by rw [hi.mem_keys, hP, List.mem_eraseDups]
  rw [← hi'.keys_eq, hk]
  by_cases hr : r ∈ P
  · rw [if_pos (hm.2 hr), eraseDups_snoc_mem hr, ← hP, hi.keys_eq]
  · rw [if_neg (fun h => hr (hm.1 h)), eraseDups_snoc_not_mem hr, ← hP, hi.keys_eq, List.map_append]
    rfl

theorem mergeFirst_locs (hkey : ∀ t r, loc t = some r → key t = .ok (keyFromLoc r)) {map : IndexMap Nat T} :
    ∀ (hits : List (Nat × H)) (items items' : IndexMap String (H × T)) (P : List Range), Located loc hits map →
      ItemsInv loc items → (itemTable loc items).map (·.1) = P.eraseDups → mergeFirst key map hits items = .ok items' →
      (itemTable loc items').map (·.1) = (P ++ (located loc hits map).map (·.1)).eraseDups
  | [], items, items', P, _, _, hP, h => by cases h; simpa [located] using hP
  | (k, c) :: rest, items, items', P, hl, hi, hP, h => by
    obtain ⟨t, r, ht, hr⟩ := hl (k, c) List.mem_cons_self
    have hl' : Located loc rest map := fun e he => hl e (List.mem_cons_of_mem _ he)
    simp only at ht
    simp only [mergeFirst, ht, hkey t r hr] at h
    rw [mergeFirst_locs hkey rest _ items' (P ++ [r]) hl' (hi.insert hr)
      (hi.locs_snoc (hi.insert hr) hP (keys_insert _ _ _)) h, located_cons k c rest map ht hr]
    simp

theorem mergeSecond_locs (hkey : ∀ t r, loc t = some r → key t = .ok (keyFromLoc r)) (comb : H → H → H)
    {map : IndexMap Nat T} :
    ∀ (hits : List (Nat × H)) (items items' : IndexMap String (H × T)) (P : List Range), Located loc hits map →
      ItemsInv loc items → (itemTable loc items).map (·.1) = P.eraseDups → mergeSecond key comb map hits items = .ok items' →
      (itemTable loc items').map (·.1) = (P ++ (located loc hits map).map (·.1)).eraseDups
  | [], items, items', P, _, _, hP, h => by cases h; simpa [located] using hP
  | (k, c) :: rest, items, items', P, hl, hi, hP, h => by
    obtain ⟨t, r, ht, hr⟩ := hl (k, c) List.mem_cons_self
    have hl' : Located loc rest map := fun e he => hl e (List.mem_cons_of_mem _ he)
    simp only at ht
    simp only [mergeSecond, ht, hkey t r hr] at h
    have hinv : ItemsInv loc (items.upsert (keyFromLoc r) (fun p => (comb p.1 c, p.2)) (c, t)) :=
      hi.upsert hr _ (fun _ => rfl)
    rw [mergeSecond_locs hkey comb rest _ items' (P ++ [r]) hl' hinv
      (hi.locs_snoc hinv hP (keys_upsert _ _ _ _)) h, located_cons k c rest map ht hr]
    simp

/-- The locations after one run of `mergePropsWith`, in order. -/
theorem mergePropsWith_locs (hkey : ∀ t r, loc t = some r → key t = .ok (keyFromLoc r))
    (comb : H → H → H) {h₁ : IndexMap Nat H} {m₁ : IndexMap Nat T} {h₂ : IndexMap Nat H}
    {m₂ : IndexMap Nat T} (hl₁ : Located loc h₁ m₁) (hl₂ : Located loc h₂ m₂) {h : IndexMap Nat H} {m : IndexMap Nat T}
    (hm : mergePropsWith key comb h₁ m₁ h₂ m₂ = .ok (h, m)) :
    (located loc h m).map (·.1) = ((located loc h₁ m₁).map (·.1) ++ (located loc h₂ m₂).map (·.1)).eraseDups := by
  obtain ⟨i₁, e₁, inv₁, mem₁, app₁⟩ := mergeFirst_ok hkey h₁ [] hl₁ ItemsInv.nil
  obtain ⟨i₂, e₂, inv₂, mem₂, sum₂, -⟩ := mergeSecond_ok hkey comb h₂ i₁ hl₂ inv₁
  have hv : ∀ {B : Type} (g : H × T → B), i₂.values.map g = i₂.map (fun e => g e.2) := by
    intro B g; simp [values]
  simp only [mergePropsWith, e₁, e₂, hv] at hm
  cases hm
  rw [located_reindex]
  exact mergeSecond_locs hkey comb h₂ i₁ i₂ _ hl₂ inv₁
    (by simpa using mergeFirst_locs hkey h₁ [] i₁ [] hl₁ ItemsInv.nil rfl e₁) e₂

/-! Items -/

/-- The last of the items at a location. -/
def lastItem (loc : T → Option Range) (l : List T) (r : Range) : Option T := (l.filter fun t => loc t == some r).getLast?

/-- The first of the items at a location. -/
def firstItem (loc : T → Option Range) (l : List T) (r : Range) : Option T := (l.filter fun t => loc t == some r).head?

theorem entryItems_cons (map : IndexMap Nat T) (k : Nat) (c : H) (rest : List (Nat × H)) {t : T} (ht : map.get k = some t) :
    entryItems map ((k, c) :: rest) = t :: entryItems map rest := by
  simp [entryItems, ht]

theorem mergeFirst_items (hkey : ∀ t r, loc t = some r → key t = .ok (keyFromLoc r)) {map : IndexMap Nat T} :
    ∀ (hits : List (Nat × H)) (items items' : IndexMap String (H × T)), Located loc hits map →
      mergeFirst key map hits items = .ok items' → ∀ r, (items'.get (keyFromLoc r)).map (·.2) =
        (lastItem loc (entryItems map hits) r).or ((items.get (keyFromLoc r)).map (·.2))
  | [], items, items', _, h, x => by cases h; simp [entryItems, lastItem]
  | (k, c) :: rest, items, items', hl, h, x => by
    obtain ⟨t, r, ht, hr⟩ := hl (k, c) List.mem_cons_self
    have hl' : Located loc rest map := fun e he => hl e (List.mem_cons_of_mem _ he)
    simp only at ht
    simp only [mergeFirst, ht, hkey t r hr] at h
    rw [mergeFirst_items hkey rest _ items' hl' h x, entryItems_cons map k c rest ht, get_insert]
    unfold lastItem
    by_cases hx : r = x
    · subst hx
      rw [if_pos rfl, List.filter_cons_of_pos (by simp [hr]), List.getLast?_cons]
      cases (List.filter (fun t => loc t == some r) (entryItems map rest)).getLast? <;> rfl
    · have : keyFromLoc r ≠ keyFromLoc x := fun e => hx (keyFromLoc_inj e)
      rw [if_neg this, List.filter_cons_of_neg (by simp [hr, hx])]

theorem mergeSecond_items (hkey : ∀ t r, loc t = some r → key t = .ok (keyFromLoc r)) (comb : H → H → H)
    {map : IndexMap Nat T} :
    ∀ (hits : List (Nat × H)) (items items' : IndexMap String (H × T)), Located loc hits map →
      mergeSecond key comb map hits items = .ok items' → ∀ r, (items'.get (keyFromLoc r)).map (·.2) =
        ((items.get (keyFromLoc r)).map (·.2)).or (firstItem loc (entryItems map hits) r)
  | [], items, items', _, h, x => by cases h; simp [entryItems, firstItem]
  | (k, c) :: rest, items, items', hl, h, x => by
    obtain ⟨t, r, ht, hr⟩ := hl (k, c) List.mem_cons_self
    have hl' : Located loc rest map := fun e he => hl e (List.mem_cons_of_mem _ he)
    simp only at ht
    simp only [mergeSecond, ht, hkey t r hr] at h
    rw [mergeSecond_items hkey comb rest _ items' hl' h x, entryItems_cons map k c rest ht, get_upsert]
    unfold firstItem
    by_cases hx : r = x
    · subst hx
      rw [if_pos rfl, List.filter_cons_of_pos (by simp [hr]), List.head?_cons]
      cases IndexMap.get items (keyFromLoc r) <;> rfl
    · have : keyFromLoc r ≠ keyFromLoc x := fun e => hx (keyFromLoc_inj e)
      rw [if_neg this, List.filter_cons_of_neg (by simp [hr, hx])]

/-- The items after one run of `mergePropsWith`: the last one of the first table, or else the first one of the second. -/
theorem mergePropsWith_item (hkey : ∀ t r, loc t = some r → key t = .ok (keyFromLoc r))
    (comb : H → H → H) {h₁ : IndexMap Nat H} {m₁ : IndexMap Nat T} {h₂ : IndexMap Nat H}
    {m₂ : IndexMap Nat T} (hl₁ : Located loc h₁ m₁) (hl₂ : Located loc h₂ m₂) {h : IndexMap Nat H} {m : IndexMap Nat T}
    (hm : mergePropsWith key comb h₁ m₁ h₂ m₂ = .ok (h, m)) {k : Nat} {t : T} (ht : m.get k = some t) {r : Range}
    (hr : loc t = some r) : some t = (lastItem loc (entryItems m₁ h₁) r).or (firstItem loc (entryItems m₂ h₂) r) := by
  obtain ⟨i₁, e₁, inv₁, mem₁, app₁⟩ := mergeFirst_ok hkey h₁ [] hl₁ ItemsInv.nil
  obtain ⟨i₂, e₂, inv₂, mem₂, sum₂, -⟩ := mergeSecond_ok hkey comb h₂ i₁ hl₂ inv₁
  have hv : ∀ {B : Type} (g : H × T → B), i₂.values.map g = i₂.map (fun e => g e.2) := by
    intro B g; simp [values]
  simp only [mergePropsWith, e₁, e₂, hv] at hm
  cases hm
  have h1 := mergeFirst_items hkey h₁ [] i₁ hl₁ e₁ r
  have h2 := mergeSecond_items hkey comb h₂ i₁ i₂ hl₂ e₂ r
  rw [h1] at h2
  have hg := reindexFrom_get 0 (i₂.map (·.2.2)) k
  rw [Nat.zero_add, ht] at hg
  obtain ⟨x, hx, hxe⟩ := List.mem_map.1 (List.mem_of_getElem? hg.symm)
  obtain ⟨q, hq, hqe⟩ := inv₂.keyed x hx
  rw [hxe, hr] at hq
  cases hq
  have h3 : i₂.get (keyFromLoc r) = some x.2 := get_of_mem inv₂.nodup (by rw [← hqe]; exact hx)
  rw [h3, Option.map_some, hxe] at h2
  rw [h2]
  simp [IndexMap.get]

end

/-- The counts of a merge of two real, well-formed reports. -/
theorem merge_last {a c m : FileCoverage} (ha : a.WellFormed) (hc : c.WellFormed) (ra : a.all = false) (rc : c.all = false)
    (hm : a.merge c = .ok m) :
    (∀ r, m.statementCount r = a.lastStatementCount r + c.statementCount r) ∧
    (∀ r, m.functionCount r = a.lastFunctionCount r + c.functionCount r) ∧
    (∀ r i, m.armCount r i = a.lastArmCount r i + c.armCount r i) := by
  have hid : ∀ x y : Nat, (fun h : Nat => h) (x + y) = (fun h : Nat => h) x + (fun h : Nat => h) y :=
    fun _ _ => rfl
  unfold merge mergeWith at hm
  rw [if_neg (by simp [rc]), if_neg (by simp [ra])] at hm
  split at hm
  · cases hm
  next hs =>
    split at hm
    · cases hm
    next hf =>
      split at hm
      · cases hm
      next hb =>
        have h1 := mergePropsWith_last (loc := some) key_range _ ha.located_s hc.located_s hs (fun h => h) hid
        have h2 := mergePropsWith_last (loc := fun fn : Function => some fn.loc) key_fn _ ha.located_f hc.located_f hf (fun h => h) hid
        have h3 := fun r i => mergePropsWith_last (loc := branchLoc) key_branch _ ha.located_b hc.located_b hb
          (fun v => v.getD i 0) (fun x y => vecAdd_getD x y i) r
        split at hm
        · split at hm
          · cases hm
          · cases hm; exact ⟨h1, h2, h3⟩
        · cases hm; exact ⟨h1, h2, h3⟩

theorem located_getElem? {H T : Type} {loc : T → Option Range} {h : List (Nat × H)} {m : IndexMap Nat T}
    (hl : Located loc h m) (j : Nat) :
    (located loc h m)[j]? = h[j]?.bind fun e => ((m.get e.1).bind loc).map (·, e.2) := by
  induction h generalizing j with
  | nil => rfl
  | cons e h ih =>
    obtain ⟨t, r, ht, hr⟩ := hl e List.mem_cons_self
    obtain ⟨k, c⟩ := e
    simp only at ht
    rw [located_cons k c h m ht hr]
    cases j with
    | zero => simp [ht, hr]
    | succ j => simpa using ih (fun e he => hl e (List.mem_cons_of_mem _ he)) j

theorem sumAt_mem {H : Type} (μ : H → Nat) {tab : List (Range × H)} (hn : (tab.map (·.1)).Nodup) {e : Range × H}
    (he : e ∈ tab) : sumAt μ tab e.1 = μ e.2 := by
  induction tab with
  | nil => cases he
  | cons x tab ih =>
    rw [List.map_cons, List.nodup_cons] at hn
    rw [sumAt_cons]
    rcases List.mem_cons.1 he with rfl | he
    · rw [if_pos rfl, sumAt_eq_zero μ hn.1, Nat.add_zero]
    · rw [if_neg (fun h => hn.1 (by rw [h]; exact List.mem_map_of_mem he)), ih hn.2 he, Nat.zero_add]

/-- What a merge of two real reports consists of. -/
theorem merge_parts {a c m : FileCoverage} (ra : a.all = false) (rc : c.all = false) (hm : a.merge c = .ok m) :
    mergePropsWith (fun r => .ok (keyFromLoc r)) (· + ·) a.s a.statementMap c.s c.statementMap = .ok (m.s, m.statementMap) ∧
    mergePropsWith (fun fn : Function => .ok (keyFromLoc fn.loc)) (· + ·) a.f a.fnMap c.f c.fnMap = .ok (m.f, m.fnMap) ∧
    mergePropsWith branchKey (vecAdd (· + ·)) a.b a.branchMap c.b c.branchMap = .ok (m.b, m.branchMap) ∧
    (a.bT = none ∨ c.bT = none → m.bT = a.bT) ∧
    ∀ bt cbt, a.bT = some bt → c.bT = some cbt → ∃ t tm, m.bT = some t ∧
      mergePropsWith branchKey (vecAdd (· + ·)) bt m.branchMap cbt c.branchMap = .ok (t, tm) := by
  unfold merge mergeWith at hm
  rw [if_neg (by simp [rc]), if_neg (by simp [ra])] at hm
  split at hm
  · cases hm
  next hs =>
    split at hm
    · cases hm
    next hf =>
      split at hm
      · cases hm
      next hb =>
        split at hm
        · next bt cbt ea ec =>
          split at hm
          · cases hm
          · next t tm et =>
            cases hm
            refine ⟨hs, hf, hb, ?_, ?_⟩
            · intro h
              rw [ea, ec] at h
              rcases h with h | h <;> cases h
            · intro bt' cbt' h1 h2
              cases ea.symm.trans h1
              cases ec.symm.trans h2
              exact ⟨t, tm, rfl, et⟩
        · next hn =>
          cases hm
          exact ⟨hs, hf, hb, fun _ => rfl, fun bt cbt h1 h2 => (hn bt cbt h1 h2).elim⟩

/-- The truthiness counts of a merge of two real, well-formed reports. -/
theorem merge_truths {a c m : FileCoverage} (ha : a.WellFormed) (hc : c.WellFormed) (ra : a.all = false) (rc : c.all = false)
    (hm : a.merge c = .ok m) {bt cbt : BranchHitMap} (hbt : a.bT = some bt) (hcbt : c.bT = some cbt) :
    ∃ t, m.bT = some t ∧
      keys t = List.range ((located branchLoc bt m.branchMap).map (·.1) ++ c.truthTable.map (·.1)).eraseDups.length ∧
      ∀ j r, ((located branchLoc bt m.branchMap).map (·.1) ++ c.truthTable.map (·.1)).eraseDups[j]? = some r →
        ∃ v, t.get j = some v ∧ ∀ i, v.getD i 0 = lastArmAt (located branchLoc bt m.branchMap) r i + c.truthCount r i := by
  obtain ⟨-, -, hb, -, ht⟩ := merge_parts ra rc hm
  obtain ⟨t, tm, h1, h2⟩ := ht bt cbt hbt hcbt
  obtain ⟨b, bm, eb, kb, kbm, lb, ndb, lenb, allb, memb, -⟩ :=
    mergePropsWith_ok (loc := branchLoc) (key := branchKey) key_branch (vecAdd (· + ·)) ha.located_b hc.located_b
  have e := hb.symm.trans eb
  rw [Except.ok.injEq, Prod.mk.injEq] at e
  obtain ⟨e1, e2⟩ := e
  have hl1 : Located branchLoc bt m.branchMap := by
    intro e he
    have hk : e.1 ∈ keys m.branchMap := by
      have h3 := h2
      unfold mergePropsWith at h3
      split at h3
      · cases h3
      · next items hi => exact mergeFirst_some _ _ _ hi e he
    obtain ⟨x, hx⟩ := get_isSome_of_mem hk
    obtain ⟨r, hr⟩ := allb _ (by rw [← e2]; exact mem_of_get hx)
    exact ⟨x, r, hx, hr⟩
  have hl2 : Located branchLoc cbt c.branchMap := by
    have := hc.located_bT; rwa [hcbt] at this
  obtain ⟨t', tm', et, kt, ktm, lt, ndt, lent, allt, memt, -⟩ :=
    mergePropsWith_ok (loc := branchLoc) (key := branchKey) key_branch (vecAdd (· + ·)) hl1 hl2
  have e := h2.symm.trans et
  rw [Except.ok.injEq, Prod.mk.injEq] at e
  obtain ⟨rfl, rfl⟩ := e
  have hlocs := mergePropsWith_locs (loc := branchLoc) key_branch _ hl1 hl2 h2
  have hct : c.truthTable = located branchLoc cbt c.branchMap := by
    unfold FileCoverage.truthTable; rw [hcbt]; rfl
  rw [hct]
  refine ⟨t, h1, ?_, ?_⟩
  · rw [← hlocs, List.length_map, ← lent]; exact kt
  · intro j r hj
    rw [← hlocs] at hj
    have hsum := fun i => mergePropsWith_last (loc := branchLoc) key_branch _ hl1 hl2 h2
      (fun v => v.getD i 0) (fun x y => vecAdd_getD x y i) r
    -- the entry at position `j`
    rw [List.getElem?_map, Option.map_eq_some_iff] at hj
    obtain ⟨⟨r', v⟩, hv, hr'⟩ := hj
    cases hr'
    have hjt : t[j]? = some (j, v) := by
      have hlt : j < t.length := by rw [lent]; exact (List.getElem?_eq_some_iff.1 hv).1
      have hkj : (keys t)[j]? = some j := by rw [kt]; simp [hlt]
      unfold keys at hkj
      rw [List.getElem?_map, Option.map_eq_some_iff] at hkj
      obtain ⟨⟨j', v'⟩, hv', hj'⟩ := hkj
      have hj' : j' = j := hj'
      rw [hj'] at hv'
      have := located_getElem? lt j
      rw [hv', hv] at this
      simp only [Option.bind_some] at this
      obtain ⟨q, -, hq⟩ := Option.map_eq_some_iff.1 this.symm
      cases hq
      exact hv'
    have hnk : NodupKeys t := by unfold NodupKeys; rw [kt]; exact List.nodup_range
    refine ⟨v, get_of_mem hnk (List.mem_of_getElem? hjt), fun i => ?_⟩
    have hs := hsum i
    rw [sumAt_mem _ ndt (List.mem_of_getElem? hv)] at hs
    rw [lastArmAt_eq]
    unfold FileCoverage.truthCount
    rw [hct, armAt_eq]
    exact hs

end Verif
