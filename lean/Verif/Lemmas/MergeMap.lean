import Verif.Lemmas.MergeFile
/-
Merging commutes with homomorphisms of the counts, and the items of a merge do not depend on counts.
-/
namespace Verif

open IndexMap FileCoverage

section
variable {H H' T : Type}

/-- Apply a function to the values of a map. -/
def mapVals {K : Type} (φ : H → H') (m : IndexMap K H) : IndexMap K H' := m.map fun e => (e.1, φ e.2)

/-- Apply a function to the counts of `items`. -/
def mapItems (φ : H → H') (items : IndexMap String (H × T)) : IndexMap String (H' × T) :=
  items.map fun e => (e.1, (φ e.2.1, e.2.2))

theorem mapItems_insert (φ : H → H') (items : IndexMap String (H × T)) (k : String) (h : H) (t : T) :
    mapItems φ (items.insert k (h, t)) = (mapItems φ items).insert k (φ h, t) := by
  induction items with
  | nil => rfl
  | cons e items ih =>
    obtain ⟨k₀, h₀, t₀⟩ := e
    simp only [mapItems, IndexMap.insert, List.map_cons] at ih ⊢
    by_cases hk : k₀ = k
    · simp [hk]
    · simp [hk, ih]

theorem mapItems_upsert (φ : H → H') (comb : H → H → H) (comb' : H' → H' → H')
    (hφ : ∀ a b, φ (comb a b) = comb' (φ a) (φ b))
    (items : IndexMap String (H × T)) (k : String) (h : H) (t : T) :
    mapItems φ (items.upsert k (fun p => (comb p.1 h, p.2)) (h, t)) =
      (mapItems φ items).upsert k (fun p => (comb' p.1 (φ h), p.2)) (φ h, t) := by
  induction items with
  | nil => rfl
  | cons e items ih =>
    obtain ⟨k₀, h₀, t₀⟩ := e
    simp only [mapItems, IndexMap.upsert, List.map_cons] at ih ⊢
    by_cases hk : k₀ = k
    · simp [hk, hφ]
    · simp [hk, ih]

theorem mergeFirst_map (φ : H → H') (key : T → Except Panic String) (map : IndexMap Nat T) :
    ∀ (hits : List (Nat × H)) (items : IndexMap String (H × T)),
      mergeFirst key map (mapVals φ hits) (mapItems φ items) =
        (mergeFirst key map hits items).map (mapItems φ)
  | [], items => rfl
  | (k, h) :: rest, items => by
    simp only [mapVals, List.map_cons, mergeFirst]
    cases IndexMap.get map k with
    | none => rfl
    | some t =>
      simp only
      cases key t with
      | error e => rfl
      | ok ik =>
        simp only [← mapItems_insert]
        exact mergeFirst_map φ key map rest _

theorem mergeSecond_map (φ : H → H') (comb : H → H → H) (comb' : H' → H' → H')
    (hφ : ∀ a b, φ (comb a b) = comb' (φ a) (φ b)) (key : T → Except Panic String)
    (map : IndexMap Nat T) :
    ∀ (hits : List (Nat × H)) (items : IndexMap String (H × T)),
      mergeSecond key comb' map (mapVals φ hits) (mapItems φ items) =
        (mergeSecond key comb map hits items).map (mapItems φ)
  | [], items => rfl
  | (k, h) :: rest, items => by
    simp only [mapVals, List.map_cons, mergeSecond]
    cases IndexMap.get map k with
    | none => rfl
    | some t =>
      simp only
      cases key t with
      | error e => rfl
      | ok ik =>
        simp only [← mapItems_upsert φ comb comb' hφ]
        exact mergeSecond_map φ comb comb' hφ key map rest _

theorem reindexFrom_map {A B : Type} (g : A → B) (i : Nat) (l : List A) :
    reindexFrom i (l.map g) = mapVals g (reindexFrom i l) := by
  induction l generalizing i with
  | nil => rfl
  | cons a l ih =>
    simp only [List.map_cons, reindexFrom, mapVals] at ih ⊢
    rw [ih]

theorem mergePropsWith_map (φ : H → H') (comb : H → H → H) (comb' : H' → H' → H')
    (hφ : ∀ a b, φ (comb a b) = comb' (φ a) (φ b)) (key : T → Except Panic String)
    (h₁ : IndexMap Nat H) (m₁ : IndexMap Nat T) (h₂ : IndexMap Nat H) (m₂ : IndexMap Nat T) :
    mergePropsWith key comb' (mapVals φ h₁) m₁ (mapVals φ h₂) m₂ =
      (mergePropsWith key comb h₁ m₁ h₂ m₂).map fun p => (mapVals φ p.1, p.2) := by
  unfold mergePropsWith
  have h := mergeFirst_map φ key m₁ h₁ ([] : IndexMap String (H × T))
  simp only [mapItems, List.map_nil] at h
  rw [h]
  cases mergeFirst key m₁ h₁ [] with
  | error e => rfl
  | ok i₁ =>
    have h := mergeSecond_map φ comb comb' hφ key m₂ h₂ i₁
    simp only [Except.map, mapItems] at h ⊢
    rw [h]
    cases mergeSecond key comb m₂ h₂ i₁ with
    | error e => rfl
    | ok i₂ =>
      simp only [← reindexFrom_map, values, List.map_map]
      rfl

end

theorem mapVals_id_of {K H : Type} (φ : H → H) (m : IndexMap K H) (h : ∀ e ∈ m, φ e.2 = e.2) :
    mapVals φ m = m := by
  unfold mapVals
  conv => rhs; rw [← List.map_id m]
  apply List.map_congr_left
  intro e he
  simp [h e he]

theorem addInto_map (φ : Nat → Nat) (add add' : Nat → Nat → Nat)
    (hφ : ∀ a b, φ (add a b) = add' (φ a) (φ b)) (a b : List Nat) :
    (addInto add a b).map φ = addInto add' (a.map φ) (b.map φ) := by
  induction a generalizing b with
  | nil => cases b <;> rfl
  | cons x a ih => cases b with
    | nil => rfl
    | cons y b => simp [addInto, hφ, ih]

theorem vecAdd_map (φ : Nat → Nat) (h0 : φ 0 = 0) (add add' : Nat → Nat → Nat)
    (hφ : ∀ a b, φ (add a b) = add' (φ a) (φ b)) (a b : List Nat) :
    (vecAdd add a b).map φ = vecAdd add' (a.map φ) (b.map φ) := by
  unfold vecAdd
  rw [addInto_map φ add add' hφ]
  simp only [List.length_map]
  split <;> simp [h0]

/-- The merge of reports with mapped counts is the mapped merge. -/
theorem mergeWith_map (φ : Nat → Nat) (h0 : φ 0 = 0) (add add' : Nat → Nat → Nat)
    (hφ : ∀ a b, φ (add a b) = add' (φ a) (φ b)) (a c : FileCoverage) :
    mergeWith add' (a.mapCounts φ) (c.mapCounts φ) = (mergeWith add a c).map (mapCounts φ) := by
  have hs := mergePropsWith_map φ add add' hφ (fun r => .ok (keyFromLoc r)) a.s a.statementMap c.s
    c.statementMap
  have hf := mergePropsWith_map φ add add' hφ (fun fn => .ok (keyFromLoc fn.loc)) a.f a.fnMap c.f
    c.fnMap
  have hv := vecAdd_map φ h0 add add' hφ
  have hb := mergePropsWith_map (List.map φ) (vecAdd add) (vecAdd add') hv branchKey a.b a.branchMap
    c.b c.branchMap
  unfold mapVals at hs hf hb
  unfold mergeWith
  simp only [mapCounts]
  by_cases hc : c.all
  · simp [hc, Except.map, mapCounts]
  · by_cases ha : a.all
    · simp [ha, hc, Except.map, mapCounts]
    · simp only [hc, ha, if_false, Bool.false_eq_true]
      rw [hs]
      cases mergePropsWith (fun r => .ok (keyFromLoc r)) add a.s a.statementMap c.s c.statementMap with
      | error e => rfl
      | ok ps =>
        obtain ⟨s, sm⟩ := ps
        simp only [Except.map] at hf hb ⊢
        rw [hf]
        cases mergePropsWith (fun fn : Function => .ok (keyFromLoc fn.loc)) add a.f a.fnMap c.f c.fnMap with
        | error e => rfl
        | ok pf =>
          obtain ⟨f, fm⟩ := pf
          simp only
          rw [hb]
          cases mergePropsWith branchKey (vecAdd add) a.b a.branchMap c.b c.branchMap with
          | error e => rfl
          | ok pb =>
            obtain ⟨b, bm⟩ := pb
            simp only
            cases hat : a.bT with
            | none => simp [mapCounts]
            | some bt =>
              cases hct : c.bT with
              | none => simp [mapCounts]
              | some cbt =>
                have ht := mergePropsWith_map (List.map φ) (vecAdd add) (vecAdd add') hv branchKey bt bm
                  cbt c.branchMap
                unfold mapVals at ht
                simp only [Option.map_some]
                rw [ht]
                cases mergePropsWith branchKey (vecAdd add) bt bm cbt c.branchMap with
                | error e => rfl
                | ok pt => simp [Except.map, mapCounts]

theorem mapCounts_id_of (φ : Nat → Nat) (fc : FileCoverage) (h : fc.CountsSat fun x => φ x = x) :
    fc.mapCounts φ = fc := by
  obtain ⟨h1, h2, h3, h4⟩ := h
  have hl : ∀ l : List Nat, (∀ x ∈ l, φ x = x) → l.map φ = l := by
    intro l hl
    conv => rhs; rw [← List.map_id l]
    exact List.map_congr_left hl
  have e1 : fc.s.map (fun e => (e.1, φ e.2)) = fc.s := mapVals_id_of φ fc.s h1
  have e2 : fc.f.map (fun e => (e.1, φ e.2)) = fc.f := mapVals_id_of φ fc.f h2
  have e3 : fc.b.map (fun e => (e.1, e.2.map φ)) = fc.b :=
    mapVals_id_of (List.map φ) fc.b fun e he => hl _ (h3 e he)
  have e4 : fc.bT.map (fun m => m.map fun e => (e.1, e.2.map φ)) = fc.bT := by
    cases hbt : fc.bT with
    | none => rfl
    | some bt =>
      rw [hbt] at h4
      exact congrArg some (mapVals_id_of (List.map φ) bt fun e he => hl _ (h4 e he))
  unfold mapCounts
  rw [e1, e2, e3, e4]

/-! Tables of a report with mapped counts -/

theorem located_mapVals {H H' T : Type} (φ : H → H') (loc : T → Option Range) (h : IndexMap Nat H)
    (m : IndexMap Nat T) :
    located loc (mapVals φ h) m = (located loc h m).map fun e => (e.1, φ e.2) := by
  unfold located mapVals
  rw [List.filterMap_map, List.map_filterMap]
  congr 1
  funext e
  simp only [Function.comp]
  cases (IndexMap.get m e.1).bind loc <;> rfl

end Verif
