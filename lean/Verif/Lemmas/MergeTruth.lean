import Verif.Lemmas.MergeMap
/-
Truthiness tables under merge.
-/
namespace Verif

open IndexMap FileCoverage

section
variable {H H' T : Type}

theorem mergeFirst_congr (key : T → Except Panic String) (m m' : IndexMap Nat T) :
    ∀ (hits : List (Nat × H)) (items : IndexMap String (H × T)),
      (∀ e ∈ hits, m.get e.1 = m'.get e.1) →
      mergeFirst key m hits items = mergeFirst key m' hits items
  | [], _, _ => rfl
  | (k, h) :: rest, items, hm => by
    have h0 := hm (k, h) List.mem_cons_self
    simp only at h0
    simp only [mergeFirst, h0]
    cases IndexMap.get m' k with
    | none => rfl
    | some t =>
      simp only
      cases key t with
      | error e => rfl
      | ok ik => exact mergeFirst_congr key m m' rest _ fun e he => hm e (List.mem_cons_of_mem _ he)

/-- Which items a merge lists, and in which order, depends on the ids of the counts only. -/
theorem mergePropsWith_items (key : T → Except Panic String) (comb : H → H → H)
    (comb' : H' → H' → H') {h₁ : IndexMap Nat H} {h₂ : IndexMap Nat H} {g₁ : IndexMap Nat H'}
    {g₂ : IndexMap Nat H'} {m₁ m₂ : IndexMap Nat T} (k₁ : keys h₁ = keys g₁) (k₂ : keys h₂ = keys g₂) :
    (mergePropsWith key comb h₁ m₁ h₂ m₂).map (·.2) =
      (mergePropsWith key comb' g₁ m₁ g₂ m₂).map (·.2) := by
  have e := mergePropsWith_map (fun _ : H => ()) comb (fun _ _ => ()) (fun _ _ => rfl) key h₁ m₁ h₂ m₂
  have e' := mergePropsWith_map (fun _ : H' => ()) comb' (fun _ _ => ()) (fun _ _ => rfl) key g₁ m₁ g₂ m₂
  have hu : ∀ {H H' : Type} (h : IndexMap Nat H) (g : IndexMap Nat H'), keys h = keys g →
      mapVals (fun _ => ()) h = mapVals (fun _ => ()) g := by
    intro H H' h g hk
    unfold mapVals
    unfold keys at hk
    have := congrArg (List.map fun k => (k, ())) hk
    rw [List.map_map, List.map_map] at this
    exact this
  rw [hu h₁ g₁ k₁, hu h₂ g₂ k₂, e'] at e
  generalize mergePropsWith key comb h₁ m₁ h₂ m₂ = x at e ⊢
  generalize mergePropsWith key comb' g₁ m₁ g₂ m₂ = y at e ⊢
  cases x <;> cases y <;> simp [Except.map] at e ⊢
  · exact e.symm
  · exact e.2.symm

end

/-- When both truthiness tables list exactly the branches, in order, they merge like the counts. -/
theorem merge_truth {a c : FileCoverage} (ha : a.WellFormed) (hc : c.WellFormed)
    (ra : a.all = false) (rc : c.all = false) (hd : a.b.keys = List.range a.b.length)
    (hnd : (a.branchTable.map (·.1)).Nodup) {bt cbt : BranchHitMap}
    (hbt : a.bT = some bt) (hcbt : c.bT = some cbt)
    (hk : bt.keys = a.b.keys) (hck : cbt.keys = c.b.keys) :
    ∃ m, a.merge c = .ok m ∧ m.bT.map keys = some m.b.keys ∧
      ∀ r i, m.truthCount r i = a.truthCount r i + c.truthCount r i := by
  obtain ⟨s, sm, es, -⟩ :=
    mergePropsWith_ok (loc := some) (key := fun r => .ok (keyFromLoc r)) key_range (· + ·)
      ha.located_s hc.located_s
  obtain ⟨f, fm, ef, -⟩ :=
    mergePropsWith_ok (loc := fun fn : Function => some fn.loc)
      (key := fun fn => .ok (keyFromLoc fn.loc)) key_fn (· + ·) ha.located_f hc.located_f
  obtain ⟨b, bm, eb, kb, kbm, lb, ndb, lenb, allb, memb, sumb, geb⟩ :=
    mergePropsWith_ok (loc := branchLoc) (key := branchKey) key_branch (vecAdd (· + ·))
      ha.located_b hc.located_b
  have hl1 : Located branchLoc bt a.branchMap := by
    have := ha.located_bT; rwa [hbt] at this
  have hl2 : Located branchLoc cbt c.branchMap := by
    have := hc.located_bT; rwa [hcbt] at this
  obtain ⟨t, tm, et, kt, ktm, lt, ndt, lent, allt, memt, sumt, get⟩ :=
    mergePropsWith_ok (loc := branchLoc) (key := branchKey) key_branch (vecAdd (· + ·)) hl1 hl2
  -- lookups in the renumbered table find the branches of `a`
  obtain ⟨suf, hsuf⟩ := (sumb hnd).2
  have hget : ∀ e ∈ bt, bm.get e.1 = a.branchMap.get e.1 := by
    intro e he
    have hka : e.1 ∈ keys a.b := hk ▸ mem_keys_of_mem he
    rw [hd, List.mem_range] at hka
    have hl := entryItems_length ha.located_b
    have hg := reindexFrom_get 0 (entryItems a.branchMap a.b ++ suf) e.1
    rw [Nat.zero_add, ← hsuf] at hg
    rw [hg, List.getElem?_append_left (by omega)]
    exact entryItems_get ha.located_b hd hka
  have et' : mergePropsWith branchKey (vecAdd (· + ·)) bt bm cbt c.branchMap = .ok (t, tm) := by
    rw [← et]
    unfold mergePropsWith
    rw [mergeFirst_congr branchKey bm a.branchMap bt [] hget]
  have hitems := mergePropsWith_items branchKey (vecAdd (· + ·)) (vecAdd (· + ·)) (m₁ := a.branchMap)
    (m₂ := c.branchMap) hk hck
  rw [et, eb] at hitems
  simp only [Except.map, Except.ok.injEq] at hitems
  subst hitems
  refine ⟨{ a with s := s, statementMap := sm, f := f, fnMap := fm, b := b, branchMap := tm,
                   bT := some t }, ?_, ?_, ?_⟩
  · simp [merge, mergeWith, ra, rc, es, ef, eb, hbt, hcbt, et']
  · have hlen : t.length = b.length := by
      have h1 := congrArg List.length ktm
      have h2 := congrArg List.length kbm
      simp only [List.length_range] at h1 h2
      omega
    simp [kt, kb, hlen]
  · intro r i
    have hnd' : ((located branchLoc bt a.branchMap).map (·.1)).Nodup := by
      have h1 : located branchLoc bt a.branchMap = (bt.filterMap fun e =>
        ((a.branchMap.get e.1).bind branchLoc).map (·, e.2)) := rfl
      have h2 : (located branchLoc bt a.branchMap).map (·.1) =
          (keys bt).filterMap fun k => (a.branchMap.get k).bind branchLoc := by
        rw [h1, List.map_filterMap]; unfold keys; rw [List.filterMap_map]
        congr 1; funext e; simp only [Function.comp]
        cases (IndexMap.get a.branchMap e.1).bind branchLoc <;> rfl
      have h3 : a.branchTable.map (·.1) =
          (keys a.b).filterMap fun k => (a.branchMap.get k).bind branchLoc := by
        unfold FileCoverage.branchTable located
        rw [List.map_filterMap]; unfold keys; rw [List.filterMap_map]
        congr 1; funext e; simp only [Function.comp]
        cases (IndexMap.get a.branchMap e.1).bind branchLoc <;> rfl
      rw [h2, hk, ← h3]; exact hnd
    have := (sumt hnd').1 (fun v => v.getD i 0) (fun x y => vecAdd_getD x y i) r
    simp only [FileCoverage.truthCount, FileCoverage.truthTable, hbt, hcbt, Option.getD_some, armAt_eq]
    exact this

end Verif
