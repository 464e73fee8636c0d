import Verif.Lemmas.Truths
import Verif.Lemmas.MergeMap
import Verif.Model.Summary
import Verif.Spec.Serde
/-
The release build, where counts wrap around: it computes what exact arithmetic gives, modulo `2 ^ 32`.
-/
namespace Verif
open IndexMap FileCoverage

section
variable {K V W : Type} [DecidableEq K]

theorem get_mapVals (f : V → W) (m : IndexMap K V) (k : K) : (mapVals f m).get k = (m.get k).map f := by
  induction m with
  | nil => rfl
  | cons e m ih =>
    unfold mapVals at ih ⊢
    simp only [List.map_cons, IndexMap.get]
    split
    · rfl
    · exact ih

theorem keys_mapVals (f : V → W) (m : IndexMap K V) : (mapVals f m).keys = m.keys := by
  simp [mapVals, keys]

theorem mapVals_insert (f : V → W) (m : IndexMap K V) (k : K) (v : V) :
    mapVals f (m.insert k v) = (mapVals f m).insert k (f v) := by
  induction m with
  | nil => rfl
  | cons e m ih =>
    unfold mapVals at ih ⊢
    simp only [List.map_cons, IndexMap.insert]
    split
    · simp
    · simp [ih]

theorem mapVals_modify (f : V → W) (m : IndexMap K V) (k : K) (v : V) :
    mapVals f (m.modify k fun _ => v) = (mapVals f m).modify k fun _ => f v := by
  induction m with
  | nil => rfl
  | cons e m ih =>
    unfold mapVals at ih ⊢
    simp only [List.map_cons, IndexMap.modify]
    split
    · simp
    · simp [ih]

end

theorem addAllWith_map (φ : Nat → Nat) (h0 : φ 0 = 0) (add' : Nat → Nat → Nat)
    (hφ : ∀ a b, φ (a + b) = add' (φ a) (φ b)) : ∀ (cs : List FileCoverage) (M : CoverageMap),
    CoverageMap.addAllWith add' (mapVals (mapCounts φ) M) (cs.map (mapCounts φ)) =
      (CoverageMap.addAll M cs).map (mapVals (mapCounts φ))
  | [], M => rfl
  | c :: cs, M => by
    simp only [List.map_cons, CoverageMap.addAllWith, CoverageMap.addAll, CoverageMap.addCoverageForFileWith,
      CoverageMap.addCoverageForFile]
    have hp : (c.mapCounts φ).path = c.path := rfl
    rw [hp, get_mapVals]
    cases IndexMap.get M c.path with
    | none =>
      simp only [Option.map_none]
      rw [← mapVals_insert, addAllWith_map φ h0 add' hφ cs]
    | some v =>
      simp only [Option.map_some, mergeWith_map φ h0 (· + ·) add' hφ]
      change _ = Except.map _ (match (match v.merge c with
        | .error e => Except.error e
        | .ok v' => Except.ok (IndexMap.modify M c.path fun _ => v')) with
        | .error e => Except.error e
        | .ok m' => CoverageMap.addAll m' cs)
      change (match (match (v.merge c).map (mapCounts φ) with
        | .error e => Except.error e
        | .ok v' => Except.ok (IndexMap.modify (mapVals (mapCounts φ) M) c.path fun _ => v')) with
        | .error e => Except.error e
        | .ok m' => CoverageMap.addAllWith add' m' (cs.map (mapCounts φ))) = _
      cases v.merge c with
      | error e => rfl
      | ok v' =>
        simp only [Except.map]
        rw [← mapVals_modify]
        exact addAllWith_map φ h0 add' hφ cs _

/-- Reduction modulo `2 ^ 32`. -/
def wrap32 (n : Nat) : Nat := n % 2 ^ 32

theorem FileCoverage.Fits.wrapped {c : FileCoverage} (h : c.Fits) : c.mapCounts wrap32 = c := by
  apply mapCounts_id_of
  refine ⟨fun e he => Nat.mod_eq_of_lt (h.s e he).2, fun e he => Nat.mod_eq_of_lt (h.f e he).2,
    fun e he x hx => Nat.mod_eq_of_lt ((h.b e he).2 x hx), fun e he x hx => ?_⟩
  cases hb : c.bT with
  | none => rw [hb] at he; cases he
  | some m =>
    rw [hb] at he
    exact Nat.mod_eq_of_lt ((h.bT m hb e he).2 x hx)

/-- The release build. -/
theorem fromIterRelease_eq (cs : List FileCoverage) (h : ∀ c ∈ cs, c.Fits) :
    CoverageMap.fromIterRelease cs = (CoverageMap.fromIter cs).map (mapVals (mapCounts wrap32)) := by
  have := addAllWith_map wrap32 rfl addWrap32 (fun a b => by simp only [wrap32, addWrap32]; omega) cs []
  have hc : cs.map (mapCounts wrap32) = cs := by
    conv => rhs; rw [← List.map_id cs]
    exact List.map_congr_left fun c hc => (h c hc).wrapped
  rw [hc] at this
  exact this

section
variable {r m : FileCoverage} {n : Counter → Nat} (φ : Nat → Nat)

theorem count_mapCounts (c : Counter) : (m.mapCounts φ).count c = (m.count c).map φ := by
  cases c with
  | s id => exact get_mapVals φ m.s id
  | f id => exact get_mapVals φ m.f id
  | b id arm =>
    have := get_mapVals (List.map φ) m.b id
    simp only [FileCoverage.count]
    change ((mapVals (List.map φ) m.b).get id).bind _ = _
    rw [this]
    cases IndexMap.get m.b id <;> simp
  | bT id arm =>
    simp only [FileCoverage.count, mapCounts]
    cases hb : m.bT with
    | none => rfl
    | some t =>
      have := get_mapVals (List.map φ) t id
      simp only [Option.map_some, Option.bind_some]
      change ((mapVals (List.map φ) t).get id).bind _ = _
      rw [this]
      cases IndexMap.get t id <;> simp

theorem located_locs {H H' T : Type} (f : H → H') (loc : T → Option Range) (h : IndexMap Nat H) (t : IndexMap Nat T) :
    (located loc (mapVals f h) t).map (·.1) = (located loc h t).map (·.1) := by
  unfold located mapVals
  induction h with
  | nil => rfl
  | cons e h ih =>
    simp only [List.map_cons, List.filterMap_cons]
    cases (IndexMap.get t e.1).bind loc with
    | none => simpa using ih
    | some l => simpa using ih

theorem FileCoverage.DistinctLocs.mapCounts (h : m.DistinctLocs) : (m.mapCounts φ).DistinctLocs := by
  refine ⟨?_, ?_, ?_⟩
  · have := located_locs φ some m.s m.statementMap
    exact this ▸ h.statements
  · have := located_locs φ (fun fn : Function => some fn.loc) m.f m.fnMap
    exact this ▸ h.functions
  · have := located_locs (List.map φ) branchLoc m.b m.branchMap
    exact this ▸ h.branches

theorem FileCoverage.Recounts.mapCounts (h : r.Recounts n m) : r.Recounts (fun k => φ (n k)) (m.mapCounts φ) where
  path := h.path
  statement id l hl := by
    obtain ⟨id', h1, h2⟩ := h.statement id l hl
    refine ⟨id', h1, ?_⟩
    have := get_mapVals φ m.s id'
    rw [h2] at this
    exact this
  function id l hl := by
    obtain ⟨id', h1, h2⟩ := h.function id l hl
    refine ⟨id', h1, ?_⟩
    have := get_mapVals φ m.f id'
    rw [h2] at this
    exact this
  branch id l hl := by
    obtain ⟨id', h1, h2⟩ := h.branch id l hl
    refine ⟨id', h1, fun i hi => ?_⟩
    rw [count_mapCounts, h2 i hi]
    rfl
  statements := h.statements
  functions := h.functions
  branches := h.branches
  distinct := h.distinct.mapCounts φ

theorem keys_bT : ((m.mapCounts φ).bT.getD []).keys = (m.bT.getD []).keys := by
  simp only [mapCounts]
  cases m.bT with
  | none => rfl
  | some t => exact keys_mapVals (List.map φ) t

theorem Counted.mapCounts (h : Counted r n m) : Counted r (fun k => φ (n k)) (m.mapCounts φ) where
  toRecounts := h.toRecounts.mapCounts φ
  all := h.all
  truth := by
    rcases h.truth with h | h
    · left
      simp [FileCoverage.mapCounts, h]
    · right
      rw [keys_bT]
      have hl : (m.mapCounts φ).b.length = m.b.length := by simp [FileCoverage.mapCounts]
      rw [hl]
      have := located_locs (List.map φ) branchLoc m.b m.branchMap
      exact ⟨h.1, this ▸ h.2⟩
  wf := by
    refine ⟨?_, ?_, ?_, h.wf.arms, ?_, ?_⟩
    · intro k hk
      exact h.wf.statements k (keys_mapVals φ m.s ▸ hk)
    · intro k hk
      exact h.wf.functions k (keys_mapVals φ m.f ▸ hk)
    · intro k hk
      exact h.wf.branches k (keys_mapVals (List.map φ) m.b ▸ hk)
    · intro k hk
      exact (keys_mapVals (List.map φ) m.b).symm ▸ h.wf.counted k hk
    · intro k hk
      rw [keys_bT] at hk
      exact h.wf.truth k hk
  keyed := by
    refine ⟨h.keyed.statementMap, h.keyed.fnMap, h.keyed.branchMap, ?_, ?_, ?_, ?_⟩
    · have := h.keyed.s
      unfold NodupKeys at this ⊢
      exact (keys_mapVals φ m.s).symm ▸ this
    · have := h.keyed.f
      unfold NodupKeys at this ⊢
      exact (keys_mapVals φ m.f).symm ▸ this
    · have := h.keyed.b
      unfold NodupKeys at this ⊢
      exact (keys_mapVals (List.map φ) m.b).symm ▸ this
    · intro t ht
      simp only [FileCoverage.mapCounts, Option.mem_def, Option.map_eq_some_iff] at ht
      obtain ⟨t', h1, rfl⟩ := ht
      have := h.keyed.bT t' h1
      unfold NodupKeys at this ⊢
      exact (keys_mapVals (List.map φ) t').symm ▸ this
  arms k x t hx ht := by
    have := get_mapVals (List.map φ) m.b k
    rw [show IndexMap.get (mapVals (List.map φ) m.b) k = some x from hx] at this
    obtain ⟨x', h1, rfl⟩ := Option.map_eq_some_iff.1 this.symm
    rw [List.length_map]
    exact h.arms k x' t h1 ht

theorem Truthful.mapCounts {K : Nat} (h : Truthful r K n m) : Truthful r K (fun k => φ (n k)) (m.mapCounts φ) where
  toCounted := h.toCounted.mapCounts φ
  ids := by
    have := h.ids
    simp only [FileCoverage.mapCounts]
    cases hb : m.bT with
    | none => rw [hb] at this; cases this
    | some t =>
      rw [hb] at this
      simp only [Option.map_some] at this ⊢
      rw [← this]
      exact congrArg some (keys_mapVals (List.map φ) t)
  first := (keys_mapVals (List.map φ) m.b).symm ▸ h.first
  same := h.same
  truths k x hk hx := by
    obtain ⟨v, h1, h2, h3⟩ := h.truths k x hk hx
    have : IndexMap.get ((m.mapCounts φ).bT.getD []) k = some (v.map φ) := by
      simp only [FileCoverage.mapCounts]
      cases hb : m.bT with
      | none => rw [hb] at h1; cases h1
      | some t =>
        rw [hb] at h1
        have := get_mapVals (List.map φ) t k
        rw [show IndexMap.get t k = some v from h1] at this
        exact this
    refine ⟨_, this, by rw [List.length_map, h2], fun i hi => ?_⟩
    rw [List.getElem?_map, h3 i hi]
    rfl

end
end Verif
