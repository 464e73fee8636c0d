import Verif.Spec.Runs
import Verif.Lemmas.MergeFile
import Verif.Props.Merge
/-
Merging reports on the same code.
-/
namespace Verif
open IndexMap FileCoverage

section
variable {H T : Type} {loc : T → Option Range} {key : T → Except Panic String}

theorem mem_located {h : List (Nat × H)} {m : IndexMap Nat T} {l : Range} {x : H} :
    (l, x) ∈ located loc h m ↔ ∃ k t, (k, x) ∈ h ∧ m.get k = some t ∧ loc t = some l := by
  unfold located
  rw [List.mem_filterMap]
  constructor
  · rintro ⟨⟨k, y⟩, h1, h2⟩
    obtain ⟨l', h3, h4⟩ := Option.map_eq_some_iff.1 h2
    obtain ⟨t, h5, h6⟩ := Option.bind_eq_some_iff.1 h3
    cases h4
    exact ⟨k, t, h1, h5, h6⟩
  · rintro ⟨k, t, h1, h2, h3⟩
    exact ⟨(k, x), h1, by simp [h2, h3]⟩

theorem sumAt_of_mem {μ : H → Nat} {tab : List (Range × H)} (hn : (tab.map (·.1)).Nodup) {l : Range} {x : H}
    (h : (l, x) ∈ tab) : sumAt μ tab l = μ x := by
  induction tab with
  | nil => cases h
  | cons e tab ih =>
    rw [List.map_cons, List.nodup_cons] at hn
    rw [sumAt_cons]
    rcases List.mem_cons.1 h with rfl | h
    · rw [if_pos rfl, sumAt_eq_zero μ hn.1, Nat.add_zero]
    · rw [if_neg, ih hn.2 h, Nat.zero_add]
      intro he
      exact hn.1 (he ▸ List.mem_map.2 ⟨_, h, rfl⟩)

/-- What holds of all entries that are merged, and is kept by adding counts of items with the same key, holds of all
entries of the result. -/
theorem mergePropsWith_pairs {comb : H → H → H} (P : H → T → Prop)
    (hcomb : ∀ h t h' t' k, P h t → P h' t' → key t = .ok k → key t' = .ok k → P (comb h h') t)
    {h₁ : IndexMap Nat H} {m₁ : IndexMap Nat T} {h₂ : IndexMap Nat H} {m₂ : IndexMap Nat T}
    (p₁ : ∀ k x t, (k, x) ∈ h₁ → m₁.get k = some t → P x t) (p₂ : ∀ k x t, (k, x) ∈ h₂ → m₂.get k = some t → P x t)
    {h : IndexMap Nat H} {m : IndexMap Nat T} (e : mergePropsWith key comb h₁ m₁ h₂ m₂ = .ok (h, m)) :
    (∀ k x, h.get k = some x → ∃ t, m.get k = some t ∧ P x t) ∧ ∀ k t, m.get k = some t → ∃ x, h.get k = some x ∧ P x t := by
  let Q : String → H × T → Prop := fun k e => P e.1 e.2 ∧ key e.2 = .ok k
  have first : ∀ (hits : List (Nat × H)) (items items' : IndexMap String (H × T)),
      (∀ k x t, (k, x) ∈ hits → m₁.get k = some t → P x t) → (∀ e ∈ items, Q e.1 e.2) →
      mergeFirst key m₁ hits items = .ok items' → ∀ e ∈ items', Q e.1 e.2 := by
    intro hits
    induction hits with
    | nil => intro items items' _ hq he; cases he; exact hq
    | cons x hits ih =>
      obtain ⟨k, x⟩ := x
      intro items items' hp hq he
      simp only [mergeFirst] at he
      split at he
      · cases he
      · next t ht =>
        split at he
        · cases he
        · next ik hk =>
          refine ih _ _ (fun k x t hm => hp k x t (List.mem_cons_of_mem _ hm)) ?_ he
          exact forall_insert (P := Q) hq ⟨hp k x t List.mem_cons_self ht, hk⟩
  have second : ∀ (hits : List (Nat × H)) (items items' : IndexMap String (H × T)),
      (∀ k x t, (k, x) ∈ hits → m₂.get k = some t → P x t) → (∀ e ∈ items, Q e.1 e.2) →
      mergeSecond key comb m₂ hits items = .ok items' → ∀ e ∈ items', Q e.1 e.2 := by
    intro hits
    induction hits with
    | nil => intro items items' _ hq he; cases he; exact hq
    | cons x hits ih =>
      obtain ⟨k, x⟩ := x
      intro items items' hp hq he
      simp only [mergeSecond] at he
      split at he
      · cases he
      · next t ht =>
        split at he
        · cases he
        · next ik hk =>
          refine ih _ _ (fun k x t hm => hp k x t (List.mem_cons_of_mem _ hm)) ?_ he
          have hpx := hp k x t List.mem_cons_self ht
          exact forall_upsert (P := Q) hq (fun v hv => ⟨hcomb _ _ _ _ _ hv.1 hpx hv.2 hk, hv.2⟩) ⟨hpx, hk⟩
  unfold mergePropsWith at e
  split at e
  · cases e
  · next i₁ e₁ =>
    split at e
    · cases e
    · next i₂ e₂ =>
      cases e
      have hq := second _ _ _ p₂ (first _ _ _ p₁ (fun e he => by cases he) e₁) e₂
      have hg : ∀ {B : Type} (g : H × T → B) (k : Nat), (reindexFrom 0 (i₂.values.map g)).get k =
          (i₂[k]?).map fun e => g e.2 := by
        intro B g k
        have := reindexFrom_get 0 (i₂.values.map g) k
        rw [Nat.zero_add] at this
        rw [this]
        simp [values]
        rfl
      constructor
      · intro k x hx
        rw [hg] at hx
        obtain ⟨e, h1, rfl⟩ := Option.map_eq_some_iff.1 hx
        exact ⟨e.2.2, by rw [hg, h1]; rfl, (hq e (List.mem_of_getElem? h1)).1⟩
      · intro k t ht
        rw [hg] at ht
        obtain ⟨e, h1, rfl⟩ := Option.map_eq_some_iff.1 ht
        exact ⟨e.2.1, by rw [hg, h1]; rfl, (hq e (List.mem_of_getElem? h1)).1⟩

end

/-! ### Reports on the same code -/

/-- A report that recounts `r`, with what is needed to merge it. -/
structure Counted (r : FileCoverage) (n : Counter → Nat) (m : FileCoverage) : Prop extends r.Recounts n m where
  all : m.all = false
  truth : m.TruthMergeable
  wf : m.WellFormed
  keyed : m.Keyed
  arms : ∀ k x t, m.b.get k = some x → m.branchMap.get k = some t → x.length = t.locations.length

/-- Functions and branches of a report are told apart by the locations that `merge` looks at. -/
structure Apart (r : FileCoverage) : Prop where
  functions : ∀ i j x y, r.fnMap.get i = some x → r.fnMap.get j = some y → x.loc = y.loc → x = y
  branches : ∀ i j x y, r.branchMap.get i = some x → r.branchMap.get j = some y → branchLoc x = branchLoc y → x = y

theorem nodup_of_range {V : Type} {m : IndexMap Nat V} {n : Nat} (h : m.keys = List.range n) : m.NodupKeys := by
  unfold NodupKeys
  rw [h]
  exact List.nodup_range

theorem mergePropsWith_range {H T : Type} {key : T → Except Panic String} {comb : H → H → H} {h₁ : IndexMap Nat H}
    {m₁ : IndexMap Nat T} {h₂ : IndexMap Nat H} {m₂ : IndexMap Nat T} {h : IndexMap Nat H} {m : IndexMap Nat T}
    (e : mergePropsWith key comb h₁ m₁ h₂ m₂ = .ok (h, m)) : h.keys = List.range h.length := by
  unfold mergePropsWith at e
  split at e
  · cases e
  · split at e
    · cases e
    · cases e
      next items _ =>
      have h1 := reindexFrom_keys 0 (items.values.map (·.1))
      have h2 := congrArg List.length h1
      rw [List.length_range'] at h2
      unfold keys at h2
      rw [List.length_map] at h2
      rw [h1, h2, List.range_eq_range']

theorem branchKey_ok {t : Branch} {k : String} (h : branchKey t = .ok k) : ∃ l, branchLoc t = some l ∧ k = keyFromLoc l := by
  unfold branchKey at h
  split at h
  · cases h
  · next l ls hl =>
    cases h
    exact ⟨l, by simp [branchLoc, hl], rfl⟩

theorem branchKey_inj {t t' : Branch} {k : String} (h : branchKey t = .ok k) (h' : branchKey t' = .ok k) :
    branchLoc t = branchLoc t' := by
  obtain ⟨l, h1, h2⟩ := branchKey_ok h
  obtain ⟨l', h3, h4⟩ := branchKey_ok h'
  rw [h1, h3, keyFromLoc_inj (h2.symm.trans h4)]

/-- Merging two reports on the same code adds their counts. -/
theorem Counted.merge {r a c : FileCoverage} {n n' : Counter → Nat} (hr : Apart r) (ha : Counted r n a) (hc : Counted r n' c) :
    ∃ m, a.merge c = .ok m ∧ Counted r (fun k => n k + n' k) m := by
  obtain ⟨m, hm, R⟩ := merge_real ha.wf hc.wf ha.truth ha.all hc.all
  refine ⟨m, hm, ?_⟩
  -- the items of the result
  have hitems : (∀ t, m.bT = some t → t.NodupKeys) ∧ (∀ k x, m.fnMap.get k = some x → ∃ id, r.fnMap.get id = some x) ∧
      (∀ k t, m.branchMap.get k = some t → ∃ x, m.b.get k = some x ∧ x.length = t.locations.length ∧
        ∃ id, r.branchMap.get id = some t) := by
    unfold FileCoverage.merge FileCoverage.mergeWith at hm
    rw [if_neg (by rw [hc.all]; simp), if_neg (by rw [ha.all]; simp)] at hm
    split at hm
    · cases hm
    · next s sm es =>
      split at hm
      · cases hm
      · next f fm ef =>
        split at hm
        · cases hm
        · next b bm eb =>
          have hf := mergePropsWith_pairs (fun _ t => ∃ id, r.fnMap.get id = some t)
            (fun _ _ _ _ _ h _ _ _ => h) (fun k x t _ h => ha.functions k t h) (fun k x t _ h => hc.functions k t h) ef
          have hb := mergePropsWith_pairs (fun (x : List Nat) t => x.length = t.locations.length ∧ ∃ id, r.branchMap.get id = some t)
            (fun x t x' t' k h h' hk hk' => by
              obtain ⟨h1, i, h2⟩ := h
              obtain ⟨h3, j, h4⟩ := h'
              have := hr.branches i j t t' h2 h4 (branchKey_inj hk hk')
              subst this
              refine ⟨?_, i, h2⟩
              rw [vecAdd_length]
              omega)
            (fun k x t h1 h2 => ⟨ha.arms k x t (get_of_mem ha.keyed.b h1) h2, ha.branches k t h2⟩)
            (fun k x t h1 h2 => ⟨hc.arms k x t (get_of_mem hc.keyed.b h1) h2, hc.branches k t h2⟩) eb
          have hm' : (∀ t, m.bT = some t → t.NodupKeys) ∧ m.fnMap = fm ∧ m.branchMap = bm ∧ m.b = b := by
            split at hm
            · split at hm
              · cases hm
              · next bt' _ et =>
                have hm := Except.ok.inj hm
                subst hm
                refine ⟨fun t ht => ?_, rfl, rfl, rfl⟩
                cases ht
                exact nodup_of_range (mergePropsWith_range et)
            · have hm := Except.ok.inj hm
              subst hm
              exact ⟨fun t ht => ha.keyed.bT t ht, rfl, rfl, rfl⟩
          rw [hm'.2.1, hm'.2.2.1, hm'.2.2.2]
          exact ⟨hm'.1, fun k x h => (hf.2 k x h).elim fun _ h => h.2, hb.2⟩
  obtain ⟨hbT, hfn, hbr⟩ := hitems
  have D := R.dense
  have ks : m.s.NodupKeys := nodup_of_range D.s
  have kf : m.f.NodupKeys := nodup_of_range D.f
  have kb : m.b.NodupKeys := nodup_of_range D.b
  -- the table of a report has the entries of the counted items
  have entry : ∀ {H T : Type} (loc : T → Option Range) {h : IndexMap Nat H} {map : IndexMap Nat T} {k : Nat} {t : T} {x : H}
      {l : Range}, map.get k = some t → h.get k = some x → loc t = some l → (l, x) ∈ located loc h map :=
    fun loc _ _ k t x l h1 h2 h3 => mem_located.2 ⟨k, t, mem_of_get h2, h1, h3⟩
  refine { path := R.path.trans ha.path, statement := ?_, function := ?_, branch := ?_, statements := ?_, functions := hfn
           branches := fun k t h => (hbr k t h).elim fun _ h => h.2.2, distinct := R.distinct, all := R.all, truth := R.truthMergeable, wf := R.wf
           keyed := ?_, arms := ?_ }
  · intro id l hl
    obtain ⟨i, h1, h2⟩ := ha.statement id l hl
    obtain ⟨j, h3, h4⟩ := hc.statement id l hl
    have e1 := entry some h1 h2 rfl
    have e2 := entry some h3 h4 rfl
    obtain ⟨⟨l', x⟩, h5, rfl⟩ := List.mem_map.1 ((R.statementLocs l).2 (.inl (List.mem_map.2 ⟨_, e1, rfl⟩)))
    have h6 := R.statementSum ha.distinct.statements l'
    simp only [statementCount, countAt_eq] at h6
    rw [sumAt_of_mem R.distinct.statements h5, sumAt_of_mem ha.distinct.statements e1,
      sumAt_of_mem hc.distinct.statements e2] at h6
    obtain ⟨k, t, h7, h8, h9⟩ := mem_located.1 h5
    cases h9
    exact ⟨k, h8, by rw [get_of_mem ks h7, h6]⟩
  · intro id fn hl
    obtain ⟨i, h1, h2⟩ := ha.function id fn hl
    obtain ⟨j, h3, h4⟩ := hc.function id fn hl
    have e1 := entry (fun fn : Function => some fn.loc) h1 h2 rfl
    have e2 := entry (fun fn : Function => some fn.loc) h3 h4 rfl
    obtain ⟨⟨l', x⟩, h5, h5'⟩ := List.mem_map.1 ((R.functionLocs fn.loc).2 (.inl (List.mem_map.2 ⟨_, e1, rfl⟩)))
    cases h5'
    have h6 := R.functionSum ha.distinct.functions fn.loc
    simp only [functionCount, countAt_eq] at h6
    rw [sumAt_of_mem R.distinct.functions h5, sumAt_of_mem ha.distinct.functions e1,
      sumAt_of_mem hc.distinct.functions e2] at h6
    obtain ⟨k, t, h7, h8, h9⟩ := mem_located.1 h5
    obtain ⟨id', h10⟩ := hfn k t h8
    have h11 := hr.functions id' id t fn h10 hl (Option.some.inj h9)
    subst h11
    exact ⟨k, h8, by rw [get_of_mem kf h7, h6]⟩
  · intro id br hl
    obtain ⟨i, h1, h2⟩ := ha.branch id br hl
    obtain ⟨j, h3, h4⟩ := hc.branch id br hl
    have counted : ∀ {q : FileCoverage} {k : Nat}, q.WellFormed → q.branchMap.get k = some br → ∃ x, q.b.get k = some x :=
      fun hq hk => get_isSome_of_mem (hq.counted _ (mem_keys_of_mem (mem_of_get hk)))
    obtain ⟨x1, h5⟩ := counted ha.wf h1
    obtain ⟨x2, h6⟩ := counted hc.wf h3
    obtain ⟨l, hloc⟩ := ha.wf.branch_loc h1
    have e1 := entry branchLoc h1 h5 hloc
    have e2 := entry branchLoc h3 h6 hloc
    obtain ⟨⟨l', x⟩, h7, h7'⟩ := List.mem_map.1 ((R.branchLocs l).2 (.inl (List.mem_map.2 ⟨_, e1, rfl⟩)))
    cases h7'
    obtain ⟨k, t, h8, h9, h10⟩ := mem_located.1 h7
    obtain ⟨x', h11, h12, id', h13⟩ := hbr k t h9
    rw [get_of_mem kb h8] at h11
    cases h11
    have h14 := hr.branches id' id t br h13 hl (h10.trans hloc.symm)
    subst h14
    refine ⟨k, h9, fun q hq => ?_⟩
    have h15 := R.branchSum ha.distinct.branches l' q
    simp only [armCount, armAt_eq] at h15
    rw [sumAt_of_mem R.distinct.branches h7, sumAt_of_mem ha.distinct.branches e1,
      sumAt_of_mem hc.distinct.branches e2] at h15
    have h16 := h2 q hq
    have h17 := h4 q hq
    simp only [FileCoverage.count, h5, h6, Option.bind_some] at h16 h17
    simp only [FileCoverage.count, get_of_mem kb h8, Option.bind_some]
    rw [List.getD_eq_getElem?_getD, List.getD_eq_getElem?_getD, List.getD_eq_getElem?_getD, h16, h17] at h15
    rw [List.getElem?_eq_getElem (by omega)] at h15 ⊢
    exact congrArg some h15
  · intro k l hl
    have h1 : k ∈ m.s.keys := by
      rw [D.s, ← D.statementMap]
      exact mem_keys_of_mem (mem_of_get hl)
    obtain ⟨x, hx⟩ := get_isSome_of_mem h1
    have h2 := (R.statementLocs l).1 (List.mem_map.2 ⟨_, entry some hl hx rfl, rfl⟩)
    rcases h2 with h2 | h2
    · obtain ⟨⟨l', y⟩, h3, rfl⟩ := List.mem_map.1 h2
      obtain ⟨k', t, _, h4, h5⟩ := mem_located.1 h3
      cases h5
      exact ha.statements k' _ h4
    · obtain ⟨⟨l', y⟩, h3, rfl⟩ := List.mem_map.1 h2
      obtain ⟨k', t, _, h4, h5⟩ := mem_located.1 h3
      cases h5
      exact hc.statements k' _ h4
  · exact ⟨nodup_of_range D.statementMap, nodup_of_range D.fnMap, nodup_of_range D.branchMap, ks, kf, kb,
      hbT⟩
  · intro k x t hx ht
    obtain ⟨x', h1, h2, _⟩ := hbr k t ht
    rw [hx] at h1
    cases h1
    exact h2

end Verif
