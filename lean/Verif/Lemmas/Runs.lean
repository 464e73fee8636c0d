import Verif.Lemmas.Recount
import Verif.Lemmas.EndToEnd
import Verif.Lemmas.Outcome
import Verif.Props.CoverageMap
import Mathlib.Data.List.Nodup
import Mathlib.Data.List.Dedup
/-
Reports of runs can be merged.
-/
namespace Verif
open IndexMap FileCoverage

section
variable {H T : Type} {loc : T → Option Range}

theorem located_fst (h : IndexMap Nat H) (m : IndexMap Nat T) :
    (located loc h m).map (·.1) = h.keys.filterMap fun k => (m.get k).bind loc := by
  unfold located keys
  rw [List.map_filterMap, List.filterMap_map]
  congr 1
  funext e
  simp [Option.map_map, Function.comp_def]

theorem isSome_keys {V : Type} (m : IndexMap Nat V) (k : Nat) : k ∈ m.keys ↔ (m.get k).isSome := by
  rw [mem_keys_iff, Option.isSome_iff_exists]

/-- Whether locations are listed once depends on the tables only. -/
theorem nodup_located {h h' : IndexMap Nat H} {m m' : IndexMap Nat T} (hk : h.NodupKeys) (hk' : h'.NodupKeys)
    (hs : ∀ id, (h.get id).isSome = (h'.get id).isSome) (hm : m.Same m') (hn : ((located loc h' m').map (·.1)).Nodup) :
    ((located loc h m).map (·.1)).Nodup := by
  rw [located_fst] at hn ⊢
  have hp : h.keys.Perm h'.keys := (List.perm_ext_iff_of_nodup hk hk').2 fun k => by rw [isSome_keys, isSome_keys, hs k]
  have : (fun k => (m.get k).bind loc) = fun k => (m'.get k).bind loc := by
    funext k
    rw [hm k]
  rw [this]
  exact (hp.filterMap _).nodup_iff.2 hn

theorem filterMap_inj {A B : Type} {f : A → Option B} {l : List A} (h : (l.filterMap f).Nodup) {a b : A} {x : B} (ha : a ∈ l)
    (hb : b ∈ l) (fa : f a = some x) (fb : f b = some x) : a = b := by
  induction l with
  | nil => cases ha
  | cons c l ih =>
    rw [List.filterMap_cons] at h
    have hd : ∀ y ∈ l, f c = some x → f y = some x → False := by
      intro y hy h1 h2
      rw [h1] at h
      exact (List.nodup_cons.1 h).1 (List.mem_filterMap.2 ⟨y, hy, h2⟩)
    rcases List.mem_cons.1 ha with rfl | ha' <;> rcases List.mem_cons.1 hb with rfl | hb'
    · rfl
    · exact (hd b hb' fa fb).elim
    · exact (hd a ha' fb fa).elim
    · refine ih ?_ ha' hb'
      split at h
      · exact h
      · exact (List.nodup_cons.1 h).2

theorem le_sumAt {μ : H → Nat} {tab : List (Range × H)} {l : Range} {x : H} (h : (l, x) ∈ tab) : μ x ≤ sumAt μ tab l := by
  induction tab with
  | nil => cases h
  | cons e tab ih =>
    rw [sumAt_cons]
    rcases List.mem_cons.1 h with rfl | h
    · rw [if_pos rfl]
      exact Nat.le_add_right _ _
    · have := ih h
      omega

/-- What is listed twice at a location is counted twice. -/
theorem two_le_countAt {h : IndexMap Nat Nat} {m : IndexMap Nat Range} {i j : Nat} {x y : Nat} {l : Range} (hij : i ≠ j)
    (hi : (i, x) ∈ h) (hj : (j, y) ∈ h) (mi : m.get i = some l) (mj : m.get j = some l) : x + y ≤ countAt (located some h m) l := by
  have sumAt_eq : ∀ tab : List (Range × Nat), countAt tab l = sumAt (fun x => x) tab l := fun _ => rfl
  have one : ∀ {h : IndexMap Nat Nat} {i x : Nat}, (i, x) ∈ h → m.get i = some l → x ≤ countAt (located some h m) l := by
    intro h i x hi mi
    rw [sumAt_eq]
    exact le_sumAt (μ := fun x => x) (mem_located.2 ⟨i, l, hi, mi, rfl⟩)
  induction h with
  | nil => cases hi
  | cons e h ih =>
    obtain ⟨k, z⟩ := e
    have hcons : ∀ t, m.get k = some t → countAt (located some ((k, z) :: h) m) l =
        (if t = l then z else 0) + countAt (located some h m) l := by
      intro t ht
      rw [located_cons k z h m ht rfl, sumAt_eq, sumAt_cons, sumAt_eq]
    rcases List.mem_cons.1 hi with hi' | hi' <;> rcases List.mem_cons.1 hj with hj' | hj'
    · cases hi'
      cases hj'
      exact (hij rfl).elim
    · cases hi'
      rw [hcons l mi, if_pos rfl]
      exact Nat.add_le_add_left (one hj' mj) _
    · cases hj'
      rw [hcons l mj, if_pos rfl, Nat.add_comm]
      exact Nat.add_le_add_left (one hi' mi) _
    · have := ih hi' hj'
      refine Nat.le_trans this ?_
      cases hk : m.get k with
      | none => simp [located, hk]
      | some t =>
        rw [hcons t hk]
        omega

/-- Items of a table with distinct locations are told apart by their locations. -/
theorem located_key_inj {h : IndexMap Nat H} {m : IndexMap Nat T} (hn : ((located loc h m).map (·.1)).Nodup)
    (hs : ∀ id, (m.get id).isSome → (h.get id).isSome) {i j : Nat} {x y : T} {l : Range} (hi : m.get i = some x)
    (hj : m.get j = some y) (lx : loc x = some l) (ly : loc y = some l) : i = j := by
  rw [located_fst] at hn
  exact filterMap_inj hn ((isSome_keys h i).2 (hs i (by rw [hi]; rfl))) ((isSome_keys h j).2 (hs j (by rw [hj]; rfl)))
    (by rw [hi]; exact lx) (by rw [hj]; exact ly)

theorem located_inj {h : IndexMap Nat H} {m : IndexMap Nat T} (hn : ((located loc h m).map (·.1)).Nodup)
    (hs : ∀ id, (m.get id).isSome → (h.get id).isSome) {i j : Nat} {x y : T} {l : Range} (hi : m.get i = some x)
    (hj : m.get j = some y) (lx : loc x = some l) (ly : loc y = some l) : x = y := by
  have := located_key_inj hn hs hi hj lx ly
  subst this
  rw [hi] at hj
  exact Option.some.inj hj

/-- The table of a report that recounts the items `mr`, up to order. -/
theorem table_perm {H' : Type} {h : IndexMap Nat H} {m mr : IndexMap Nat T} {hr : IndexMap Nat H'} (L : T → Range) (val : Nat × T → H)
    (hn : ((located loc h m).map (·.1)).Nodup) (hrn : ((located loc hr mr).map (·.1)).Nodup) (hk : mr.NodupKeys)
    (hs : ∀ id, (mr.get id).isSome → (hr.get id).isSome) (hL : ∀ e ∈ mr, loc e.2 = some (L e.2))
    (h1 : ∀ e ∈ mr, (L e.2, val e) ∈ located loc h m) (h2 : ∀ e ∈ located loc h m, ∃ e' ∈ mr, L e'.2 = e.1) :
    (located loc h m).Perm (mr.map fun e => (L e.2, val e)) := by
  have hmr : mr.Nodup := by
    unfold NodupKeys keys at hk
    exact List.Nodup.of_map _ hk
  refine (List.perm_ext_iff_of_nodup (List.Nodup.of_map _ hn) ?_).2 ?_
  · refine List.Nodup.map_on ?_ hmr
    rintro ⟨i, x⟩ hx ⟨j, y⟩ hy he
    have hxy : L x = L y := congrArg Prod.fst he
    have := located_key_inj hrn hs (get_of_mem hk hx) (get_of_mem hk hy) (hL _ hx) ((hL _ hy).trans (congrArg some hxy.symm))
    subst this
    have h3 := get_of_mem hk hx
    rw [get_of_mem hk hy] at h3
    cases h3
    rfl
  · rintro ⟨l, x⟩
    constructor
    · intro hx
      obtain ⟨e, he, hl⟩ := h2 _ hx
      subst hl
      have h3 : IndexMap.get (located loc h m) (L e.2) = some x := get_of_mem (m := located loc h m) hn hx
      rw [get_of_mem (m := located loc h m) hn (h1 e he)] at h3
      cases h3
      exact List.mem_map.2 ⟨e, he, rfl⟩
    · intro hx
      obtain ⟨e, he, h3⟩ := List.mem_map.1 hx
      rw [← h3]
      exact h1 e he

end

/-- The tables of the instrumenter belong together. -/
structure Paired (r : FileCoverage) : Prop where
  s : ∀ id, (r.s.get id).isSome = (r.statementMap.get id).isSome
  f : ∀ id, (r.f.get id).isSome = (r.fnMap.get id).isSome
  b : ∀ id, (r.b.get id).map List.length = (r.branchMap.get id).map fun x => x.locations.length
  arms : ∀ id x, r.branchMap.get id = some x → x.locations ≠ []
  bT : ∀ id, ((r.bT.getD []).get id).isSome → (r.b.get id).isSome
  truths : ∀ id v, (r.bT.getD []).get id = some v → r.b.get id = some v

theorem Finished.paired {path : String} {sm : Option SourceMap} {rl : Bool} {h : List RegOp} {r : FileCoverage}
    (hf : Finished path sm rl h r) (hl : ∀ k, RegOp.arms h k ≠ [] → k < (RegOp.branches h).length) : Paired r where
  s id := by rw [hf.s, hf.statementMap, RegOp.get_numbered, RegOp.get_numbered]; simp
  f id := by rw [hf.f, hf.fnMap, RegOp.get_numbered, RegOp.get_numbered]; simp
  b id := by
    rw [hf.b, hf.branchMap]
    by_cases ha : RegOp.arms h id = []
    · simp [ha]
    · simp [ha, List.getElem?_eq_getElem (hl id ha)]
  arms id x hx := hf.armed (List.mem_map.2 ⟨(id, x), mem_of_get hx, rfl⟩)
  bT id h := by
    rw [hf.bT] at h
    obtain ⟨v, hv⟩ := Option.isSome_iff_exists.1 h
    obtain ⟨x, -, hx⟩ := Option.bind_eq_some_iff.1 hv
    split at hx
    · next hc => rw [hf.b, if_neg hc.2]; rfl
    · cases hx
  truths id v hv := by
    rw [hf.bT] at hv
    obtain ⟨x, -, hx⟩ := Option.bind_eq_some_iff.1 hv
    split at hx
    · next hc => rw [hf.b, if_neg hc.2]; exact hx
    · cases hx

theorem Paired.branchSome {r : FileCoverage} (h : Paired r) (id : Nat) : (r.b.get id).isSome = (r.branchMap.get id).isSome := by
  have := congrArg Option.isSome (h.b id)
  simpa using this

theorem Paired.apart {r : FileCoverage} (h : Paired r) (hd : r.DistinctLocs) : Apart r where
  functions i j x y hi hj he := located_inj (loc := fun x : Function => some x.loc) hd.functions
    (fun id hid => by rw [h.f]; exact hid) hi hj rfl (by rw [he])
  branches i j x y hi hj he := by
    cases hx : branchLoc x with
    | none => exact (h.arms i x hi (List.head?_eq_none_iff.1 hx)).elim
    | some l =>
      exact located_inj (loc := branchLoc) hd.branches (fun id hid => by rw [h.branchSome]; exact hid) hi hj hx (he ▸ hx)

namespace Sem
variable {V A : Type} {solid : V → Bool}

theorem Tells.wellFormed {p' : Node} {r c : FileCoverage} {trs : List (List (Ev V A))} (ht : Tells solid p' r trs c)
    (hp : Paired r) : c.WellFormed := by
  have hbs : ∀ id, (c.b.get id).isSome = (c.branchMap.get id).isSome := by
    intro id
    have h1 := congrArg Option.isSome ((ht.b id).trans (hp.b id))
    rw [ht.branchMap id]
    simpa using h1
  refine ⟨?_, ?_, ?_, ?_, ?_, ?_⟩
  · intro k h
    rw [isSome_keys] at h ⊢
    rw [ht.statementMap, ← hp.s, ← ht.s]
    exact h
  · intro k h
    rw [isSome_keys] at h ⊢
    rw [ht.fnMap, ← hp.f, ← ht.f]
    exact h
  · intro k h
    rw [isSome_keys] at h ⊢
    rw [← hbs]
    exact h
  · intro e he
    refine hp.arms e.1 e.2 ?_
    rw [← ht.branchMap]
    exact get_of_mem ht.keyed.branchMap he
  · intro k h
    rw [isSome_keys] at h ⊢
    rw [hbs]
    exact h
  · intro k h
    rw [isSome_keys] at h ⊢
    rw [← hbs]
    have h1 := congrArg Option.isSome (ht.truths k)
    have h2 := congrArg Option.isSome (ht.b k)
    simp only [Option.isSome_map] at h1 h2
    rw [h2]
    exact hp.bT k (h1.symm.trans h)

theorem Tells.branchIds {p' : Node} {r c : FileCoverage} {trs : List (List (Ev V A))} (ht : Tells solid p' r trs c) (hk : r.Keyed) :
    c.b.keys.Perm r.b.keys := by
  refine (List.perm_ext_iff_of_nodup ht.keyed.b hk.b).2 fun k => ?_
  have h2 := congrArg Option.isSome (ht.b k)
  simp only [Option.isSome_map] at h2
  rw [isSome_keys, isSome_keys, h2]

/-- Whether truthiness counts can be merged is the same for all reports. -/
theorem Tells.inRange {p' : Node} {r c : FileCoverage} {trs : List (List (Ev V A))} (ht : Tells solid p' r trs c) (hk : r.Keyed) :
    c.TruthInRange ↔ r.TruthInRange := by
  have hlen : c.b.length = r.b.length := by
    have := (ht.branchIds hk).length_eq
    unfold keys at this
    simpa using this
  have hkeys : ∀ k, k ∈ keys (c.bT.getD []) ↔ k ∈ keys (r.bT.getD []) := by
    intro k
    have h1 := congrArg Option.isSome (ht.truths k)
    simp only [Option.isSome_map] at h1
    rw [isSome_keys, isSome_keys, h1]
  unfold FileCoverage.TruthInRange
  rw [hlen]
  exact ⟨fun h k hk => h k ((hkeys k).2 hk), fun h k hk => h k ((hkeys k).1 hk)⟩

theorem Tells.distinct {p' : Node} {r c : FileCoverage} {trs : List (List (Ev V A))} (ht : Tells solid p' r trs c)
    (hk : r.Keyed) (hd : r.DistinctLocs) : c.DistinctLocs := by
  refine ⟨nodup_located ht.keyed.s hk.s ht.s ht.statementMap hd.statements,
    nodup_located ht.keyed.f hk.f ht.f ht.fnMap hd.functions,
    nodup_located ht.keyed.b hk.b (fun id => ?_) ht.branchMap hd.branches⟩
  have := congrArg Option.isSome (ht.b id)
  simpa using this

/-- A report that tells about executions counts the things that the report of the instrumenter lists. -/
theorem Tells.counted {p' : Node} {r c : FileCoverage} {trs : List (List (Ev V A))} (ht : Tells solid p' r trs c) (hp : Paired r)
    (hk : r.Keyed) (hd : r.DistinctLocs) (hall : r.all = false) (hT : r.TruthInRange) :
    Counted r (fun k => (c.count k).getD 0) c := by
  have hb : ∀ id x, r.branchMap.get id = some x → ∃ l, c.b.get id = some l ∧ l.length = x.locations.length := by
    intro id x hx
    have h1 := (ht.b id).trans (hp.b id)
    rw [hx] at h1
    exact Option.map_eq_some_iff.1 h1
  have hdist : c.DistinctLocs := ht.distinct hk hd
  refine { path := ht.path, statement := ?_, function := ?_, branch := ?_, statements := ?_, functions := ?_, branches := ?_
           distinct := hdist, all := ht.all.trans hall, truth := .inr ⟨(ht.inRange hk).2 hT, hdist.branches⟩, wf := ht.wellFormed hp, keyed := ht.keyed, arms := ?_ }
  · intro id l hl
    refine ⟨id, (ht.statementMap id).trans hl, ?_⟩
    have h1 : (c.s.get id).isSome := by rw [ht.s, hp.s, hl]; rfl
    obtain ⟨m, hm⟩ := Option.isSome_iff_exists.1 h1
    simp [FileCoverage.count, hm]
  · intro id x hx
    refine ⟨id, (ht.fnMap id).trans hx, ?_⟩
    have h1 : (c.f.get id).isSome := by rw [ht.f, hp.f, hx]; rfl
    obtain ⟨m, hm⟩ := Option.isSome_iff_exists.1 h1
    simp [FileCoverage.count, hm]
  · intro id x hx
    refine ⟨id, (ht.branchMap id).trans hx, fun i hi => ?_⟩
    obtain ⟨l, h1, h2⟩ := hb id x hx
    simp [FileCoverage.count, h1, List.getElem?_eq_getElem (show i < l.length by omega)]
  · exact fun id l h => ⟨id, (ht.statementMap id).symm.trans h⟩
  · exact fun id l h => ⟨id, (ht.fnMap id).symm.trans h⟩
  · exact fun id l h => ⟨id, (ht.branchMap id).symm.trans h⟩
  · intro k x t h1 h2
    rw [ht.branchMap] at h2
    obtain ⟨l, h3, h4⟩ := hb k t h2
    rw [h1] at h3
    cases h3
    exact h4

end Sem

/-- Any grouping of reports, for what merging adds up. -/
theorem tree_of {Q : (Counter → Nat) → FileCoverage → Prop}
    (hm : ∀ n n' a c, Q n a → Q n' c → ∃ m, a.merge c = .ok m ∧ Q (fun k => n k + n' k) m)
    (n : FileCoverage → Counter → Nat) (t : MergeTree) (h : ∀ c ∈ t.leaves, Q (n c) c) :
    ∃ m, t.eval = .ok m ∧ Q (fun k => (t.leaves.map fun c => n c k).sum) m := by
  induction t with
  | leaf c =>
    refine ⟨c, rfl, ?_⟩
    have := h c (by simp [MergeTree.leaves])
    simpa [MergeTree.leaves] using this
  | node l l' ih ih' =>
    obtain ⟨a, h1, h2⟩ := ih fun c hc => h c (by simp [MergeTree.leaves, hc])
    obtain ⟨c, h3, h4⟩ := ih' fun c hc => h c (by simp [MergeTree.leaves, hc])
    obtain ⟨m, h5, h6⟩ := hm _ _ _ _ h2 h4
    refine ⟨m, by simp only [MergeTree.eval, h1, h3]; exact h5, ?_⟩
    simpa [MergeTree.leaves] using h6

/-! ### Summaries -/

theorem countPos_snd {A B : Type} (p : B → Bool) (l : List (A × B)) : (l.map (·.2)).countP p = l.countP fun e => p e.2 := by
  rw [List.countP_map]
  rfl

theorem countP_flatten_map {A : Type} (p : Nat → Bool) (l : List (A × List Nat)) :
    ((l.map (·.2)).flatten.countP p) = (l.map fun e => e.2.countP p).sum := by
  rw [List.countP_flatten, List.map_map]
  rfl

/-- The statements of a report that recounts `r`. -/
theorem Counted.statementTable {r m : FileCoverage} {n : Counter → Nat} (h : Counted r n m) (hp : Paired r) (hk : r.Keyed)
    (hd : r.DistinctLocs) : m.statementTable.Perm (r.statementMap.map fun e => (e.2, n (.s e.1))) := by
  refine table_perm (loc := some) (fun t => t) (fun e => n (.s e.1)) h.distinct.statements hd.statements hk.statementMap
    (fun id hid => by rw [hp.s]; exact hid) (fun e _ => rfl) ?_ ?_
  · intro e he
    obtain ⟨k, h1, h2⟩ := h.statement e.1 e.2 (get_of_mem hk.statementMap he)
    exact mem_located.2 ⟨k, e.2, mem_of_get h2, h1, rfl⟩
  · rintro ⟨l, x⟩ he
    obtain ⟨k, t, h1, h2, h3⟩ := mem_located.1 he
    obtain ⟨id, h4⟩ := h.statements k t h2
    exact ⟨(id, t), mem_of_get h4, Option.some.inj h3⟩

/-- The summary of a report that recounts `r`. -/
theorem Counted.sums {r m : FileCoverage} {n : Counter → Nat} (h : Counted r n m) (hp : Paired r) (hk : r.Keyed) (hd : r.DistinctLocs) :
    ∃ sm, m.toSummary = .ok sm ∧ sm.Sums r n := by
  have ps := h.statementTable hp hk hd
  have pf : m.functionTable.Perm (r.fnMap.map fun e => (e.2.loc, n (.f e.1))) := by
    refine table_perm (loc := fun x : Function => some x.loc) (fun t => t.loc) (fun e => n (.f e.1)) h.distinct.functions hd.functions
      hk.fnMap (fun id hid => by rw [hp.f]; exact hid) (fun e _ => rfl) ?_ ?_
    · intro e he
      obtain ⟨k, h1, h2⟩ := h.function e.1 e.2 (get_of_mem hk.fnMap he)
      exact mem_located.2 ⟨k, e.2, mem_of_get h2, h1, rfl⟩
    · rintro ⟨l, x⟩ he
      obtain ⟨k, t, h1, h2, h3⟩ := mem_located.1 he
      obtain ⟨id, h4⟩ := h.functions k t h2
      exact ⟨(id, t), mem_of_get h4, Option.some.inj h3⟩
  have hL : ∀ t : Branch, t.locations ≠ [] → branchLoc t = some (t.locations.headD Range.zero) := by
    intro t ht
    unfold branchLoc
    cases hl : t.locations with
    | nil => exact (ht hl).elim
    | cons a l => rfl
  have pb : m.branchTable.Perm (r.branchMap.map fun e =>
      (e.2.locations.headD Range.zero, (List.range e.2.locations.length).map fun i => n (.b e.1 i))) := by
    refine table_perm (loc := branchLoc) (fun t => t.locations.headD Range.zero)
      (fun e => (List.range e.2.locations.length).map fun i => n (.b e.1 i)) h.distinct.branches hd.branches
      hk.branchMap (fun id hid => by rw [hp.branchSome]; exact hid)
      (fun e he => hL _ (hp.arms e.1 e.2 (get_of_mem hk.branchMap he))) ?_ ?_
    · intro e he
      have hg := get_of_mem hk.branchMap he
      obtain ⟨k, h1, h2⟩ := h.branch e.1 e.2 hg
      obtain ⟨x, hx⟩ := get_isSome_of_mem (h.wf.counted k ((mem_keys_iff _ _).2 ⟨_, h1⟩))
      refine mem_located.2 ⟨k, e.2, ?_, h1, hL _ (hp.arms e.1 e.2 hg)⟩
      have hlen := h.arms k x e.2 hx h1
      have : x = (List.range e.2.locations.length).map fun i => n (.b e.1 i) := by
        refine List.ext_getElem? fun i => ?_
        rcases Nat.lt_or_ge i e.2.locations.length with hi | hi
        · have h3 := h2 i hi
          simp only [FileCoverage.count, hx, Option.bind_some] at h3
          rw [h3]
          simp [hi]
        · rw [List.getElem?_eq_none (by omega), List.getElem?_eq_none (by simpa using hi)]
      rw [← this]
      exact mem_of_get hx
    · rintro ⟨l, x⟩ he
      obtain ⟨k, t, h1, h2, h3⟩ := mem_located.1 he
      obtain ⟨id, h4⟩ := h.branches k t h2
      refine ⟨(id, t), mem_of_get h4, ?_⟩
      rw [hL t (hp.arms id t h4)] at h3
      exact Option.some.inj h3
  have hsnd : ∀ {H T : Type} {loc : T → Option Range} {h : IndexMap Nat H} {m : IndexMap Nat T}, Located loc h m →
      (located loc h m).map (·.2) = h.map (·.2) := by
    intro H T loc h m hl
    induction h with
    | nil => rfl
    | cons e h ih =>
      obtain ⟨t, l, ht, hr⟩ := hl e List.mem_cons_self
      obtain ⟨k, x⟩ := e
      rw [located_cons k x h m ht hr, List.map_cons, List.map_cons, ih fun e he => hl e (List.mem_cons_of_mem _ he)]
  have ss := (hsnd h.wf.located_s).symm.trans rfl
  have sf := (hsnd h.wf.located_f).symm.trans rfl
  have sb := (hsnd h.wf.located_b).symm.trans rfl
  let ls := (m.statementTable.map fun e => e.1.start.line).dedup
  let cls := ((m.statementTable.filter fun e => decide (0 < e.2)).map fun e => e.1.start.line).dedup
  obtain ⟨sm, h0, h1, h2, h3, h4, h5, h6, h7, h8⟩ := C09_summary_totals m h.wf ls cls (List.nodup_dedup _) (List.nodup_dedup _)
    (fun l => by rw [List.mem_dedup, List.mem_map]) (fun l => by
      rw [List.mem_dedup, List.mem_map]
      constructor
      · rintro ⟨e, he, hl⟩
        exact ⟨e, (List.mem_filter.1 he).1, hl, of_decide_eq_true (List.mem_filter.1 he).2⟩
      · rintro ⟨e, he, hl, hpos⟩
        exact ⟨e, List.mem_filter.2 ⟨he, decide_eq_true hpos⟩, hl⟩)
  have ls_iff : ∀ l, l ∈ ls ↔ ∃ e ∈ r.statementMap, e.2.start.line = l := by
    intro l
    rw [List.mem_dedup, List.mem_map]
    constructor
    · rintro ⟨e, he, hl⟩
      obtain ⟨e', he', rfl⟩ := List.mem_map.1 (ps.mem_iff.1 he)
      exact ⟨e', he', hl⟩
    · rintro ⟨e, he, hl⟩
      exact ⟨_, ps.mem_iff.2 (List.mem_map.2 ⟨e, he, rfl⟩), hl⟩
  have cls_iff : ∀ l, l ∈ cls ↔ ∃ e ∈ r.statementMap, e.2.start.line = l ∧ 0 < n (.s e.1) := by
    intro l
    rw [List.mem_dedup, List.mem_map]
    constructor
    · rintro ⟨e, he, hl⟩
      obtain ⟨he, hpos⟩ := List.mem_filter.1 he
      obtain ⟨e', he', rfl⟩ := List.mem_map.1 (ps.mem_iff.1 he)
      exact ⟨e', he', hl, of_decide_eq_true hpos⟩
    · rintro ⟨e, he, hl, hpos⟩
      exact ⟨_, List.mem_filter.2 ⟨ps.mem_iff.2 (List.mem_map.2 ⟨e, he, rfl⟩), decide_eq_true hpos⟩, hl⟩
  refine ⟨sm, h0, ?_, ?_, ?_, ?_, ?_, ?_, ?_, ?_⟩
  · rw [h1, ← List.length_map (f := (·.2)), ss, List.length_map]
    exact ps.length_eq.trans (List.length_map ..)
  · rw [h2, ← countPos_snd (fun x => decide (0 < x)), ss, countPos_snd]
    refine (ps.countP_eq _).trans ?_
    rw [List.countP_map]
    rfl
  · rw [h3, ← List.length_map (f := (·.2)), sf, List.length_map]
    exact pf.length_eq.trans (List.length_map ..)
  · rw [h4, ← countPos_snd (fun x => decide (0 < x)), sf, countPos_snd]
    refine (pf.countP_eq _).trans ?_
    rw [List.countP_map]
    rfl
  · rw [h5, FileCoverage.totalArms, sb, List.length_flatten]
    refine ((pb.map _).map _).sum_nat.trans ?_
    rw [List.map_map, List.map_map]
    congr 1
    exact List.map_congr_left fun e _ => by simp
  · rw [h6, FileCoverage.coveredArms, sb, countP_flatten_map]
    refine (pb.map _).sum_nat.trans ?_
    rw [List.map_map]
    congr 1
    refine List.map_congr_left fun e _ => ?_
    simp only [Function.comp]
    rw [List.countP_map]
    rfl
  · intro l hl hm
    rw [h7]
    exact length_eq_of_mem_iff (List.nodup_dedup _) hl fun x => (ls_iff x).trans (hm x).symm
  · intro l hl hm
    rw [h8]
    exact length_eq_of_mem_iff (List.nodup_dedup _) hl fun x => (cls_iff x).trans (hm x).symm

/-- The branches of a report that recounts `r`, with their counts. -/
theorem Counted.branchPerm {r m : FileCoverage} {n : Counter → Nat} (h : Counted r n m) (hp : Paired r) (hk : r.Keyed) (hd : r.DistinctLocs) :
    (m.branchMap.map fun e => (e.2, (m.b.get e.1).getD [])).Perm
      (r.branchMap.map fun e => (e.2, (List.range e.2.locations.length).map fun i => n (.b e.1 i))) := by
  have inj : ∀ {m : FileCoverage}, m.Keyed → m.DistinctLocs → (∀ id, (m.branchMap.get id).isSome → (m.b.get id).isSome) →
      (∀ id x, m.branchMap.get id = some x → x.locations ≠ []) → ∀ {i j x}, m.branchMap.get i = some x → m.branchMap.get j = some x →
      i = j := by
    intro m hk hd hs hne i j x hi hj
    cases hx : branchLoc x with
    | none => exact (hne i x hi (List.head?_eq_none_iff.1 hx)).elim
    | some l => exact located_key_inj (loc := branchLoc) hd.branches hs hi hj hx hx
  have nd : ∀ {m : FileCoverage}, m.Keyed → m.DistinctLocs → (∀ id, (m.branchMap.get id).isSome → (m.b.get id).isSome) →
      (∀ id x, m.branchMap.get id = some x → x.locations ≠ []) → ∀ f : Nat × Branch → List Nat,
      (m.branchMap.map fun e => (e.2, f e)).Nodup := by
    intro m hk hd hs hne f
    have hn : m.branchMap.Nodup := by
      have := hk.branchMap
      unfold NodupKeys keys at this
      exact List.Nodup.of_map _ this
    refine List.Nodup.map_on ?_ hn
    rintro ⟨i, x⟩ hx ⟨j, y⟩ hy he
    obtain rfl : x = y := congrArg Prod.fst he
    rw [inj hk hd hs hne (get_of_mem hk.branchMap hx) (get_of_mem hk.branchMap hy)]
  have ms : ∀ id, (m.branchMap.get id).isSome → (m.b.get id).isSome := fun id hid =>
    (isSome_keys _ _).1 (h.wf.counted id ((isSome_keys _ _).2 hid))
  have mne : ∀ id x, m.branchMap.get id = some x → x.locations ≠ [] := by
    intro id x hx
    obtain ⟨id', hx'⟩ := h.branches id x hx
    exact hp.arms id' x hx'
  have key : ∀ id x, r.branchMap.get id = some x → ∃ id', m.branchMap.get id' = some x ∧
      (m.b.get id').getD [] = (List.range x.locations.length).map fun i => n (.b id i) := by
    intro id x hx
    obtain ⟨k, h1, h2⟩ := h.branch id x hx
    refine ⟨k, h1, ?_⟩
    obtain ⟨y, hy⟩ := Option.isSome_iff_exists.1 (ms k (by rw [h1]; rfl))
    have hlen := h.arms k y x hy h1
    rw [hy, Option.getD_some]
    refine List.ext_getElem? fun i => ?_
    rcases Nat.lt_or_ge i x.locations.length with hi | hi
    · have h3 := h2 i hi
      simp only [FileCoverage.count, hy, Option.bind_some] at h3
      rw [h3]
      simp [hi]
    · rw [List.getElem?_eq_none (by omega), List.getElem?_eq_none (by simpa using hi)]
  refine (List.perm_ext_iff_of_nodup (nd h.keyed h.distinct ms mne _) (nd hk hd (fun id hid => by rw [hp.branchSome]; exact hid)
    hp.arms _)).2 fun e => ?_
  simp only [List.mem_map]
  constructor
  · rintro ⟨⟨k, x⟩, he, rfl⟩
    have hx := get_of_mem h.keyed.branchMap he
    obtain ⟨id, hx'⟩ := h.branches k x hx
    obtain ⟨k', h1, h2⟩ := key id x hx'
    obtain rfl := inj h.keyed h.distinct ms mne h1 hx
    exact ⟨(id, x), mem_of_get hx', by rw [h2]⟩
  · rintro ⟨⟨id, x⟩, he, rfl⟩
    obtain ⟨k', h1, h2⟩ := key id x (get_of_mem hk.branchMap he)
    exact ⟨(k', x), mem_of_get h1, by rw [h2]⟩

/-- The line reports of a report that recounts `r`. -/
theorem Counted.lines {r m : FileCoverage} {n : Counter → Nat} (h : Counted r n m) (hp : Paired r) (hk : r.Keyed) (hd : r.DistinctLocs)
    (hl : ∀ e ∈ r.branchMap, e.2.line.isSome) : m.LinesOf r n := by
  have ps := h.statementTable hp hk hd
  have pb := h.branchPerm hp hk hd
  have ps1 : ∀ {P : Range → Nat → Prop}, (∃ e ∈ m.statementTable, P e.1 e.2) ↔ ∃ e ∈ r.statementMap, P e.2 (n (.s e.1)) := by
    intro P
    constructor
    · rintro ⟨e, he, h⟩
      obtain ⟨e', he', rfl⟩ := List.mem_map.1 (ps.mem_iff.1 he)
      exact ⟨e', he', h⟩
    · rintro ⟨e, he, h⟩
      exact ⟨_, ps.mem_iff.2 (List.mem_map.2 ⟨e, he, rfl⟩), h⟩
  have ps2 : ∀ {P : Range → Nat → Prop}, (∀ e ∈ m.statementTable, P e.1 e.2) ↔ ∀ e ∈ r.statementMap, P e.2 (n (.s e.1)) := by
    intro P
    constructor
    · exact fun h e he => h _ (ps.mem_iff.2 (List.mem_map.2 ⟨e, he, rfl⟩))
    · intro h e he
      obtain ⟨e', he', rfl⟩ := List.mem_map.1 (ps.mem_iff.1 he)
      exact h e' he'
  have ml : ∀ e ∈ m.branchMap, e.2.line.isSome := by
    intro e he
    obtain ⟨id, hx⟩ := h.branches e.1 e.2 (get_of_mem h.keyed.branchMap he)
    exact hl (id, e.2) (mem_of_get hx)
  have mr : ∀ {e : Nat × Branch}, e ∈ m.branchMap → ∀ l, ReportedOn e.2 l ↔ e.2.line = some l := by
    intro e he l
    constructor
    · rintro (h | ⟨h, -⟩)
      · exact h
      · have := ml e he
        rw [h] at this
        cases this
    · exact .inl
  refine ⟨?_, ?_, ?_⟩
  · obtain ⟨lm, h1, -, -, h2⟩ := C08_line_coverage m h.wf
    refine ⟨lm, h1, fun l c => (h2 l c).trans ?_⟩
    rw [ps1 (P := fun x y => x.start.line = l ∧ y = c), ps2 (P := fun x y => x.start.line = l → y ≤ c)]
  · obtain ⟨ls, h1, h2, h3⟩ := C08_uncovered_lines m h.wf
    refine ⟨ls, h1, h2, fun l => (h3 l).trans ?_⟩
    rw [ps1 (P := fun x _ => x.start.line = l), ps2 (P := fun x y => x.start.line = l → y = 0)]
  · obtain ⟨bl, h1, -, h2, h3, -⟩ := C14_branches_by_line m (fun e he => by
        obtain ⟨l, hl⟩ := Option.isSome_iff_exists.1 (ml e he)
        exact ⟨l, .inl hl⟩) h.keyed.b h.keyed.branchMap (fun k => ⟨h.wf.counted k, fun hk => h.wf.branches k hk⟩)
    refine ⟨bl, h1, fun l covered total => ?_⟩
    have hon : ∀ k, k ∈ (m.branchMap.filter fun e => decide (e.2.line = some l)).map (·.1) ↔
        ∃ br, (k, br) ∈ m.branchMap ∧ ReportedOn br l := by
      intro k
      rw [List.mem_map]
      constructor
      · rintro ⟨e, he, rfl⟩
        obtain ⟨h1, h2⟩ := List.mem_filter.1 he
        exact ⟨e.2, h1, .inl (of_decide_eq_true h2)⟩
      · rintro ⟨br, h1, h2⟩
        exact ⟨(k, br), List.mem_filter.2 ⟨h1, decide_eq_true ((mr h1 l).1 h2)⟩, rfl⟩
    have hnd : ((m.branchMap.filter fun e => decide (e.2.line = some l)).map (·.1)).Nodup := nodup_filter_keys h.keyed.branchMap _
    have hsum : ∀ g : List Nat → Nat, (((m.branchMap.filter fun e => decide (e.2.line = some l)).map (·.1)).map
        fun k => g ((m.b.get k).getD [])).sum = ((r.branchMap.filter fun e => decide (e.2.line = some l)).map fun e =>
          g ((List.range e.2.locations.length).map fun i => n (.b e.1 i))).sum := by
      intro g
      have h5 := ((pb.filter fun e => decide (e.1.line = some l)).map fun e => g e.2).sum_nat
      rw [List.filter_map, List.filter_map, List.map_map, List.map_map] at h5
      rw [List.map_map]
      exact h5
    have hkey : (bl.get l).isSome ↔ ∃ e ∈ r.branchMap, e.2.line = some l := by
      rw [← isSome_keys, h2]
      constructor
      · rintro ⟨e, he, h5⟩
        obtain ⟨id, hx⟩ := h.branches e.1 e.2 (get_of_mem h.keyed.branchMap he)
        exact ⟨(id, e.2), mem_of_get hx, (mr he l).1 h5⟩
      · rintro ⟨e, he, h5⟩
        obtain ⟨k, h6, -⟩ := h.branch e.1 e.2 (get_of_mem hk.branchMap he)
        exact ⟨(k, e.2), mem_of_get h6, .inl h5⟩
    have hval : ∀ ct, bl.get l = some ct → ct = (((r.branchMap.filter fun e => decide (e.2.line = some l)).map fun e =>
        (List.range e.2.locations.length).countP fun i => decide (0 < n (.b e.1 i))).sum,
        ((r.branchMap.filter fun e => decide (e.2.line = some l)).map fun e => e.2.locations.length).sum) := by
      intro ct hct
      obtain ⟨h5, h6⟩ := h3 l ct hct _ hnd hon
      rw [hsum fun x => x.countP fun x => decide (0 < x)] at h5
      rw [hsum fun x => x.length] at h6
      refine Prod.ext (h5.trans ?_) (h6.trans ?_)
      · congr 1
        refine List.map_congr_left fun e _ => ?_
        rw [List.countP_map]
        rfl
      · congr 1
        exact List.map_congr_left fun e _ => by simp
    constructor
    · intro hct
      have := hval _ hct
      cases this
      exact ⟨hkey.1 (by rw [hct]; rfl), rfl, rfl⟩
    · rintro ⟨h5, rfl, rfl⟩
      obtain ⟨ct, hct⟩ := Option.isSome_iff_exists.1 (hkey.2 h5)
      rw [hct, hval ct hct]

theorem sum_eq_iff {A : Type} {f g : A → Nat} {l : List A} (h : ∀ e ∈ l, g e ≤ f e) :
    (l.map g).sum = (l.map f).sum ↔ ∀ e ∈ l, g e = f e := by
  induction l with
  | nil => simp
  | cons a l ih =>
    have h1 := h a List.mem_cons_self
    have h2 : (l.map g).sum ≤ (l.map f).sum := by
      have : ∀ l : List A, (∀ e ∈ l, g e ≤ f e) → (l.map g).sum ≤ (l.map f).sum := by
        intro l
        induction l with
        | nil => intro _; exact Nat.le_refl _
        | cons a l ih =>
          intro h
          rw [List.map_cons, List.map_cons, List.sum_cons, List.sum_cons]
          exact Nat.add_le_add (h a List.mem_cons_self) (ih fun e he => h e (List.mem_cons_of_mem _ he))
      exact this l fun e he => h e (List.mem_cons_of_mem _ he)
    have h3 := ih fun e he => h e (List.mem_cons_of_mem _ he)
    rw [List.map_cons, List.map_cons, List.sum_cons, List.sum_cons, List.forall_mem_cons, ← h3]
    omega

/-! ### Coverage maps -/

theorem MergeTree.leaves_leftFold (t : MergeTree) (cs : List FileCoverage) : (t.leftFold cs).leaves = t.leaves ++ cs := by
  induction cs generalizing t with
  | nil => simp [leftFold]
  | cons c cs ih => rw [leftFold, ih]; simp [leaves]

theorem MergeTree.eval_leftFold {t t' : MergeTree} (h : t.eval = t'.eval) (cs : List FileCoverage) :
    (t.leftFold cs).eval = (t'.leftFold cs).eval := by
  induction cs generalizing t t' with
  | nil => exact h
  | cons c cs ih =>
    refine ih ?_
    simp only [eval, h]

/-- If what is stored for a path keeps a property that merging keeps, all reports can be added. -/
theorem addAll_ok {Q : String → FileCoverage → Prop}
    (hQ : ∀ p a c, Q p a → Q p c → ∃ m, a.merge c = .ok m ∧ Q p m) (cs : List FileCoverage) (M : CoverageMap)
    (hM : ∀ p v, M.get p = some v → Q p v) (hcs : ∀ c ∈ cs, Q c.path c) : ∃ M', M.addAll cs = .ok M' := by
  induction cs generalizing M with
  | nil => exact ⟨M, rfl⟩
  | cons c cs ih =>
    have hc := hcs c List.mem_cons_self
    have hcs' : ∀ c ∈ cs, Q c.path c := fun x hx => hcs x (List.mem_cons_of_mem _ hx)
    unfold CoverageMap.addAll CoverageMap.addCoverageForFile
    cases hv : IndexMap.get M c.path with
    | none =>
      refine ih _ (fun p v hp => ?_) hcs'
      rw [IndexMap.get_insert] at hp
      split at hp
      · next h => cases hp; exact h ▸ hc
      · exact hM p v hp
    | some v =>
      obtain ⟨m, h1, h2⟩ := hQ c.path v c (hM _ _ hv) hc
      simp only [h1]
      refine ih _ (fun p v hp => ?_) hcs'
      rw [IndexMap.get_modify] at hp
      split at hp
      · next h =>
        subst h
        rw [hv] at hp
        cases hp
        exact h2
      · exact hM p v hp

/-- What is stored for a path is what merging the reports with the path in turn gives. -/
theorem addAll_tree (path : String) (cs : List FileCoverage) (M M' : CoverageMap) (h : M.addAll cs = .ok M') :
    match M.get path, cs.filter (fun c => decide (c.path = path)) with
    | some v, l => ∃ v', ((MergeTree.leaf v).leftFold l).eval = .ok v' ∧ M'.get path = some v'
    | none, [] => M'.get path = none
    | none, c :: l => ∃ v', ((MergeTree.leaf c).leftFold l).eval = .ok v' ∧ M'.get path = some v' := by
  induction cs generalizing M with
  | nil =>
    have h := Except.ok.inj h
    subst h
    cases hv : IndexMap.get M path with
    | none => rfl
    | some v => exact ⟨v, rfl, rfl⟩
  | cons c cs ih =>
    unfold CoverageMap.addAll at h
    split at h
    · cases h
    · next M₁ h₁ =>
      have ih := ih M₁ h
      unfold CoverageMap.addCoverageForFile at h₁
      rw [List.filter_cons]
      by_cases hp : c.path = path
      · subst hp
        rw [if_pos (by simp)]
        cases hv : IndexMap.get M c.path with
        | none =>
          simp only [hv] at h₁
          cases h₁
          have hg : IndexMap.get (IndexMap.insert M c.path c) c.path = some c := by rw [IndexMap.get_insert, if_pos rfl]
          simp only [hg] at ih
          exact ih
        | some v =>
          simp only [hv] at h₁
          split at h₁
          · cases h₁
          · next v' hv' =>
            cases h₁
            have hg : IndexMap.get (IndexMap.modify M c.path fun _ => v') c.path = some v' := by
              rw [IndexMap.get_modify, if_pos rfl, hv]; rfl
            simp only [hg] at ih
            obtain ⟨x, h1, h2⟩ := ih
            refine ⟨x, ?_, h2⟩
            rw [← h1]
            refine MergeTree.eval_leftFold (t := .node (.leaf v) (.leaf c)) ?_ _
            simp only [MergeTree.eval]
            exact hv'
      · rw [if_neg (by simpa using hp)]
        have hg : IndexMap.get M₁ path = IndexMap.get M path := by
          split at h₁
          · split at h₁
            · cases h₁
            · cases h₁
              rw [IndexMap.get_modify, if_neg hp]
          · cases h₁
            rw [IndexMap.get_insert, if_neg hp]
        rw [← hg]
        exact ih

theorem GoodShard.merge {a c : FileCoverage} (ha : GoodShard a) (hc : GoodShard c) : ∃ m, a.merge c = .ok m ∧ GoodShard m := by
  obtain ⟨m, h1, h2, _⟩ := mergeTree_eval (.node (.leaf a) (.leaf c)) (by
    intro x hx
    simp only [MergeTree.leaves, List.cons_append, List.nil_append, List.mem_cons, List.not_mem_nil, or_false] at hx
    rcases hx with rfl | rfl
    · exact ha
    · exact hc)
  exact ⟨m, h1, h2⟩

end Verif
