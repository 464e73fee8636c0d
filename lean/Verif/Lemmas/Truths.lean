import Verif.Lemmas.Runs
import Verif.Spec.Truths
import Verif.Lemmas.MergeTruth
import Mathlib.Data.List.Perm.Subperm
/-
Truthiness counts of reports on the same code, if the branches with truthiness counts come first.
-/
namespace Verif
open IndexMap FileCoverage

theorem entryItems_prefix {H T : Type} {h : List (Nat × H)} {m : IndexMap Nat T} (hm : ∀ e ∈ h, ∃ t, m.get e.1 = some t) {k : Nat}
    (hk : (keys h)[k]? = some k) : (entryItems m h)[k]? = m.get k := by
  have hmap : ∀ (h : List (Nat × H)) (n : Nat), (∀ e ∈ h, ∃ t, m.get e.1 = some t) →
      (entryItems m h)[n]? = ((keys h)[n]?).bind m.get := by
    intro h
    induction h with
    | nil => intro n _; simp [entryItems, keys]
    | cons e h ih =>
      intro n hm
      obtain ⟨t, ht⟩ := hm e List.mem_cons_self
      have he : entryItems m (e :: h) = t :: entryItems m h := by simp [entryItems, ht]
      have hk : keys (e :: h) = e.1 :: keys h := rfl
      rw [he, hk]
      cases n with
      | zero => simp [ht]
      | succ n => simpa using ih n fun e he => hm e (List.mem_cons_of_mem _ he)
  rw [hmap h k hm, hk]
  rfl

/-- A report on the code of `r`, in which the branches with the ids below `K` are those with truthiness counts. -/
structure Truthful (r : FileCoverage) (K : Nat) (n : Counter → Nat) (m : FileCoverage) : Prop extends Counted r n m where
  ids : m.bT.map keys = some (List.range K)
  first : List.range K <+: m.b.keys
  same : ∀ k, k < K → m.branchMap.get k = r.branchMap.get k
  truths : ∀ k x, k < K → r.branchMap.get k = some x → ∃ v, (m.bT.getD []).get k = some v ∧ v.length = x.locations.length ∧
    ∀ i, i < x.locations.length → v[i]? = some (n (.bT k i))

theorem prefix_getElem? {K : Nat} {l : List Nat} (h : List.range K <+: l) {k : Nat} (hk : k < K) : l[k]? = some k := by
  obtain ⟨s, rfl⟩ := h
  rw [List.getElem?_append_left (by simpa using hk)]
  simp [hk]

theorem located_nodup_of {H T : Type} {loc : T → Option Range} {h h' : IndexMap Nat H} {m : IndexMap Nat T} (hn : h.NodupKeys)
    (hn' : h'.NodupKeys) (hsub : ∀ k ∈ keys h, k ∈ keys h') (hd : ((located loc h' m).map (·.1)).Nodup) :
    ((located loc h m).map (·.1)).Nodup := by
  rw [located_fst] at hd ⊢
  have inj : ∀ i ∈ keys h', ∀ j ∈ keys h', ∀ l, (m.get i).bind loc = some l → (m.get j).bind loc = some l → i = j := by
    clear hsub hn
    unfold NodupKeys at hn'
    generalize keys h' = ks' at hn' hd
    induction ks' with
    | nil => intro i hi; cases hi
    | cons k ks ih =>
      rw [List.nodup_cons] at hn'
      intro i hi j hj l h1 h2
      rw [List.filterMap_cons] at hd
      have hks : (ks.filterMap fun k => (m.get k).bind loc).Nodup := by
        split at hd
        · exact hd
        · exact (List.nodup_cons.1 hd).2
      rcases List.mem_cons.1 hi with rfl | hi' <;> rcases List.mem_cons.1 hj with rfl | hj'
      · rfl
      · rw [h1] at hd
        exact absurd (List.mem_filterMap.2 ⟨j, hj', h2⟩) (List.nodup_cons.1 hd).1
      · rw [h2] at hd
        exact absurd (List.mem_filterMap.2 ⟨i, hi', h1⟩) (List.nodup_cons.1 hd).1
      · exact ih hn'.2 hks i hi' j hj' l h1 h2
  have hks : ∀ k ∈ keys h, k ∈ keys h' := hsub
  unfold NodupKeys at hn
  generalize keys h = ks at hn hks
  induction ks with
  | nil => exact List.nodup_nil
  | cons k ks ih =>
    rw [List.nodup_cons] at hn
    rw [List.filterMap_cons]
    have hr := ih hn.2 fun k' hk' => hks k' (List.mem_cons_of_mem _ hk')
    split
    · exact hr
    · next l hl =>
      refine List.nodup_cons.2 ⟨fun hm => ?_, hr⟩
      obtain ⟨j, hj, hjl⟩ := List.mem_filterMap.1 hm
      have := inj k (hks k List.mem_cons_self) j (hks j (List.mem_cons_of_mem _ hj)) l hl hjl
      subst this
      exact hn.1 hj

/-- If the first ids of the receiver are `0, 1, …` and include those with truthiness counts, these are found by their own locations, and
the result numbers them from 0 on. -/
theorem merge_dense {a c m : FileCoverage} (ha : a.WellFormed) (hc : c.WellFormed) (ra : a.all = false) (rc : c.all = false)
    (hnd : (a.branchTable.map (·.1)).Nodup) {n : Nat} (hn : List.range n <+: a.b.keys) {bt cbt : BranchHitMap}
    (hbt : a.bT = some bt) (hcbt : c.bT = some cbt) (hlt : ∀ k ∈ keys bt, k < n) (hm : a.merge c = .ok m) :
    ∃ t tm, m.bT = some t ∧ mergePropsWith branchKey (vecAdd (· + ·)) bt a.branchMap cbt c.branchMap = .ok (t, tm) ∧
      (∀ k, k < n → m.branchMap.get k = a.branchMap.get k) ∧ List.range n <+: m.b.keys := by
  have hla : Located branchLoc bt a.branchMap := by have := ha.located_bT; rwa [hbt] at this
  have hlc : Located branchLoc cbt c.branchMap := by have := hc.located_bT; rwa [hcbt] at this
  obtain ⟨b, bm, eb, kb, kbm, lb, ndb, lenb, allb, memb, sumb, -⟩ :=
    mergePropsWith_ok (loc := branchLoc) (key := branchKey) key_branch (vecAdd (· + ·)) ha.located_b hc.located_b
  obtain ⟨t, tm, et, -⟩ :=
    mergePropsWith_ok (loc := branchLoc) (key := branchKey) key_branch (vecAdd (· + ·)) hla hlc
  obtain ⟨suf, hsuf⟩ := (sumb hnd).2
  have hlenA : (entryItems a.branchMap a.b).length = a.b.length := entryItems_length ha.located_b
  have hna : n ≤ a.b.length := by
    have := hn.length_le
    unfold keys at this
    simpa using this
  have hget : ∀ k, k < n → bm.get k = a.branchMap.get k := by
    intro k hk
    have hg := reindexFrom_get 0 (entryItems a.branchMap a.b ++ suf) k
    rw [Nat.zero_add, ← hsuf] at hg
    rw [hg, List.getElem?_append_left (by omega)]
    exact entryItems_prefix (fun e he => by
      obtain ⟨t, _, h1, _⟩ := ha.located_b e he
      exact ⟨t, h1⟩) (prefix_getElem? hn hk)
  have et' : mergePropsWith branchKey (vecAdd (· + ·)) bt bm cbt c.branchMap = .ok (t, tm) := by
    rw [← et]
    unfold mergePropsWith
    rw [mergeFirst_congr branchKey bm a.branchMap bt [] fun e he => hget e.1 (hlt _ (mem_keys_of_mem he))]
  have hmf : m.bT = some t ∧ m.branchMap = bm ∧ m.b = b := by
    unfold FileCoverage.merge FileCoverage.mergeWith at hm
    rw [if_neg (by rw [rc]; simp), if_neg (by rw [ra]; simp), eb] at hm
    split at hm
    · cases hm
    · split at hm
      · cases hm
      · simp only [hbt, hcbt, et'] at hm
        have hm := Except.ok.inj hm
        subst hm
        exact ⟨rfl, rfl, rfl⟩
  obtain ⟨e1, e2, e3⟩ := hmf
  refine ⟨t, tm, e1, et, fun k hk => by rw [e2, hget k hk], ?_⟩
  rw [e3, kb]
  have h1 := congrArg List.length kbm
  have h2 := congrArg List.length hsuf
  rw [reindexFrom_length, List.length_append] at h2
  unfold keys at h1
  simp only [List.length_map, List.length_range] at h1
  exact List.prefix_iff_eq_take.2 (by rw [List.take_range, List.length_range]; congr 1; omega)

/-- Merging two such reports adds their truthiness counts. -/
theorem Truthful.merge {r a c : FileCoverage} {K : Nat} {n n' : Counter → Nat} (hr : Apart r) (ha : Truthful r K n a)
    (hc : Truthful r K n' c) : ∃ m, a.merge c = .ok m ∧ Truthful r K (fun k => n k + n' k) m := by
  obtain ⟨m, hm, hM⟩ := ha.toCounted.merge hr hc.toCounted
  obtain ⟨bt, hbt, hbk⟩ := Option.map_eq_some_iff.1 ha.ids
  obtain ⟨cbt, hcbt, hck⟩ := Option.map_eq_some_iff.1 hc.ids
  have hK : ∀ k, k < K → k ∈ keys bt := fun k hk => by rw [hbk]; simpa using hk
  have hla : Located branchLoc bt a.branchMap := by have := ha.wf.located_bT; rwa [hbt] at this
  have hlc : Located branchLoc cbt c.branchMap := by have := hc.wf.located_bT; rwa [hcbt] at this
  have ka : bt.NodupKeys := ha.keyed.bT _ hbt
  have kc : cbt.NodupKeys := hc.keyed.bT _ hcbt
  have hinb : ∀ {q : FileCoverage}, List.range K <+: q.b.keys → ∀ k, k < K → k ∈ keys q.b := by
    intro q hq k hk
    exact hq.subset (by simpa using hk)
  have nda : ((located branchLoc bt a.branchMap).map (·.1)).Nodup := by
    have := ha.distinct.branches
    rw [branchTable, located_fst] at this
    exact located_nodup_of (h' := a.b) ka ha.keyed.b
      (fun k hk => hinb ha.first k (by rw [hbk] at hk; simpa using hk)) ha.distinct.branches
  have ndc : ((located branchLoc cbt c.branchMap).map (·.1)).Nodup :=
    located_nodup_of (h' := c.b) kc hc.keyed.b
      (fun k hk => hinb hc.first k (by rw [hck] at hk; simpa using hk)) hc.distinct.branches
  obtain ⟨t, tm, e1, et0, e2, e3⟩ := merge_dense ha.wf hc.wf ha.all hc.all ha.distinct.branches ha.first hbt hcbt
    (fun k hk => by rw [hbk] at hk; simpa using hk) hm
  obtain ⟨t', tm', et, kt, ktm, lt, ndt, lent, allt, memt, sumt, -⟩ :=
    mergePropsWith_ok (loc := branchLoc) (key := branchKey) key_branch (vecAdd (· + ·)) hla hlc
  rw [et] at et0
  cases et0
  have hlenB : bt.length = K := by
    have := congrArg List.length hbk
    unfold keys at this
    simpa using this
  have hlocs : ∀ l ∈ (located branchLoc t tm).map (·.1), l ∈ (located branchLoc bt a.branchMap).map (·.1) := by
    intro l hl
    rcases (memt l).1 hl with h | h
    · exact h
    · rw [located_fst, List.mem_filterMap] at h ⊢
      obtain ⟨k, h1, h2⟩ := h
      have hk : k < K := by rw [hck] at h1; simpa using h1
      exact ⟨k, hK k hk, by rw [ha.same k hk, ← hc.same k hk]; exact h2⟩
  obtain ⟨suf', hsuf'⟩ := (sumt nda).2
  have hlen : t.length = K := by
    apply Nat.le_antisymm
    · have h1 := (List.subperm_of_subset ndt hlocs).length_le
      have h2 : (located branchLoc bt a.branchMap).length ≤ bt.length := by
        unfold located
        exact List.length_filterMap_le _ _
      simp only [List.length_map] at h1
      omega
    · have h1 := congrArg List.length ktm
      have h2 := congrArg List.length hsuf'
      rw [reindexFrom_length, List.length_append, entryItems_length hla] at h2
      unfold keys at h1
      simp only [List.length_map, List.length_range] at h1
      omega
  have htm : ∀ k, k < K → tm.get k = a.branchMap.get k := by
    intro k hk
    have hg := reindexFrom_get 0 (entryItems a.branchMap bt ++ suf') k
    rw [Nat.zero_add, ← hsuf'] at hg
    rw [hg, List.getElem?_append_left (by rw [entryItems_length hla]; omega)]
    exact entryItems_prefix (fun e he => by
      obtain ⟨t, _, h1, _⟩ := hla e he
      exact ⟨t, h1⟩) (by rw [hbk]; simp [hk])
  have hlens := mergePropsWith_pairs (fun (x : List Nat) t => x.length = t.locations.length ∧ ∃ id, r.branchMap.get id = some t)
    (fun x t x' t' k h h' hk hk' => by
      obtain ⟨h1, i, h2⟩ := h
      obtain ⟨h3, j, h4⟩ := h'
      have := hr.branches i j t t' h2 h4 (branchKey_inj hk hk')
      subst this
      refine ⟨?_, i, h2⟩
      rw [vecAdd_length]
      omega)
    (fun k x t h1 h2 => by
      have hk : k < K := by have := mem_keys_of_mem h1; rw [hbk] at this; simpa using this
      have h3 := (ha.same k hk).symm.trans h2
      obtain ⟨v, h4, h5, -⟩ := ha.truths k t hk h3
      rw [hbt, Option.getD_some, get_of_mem ka h1] at h4
      cases h4
      exact ⟨h5, k, h3⟩)
    (fun k x t h1 h2 => by
      have hk : k < K := by have := mem_keys_of_mem h1; rw [hck] at this; simpa using this
      have h3 := (hc.same k hk).symm.trans h2
      obtain ⟨v, h4, h5, -⟩ := hc.truths k t hk h3
      rw [hcbt, Option.getD_some, get_of_mem kc h1] at h4
      cases h4
      exact ⟨h5, k, h3⟩) et
  refine ⟨m, hm, hM, ?_, ?_, ?_, ?_⟩
  · rw [e1, Option.map_some, kt, hlen]
  · exact e3
  · intro k hk
    rw [e2 k hk, ha.same k hk]
  · intro k x hk hx
    have hkt : k ∈ keys t := by rw [kt, hlen]; simpa using hk
    obtain ⟨v, hv⟩ := get_isSome_of_mem hkt
    have htx : tm.get k = some x := by rw [htm k hk, ha.same k hk, hx]
    obtain ⟨x', h1, h2, -⟩ := hlens.1 k v hv
    rw [htx] at h1
    cases h1
    refine ⟨v, by rw [e1]; exact hv, h2, fun i hi => ?_⟩
    obtain ⟨va, h3, h4, h5⟩ := ha.truths k x hk hx
    obtain ⟨vc, h6, h7, h8⟩ := hc.truths k x hk hx
    rw [hbt, Option.getD_some] at h3
    rw [hcbt, Option.getD_some] at h6
    obtain ⟨l, hloc⟩ := ha.wf.branch_loc ((ha.same k hk).trans hx)
    have m1 : (l, v) ∈ located branchLoc t tm := mem_located.2 ⟨k, x, mem_of_get hv, htx, hloc⟩
    have m2 : (l, va) ∈ located branchLoc bt a.branchMap :=
      mem_located.2 ⟨k, x, mem_of_get h3, (ha.same k hk).trans hx, hloc⟩
    have m3 : (l, vc) ∈ located branchLoc cbt c.branchMap :=
      mem_located.2 ⟨k, x, mem_of_get h6, (hc.same k hk).trans hx, hloc⟩
    have hs := (sumt nda).1 (fun v => v.getD i 0) (fun x y => vecAdd_getD x y i) l
    rw [sumAt_of_mem ndt m1, sumAt_of_mem nda m2, sumAt_of_mem ndc m3] at hs
    rw [List.getD_eq_getElem?_getD, List.getD_eq_getElem?_getD, List.getD_eq_getElem?_getD, h5 i hi, h8 i hi,
      List.getElem?_eq_getElem (by omega)] at hs
    rw [List.getElem?_eq_getElem (by omega)]
    exact congrArg some hs

theorem range'_prefix {l : List Nat} (K s : Nat) (hs : l.Pairwise (· < ·)) (hl : ∀ x ∈ l, s ≤ x)
    (hm : ∀ k, s ≤ k → k < s + K → k ∈ l) : List.range' s K <+: l := by
  induction K generalizing s l with
  | zero => exact List.nil_prefix
  | succ K ih =>
    have h0 := hm s (Nat.le_refl _) (by omega)
    cases l with
    | nil => cases h0
    | cons x l =>
      obtain ⟨h1, h2⟩ := List.pairwise_cons.1 hs
      have hx : x = s := by
        rcases List.mem_cons.1 h0 with h | h
        · exact h.symm
        · have := h1 s h
          have := hl x List.mem_cons_self
          omega
      subst hx
      rw [List.range'_succ, List.prefix_cons_inj]
      refine ih (x + 1) h2 (fun y hy => h1 y hy) fun k hk hk' => ?_
      rcases List.mem_cons.1 (hm k (by omega) (by omega)) with h | h
      · omega
      · exact h

theorem range_prefix {l : List Nat} {K : Nat} (hs : l.Pairwise (· < ·)) (hm : ∀ k, k < K → k ∈ l) : List.range K <+: l := by
  rw [List.range_eq_range']
  exact range'_prefix K 0 hs (fun _ _ => Nat.zero_le _) fun k _ hk => hm k (by omega)

theorem range_of_ordered {l : List Nat} {K : Nat} (hs : l.Pairwise (· < ·)) (hm : ∀ k, k ∈ l ↔ k < K) : l = List.range K := by
  refine ((range_prefix hs fun k hk => (hm k).2 hk).eq_of_length_le ?_).symm
  have hsub : l ⊆ List.range K := fun k hk => List.mem_range.2 ((hm k).1 hk)
  exact (List.subperm_of_subset (hs.imp (fun h => Nat.ne_of_lt h)) hsub).length_le

theorem Paired.inRange {r : FileCoverage} (hp : Paired r) {K : Nat} (hT : ∀ k, k ∈ keys (r.bT.getD []) ↔ k < K) : r.TruthInRange := by
  intro k hk
  have hsub : List.range K ⊆ keys r.b := fun j hj => by
    obtain ⟨v, hv⟩ := get_isSome_of_mem ((hT j).2 (List.mem_range.1 hj))
    exact mem_keys_of_mem (mem_of_get (hp.truths j v hv))
  have := (List.subperm_of_subset List.nodup_range hsub).length_le
  unfold keys at this
  simp only [List.length_range, List.length_map] at this
  exact Nat.lt_of_lt_of_le ((hT k).1 hk) this

/-- A report of a run is such a report. -/
theorem Sem.Tells.truthful {V A : Type} {solid : V → Bool} {p' : Node} {r c : FileCoverage} {trs : List (List (Sem.Ev V A))}
    (ht : Sem.Tells solid p' r trs c) (hp : Paired r) (hk : r.Keyed) (hd : r.DistinctLocs) (hall : r.all = false)
    (hs : r.bT.isSome = true) {K : Nat} (hT : ∀ k, k ∈ keys (r.bT.getD []) ↔ k < K) :
    Truthful r K (fun k => (c.count k).getD 0) c := by
  have hC := ht.counted hp hk hd hall (hp.inRange hT)
  obtain ⟨bt, hbt⟩ := Option.isSome_iff_exists.1 (ht.bT.trans hs)
  have hkeys : ∀ k, k ∈ keys bt ↔ k < K := by
    intro k
    have h1 := congrArg Option.isSome (ht.truths k)
    simp only [Option.isSome_map, hbt, Option.getD_some] at h1
    rw [← hT k, isSome_keys, isSome_keys, h1]
  refine ⟨hC, ?_, ?_, fun k _ => ht.branchMap k, ?_⟩
  · rw [hbt, Option.map_some, range_of_ordered (ht.ordered.bT bt hbt) hkeys]
  · refine range_prefix ht.ordered.b fun k hkK => ?_
    obtain ⟨v, hv⟩ := get_isSome_of_mem ((hT k).2 hkK)
    have h1 := ht.b k
    rw [hp.truths k v hv] at h1
    obtain ⟨v', h2, -⟩ := Option.map_eq_some_iff.1 h1
    exact mem_keys_of_mem (mem_of_get h2)
  · intro k x hkK hx
    obtain ⟨v, hv⟩ := get_isSome_of_mem ((hT k).2 hkK)
    have h1 := ht.truths k
    rw [hv] at h1
    obtain ⟨v', h2, h3⟩ := Option.map_eq_some_iff.1 h1
    have h4 := hp.b k
    rw [hp.truths k v hv, hx] at h4
    have h4 : v.length = x.locations.length := Option.some.inj h4
    refine ⟨v', h2, by omega, fun i hi => ?_⟩
    rw [hbt, Option.getD_some] at h2
    simp only [FileCoverage.count, hbt, h2, Option.bind_some]
    rw [List.getElem?_eq_getElem (by omega), Option.getD_some]

/-- The truthiness counts of a report of all runs, with the other counts of the same branches. -/
theorem Truthful.retruths {r m : FileCoverage} {K : Nat} {n : Counter → Nat} (h : Truthful r K n m)
    (hp : Paired r) (hT : ∀ k, k ∈ keys (r.bT.getD []) ↔ k < K) : r.Retruths n m where
  counts id v x hv hx := by
    have hk : id < K := (hT id).1 (mem_keys_of_mem (mem_of_get hv))
    have hm := (h.same id hk).trans hx
    obtain ⟨id', h1, h2⟩ := h.branch id x hx
    obtain ⟨l, hloc⟩ := h.wf.branch_loc hm
    have hid : id = id' := located_key_inj (loc := branchLoc) h.distinct.branches
      (fun id hid => by
        obtain ⟨y, hy⟩ := Option.isSome_iff_exists.1 hid
        obtain ⟨v, hv⟩ := get_isSome_of_mem (h.wf.counted _ (mem_keys_of_mem (mem_of_get hy)))
        rw [hv]; rfl) hm h1 hloc hloc
    subst hid
    obtain ⟨v', h3, -, h4⟩ := h.truths id x hk hx
    refine ⟨id, hm, fun i hi => ⟨h2 i hi, ?_⟩⟩
    obtain ⟨bt, hbt, -⟩ := Option.map_eq_some_iff.1 h.ids
    rw [hbt, Option.getD_some] at h3
    simp only [FileCoverage.count, hbt, h3, Option.bind_some]
    exact h4 i hi
  ids id' v' hv' := by
    obtain ⟨bt, hbt, hk⟩ := Option.map_eq_some_iff.1 h.ids
    rw [hbt, Option.getD_some] at hv'
    have hK : id' < K := by
      have := mem_keys_of_mem (mem_of_get hv')
      rw [hk] at this
      simpa using this
    obtain ⟨v, hv⟩ := get_isSome_of_mem ((hT id').2 hK)
    have h1 := hp.b id'
    rw [hp.truths id' v hv] at h1
    obtain ⟨x, hx, -⟩ := Option.map_eq_some_iff.1 h1.symm
    exact ⟨id', v, x, hv, hx, (h.same id' hK).trans hx⟩

/-- The totals of the truthiness counts. -/
theorem Truthful.totals {r m : FileCoverage} {K : Nat} {n : Counter → Nat} (h : Truthful r K n m) (hp : Paired r) (hk : r.Keyed)
    (hT : ∀ k, k ∈ keys (r.bT.getD []) ↔ k < K) : ∃ bt, m.bT = some bt ∧ (computeBranchTotals bt).Truths r n := by
  obtain ⟨bt, hbt, hids⟩ := Option.map_eq_some_iff.1 h.ids
  refine ⟨bt, hbt, ?_⟩
  have hrk : NodupKeys (r.bT.getD []) := by
    cases hr : r.bT with
    | none => exact List.nodup_nil
    | some t => exact hk.bT t hr
  have hperm : (keys bt).Perm (keys (r.bT.getD [])) := by
    refine (List.perm_ext_iff_of_nodup (h.keyed.bT _ hbt) hrk).2 fun k => ?_
    rw [hT, hids]
    simp
  -- both tables, entry by entry
  let len := fun k => ((r.b.get k).getD []).length
  have hr : ∀ e ∈ r.bT.getD [], e.2.length = len e.1 := by
    intro e he
    have := hp.truths e.1 e.2 (get_of_mem hrk he)
    simp only [len, this, Option.getD_some]
  have hm : ∀ e ∈ bt, e.2 = (List.range (len e.1)).map fun i => n (.bT e.1 i) := by
    intro e he
    have hk : e.1 < K := by
      have := mem_keys_of_mem he
      rw [hids] at this
      simpa using this
    obtain ⟨v, hv⟩ := get_isSome_of_mem ((hT e.1).2 hk)
    have h1 := hp.b e.1
    rw [hp.truths e.1 v hv] at h1
    obtain ⟨x, hx, h2⟩ := Option.map_eq_some_iff.1 h1.symm
    obtain ⟨v', h3, h4, h5⟩ := h.truths e.1 x hk hx
    rw [hbt, Option.getD_some, get_of_mem (h.keyed.bT _ hbt) he] at h3
    cases h3
    have hlen : len e.1 = x.locations.length := by
      simp only [len, hp.truths e.1 v hv, Option.getD_some]
      exact h2.symm
    rw [hlen]
    refine List.ext_getElem? fun i => ?_
    rcases Nat.lt_or_ge i x.locations.length with hi | hi
    · rw [h5 i hi]
      simp [hi]
    · rw [List.getElem?_eq_none (by omega), List.getElem?_eq_none (by simpa using hi)]
  have sums : ∀ (g : Nat → Nat), (bt.map fun e => g e.1).sum = ((r.bT.getD []).map fun e => g e.1).sum := by
    intro g
    have := (hperm.map g).sum_nat
    unfold keys at this
    rw [List.map_map, List.map_map] at this
    exact this
  have loop : ∀ (l : BranchHitMap) (acc : Nat × Nat), branchTotalsLoop l acc =
      (acc.1 + (l.map fun e => countPos e.2).sum, acc.2 + (l.map fun e => e.2.length).sum) := by
    intro l
    induction l with
    | nil => intro acc; rfl
    | cons e l ih =>
      intro acc
      obtain ⟨k, v⟩ := e
      simp only [branchTotalsLoop, ih, List.map_cons, List.sum_cons, Nat.add_assoc]
  constructor
  · simp only [computeBranchTotals, loop, Nat.zero_add]
    rw [List.map_congr_left (g := fun e => len e.1) fun e he => by rw [hm e he]; simp,
      List.map_congr_left (l := r.bT.getD []) (g := fun e => len e.1) hr]
    exact sums len
  · simp only [computeBranchTotals, loop, Nat.zero_add]
    rw [List.map_congr_left (g := fun e => (List.range (len e.1)).countP fun i => decide (0 < n (.bT e.1 i))) fun e he => by
        conv => lhs; rw [hm e he]
        unfold countPos
        rw [← List.countP_eq_length_filter, List.countP_map]
        rfl,
      List.map_congr_left (l := r.bT.getD []) (g := fun e => (List.range (len e.1)).countP fun i => decide (0 < n (.bT e.1 i)))
        fun e he => by rw [hr e he]]
    exact sums fun k => (List.range (len k)).countP fun i => decide (0 < n (.bT k i))

end Verif
