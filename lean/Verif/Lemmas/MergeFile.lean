import Verif.Lemmas.Merge
namespace Verif

open IndexMap FileCoverage

/-! Vector addition -/

theorem addInto_length (add : Nat → Nat → Nat) (a b : List Nat) (h : b.length ≤ a.length) :
    (addInto add a b).length = a.length := by
  induction a generalizing b with
  | nil => cases b with
    | nil => rfl
    | cons => simp at h
  | cons x a ih => cases b with
    | nil => rfl
    | cons y b => simp [addInto, ih b (by simpa using h)]

theorem vecAdd_length (add : Nat → Nat → Nat) (a b : List Nat) :
    (vecAdd add a b).length = max a.length b.length := by
  unfold vecAdd
  split
  · rw [addInto_length] <;> simp <;> omega
  · rw [addInto_length] <;> omega

theorem addInto_getD (a b : List Nat) (h : b.length ≤ a.length) (i : Nat) :
    (addInto (· + ·) a b).getD i 0 = a.getD i 0 + b.getD i 0 := by
  induction a generalizing b i with
  | nil => cases b with
    | nil => rfl
    | cons => simp at h
  | cons x a ih => cases b with
    | nil => simp [addInto]
    | cons y b =>
      cases i with
      | zero => simp [addInto]
      | succ i => simpa [addInto] using ih b (by simpa using h) i

theorem getD_append_zeros (a : List Nat) (n i : Nat) :
    (a ++ List.replicate n 0).getD i 0 = a.getD i 0 := by
  simp only [List.getD_eq_getElem?_getD, List.getElem?_append]
  split
  · rfl
  · rename_i h
    rw [List.getElem?_eq_none (by omega : a.length ≤ i)]
    simp only [List.getElem?_replicate]
    split <;> rfl

theorem vecAdd_getD (a b : List Nat) (i : Nat) :
    (vecAdd (· + ·) a b).getD i 0 = a.getD i 0 + b.getD i 0 := by
  unfold vecAdd
  split
  · rw [addInto_getD _ _ (by simp; omega), getD_append_zeros]
  · rw [addInto_getD _ _ (by omega)]

/-! Key functions -/

theorem key_range (t r : Range) (h : some t = some r) :
    (Except.ok (keyFromLoc t) : Except Panic String) = .ok (keyFromLoc r) := by
  cases h; rfl

theorem key_fn (t : Function) (r : Range) (h : some t.loc = some r) :
    (Except.ok (keyFromLoc t.loc) : Except Panic String) = .ok (keyFromLoc r) := by
  cases h; rfl

theorem key_branch (t : Branch) (r : Range) (h : branchLoc t = some r) :
    branchKey t = .ok (keyFromLoc r) := by
  unfold branchLoc at h
  unfold branchKey
  cases hl : t.locations with
  | nil => simp [hl] at h
  | cons a l => simp [hl] at h; simp [h]

/-! Well-formedness in terms of `Located` -/

theorem FileCoverage.WellFormed.located_s {fc : FileCoverage} (h : fc.WellFormed) :
    Located some fc.s fc.statementMap := by
  intro e he
  obtain ⟨t, ht⟩ := get_isSome_of_mem (h.statements _ (mem_keys_of_mem he))
  exact ⟨t, t, ht, rfl⟩

theorem FileCoverage.WellFormed.located_f {fc : FileCoverage} (h : fc.WellFormed) :
    Located (fun fn : Function => some fn.loc) fc.f fc.fnMap := by
  intro e he
  obtain ⟨t, ht⟩ := get_isSome_of_mem (h.functions _ (mem_keys_of_mem he))
  exact ⟨t, t.loc, ht, rfl⟩

theorem FileCoverage.WellFormed.branch_loc {fc : FileCoverage} (h : fc.WellFormed) {k : Nat} {t : Branch}
    (ht : fc.branchMap.get k = some t) : ∃ r, branchLoc t = some r := by
  have := h.arms _ (mem_of_get ht)
  simp only at this
  unfold branchLoc
  cases hl : t.locations with
  | nil => exact absurd hl this
  | cons a l => exact ⟨a, rfl⟩

theorem FileCoverage.WellFormed.located_b {fc : FileCoverage} (h : fc.WellFormed) :
    Located branchLoc fc.b fc.branchMap := by
  intro e he
  obtain ⟨t, ht⟩ := get_isSome_of_mem (h.branches _ (mem_keys_of_mem he))
  obtain ⟨r, hr⟩ := h.branch_loc ht
  exact ⟨t, r, ht, hr⟩

theorem FileCoverage.WellFormed.located_bT {fc : FileCoverage} (h : fc.WellFormed) :
    Located branchLoc (fc.bT.getD []) fc.branchMap := by
  intro e he
  obtain ⟨t, ht⟩ := get_isSome_of_mem (h.truth _ (mem_keys_of_mem he))
  obtain ⟨r, hr⟩ := h.branch_loc ht
  exact ⟨t, r, ht, hr⟩

theorem located_length {H T : Type} {loc : T → Option Range} {h : List (Nat × H)}
    {m : IndexMap Nat T} (hl : Located loc h m) : (located loc h m).length = h.length := by
  induction h with
  | nil => rfl
  | cons e h ih =>
    obtain ⟨t, r, ht, hr⟩ := hl e List.mem_cons_self
    obtain ⟨k, x⟩ := e
    rw [located_cons k x h m ht hr, List.length_cons, ih fun e he => hl e (List.mem_cons_of_mem _ he)]
    rfl

theorem entryItems_length {H T : Type} {loc : T → Option Range} {h : List (Nat × H)}
    {m : IndexMap Nat T} (hl : Located loc h m) : (entryItems m h).length = h.length := by
  induction h with
  | nil => rfl
  | cons e h ih =>
    obtain ⟨t, r, ht, hr⟩ := hl e List.mem_cons_self
    have := ih fun e he => hl e (List.mem_cons_of_mem _ he)
    unfold entryItems at this ⊢
    rw [List.filterMap_cons, ht]
    simp [this]

/-- With ids `0..n-1` the `k`-th entry's item is the item with id `k`. -/
theorem entryItems_get {H T : Type} {loc : T → Option Range} {h : IndexMap Nat H}
    {m : IndexMap Nat T} (hl : Located loc h m) (hk : keys h = List.range h.length) {k : Nat}
    (hlt : k < h.length) : (entryItems m h)[k]? = m.get k := by
  have gen : ∀ (h : List (Nat × H)) (s : Nat), Located loc h m → h.map (·.1) = List.range' s h.length →
      ∀ k, k < h.length → (entryItems m h)[k]? = m.get (s + k) := by
    intro h
    induction h with
    | nil => intro s _ _ k hk; simp at hk
    | cons e h ih =>
      intro s hl hks k hlt
      obtain ⟨t, r, ht, hr⟩ := hl e List.mem_cons_self
      simp only [List.map_cons, List.length_cons, List.range'_succ, List.cons.injEq] at hks
      have hcons : entryItems m (e :: h) = t :: entryItems m h := by simp [entryItems, ht]
      rw [hcons]
      cases k with
      | zero => simp [← hks.1, ht]
      | succ k =>
        have := ih (s + 1) (fun e he => hl e (List.mem_cons_of_mem _ he)) hks.2 k (by simpa using hlt)
        simp only [List.getElem?_cons_succ, this]
        congr 1; omega
  have := gen h 0 hl (by rw [List.range_eq_range'] at hk; exact hk) k hlt
  simpa using this

/-- The locations listed in the truthiness table are locations of branches. -/
theorem truth_locs_subset {fc : FileCoverage} (h : fc.WellFormed) {r : Range}
    (hr : r ∈ fc.truthTable.map (·.1)) : r ∈ fc.branchTable.map (·.1) := by
  obtain ⟨⟨r', x⟩, hx, rfl⟩ := List.mem_map.1 hr
  obtain ⟨e, he, hex⟩ := List.mem_filterMap.1 hx
  obtain ⟨t, ht⟩ := get_isSome_of_mem (h.truth _ (mem_keys_of_mem he))
  have hb := h.counted _ ((mem_keys_iff _ _).2 ⟨t, ht⟩)
  obtain ⟨y, hy⟩ := get_isSome_of_mem hb
  refine List.mem_map.2 ⟨(r', y), List.mem_filterMap.2 ⟨(e.1, y), mem_of_get hy, ?_⟩, rfl⟩
  simp only [ht, Option.bind_some] at hex ⊢
  cases hl : branchLoc t with
  | none => simp [hl] at hex
  | some q => simp [hl] at hex; simp [hex.1]

/-- Everything known about a merge of two real, well-formed reports. -/
structure MergeResult (a c m : FileCoverage) : Prop where
  all : m.all = false
  path : m.path = a.path
  sourceMap : m.inputSourceMap = a.inputSourceMap
  wf : m.WellFormed
  distinct : m.DistinctLocs
  dense : m.Dense
  statementLocs : ∀ r, r ∈ m.statementTable.map (·.1) ↔
    r ∈ a.statementTable.map (·.1) ∨ r ∈ c.statementTable.map (·.1)
  functionLocs : ∀ r, r ∈ m.functionTable.map (·.1) ↔
    r ∈ a.functionTable.map (·.1) ∨ r ∈ c.functionTable.map (·.1)
  branchLocs : ∀ r, r ∈ m.branchTable.map (·.1) ↔
    r ∈ a.branchTable.map (·.1) ∨ r ∈ c.branchTable.map (·.1)
  statementSum : (a.statementTable.map (·.1)).Nodup → ∀ r,
    m.statementCount r = a.statementCount r + c.statementCount r
  functionSum : (a.functionTable.map (·.1)).Nodup → ∀ r,
    m.functionCount r = a.functionCount r + c.functionCount r
  branchSum : (a.branchTable.map (·.1)).Nodup → ∀ r i,
    m.armCount r i = a.armCount r i + c.armCount r i
  statementGe : ∀ r, c.statementCount r ≤ m.statementCount r
  functionGe : ∀ r, c.functionCount r ≤ m.functionCount r
  branchGe : ∀ r i, c.armCount r i ≤ m.armCount r i
  truthSome : m.bT.isSome = a.bT.isSome

/-- The merge succeeds when the ids of the truthiness table of the receiver are below the number of branches of both. -/
theorem merge_core {a c : FileCoverage} (ha : a.WellFormed) (hc : c.WellFormed)
    (hta : ∀ ls : List Range, ls.Nodup →
      (∀ r, r ∈ ls ↔ r ∈ a.branchTable.map (·.1) ∨ r ∈ c.branchTable.map (·.1)) →
      ∀ k ∈ keys (a.bT.getD []), k < ls.length) (ra : a.all = false) (rc : c.all = false) :
    ∃ m, a.merge c = .ok m ∧ MergeResult a c m := by
  obtain ⟨s, sm, es, ks, ksm, ls, nds, lens, _, mems, sums, ges⟩ :=
    mergePropsWith_ok (loc := some) (key := fun r => .ok (keyFromLoc r)) key_range (· + ·)
      ha.located_s hc.located_s
  obtain ⟨f, fm, ef, kf, kfm, lf, ndf, lenf, _, memf, sumf, gef⟩ :=
    mergePropsWith_ok (loc := fun fn : Function => some fn.loc)
      (key := fun fn => .ok (keyFromLoc fn.loc)) key_fn (· + ·) ha.located_f hc.located_f
  obtain ⟨b, bm, eb, kb, kbm, lb, ndb, lenb, allb, memb, sumb, geb⟩ :=
    mergePropsWith_ok (loc := branchLoc) (key := branchKey) key_branch (vecAdd (· + ·))
      ha.located_b hc.located_b
  have hid : ∀ x y : Nat, (fun h : Nat => h) (x + y) = (fun h : Nat => h) x + (fun h : Nat => h) y :=
    fun _ _ => rfl
  -- the result, for any truthiness table with ids in range
  have mk : ∀ bT : Option BranchHitMap, (∀ k ∈ (bT.getD []).keys, k ∈ bm.keys) →
      bT.isSome = a.bT.isSome →
      MergeResult a c { a with s := s, statementMap := sm, f := f, fnMap := fm, b := b,
                               branchMap := bm, bT := bT } := by
    intro bT hbT hsome
    constructor
    case all => exact ra
    case path => rfl
    case sourceMap => rfl
    case wf =>
      constructor
      case statements => intro k; simp only [ks, ksm]; exact id
      case functions => intro k; simp only [kf, kfm]; exact id
      case branches => intro k; simp only [kb, kbm]; exact id
      case counted => intro k; simp only [kb, kbm]; exact id
      case truth => exact hbT
      case arms =>
        intro e he hnil
        obtain ⟨r, hr⟩ := allb e he
        simp [branchLoc, hnil] at hr
    case distinct => exact ⟨nds, ndf, ndb⟩
    case dense => exact ⟨ks, ksm, kf, kfm, kb, kbm⟩
    case statementLocs => exact mems
    case functionLocs => exact memf
    case branchLocs => exact memb
    case statementSum => exact fun h r => (sums h).1 (fun h => h) hid r
    case functionSum => exact fun h r => (sumf h).1 (fun h => h) hid r
    case branchSum => exact fun h r i => (sumb h).1 (fun v => v.getD i 0) (fun x y => vecAdd_getD x y i) r
    case statementGe => exact fun r => ges (fun h => h) hid r
    case functionGe => exact fun r => gef (fun h => h) hid r
    case branchGe => exact fun r i => geb (fun v => v.getD i 0) (fun x y => vecAdd_getD x y i) r
    case truthSome => exact hsome
  -- ids of `a.bT` are found in the merged branch table
  have hrange : ∀ bt, a.bT = some bt → ∀ k ∈ keys bt, k ∈ keys bm := by
    intro bt hbt k hk
    have h := hta _ ndb memb k (by rw [hbt]; exact hk)
    rw [List.length_map] at h
    rw [kbm, List.mem_range, lenb]
    exact h
  cases hbta : a.bT with
  | none =>
    refine ⟨_, ?_, mk none (by simp [keys]) (by simp [hbta])⟩
    simp [merge, mergeWith, ra, rc, es, ef, eb, hbta]
  | some bt =>
    cases hbtc : c.bT with
    | none =>
      refine ⟨_, ?_, mk (some bt) ?_ (by simp [hbta])⟩
      · simp [merge, mergeWith, ra, rc, es, ef, eb, hbta, hbtc]
      · intro k hk; exact hrange bt hbta k hk
    | some cbt =>
      have hl1 : Located branchLoc bt bm := by
        intro e he
        have h2 := hrange bt hbta e.1 (mem_keys_of_mem he)
        obtain ⟨t, ht⟩ := get_isSome_of_mem h2
        obtain ⟨r, hr⟩ := allb _ (mem_of_get ht)
        exact ⟨t, r, ht, hr⟩
      have hl2 : Located branchLoc cbt c.branchMap := by
        have := hc.located_bT; rwa [hbtc] at this
      obtain ⟨t, tm, et, kt, ktm, lt, ndt, lent, allt, memt, sumt, get⟩ :=
        mergePropsWith_ok (loc := branchLoc) (key := branchKey) key_branch (vecAdd (· + ·)) hl1 hl2
      refine ⟨_, ?_, mk (some t) ?_ (by simp [hbta])⟩
      · simp [merge, mergeWith, ra, rc, es, ef, eb, hbta, hbtc, et]
      · intro k hk
        change k ∈ keys t at hk
        rw [kt, List.mem_range] at hk
        rw [kbm, List.mem_range]
        refine Nat.lt_of_lt_of_le hk ?_
        rw [lent, lenb, ← List.length_map (f := (·.1)), ← List.length_map (f := (·.1)) (as := located branchLoc b bm)]
        apply List.Nodup.length_le_of_subset ndt
        intro r hr
        rw [memt] at hr
        rcases hr with hr | hr
        · obtain ⟨⟨r', x⟩, hx, rfl⟩ := List.mem_map.1 hr
          obtain ⟨e, he, hex⟩ := List.mem_filterMap.1 hx
          have h2 := hrange bt hbta e.1 (mem_keys_of_mem he)
          rw [kbm, ← kb] at h2
          obtain ⟨y, hy⟩ := get_isSome_of_mem h2
          refine List.mem_map.2 ⟨(r', y), List.mem_filterMap.2 ⟨(e.1, y), mem_of_get hy, ?_⟩, rfl⟩
          obtain ⟨q, hq, hqe⟩ := Option.map_eq_some_iff.1 hex
          simp only [hq, Option.map_some]
          simp only [Prod.mk.injEq] at hqe
          rw [hqe.1]
        · rw [memb]
          right
          apply truth_locs_subset hc
          unfold FileCoverage.truthTable
          rw [hbtc]; exact hr

theorem merge_real {a c : FileCoverage} (ha : a.WellFormed) (hc : c.WellFormed)
    (hta : a.TruthMergeable) (ra : a.all = false) (rc : c.all = false) :
    ∃ m, a.merge c = .ok m ∧ MergeResult a c m := by
  refine merge_core ha hc (fun ls hls hmem k hk => ?_) ra rc
  rcases hta with h | ⟨hkb, hnd⟩
  · rw [h] at hk; cases hk
  · have h1 : (a.branchTable.map (·.1)).length ≤ ls.length :=
      hnd.length_le_of_subset fun r hr => (hmem r).2 (.inl hr)
    have h2 := located_length ha.located_b
    have h3 := hkb k hk
    rw [List.length_map, FileCoverage.branchTable] at h1
    omega

/-- The result of a merge can be merged into. -/
theorem MergeResult.truthMergeable {a c m : FileCoverage} (h : MergeResult a c m) : m.TruthMergeable := by
  refine .inr ⟨fun k hk => ?_, h.distinct.branches⟩
  have h1 := h.wf.counted k (h.wf.truth k hk)
  rwa [h.dense.b, List.mem_range] at h1

theorem mergeFirst_some {H T : Type} {key : T → Except Panic String} {map : IndexMap Nat T} (l : List (Nat × H))
    (items items' : IndexMap String (H × T)) (h : mergeFirst key map l items = .ok items') :
    ∀ e ∈ l, e.1 ∈ keys map := by
  induction l generalizing items with
  | nil => intro e he; cases he
  | cons e l ih =>
    obtain ⟨k, x⟩ := e
    simp only [mergeFirst] at h
    split at h
    · cases h
    · next item hi =>
      split at h
      · cases h
      · intro e he
        rcases List.mem_cons.1 he with rfl | he
        · exact (mem_keys_iff _ _).2 ⟨item, hi⟩
        · exact ih _ h e he

/-- When a merge of two real, well-formed reports succeeds. `ls` are the locations of the branches of both. -/
theorem merge_ok_iff {a c : FileCoverage} (ha : a.WellFormed) (hc : c.WellFormed) (ra : a.all = false) (rc : c.all = false)
    {ls : List Range} (hls : ls.Nodup)
    (hmem : ∀ r, r ∈ ls ↔ r ∈ a.branchTable.map (·.1) ∨ r ∈ c.branchTable.map (·.1)) :
    (∃ m, a.merge c = .ok m) ↔ a.bT = none ∨ c.bT = none ∨ ∀ k ∈ keys (a.bT.getD []), k < ls.length := by
  obtain ⟨s, sm, es, -⟩ :=
    mergePropsWith_ok (loc := some) (key := fun r => .ok (keyFromLoc r)) key_range (· + ·)
      ha.located_s hc.located_s
  obtain ⟨f, fm, ef, -⟩ :=
    mergePropsWith_ok (loc := fun fn : Function => some fn.loc)
      (key := fun fn => .ok (keyFromLoc fn.loc)) key_fn (· + ·) ha.located_f hc.located_f
  obtain ⟨b, bm, eb, kb, kbm, lb, ndb, lenb, allb, memb, -⟩ :=
    mergePropsWith_ok (loc := branchLoc) (key := branchKey) key_branch (vecAdd (· + ·))
      ha.located_b hc.located_b
  have hlen : ls.length = b.length := by
    rw [lenb, ← List.length_map (f := (·.1)) (as := located branchLoc b bm)]
    refine ((List.perm_ext_iff_of_nodup hls ndb).2 fun r => ?_).length_eq
    rw [hmem, memb]
    rfl
  cases hbta : a.bT with
  | none => simp [merge, mergeWith, ra, rc, es, ef, eb, hbta]
  | some bt =>
    cases hbtc : c.bT with
    | none => simp [merge, mergeWith, ra, rc, es, ef, eb, hbta, hbtc]
    | some cbt =>
      have hl2 : Located branchLoc cbt c.branchMap := by
        have := hc.located_bT; rwa [hbtc] at this
      constructor
      · rintro ⟨m, hm⟩
        refine .inr (.inr fun k hk => ?_)
        simp only [merge, mergeWith, ra, rc, es, ef, eb, hbta, hbtc] at hm
        rw [if_neg (by simp), if_neg (by simp)] at hm
        split at hm
        · cases hm
        · next bt' x et =>
          unfold mergePropsWith at et
          split at et
          · cases et
          · next items hi =>
            obtain ⟨e, he, rfl⟩ := List.mem_map.1 hk
            have := mergeFirst_some _ _ _ hi e he
            rw [kbm, List.mem_range] at this
            omega
      · rintro (h | h | h)
        · cases h
        · cases h
        · have hl1 : Located branchLoc bt bm := by
            intro e he
            have h2 : e.1 ∈ keys bm := by
              rw [kbm, List.mem_range, ← hlen]
              exact h _ (mem_keys_of_mem he)
            obtain ⟨t, ht⟩ := get_isSome_of_mem h2
            obtain ⟨r, hr⟩ := allb _ (mem_of_get ht)
            exact ⟨t, r, ht, hr⟩
          obtain ⟨t, tm, et, -⟩ :=
            mergePropsWith_ok (loc := branchLoc) (key := branchKey) key_branch (vecAdd (· + ·)) hl1 hl2
          exact ⟨_, by simp [merge, mergeWith, ra, rc, es, ef, eb, hbta, hbtc, et]; rfl⟩

/-- The tables of the merge do not depend on the truthiness tables. -/
theorem merge_truthless {a c m : FileCoverage} (ra : a.all = false) (rc : c.all = false) (hm : a.merge c = .ok m) :
    FileCoverage.merge { a with bT := none } c = .ok { m with bT := none } := by
  unfold merge mergeWith at hm ⊢
  rw [if_neg (by simp [rc]), if_neg (by simp [ra])] at hm ⊢
  split at hm
  · cases hm
  next hs =>
    split at hm
    · cases hm
    next hf =>
      split at hm
      · cases hm
      next hb =>
        dsimp only
        rw [hs, hf, hb]
        dsimp only
        split at hm
        · split at hm
          · cases hm
          · cases hm; rfl
        · cases hm; rfl

end Verif
