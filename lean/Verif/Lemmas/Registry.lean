import Verif.Spec.Registry
import Verif.Lemmas.IndexMap
/-
Helper lemmas for C15 and C16.
-/
namespace Verif

open IndexMap

section maps
variable {K V : Type} [DecidableEq K]

theorem modify_of_not_mem {m : IndexMap K V} {k : K} (h : k ∉ keys m) (f : V → V) :
    IndexMap.modify m k f = m := by
  induction m with
  | nil => rfl
  | cons e m ih =>
    simp only [keys, List.map_cons, List.mem_cons, not_or] at h
    simp only [IndexMap.modify, Ne.symm h.1, if_false]
    rw [ih h.2]

theorem modify_eq_map {m : IndexMap K V} (h : NodupKeys m) (k : K) (f : V → V) :
    IndexMap.modify m k f = m.map fun e => (e.1, if e.1 = k then f e.2 else e.2) := by
  induction m with
  | nil => rfl
  | cons e m ih =>
    obtain ⟨k₀, v₀⟩ := e
    have hn : k₀ ∉ keys m ∧ NodupKeys m := by
      simpa only [NodupKeys, keys, List.map_cons, List.nodup_cons] using h
    simp only [IndexMap.modify, List.map_cons]
    by_cases hk : k₀ = k
    · subst hk
      simp only [if_true]
      congr 1
      rw [← ih hn.2, modify_of_not_mem hn.1]
    · simp only [hk, if_false, ih hn.2]

/-- Decomposition at the position of a key. -/
theorem indexOf?_some {m : IndexMap K V} {k : K} {i : Nat} (h : indexOf? m k = some i) :
    ∃ a v b, m = a ++ (k, v) :: b ∧ a.length = i ∧ k ∉ keys a := by
  induction m generalizing i with
  | nil => simp [indexOf?] at h
  | cons e m ih =>
    obtain ⟨k₀, v₀⟩ := e
    simp only [indexOf?] at h
    split at h
    · next hk => cases h; exact ⟨[], v₀, m, by simp [hk], rfl, by simp [keys]⟩
    · next hk =>
      cases hm : indexOf? m k with
      | none => simp [hm] at h
      | some j =>
        obtain ⟨a, v, b, h1, h2, h3⟩ := ih hm
        simp only [hm, Option.map_some, Option.some.injEq] at h
        refine ⟨(k₀, v₀) :: a, v, b, by simp [h1], by simp [h2, h], ?_⟩
        simp only [keys, List.map_cons, List.mem_cons, not_or]
        exact ⟨Ne.symm hk, h3⟩

theorem indexOf?_none {m : IndexMap K V} {k : K} (h : indexOf? m k = none) : k ∉ keys m := by
  induction m with
  | nil => simp [keys]
  | cons e m ih =>
    obtain ⟨k₀, v₀⟩ := e
    simp only [indexOf?] at h
    split at h
    · cases h
    · next hk =>
      simp only [Option.map_eq_none_iff] at h
      simp only [keys, List.map_cons, List.mem_cons, not_or]
      exact ⟨Ne.symm hk, ih h⟩

theorem filter_ne_of_not_mem {m : IndexMap K V} {k : K} (h : k ∉ keys m) :
    List.filter (fun e => decide (e.1 ≠ k)) m = m := by
  rw [List.filter_eq_self]
  intro e he
  simp only [ne_eq, decide_eq_true_eq]
  intro hk
  exact h (hk ▸ List.mem_map.2 ⟨e, he, rfl⟩)

/-- `swap_remove` removes exactly one key, up to order. -/
theorem swapRemove_perm {m : IndexMap K V} (h : NodupKeys m) (k : K) :
    (swapRemove m k).Perm (List.filter (fun e => decide (e.1 ≠ k)) m) := by
  unfold swapRemove
  cases hi : indexOf? m k with
  | none => simp only; rw [filter_ne_of_not_mem (indexOf?_none hi)]
  | some i =>
    obtain ⟨a, v, b, rfl, h2, h3⟩ := indexOf?_some hi
    have hb : k ∉ keys b := by
      have hc : (keys a ++ k :: keys b).Nodup := by
        simpa only [NodupKeys, keys, List.map_append, List.map_cons] using h
      have := (List.nodup_append.1 hc).2.1
      exact (List.nodup_cons.1 this).1
    have hf : List.filter (fun e => decide (e.1 ≠ k)) (a ++ (k, v) :: b) = a ++ b := by
      rw [List.filter_append, List.filter_cons]
      simp only [ne_eq, not_true_eq_false, decide_false, Bool.false_eq_true, if_false]
      congr 1
      · exact filter_ne_of_not_mem h3
      · exact filter_ne_of_not_mem hb
    rw [hf]
    rcases List.eq_nil_or_concat b with rfl | ⟨b', last, rfl⟩
    · simp [h2]
    · simp only [List.concat_eq_append] at *
      have e : a ++ (k, v) :: (b' ++ [last]) = (a ++ (k, v) :: b') ++ [last] := by simp
      rw [e, List.getLast?_concat, List.dropLast_concat]
      simp only
      have hlt : i < (a ++ (k, v) :: b').length := by simp; omega
      rw [if_pos hlt, List.set_append_right _ _ (by omega)]
      have : i - a.length = 0 := by omega
      rw [this, List.set_cons_zero]
      refine List.Perm.append_left a ?_
      exact (List.perm_append_singleton last b').symm

omit [DecidableEq K] in
theorem nodupKeys_perm {m m' : IndexMap K V} (h : m.Perm m') (hn : NodupKeys m') : NodupKeys m :=
  (List.Perm.nodup_iff (h.map _)).2 hn

theorem get_perm {m m' : IndexMap K V} (h : m.Perm m') (hn : NodupKeys m') (k : K) :
    get m k = get m' k := by
  cases h' : get m' k with
  | some v => exact get_of_mem (nodupKeys_perm h hn) (h.mem_iff.2 (mem_of_get h'))
  | none =>
    rw [get_eq_none_iff] at h' ⊢
    intro hk
    exact h' ((h.map _).mem_iff.1 hk)

omit [DecidableEq K] in
theorem nodupKeys_filter {m : IndexMap K V} (h : NodupKeys m) (p : K × V → Bool) :
    NodupKeys (List.filter p m) :=
  List.Nodup.sublist (List.Sublist.map _ List.filter_sublist) h

theorem get_filter {m : IndexMap K V} (hn : NodupKeys m) (p : K → Bool) (k : K) :
    get (List.filter (fun e => p e.1) m) k = if p k then get m k else none := by
  induction m with
  | nil => simp [IndexMap.get]
  | cons e m ih =>
    obtain ⟨k₀, v₀⟩ := e
    have hn' : k₀ ∉ keys m ∧ NodupKeys m := by
      simpa only [NodupKeys, keys, List.map_cons, List.nodup_cons] using hn
    simp only [List.filter_cons]
    by_cases hp : p k₀
    · simp only [hp, if_true, IndexMap.get]
      by_cases hk : k₀ = k
      · subst hk; simp [hp]
      · simp only [hk, if_false]; exact ih hn'.2
    · simp only [hp]
      rw [if_neg (by simp), ih hn'.2]
      by_cases hk : k₀ = k
      · subst hk; simp [hp]
      · simp only [IndexMap.get, hk, if_false]

end maps

namespace RegOp

theorem numbered_concat {A B : Type} (g : Nat → A → B) (l : List A) (a : A) :
    numbered g (l ++ [a]) = numbered g l ++ [(l.length, g l.length a)] := by
  simp [numbered, List.zipIdx_append]

theorem keys_numbered {A B : Type} (g : Nat → A → B) (l : List A) :
    keys (numbered g l) = List.range l.length := by
  simp only [numbered, keys, List.map_map]
  show List.map (fun e : A × Nat => e.2) l.zipIdx = _
  have := List.zipIdx_map_snd 0 l
  rw [List.range_eq_range']
  exact this

theorem nodup_numbered {A B : Type} (g : Nat → A → B) (l : List A) : NodupKeys (numbered g l) := by
  unfold NodupKeys; rw [keys_numbered]; exact List.nodup_range

theorem fresh_numbered {A B : Type} (g : Nat → A → B) (l : List A) :
    l.length ∉ keys (numbered g l) := by
  rw [keys_numbered]; simp

theorem insert_numbered {A B : Type} (g : Nat → A → B) (l : List A) (b : B) :
    insert (numbered g l) l.length b = numbered g l ++ [(l.length, b)] :=
  insert_of_not_mem (fresh_numbered g l) b

theorem numbered_congr {A B : Type} {g g' : Nat → A → B} {l : List A}
    (h : ∀ i a, i < l.length → g i a = g' i a) : numbered g l = numbered g' l := by
  unfold numbered
  apply List.map_congr_left
  intro e he
  have := List.snd_lt_of_mem_zipIdx he
  rw [h _ _ (by simpa using this)]

theorem modify_numbered {A B : Type} (g : Nat → A → B) (l : List A) (k : Nat) (f : B → B) :
    IndexMap.modify (numbered g l) k f
      = numbered (fun i a => if i = k then f (g i a) else g i a) l := by
  rw [modify_eq_map (nodup_numbered g l)]
  simp [numbered]

theorem get_numbered {A B : Type} (g : Nat → A → B) (l : List A) (k : Nat) :
    get (numbered g l) k = l[k]?.map (g k) := by
  cases h : l[k]? with
  | some a =>
    apply get_of_mem (nodup_numbered g l)
    refine List.mem_map.2 ⟨(a, k), ?_, rfl⟩
    rw [List.mem_zipIdx_iff_getElem?]; exact h
  | none =>
    simp only [Option.map_none]
    rw [get_eq_none_iff, keys_numbered]
    simpa using h

/-! ### Appending one call to a history -/

theorem statements_concat (h : List RegOp) (op : RegOp) : statements (h ++ [op])
    = statements h ++ (match op with | .statement l => [l] | _ => []) := by
  cases op <;> simp [statements]

theorem functions_concat (h : List RegOp) (op : RegOp) : functions (h ++ [op])
    = functions h ++ (match op with | .function n d l => [(n, d, l)] | _ => []) := by
  cases op <;> simp [functions]

theorem branches_concat (h : List RegOp) (op : RegOp) : branches (h ++ [op])
    = branches h ++ (match op with | .branch t l g => [(t, l, g)] | _ => []) := by
  cases op <;> simp [branches]

theorem arms_concat (h : List RegOp) (op : RegOp) (k : Nat) : arms (h ++ [op]) k
    = arms h k ++ (match op with | .path k' l => if k' = k then [l] else [] | _ => []) := by
  cases op with
  | path k' l => by_cases hk : k' = k <;> simp [arms, hk]
  | _ => simp [arms]

theorem legal_prefix {h : List RegOp} {op : RegOp} (hl : Legal (h ++ [op])) : Legal h := by
  intro pre k l post he
  exact hl pre k l (post ++ [op]) (by simp [he])

theorem legal_last {h : List RegOp} {k : Nat} {l : Range} (hl : Legal (h ++ [path k l])) :
    k < (branches h).length := hl h k l [] rfl

theorem legal_concat {h : List RegOp} {op : RegOp} (hl : Legal h)
    (ho : ∀ k l, op = path k l → k < (branches h).length) : Legal (h ++ [op]) := by
  intro pre k l post he
  rcases List.eq_nil_or_concat post with rfl | ⟨post', x, rfl⟩
  · have := List.append_inj' he rfl
    obtain ⟨h1, h2⟩ := this
    simp only [List.cons.injEq, and_true] at h2
    subst h1
    exact ho k l h2
  · have h2 : h ++ [op] = (pre ++ path k l :: post') ++ [x] := by simp [he]
    have := (List.append_inj' h2 rfl).1
    exact hl pre k l post' this

/-- In a legal history nothing is added to branches not yet registered. -/
theorem arms_eq_nil {h : List RegOp} (hl : Legal h) {k : Nat} (hk : (branches h).length ≤ k) :
    arms h k = [] := by
  unfold arms
  rw [List.filterMap_eq_nil_iff]
  intro op hop
  cases op with
  | path k' l =>
    simp only [ite_eq_right_iff, reduceCtorEq, imp_false]
    rintro rfl
    obtain ⟨pre, post, rfl⟩ := List.append_of_mem hop
    have h1 := hl pre k' l post rfl
    have : (branches pre).length ≤ (branches (pre ++ path k' l :: post)).length := by
      simp [branches, List.filterMap_append]
    omega
  | _ => rfl

/-- The truthiness table of a history. -/
def truthEntries (h : List RegOp) : BranchHitMap :=
  ((branches h).zipIdx.filter fun e => isTruth e.1).map
    fun e => (e.2, (arms h e.2).map fun _ => 0)

theorem keys_truth_sublist (h : List RegOp) :
    (keys (truthEntries h)).Sublist (List.range (branches h).length) := by
  have h1 : keys (truthEntries h) = ((branches h).zipIdx.filter fun e => isTruth e.1).map (·.2) := by
    simp [keys, truthEntries]
  rw [h1, List.range_eq_range', ← List.zipIdx_map_snd 0 (branches h)]
  exact List.Sublist.map _ List.filter_sublist

theorem nodup_truth (h : List RegOp) : NodupKeys (truthEntries h) :=
  List.Nodup.sublist (keys_truth_sublist h) List.nodup_range

theorem lt_of_mem_truth {h : List RegOp} {k : Nat} (hk : k ∈ keys (truthEntries h)) :
    k < (branches h).length := by
  have := (keys_truth_sublist h).subset hk
  simpa using this

/-- The state after a history. -/
structure Inv (path : String) (rl : Bool) (sm : Option SourceMap) (h : List RegOp)
    (c : SourceCoverage) : Prop where
  inner : c.inner = report path rl sm h
  lastS : c.lastS = (statements h).length
  lastF : c.lastF = (functions h).length
  lastB : c.lastB = (branches h).length

theorem bT_eq (path : String) (rl : Bool) (sm : Option SourceMap) (h : List RegOp) :
    (report path rl sm h).bT
      = if rl || (branches h).any isTruth then some (truthEntries h) else none := rfl

theorem truth_nil {h : List RegOp} (ha : (branches h).any isTruth = false) : truthEntries h = [] := by
  unfold truthEntries
  rw [List.map_eq_nil_iff, List.filter_eq_nil_iff]
  intro e he
  have h1 : e.1 ∈ branches h := List.fst_mem_of_mem_zipIdx he
  rw [List.any_eq_false] at ha
  exact ha _ h1

/-- The truthiness table when another call is appended that does not touch branches. -/
theorem truth_concat_other {h : List RegOp} {op : RegOp} (hb : branches (h ++ [op]) = branches h)
    (ha : ∀ k, arms (h ++ [op]) k = arms h k) : truthEntries (h ++ [op]) = truthEntries h := by
  simp only [truthEntries, hb, ha]

theorem truth_concat_branch {h : List RegOp} (hl : Legal h) (t : BranchType) (l : Range) (g : Bool) :
    truthEntries (h ++ [branch t l g])
      = truthEntries h ++ (if isTruth (t, l, g) then [((branches h).length, [])] else []) := by
  have ha : ∀ k, arms (h ++ [branch t l g]) k = arms h k := by
    intro k; rw [arms_concat]; simp
  simp only [truthEntries, branches_concat, ha, List.zipIdx_append, List.filter_append,
    List.map_append]
  congr 1
  simp only [List.zipIdx_cons, List.zipIdx_nil, List.filter_cons, List.filter_nil, Nat.zero_add]
  split
  · simp [arms_eq_nil hl (Nat.le_refl _)]
  · rfl

theorem truth_concat_path {h : List RegOp} (k : Nat) (l : Range) :
    truthEntries (h ++ [path k l])
      = IndexMap.modify (truthEntries h) k fun v => v ++ [0] := by
  rw [modify_eq_map (nodup_truth h)]
  simp only [truthEntries, branches_concat, List.append_nil, List.map_map]
  apply List.map_congr_left
  intro e _
  simp only [Function.comp]
  rw [arms_concat]
  by_cases hk : k = e.2
  · subst hk; simp
  · simp [hk, Ne.symm hk]

theorem FileCoverage_ext {a b : FileCoverage} (h1 : a.all = b.all) (h2 : a.path = b.path)
    (h3 : a.statementMap = b.statementMap) (h4 : a.fnMap = b.fnMap) (h5 : a.branchMap = b.branchMap)
    (h6 : a.s = b.s) (h7 : a.f = b.f) (h8 : a.b = b.b) (h9 : a.bT = b.bT)
    (h10 : a.inputSourceMap = b.inputSourceMap) : a = b := by
  cases a; cases b; simp_all

variable {p : String} {rl : Bool} {sm : Option SourceMap} {h : List RegOp} {c : SourceCoverage}

theorem inv_new : Inv p rl none [] (SourceCoverage.new p rl) := by
  refine ⟨?_, rfl, rfl, rfl⟩
  cases rl <;> rfl

theorem inv_setInputSourceMap (hi : Inv p rl sm h c) (sm' : Option SourceMap) :
    Inv p rl sm' h (c.setInputSourceMap sm') := by
  refine ⟨?_, hi.lastS, hi.lastF, hi.lastB⟩
  simp only [SourceCoverage.setInputSourceMap, hi.inner]; rfl

theorem inv_newStatement (hi : Inv p rl sm h c) (l : Range) :
    Inv p rl sm (h ++ [.statement l]) (c.newStatement l).1 ∧
      (c.newStatement l).2 = (statements h).length := by
  refine ⟨⟨?_, ?_, ?_, ?_⟩, hi.lastS⟩
  · have hb : branches (h ++ [.statement l]) = branches h := by rw [branches_concat]; simp
    have hf : functions (h ++ [.statement l]) = functions h := by rw [functions_concat]; simp
    have ha : ∀ k, arms (h ++ [.statement l]) k = arms h k := by
      intro k; rw [arms_concat]; simp
    apply FileCoverage_ext <;>
      simp only [SourceCoverage.newStatement, hi.inner, hi.lastS, report, hb, hf, ha,
        statements_concat, insert_numbered, numbered_concat]
  · simp [SourceCoverage.newStatement, statements_concat, hi.lastS]
  · simp [SourceCoverage.newStatement, functions_concat, hi.lastF]
  · simp [SourceCoverage.newStatement, branches_concat, hi.lastB]

theorem inv_newFunction (hi : Inv p rl sm h c) (n : Option String) (d l : Range) :
    Inv p rl sm (h ++ [.function n d l]) (c.newFunction n d l).1 ∧
      (c.newFunction n d l).2 = (functions h).length := by
  refine ⟨⟨?_, ?_, ?_, ?_⟩, hi.lastF⟩
  · have hb : branches (h ++ [.function n d l]) = branches h := by rw [branches_concat]; simp
    have hs : statements (h ++ [.function n d l]) = statements h := by rw [statements_concat]; simp
    have ha : ∀ k, arms (h ++ [.function n d l]) k = arms h k := by
      intro k; rw [arms_concat]; simp
    apply FileCoverage_ext <;>
      simp only [SourceCoverage.newFunction, hi.inner, hi.lastF, report, hb, hs, ha,
        functions_concat, insert_numbered, numbered_concat]
    cases n <;> rfl
  · simp [SourceCoverage.newFunction, statements_concat, hi.lastS]
  · simp [SourceCoverage.newFunction, functions_concat, hi.lastF]
  · simp [SourceCoverage.newFunction, branches_concat, hi.lastB]

theorem inv_newBranch (hl : Legal h) (hi : Inv p rl sm h c) (t : BranchType) (l : Range) (g : Bool) :
    Inv p rl sm (h ++ [.branch t l g]) (c.newBranch t l g).1 ∧
      (c.newBranch t l g).2 = (branches h).length := by
  have hs : statements (h ++ [.branch t l g]) = statements h := by rw [statements_concat]; simp
  have hf : functions (h ++ [.branch t l g]) = functions h := by rw [functions_concat]; simp
  have ha : ∀ k, arms (h ++ [.branch t l g]) k = arms h k := by
    intro k; rw [arms_concat]; simp
  have hnil : arms h (branches h).length = [] := arms_eq_nil hl (Nat.le_refl _)
  have htr := truth_concat_branch hl t l g
  have hany : (branches (h ++ [.branch t l g])).any isTruth
      = ((branches h).any isTruth || isTruth (t, l, g)) := by
    rw [branches_concat]; simp
  have hfresh : (branches h).length ∉ keys (truthEntries h) := fun hk => by
    have := lt_of_mem_truth hk; omega
  refine ⟨⟨?_, ?_, ?_, ?_⟩, ?_⟩
  · apply FileCoverage_ext
    case h9 =>
      rw [bT_eq, htr, hany]
      have hbt : c.inner.bT = if rl || (branches h).any isTruth then some (truthEntries h) else none := by
        rw [hi.inner, bT_eq]
      cases g with
      | false =>
        have h0 : isTruth (t, l, false) = false := by simp [isTruth]
        simp only [SourceCoverage.newBranch, SourceCoverage.maybeNewBranchTrue, if_true, hbt, h0,
          Bool.or_false, Bool.false_eq_true, if_false, List.append_nil]
      | true =>
        cases t with
        | binaryExpr =>
          have h0 : isTruth (.binaryExpr, l, true) = true := rfl
          simp only [SourceCoverage.newBranch, SourceCoverage.maybeNewBranchTrue, hbt, h0, hi.lastB,
            Bool.or_true, if_true, Bool.true_eq_false, if_false]
          congr 1
          cases hc : (rl || (branches h).any isTruth) with
          | true =>
            simp only [if_true]
            exact insert_of_not_mem hfresh _
          | false =>
            have h1 : (branches h).any isTruth = false := by
              cases h2 : (branches h).any isTruth
              · rfl
              · simp [h2] at hc
            rw [truth_nil h1]
            rfl
        | _ =>
          simp only [SourceCoverage.newBranch, SourceCoverage.maybeNewBranchTrue, hbt,
            Bool.true_eq_false, if_false]
          rw [show isTruth (_, l, true) = false from rfl, Bool.or_false]
          simp
    all_goals
      cases g <;> cases t <;>
      simp only [SourceCoverage.newBranch, SourceCoverage.maybeNewBranchTrue, if_true,
        Bool.true_eq_false, if_false, hi.inner, hi.lastB, report, hs, hf, ha, branches_concat,
        insert_numbered, numbered_concat, hnil, List.map_nil]
  · cases g <;> cases t <;>
      simp [SourceCoverage.newBranch, SourceCoverage.maybeNewBranchTrue, hs, hi.lastS]
  · cases g <;> cases t <;>
      simp [SourceCoverage.newBranch, SourceCoverage.maybeNewBranchTrue, hf, hi.lastF]
  · cases g <;> cases t <;>
      simp [SourceCoverage.newBranch, SourceCoverage.maybeNewBranchTrue, branches_concat, hi.lastB]
  · exact hi.lastB

theorem inv_addBranchPath (hi : Inv p rl sm h c) (k : Nat) (l : Range)
    (hk : k < (branches h).length) :
    ∃ c', c.addBranchPath k l = .ok (c', (arms h k).length) ∧
      Inv p rl sm (h ++ [.path k l]) c' := by
  have hs : statements (h ++ [.path k l]) = statements h := by rw [statements_concat]; simp
  have hf : functions (h ++ [.path k l]) = functions h := by rw [functions_concat]; simp
  have hb : branches (h ++ [.path k l]) = branches h := by rw [branches_concat]; simp
  have hg1 : ∃ br, c.inner.branchMap.get k = some br := by
    rw [hi.inner]; simp only [report, get_numbered]
    rw [List.getElem?_eq_getElem hk]; exact ⟨_, rfl⟩
  have hg2 : c.inner.b.get k = some ((arms h k).map fun _ => 0) := by
    rw [hi.inner]; simp only [report, get_numbered]
    rw [List.getElem?_eq_getElem hk]; rfl
  obtain ⟨br, hg1⟩ := hg1
  have hbt : c.inner.bT = if rl || (branches h).any isTruth then some (truthEntries h) else none := by
    rw [hi.inner, bT_eq]
  have hbT : ∀ d : SourceCoverage, d.inner.bT = c.inner.bT →
      (d.maybeAddBranchTrue k) = { d with inner := { d.inner with
        bT := (report p rl sm (h ++ [.path k l])).bT } } := by
    intro d hd
    rw [bT_eq, hb, truth_concat_path]
    have hd' := hd.trans hbt
    cases hc : (rl || (branches h).any isTruth) with
    | false =>
      rw [hc] at hd'
      simp only [SourceCoverage.maybeAddBranchTrue, hd', Bool.false_eq_true, if_false]
      cases d with | mk i _ _ _ => cases i; simp_all
    | true =>
      rw [hc] at hd'
      simp only [SourceCoverage.maybeAddBranchTrue, hd', if_true]
      cases hgt : get (truthEntries h) k with
      | none =>
        rw [modify_of_not_mem ((get_eq_none_iff _ _).1 hgt)]
        cases d with | mk i _ _ _ => cases i; simp_all
      | some v =>
        simp only
        congr 3
        rw [modify_eq_map (nodup_truth h), modify_eq_map (nodup_truth h)]
        apply List.map_congr_left
        intro e he
        by_cases hek : e.1 = k
        · have := get_of_mem (nodup_truth h) (k := e.1) (v := e.2) he
          rw [hek, hgt] at this
          cases this
          simp [hek]
        · simp [hek]
  unfold SourceCoverage.addBranchPath
  simp only [hg1, hg2]
  simp only [hbT]
  simp only [IndexMap.get_modify, hg2, if_true, Option.map_some]
  refine ⟨_, by simp; rfl, ?_, ?_, ?_, ?_⟩
  · apply FileCoverage_ext <;> simp only [hi.inner]
    all_goals simp only [report, hs, hf, hb, modify_numbered]
    · apply numbered_congr
      intro i a _
      rw [arms_concat]
      by_cases hik : i = k
      · subst hik; simp
      · simp [hik, Ne.symm hik]
    · apply numbered_congr
      intro i a _
      rw [arms_concat]
      by_cases hik : i = k
      · subst hik; simp
      · simp [hik, Ne.symm hik]
  · rw [hs]; exact hi.lastS
  · rw [hf]; exact hi.lastF
  · rw [hb]; exact hi.lastB

theorem addBranchPath_error (hi : Inv p rl sm h c) (k : Nat) (l : Range)
    (hk : (branches h).length ≤ k) : c.addBranchPath k l = .error .invalidBranch := by
  have hg1 : c.inner.branchMap.get k = none := by
    rw [hi.inner]; simp only [report, get_numbered]
    rw [List.getElem?_eq_none hk]; rfl
  simp only [SourceCoverage.addBranchPath, hg1]

/-- One call. -/
theorem inv_run (hl : Legal h) (hi : Inv p rl sm h c) (op : RegOp)
    (ho : ∀ k l, op = path k l → k < (branches h).length) :
    ∃ c', op.run c = .ok (c', expectedId h op) ∧ Inv p rl sm (h ++ [op]) c' := by
  cases op with
  | statement l =>
    obtain ⟨h1, h2⟩ := inv_newStatement hi l
    exact ⟨_, by simp only [run, expectedId]; rw [← h2], h1⟩
  | function n d l =>
    obtain ⟨h1, h2⟩ := inv_newFunction hi n d l
    exact ⟨_, by simp only [run, expectedId]; rw [← h2], h1⟩
  | branch t l g =>
    obtain ⟨h1, h2⟩ := inv_newBranch hl hi t l g
    exact ⟨_, by simp only [run, expectedId]; rw [← h2], h1⟩
  | path k l => exact inv_addBranchPath hi k l (ho k l rfl)

theorem legal_nil : Legal [] := by
  intro pre k l post he
  simp at he

/-- A legal continuation of a history. -/
theorem inv_runAll (hl : Legal h) (hi : Inv p rl sm h c) (ops : List RegOp) (hl' : Legal (h ++ ops)) :
    ∃ c' ids, runAll c ops = .ok (c', ids) ∧ Inv p rl sm (h ++ ops) c' ∧
      ids.length = ops.length ∧
      ∀ pre op post, ops = pre ++ op :: post → ids[pre.length]? = some (expectedId (h ++ pre) op) := by
  induction ops generalizing h c with
  | nil => exact ⟨c, [], rfl, by simpa using hi, rfl, by simp⟩
  | cons op ops ih =>
    obtain ⟨c1, h1, h2⟩ := inv_run hl hi op (fun k l he => hl' h k l ops (by rw [he]))
    have hl2 : Legal (h ++ [op]) :=
      legal_concat hl (fun k l he => hl' h k l ops (by rw [he]))
    obtain ⟨c2, ids, h3, h4, h5, h6⟩ := ih hl2 h2 (by simpa using hl')
    refine ⟨c2, expectedId h op :: ids, ?_, by simpa using h4, by simp [h5], ?_⟩
    · simp only [runAll, h1, h3]
    · intro pre op' post he
      cases pre with
      | nil =>
        simp only [List.nil_append, List.cons.injEq] at he
        simp [he.1]
      | cons x pre =>
        simp only [List.cons_append, List.cons.injEq] at he
        have := h6 pre op' post he.2
        simp only [List.length_cons, List.getElem?_cons_succ, this]
        simp [he.1]

/-- An illegal continuation. -/
theorem runAll_error (hl : Legal h) (hi : Inv p rl sm h c) (ops : List RegOp)
    (hl' : ¬ Legal (h ++ ops)) : runAll c ops = .error .invalidBranch := by
  induction ops generalizing h c with
  | nil => rw [List.append_nil] at hl'; exact absurd hl hl'
  | cons op ops ih =>
    by_cases ho : ∀ k l, op = path k l → k < (branches h).length
    · obtain ⟨c1, h1, h2⟩ := inv_run hl hi op ho
      have := ih (legal_concat hl ho) h2 (by simpa using hl')
      simp only [runAll, h1, this]
    · simp only [Classical.not_forall] at ho
      obtain ⟨k, l, rfl, hk⟩ := ho
      simp only [runAll, run, addBranchPath_error hi k l (by omega)]

end RegOp

namespace SourceCoverage

/-- The branch table has an arm-less branch under this id. -/
def dropped (m : List (Nat × Branch)) (k : Nat) : Bool :=
  m.any fun e => e.1 == k && e.2.locations.isEmpty

theorem filter_swapRemove {V : Type} {m : IndexMap Nat V} (hn : NodupKeys m) (k : Nat) (p : Nat → Bool) :
    (List.filter (fun e => p e.1) (swapRemove m k)).Perm
      (List.filter (fun e => p e.1 && !(e.1 == k)) m) := by
  refine ((swapRemove_perm hn k).filter _).trans ?_
  rw [List.filter_filter]
  apply List.Perm.of_eq
  apply List.filter_congr
  intro e _
  by_cases hk : e.1 = k <;> simp [hk]

theorem nodup_swapRemove {V : Type} {m : IndexMap Nat V} (hn : NodupKeys m) (k : Nat) :
    NodupKeys (swapRemove m k) :=
  nodupKeys_perm (swapRemove_perm hn k) (nodupKeys_filter hn _)

theorem freezeLoop_spec (rest : List (Nat × Branch)) (b : BranchHitMap) (bT : Option BranchHitMap)
    (hb : NodupKeys b) (ht : ∀ t, bT = some t → NodupKeys t) :
    (freezeLoop rest b bT).1 = rest.filter (fun e => !e.2.locations.isEmpty) ∧
    (freezeLoop rest b bT).2.1.Perm (List.filter (fun e => !dropped rest e.1) b) ∧
    (bT = none → (freezeLoop rest b bT).2.2 = none) ∧
    (∀ t, bT = some t → ∃ t', (freezeLoop rest b bT).2.2 = some t' ∧
          t'.Perm (List.filter (fun e => !dropped rest e.1) t)) := by
  induction rest generalizing b bT with
  | nil =>
    refine ⟨rfl, ?_, ?_, ?_⟩
    · exact List.Perm.of_eq (List.filter_eq_self.2 fun _ _ => rfl).symm
    · intro h; exact h
    · intro t h; exact ⟨t, h, List.Perm.of_eq (List.filter_eq_self.2 fun _ _ => rfl).symm⟩
  | cons e rest ih =>
    obtain ⟨k, br⟩ := e
    have hsplit : ∀ x, (!dropped ((k, br) :: rest) x)
        = (!dropped rest x && !(k == x && br.locations.isEmpty)) := by
      intro x; simp only [dropped, List.any_cons, Bool.not_or, Bool.and_comm]
    by_cases hl : br.locations.length = 0
    · have hnil : br.locations = [] := List.length_eq_zero_iff.1 hl
      have hstep : freezeLoop ((k, br) :: rest) b bT
          = freezeLoop rest (b.swapRemove k) (bT.map fun m => m.swapRemove k) := by
        simp only [freezeLoop, hl, if_true]
      have hd : ∀ x, (!dropped ((k, br) :: rest) x) = (!dropped rest x && !(x == k)) := by
        intro x
        rw [hsplit, hnil]
        simp only [List.isEmpty_nil, Bool.and_true]
        rw [Bool.beq_comm]
      obtain ⟨h1, h2, h3, h4⟩ := ih (b.swapRemove k) (bT.map fun m => m.swapRemove k)
        (nodup_swapRemove hb k) (by
          intro t hteq
          cases bT with
          | none => simp at hteq
          | some t0 =>
            simp only [Option.map_some, Option.some.injEq] at hteq
            subst hteq
            exact nodup_swapRemove (ht t0 rfl) k)
      rw [hstep]
      refine ⟨?_, ?_, ?_, ?_⟩
      · rw [h1, List.filter_cons]; simp [hnil]
      · simp only [hd]
        exact h2.trans (filter_swapRemove hb k fun x => !dropped rest x)
      · intro h; exact h3 (by rw [h]; rfl)
      · intro t h
        obtain ⟨t', h5, h6⟩ := h4 _ (by rw [h]; rfl)
        refine ⟨t', h5, ?_⟩
        simp only [hd]
        exact h6.trans (filter_swapRemove (ht t h) k fun x => !dropped rest x)
    · have hne : br.locations.isEmpty = false := by
        cases hx : br.locations with
        | nil => simp [hx] at hl
        | cons => rfl
      have hstep : freezeLoop ((k, br) :: rest) b bT
          = ((k, br) :: (freezeLoop rest b bT).1, (freezeLoop rest b bT).2) := by
        simp only [freezeLoop, hl, if_false]
      have hd : ∀ x, (!dropped ((k, br) :: rest) x) = (!dropped rest x) := by
        intro x; rw [hsplit, hne]; simp
      obtain ⟨h1, h2, h3, h4⟩ := ih b bT hb ht
      rw [hstep]
      refine ⟨?_, ?_, h3, ?_⟩
      · rw [List.filter_cons]; simp [hne, h1]
      · simp only [hd]; exact h2
      · simp only [hd]; exact h4

end SourceCoverage
end Verif
