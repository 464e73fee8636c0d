import Verif.Model.Summary
import Verif.Spec.Lines
import Verif.Lemmas.MergeFile
namespace Verif

open IndexMap FileCoverage

theorem nodup_filter_keys {K V : Type} {m : IndexMap K V} (h : NodupKeys m) (p : K × V → Bool) :
    ((m.filter p).map (·.1)).Nodup :=
  List.Nodup.sublist (List.Sublist.map _ List.filter_sublist) h

theorem forall₂_imp {A B : Type} {R S : A → B → Prop} (h : ∀ a b, R a b → S a b) {l : List A}
    {l' : List B} (hl : List.Forall₂ R l l') : List.Forall₂ S l l' := by
  induction hl with
  | nil => exact .nil
  | cons h' _ ih => exact .cons (h _ _ h') ih

theorem max?_eq_iff (l : List Nat) (m : Nat) : l.max? = some m ↔ m ∈ l ∧ ∀ x ∈ l, x ≤ m :=
  List.max?_eq_some_iff

theorem max?_concat (l : List Nat) (x : Nat) :
    (l ++ [x]).max? = some (match l.max? with | some m => max m x | none => x) := by
  cases h : l.max? with
  | none => simp [List.max?_eq_none_iff.1 h]
  | some m =>
    obtain ⟨h1, h2⟩ := (max?_eq_iff l m).1 h
    rw [max?_eq_iff]
    simp only [List.mem_append, List.mem_singleton]
    constructor
    · rcases Nat.le_total m x with hle | hle
      · right; exact Nat.max_eq_right hle
      · left; rw [Nat.max_eq_left hle]; exact h1
    · rintro y (hy | rfl)
      · exact Nat.le_trans (h2 y hy) (Nat.le_max_left _ _)
      · exact Nat.le_max_right _ _

theorem lineStep_get (lm : LineHitMap) (line count l : Nat) :
    (lineStep lm line count).get l =
      if line = l then some (match lm.get l with | some m => max m count | none => count)
      else lm.get l := by
  unfold lineStep
  by_cases h : line = l
  · subst h
    cases hg : IndexMap.get lm line with
    | none => simp [get_insert]
    | some pre =>
      simp only [if_true]
      split
      · rename_i hlt
        rw [get_insert, if_pos rfl, Nat.max_eq_right (Nat.le_of_lt hlt)]
      · rename_i hlt
        rw [hg, Nat.max_eq_left (Nat.not_lt.1 hlt)]
  · simp only [h, if_false]
    cases IndexMap.get lm line with
    | none => simp [get_insert, h]
    | some pre =>
      simp only
      split
      · simp [get_insert, h]
      · rfl

theorem lineStep_nodup {lm : LineHitMap} (h : NodupKeys lm) (line count : Nat) :
    NodupKeys (lineStep lm line count) := by
  unfold lineStep
  split
  · split
    · exact nodupKeys_insert h _ _
    · exact h
  · exact nodupKeys_insert h _ _

/-- Counts of the listed statements that start on a line. -/
def tableLine (tab : List (Range × Nat)) (line : Nat) : List Nat :=
  (tab.filter fun e => decide (e.1.start.line = line)).map (·.2)

theorem lineLoop_ok (sm : StatementMap) : ∀ (hits : List (Nat × Nat)) (lm : LineHitMap)
    (pre : List (Range × Nat)), Located some hits sm → NodupKeys lm →
    (∀ l, lm.get l = (tableLine pre l).max?) →
    ∃ lm', lineLoop sm hits lm = .ok lm' ∧ NodupKeys lm' ∧
      ∀ l, lm'.get l = (tableLine (pre ++ located some hits sm) l).max?
  | [], lm, pre, _, hn, hg => ⟨lm, rfl, hn, by simpa [located] using hg⟩
  | (k, c) :: rest, lm, pre, hl, hn, hg => by
    obtain ⟨t, r, ht, hr⟩ := hl (k, c) List.mem_cons_self
    cases hr
    simp only at ht
    have hl' : Located some rest sm := fun e he => hl e (List.mem_cons_of_mem _ he)
    obtain ⟨lm', h1, h2, h3⟩ := lineLoop_ok sm rest (lineStep lm t.start.line c) (pre ++ [(t, c)]) hl'
      (lineStep_nodup hn _ _) (by
        intro l
        rw [lineStep_get, hg]
        unfold tableLine
        rw [List.filter_append, List.map_append]
        by_cases h : t.start.line = l
        · rw [if_pos h]
          have : List.map (·.2) (List.filter (fun e : Range × Nat => decide (e.1.start.line = l)) [(t, c)]) =
            [c] := by simp [h]
          rw [this, max?_concat]
        · simp [h])
    refine ⟨lm', ?_, h2, ?_⟩
    · simp only [lineLoop, ht]; exact h1
    · intro l
      rw [h3, located_cons k c rest sm ht rfl]
      simp

theorem getLineCoverage_ok {fc : FileCoverage} (h : fc.WellFormed) :
    ∃ lm, fc.getLineCoverage = .ok lm ∧ NodupKeys lm ∧ ∀ l, lm.get l = (fc.lineCounts l).max? := by
  obtain ⟨lm, h1, h2, h3⟩ := lineLoop_ok fc.statementMap fc.s [] [] h.located_s
    (by simp [NodupKeys, keys]) (by intro l; rfl)
  exact ⟨lm, h1, h2, by simpa [tableLine, lineCounts, statementTable] using h3⟩

theorem countPos_append (a b : List Nat) : countPos (a ++ b) = countPos a + countPos b := by
  simp [countPos]

theorem countPos_eq_countP (l : List Nat) : countPos l = l.countP fun x => decide (0 < x) := by
  simp [countPos, List.countP_eq_length_filter]

theorem countPos_le (l : List Nat) : countPos l ≤ l.length := List.length_filter_le _ _

/-! Lengths of nodup lists with the same members -/

theorem length_eq_of_mem_iff {A : Type} {l l' : List A} (h : l.Nodup) (h' : l'.Nodup)
    (hm : ∀ x, x ∈ l ↔ x ∈ l') : l.length = l'.length :=
  Nat.le_antisymm (h.length_le_of_subset fun x hx => (hm x).1 hx)
    (h'.length_le_of_subset fun x hx => (hm x).2 hx)

/-- With distinct keys, the values satisfying a predicate can be counted by their keys. -/
theorem countPos_vals {lm : LineHitMap} (h : NodupKeys lm) {L : List Nat} (hL : L.Nodup)
    (hm : ∀ l, l ∈ L ↔ ∃ c, lm.get l = some c ∧ 0 < c) : countPos (lm.map (·.2)) = L.length := by
  have e : countPos (lm.map (·.2)) = ((lm.filter fun e => decide (0 < e.2)).map (·.1)).length := by
    unfold countPos
    rw [List.filter_map, List.length_map, List.length_map]
    rfl
  rw [e]
  apply length_eq_of_mem_iff
  · exact List.Nodup.sublist (List.Sublist.map _ List.filter_sublist) h
  · exact hL
  · intro l
    rw [hm, List.mem_map]
    constructor
    · rintro ⟨x, hx, rfl⟩
      obtain ⟨h1, h2⟩ := List.mem_filter.1 hx
      exact ⟨x.2, get_of_mem h h1, by simpa using h2⟩
    · rintro ⟨c, h1, h2⟩
      exact ⟨(l, c), List.mem_filter.2 ⟨mem_of_get h1, by simpa using h2⟩, rfl⟩

theorem branchTotalsLoop_eq (l : List (Nat × List Nat)) (acc : Nat × Nat) :
    branchTotalsLoop l acc =
      (acc.1 + countPos (l.map (·.2)).flatten, acc.2 + (l.map (·.2)).flatten.length) := by
  induction l generalizing acc with
  | nil => simp [branchTotalsLoop, countPos]
  | cons e l ih =>
    obtain ⟨k, v⟩ := e
    rw [branchTotalsLoop, ih]
    simp only [List.map_cons, List.flatten_cons, List.length_append, countPos_append]
    rw [Nat.add_assoc, Nat.add_assoc]

/-! Branches by line -/

/-- The line computed by the code, as an option. -/
def lineOf? (br : Branch) : Option Nat := (branchLine br).toOption

theorem branchLine_eq {br : Branch} {l : Nat} (h : ReportedOn br l) : branchLine br = .ok l := by
  rcases h with h | ⟨h, r, hr, hl⟩
  · simp [branchLine, h]
  · simp [branchLine, h, hr, hl]

theorem reportedOn_of {br : Branch} {l : Nat} (h : branchLine br = .ok l) : ReportedOn br l := by
  unfold branchLine at h
  cases hb : br.line with
  | some l' => rw [hb] at h; cases h; exact .inl hb
  | none =>
    rw [hb] at h
    cases hr : br.loc with
    | none => rw [hr] at h; cases h
    | some r => rw [hr] at h; cases h; exact .inr ⟨hb, r, hr, rfl⟩

theorem reportedOn_iff {br : Branch} {l : Nat} : ReportedOn br l ↔ branchLine br = .ok l :=
  ⟨branchLine_eq, reportedOn_of⟩

/-- One accumulation step. -/
def accStep (acc : IndexMap Nat (List Nat)) (line : Nat) (data : List Nat) :
    IndexMap Nat (List Nat) :=
  acc.upsert line (· ++ data) data

theorem insert_eq_upsert {K V : Type} [DecidableEq K] (m : IndexMap K V) (k : K) (v : V) (f : V → V)
    (w : V) (h : m.get k = some w) (hf : f w = v) : m.insert k v = m.upsert k f v := by
  induction m with
  | nil => simp [IndexMap.get] at h
  | cons e m ih =>
    obtain ⟨k₀, v₀⟩ := e
    by_cases hk : k₀ = k
    · simp only [IndexMap.get, hk, if_true, Option.some.injEq] at h
      simp [IndexMap.insert, IndexMap.upsert, hk, h, hf]
    · simp only [IndexMap.get, hk, if_false] at h
      simp [IndexMap.insert, IndexMap.upsert, hk, ih h]

theorem insert_eq_upsert_none {K V : Type} [DecidableEq K] (m : IndexMap K V) (k : K) (v : V)
    (f : V → V) (h : m.get k = none) : m.insert k v = m.upsert k f v := by
  rw [get_eq_none_iff] at h
  rw [insert_of_not_mem h, upsert_of_not_mem h]

theorem insert_append (acc : IndexMap Nat (List Nat)) (line : Nat) (old data : List Nat)
    (h : acc.get line = some old) : acc.insert line (old ++ data) = accStep acc line data := by
  unfold accStep
  induction acc with
  | nil => simp [IndexMap.get] at h
  | cons e m ih =>
    obtain ⟨k₀, v₀⟩ := e
    by_cases hk : k₀ = line
    · simp only [IndexMap.get, hk, if_true, Option.some.injEq] at h
      simp [IndexMap.insert, IndexMap.upsert, hk, h]
    · simp only [IndexMap.get, hk, if_false] at h
      simp [IndexMap.insert, IndexMap.upsert, hk, ih h]

/-- Sum of an additive measure over an accumulator. -/
def accSum (g : List Nat → Nat) (acc : IndexMap Nat (List Nat)) : Nat := (acc.map fun e => g e.2).sum

theorem accSum_step (g : List Nat → Nat) (hg : ∀ a b, g (a ++ b) = g a + g b)
    (acc : IndexMap Nat (List Nat)) (line : Nat) (data : List Nat) :
    accSum g (accStep acc line data) = accSum g acc + g data := by
  unfold accStep accSum
  induction acc with
  | nil => simp [IndexMap.upsert]
  | cons e m ih =>
    obtain ⟨k₀, v₀⟩ := e
    by_cases hk : k₀ = line
    · simp only [IndexMap.upsert, hk, if_true, List.map_cons, List.sum_cons, hg]; omega
    · simp only [IndexMap.upsert, hk, if_false, List.map_cons, List.sum_cons, ih]; omega

/-- The arms of the listed branches that are reported on a line. -/
def armsOn (b : BranchHitMap) (rest : List (Nat × Branch)) (l : Nat) : List (List Nat) :=
  (rest.filter fun e => decide (lineOf? e.2 = some l)).map fun e => (b.get e.1).getD []

theorem branchLineLoop_ok (b : BranchHitMap) : ∀ (rest : List (Nat × Branch))
    (acc : IndexMap Nat (List Nat)) (pre : List (Nat × Branch)),
    (∀ e ∈ rest, ∃ l, ReportedOn e.2 l) → (∀ e ∈ rest, e.1 ∈ keys b) → NodupKeys acc →
    (∀ l, acc.get l = if armsOn b pre l = [] then none else some (armsOn b pre l).flatten) →
    ∃ acc', branchLineLoop b rest acc = .ok acc' ∧ NodupKeys acc' ∧
      (∀ l, acc'.get l =
        if armsOn b (pre ++ rest) l = [] then none else some (armsOn b (pre ++ rest) l).flatten) ∧
      (∀ g : List Nat → Nat, (∀ x y, g (x ++ y) = g x + g y) →
        accSum g acc' = accSum g acc + (rest.map fun e => g ((b.get e.1).getD [])).sum)
  | [], acc, pre, _, _, hn, hg => ⟨acc, rfl, hn, by simpa using hg, by simp⟩
  | (k, br) :: rest, acc, pre, hp, hk, hn, hg => by
    obtain ⟨line, hline⟩ := hp (k, br) List.mem_cons_self
    obtain ⟨data, hdata⟩ := get_isSome_of_mem (hk (k, br) List.mem_cons_self)
    simp only at hline hdata
    have hbl := branchLine_eq hline
    have hn' : NodupKeys (accStep acc line data) := nodupKeys_upsert hn _ _ _
    obtain ⟨acc', h1, h2, h3, h4⟩ := branchLineLoop_ok b rest (accStep acc line data) (pre ++ [(k, br)])
      (fun e he => hp e (List.mem_cons_of_mem _ he)) (fun e he => hk e (List.mem_cons_of_mem _ he)) hn'
      (by
        intro l
        unfold accStep
        rw [get_upsert]
        have happ : armsOn b (pre ++ [(k, br)]) l =
            armsOn b pre l ++ (if line = l then [data] else []) := by
          unfold armsOn
          rw [List.filter_append, List.map_append]
          congr 1
          by_cases h : line = l <;> simp [lineOf?, hbl, h, hdata, Except.toOption]
        rw [happ]
        by_cases h : line = l
        · subst h
          rw [hg]
          simp only [if_true]
          by_cases he : armsOn b pre line = []
          · simp [he]
          · simp [he]
        · simp [h, hg])
    refine ⟨acc', ?_, h2, ?_, ?_⟩
    · rw [← h1]
      simp only [branchLineLoop, hbl, hdata]
      cases hget : IndexMap.get acc line with
      | some old => simp only [insert_append acc line old data hget]
      | none =>
        simp only
        unfold accStep
        rw [insert_eq_upsert_none acc line data (· ++ data) hget]
    · intro l; rw [h3]; simp
    · intro g hgadd
      rw [h4 g hgadd, accSum_step g hgadd]
      simp only [List.map_cons, List.sum_cons, hdata, Option.getD_some]
      omega

theorem sum_by_keys {V : Type} (g : V → Nat) (d : V) {b : IndexMap Nat V} (hb : NodupKeys b)
    {ks : List Nat} (hks : ks.Nodup) (hm : ∀ k, k ∈ ks ↔ k ∈ keys b) :
    (ks.map fun k => g ((b.get k).getD d)).sum = (b.map fun e => g e.2).sum := by
  have hperm : ks.Perm (keys b) := (List.perm_ext_iff_of_nodup hks hb).2 hm
  have h1 := (hperm.map fun k => g ((b.get k).getD d)).sum_nat
  rw [h1]
  unfold keys
  rw [List.map_map]
  congr 1
  apply List.map_congr_left
  intro e he
  simp only [Function.comp]
  rw [get_of_mem hb (k := e.1) (v := e.2) he]
  rfl

end Verif
