import Verif.Props.Once
import Verif.Props.Truths
/-
C34, C50: when the locations in a report are different, as a condition on the program.
-/
namespace Verif
open Node Visitor Sem Build Runtime Js Template

theorem two_le_count {A B : Type} [BEq B] [LawfulBEq B] {l : List A} {f : A → B} {a a' : A} (ha : a ∈ l) (ha' : a' ∈ l)
    (hne : a ≠ a') (h : f a = f a') : 2 ≤ (l.map f).count (f a) := by
  induction l with
  | nil => cases ha
  | cons x l ih =>
    rw [List.map_cons, List.count_cons]
    rcases List.mem_cons.1 ha with rfl | ha
    · rcases List.mem_cons.1 ha' with rfl | ha'
      · exact absurd rfl hne
      · have : 0 < (l.map f).count (f a) := List.count_pos_iff.2 (List.mem_map.2 ⟨a', ha', h.symm⟩)
        rw [if_pos (beq_self_eq_true _)]
        omega
    · rcases List.mem_cons.1 ha' with rfl | ha'
      · have : 0 < (l.map f).count (f a) := List.count_pos_iff.2 (List.mem_map.2 ⟨a, by assumption, rfl⟩)
        rw [if_pos (beq_iff_eq.2 h.symm)]
        omega
      · have := ih ha ha'
        omega

theorem count_some {A : Type} (l : List A) (f : A → Range) (r : Range) :
    (l.map fun a => some (f a)).count (some r) = (l.map f).count r := by
  induction l with
  | nil => rfl
  | cons a l ih => simp [List.count_cons, ih]

theorem located_nodup {H T : Type} {loc : T → Option Range} {hits : IndexMap Nat H} {map : IndexMap Nat T}
    (hk : hits.keys.Nodup) (h : ∀ r, (map.map fun e => loc e.2).count (some r) ≤ 1) :
    ((located loc hits map).map (·.1)).Nodup := by
  induction hits with
  | nil => exact .nil
  | cons e hits ih =>
    obtain ⟨k, v⟩ := e
    obtain ⟨hk1, hk2⟩ := List.nodup_cons.1 (show (k :: IndexMap.keys hits).Nodup from hk)
    have ih := ih hk2
    cases hb : (map.get k).bind loc with
    | none =>
      simp only [located, List.filterMap_cons, hb, Option.map_none]
      exact ih
    | some r =>
      simp only [located, List.filterMap_cons, hb, Option.map_some, List.map_cons]
      refine List.nodup_cons.2 ⟨fun hr => ?_, ih⟩
      obtain ⟨x, hx, rfl⟩ := List.mem_map.1 hr
      obtain ⟨e, he, hx⟩ := List.mem_filterMap.1 hx
      obtain ⟨r', hr', rfl⟩ := Option.map_eq_some_iff.1 hx
      obtain ⟨t, h1, h2⟩ := Option.bind_eq_some_iff.1 hb
      obtain ⟨t', h3, h4⟩ := Option.bind_eq_some_iff.1 hr'
      have := two_le_count (f := fun e => loc e.2) (IndexMap.mem_of_get h1) (IndexMap.mem_of_get h3)
        (by rintro ⟨⟩; exact hk1 (List.mem_map.2 ⟨e, he, rfl⟩)) (h2.trans h4.symm)
      rw [h2] at this
      exact absurd (Nat.le_trans this (h r')) (by omega)

section
variable {cx : Ctx} {fuel : Nat} {path : String} {sm : Option SourceMap} {p p' : Node} {cov : SourceCoverage}

/-- C34 for the report as a whole: where the statements, function bodies and arms of a program are at different places, no two statements
(functions, branches) of the report have the same location. -/
theorem C34_locations_partial (hs : ApartInSource cx p) (hr : instrument cx fuel path sm p = .ok (p', cov)) :
    cov.inner.DistinctLocs := by
  obtain ⟨-, hk, -⟩ := tables_of hr
  constructor
  · refine located_nodup hk.s fun r => ?_
    have := Nat.le_trans (C34_statements_partial hs.plain hr r) (List.nodup_iff_count.1 hs.statements r)
    exact Nat.le_trans (Nat.le_of_eq (count_some ..)) this
  · refine located_nodup hk.f fun r => ?_
    have := Nat.le_trans (C34_bodies_partial hs.plain hr r) (List.nodup_iff_count.1 hs.bodies r)
    exact Nat.le_trans (Nat.le_of_eq (count_some ..)) this
  · exact located_nodup hk.b fun r =>
      Nat.le_trans (C34_arms_partial hs.plain hr r) (List.nodup_iff_count.1 hs.arms r)

/-- C50 for a program whose constructs are at different places. -/
theorem C50_source_partial (hs : ApartInSource cx p) (hr : instrument cx fuel path sm p = .ok (p', cov)) (hf : cov.inner.Fits)
    (hl : cx.reportLogic = false) : Merged path p' cov.inner fun _ _ _ trs => TellsAll p' cov.inner trs :=
  C50_partial hr hf (inRange_of_plain hr hl) (C34_locations_partial hs hr)

end

/-- `handful` has an `if`, a conditional expression and a logical expression, and its constructs are at different places. -/
example : ApartInSource plain handful ∧ armRanges plain handful = [5, 6, 7, 9, 10].map fun n => plain.range (at' n) := by
  exact ⟨⟨by unfold PlainInits; decide +kernel, by decide +kernel, by decide +kernel, by decide +kernel⟩, by decide +kernel⟩

end Verif
