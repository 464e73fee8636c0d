import Verif.Lemmas.SlideVisit
import Verif.Lemmas.Even
import Verif.Lemmas.Append
/-
Items put before the items of a program.
-/
namespace Verif
open Node RegOp Visitor

namespace Slide
variable {L : Slide}
namespace Sim

theorem drain : L.Sim drain Visitor.drain (List.Forall₂ L.In) := by
  intro st st' hn a s h
  cases h
  exact ⟨_, _, rfl, hn.before, ⟨.nil, hn.nodes, hn.ignore, hn.cov⟩⟩

theorem withBefore {x y : M Node} (h : L.Sim x y L.In) : L.Sim (withBefore x) (Visitor.withBefore y) (List.Forall₂ L.In) :=
  bind h fun _ _ h1 => bind drain fun _ _ h2 => pure (List.rel_append h2 (.cons h1 .nil))

theorem visitItem {fuel : Nat} {i : Node} (hi : L.In i i) :
    L.Sim (visitItem L.cx fuel i) (Visitor.visitItem L.cx fuel i) (List.Forall₂ L.In) := by
  unfold Visitor.visitItem
  refine ite Iff.rfl (fun _ => pure (.cons hi .nil)) fun _ => frame fun _ => withBefore ?_
  exact bind (P := fun _ _ => True) (keepIf Iff.rfl trivial fun _ => mark _) fun _ _ _ => visit L fuel .coverage _ _ hi

theorem visitItems {fuel : Nat} : ∀ {is : List Node}, (∀ i ∈ is, L.In i i) →
    L.Sim (visitItems L.cx fuel is) (Visitor.visitItems L.cx fuel is) (List.Forall₂ L.In)
  | [], _ => pure .nil
  | i :: is, h => bind (visitItem (h i (by simp))) fun _ _ ha => bind (visitItems fun j hj => h j (by simp [hj])) fun _ _ hb =>
    pure (List.rel_append ha hb)

theorem visitScriptItems {fuel : Nat} : ∀ {is : List Node}, (∀ i ∈ is, L.In i i) →
    L.Sim (visitScriptItems L.cx fuel is) (Visitor.visitScriptItems L.cx fuel is) (List.Forall₂ L.In)
  | [], _ => pure .nil
  | i :: is, h => bind (withBefore (visit L fuel .coverage _ _ (h i (by simp)))) fun _ _ ha =>
    bind (visitScriptItems fun j hj => h j (by simp [hj])) fun _ _ hb => pure (List.rel_append ha hb)

end Sim
end Slide

namespace RegOp

theorem numbered_append {A B : Type} (g : Nat → A → B) (l l' : List A) :
    numbered g (l ++ l') = numbered g l ++ l'.zipIdx.map fun e => (l.length + e.2, g (l.length + e.2) e.1) := by
  unfold numbered
  rw [List.zipIdx_append, List.map_append, Nat.zero_add, List.zipIdx_eq_map_add (l := l') (i := l.length), List.map_map]
  rfl

theorem numbered_moved {A B : Type} (g : A → B) (l l' : List A) :
    numbered (fun _ a => g a) (l ++ l') = numbered (fun _ a => g a) l ++ (numbered (fun _ a => g a) l').map fun e => (l.length + e.1, e.2) := by
  rw [numbered_append]
  congr 1
  unfold numbered
  rw [List.map_map]
  rfl

/-- The report of a history that is put together of two. -/
theorem joined_of {path : String} {sm : Option SourceMap} {rl : Bool} {h t : List RegOp} {r₁ r₂ r : FileCoverage} (hl : Legal h) (ht : Legal t)
    (h1 : Finished path sm rl h r₁) (h2 : Finished path sm rl t r₂) (h3 : Finished path sm rl (h ++ t.map (RegOp.slide (offset h))) r)
    (s1 : rl = r₁.bT.isSome) (s2 : rl = r₂.bT.isSome) (s3 : rl = r.bT.isSome) : Joined (offset h) r₁ r₂ r := by
  have low : ∀ k, k < (branches h).length → arms (h ++ t.map (RegOp.slide (offset h))) k = arms h k ∧
      (branches (h ++ t.map (RegOp.slide (offset h))))[k]? = (branches h)[k]? := fun k hk =>
    ⟨arms_slide_low _ _ _ hk, by rw [branches_slide, List.getElem?_append_left hk]⟩
  have high : ∀ k, ¬ k < (branches h).length → arms (h ++ t.map (RegOp.slide (offset h))) k = arms t (k - (branches h).length) ∧
      (branches (h ++ t.map (RegOp.slide (offset h))))[k]? = (branches t)[k - (branches h).length]? := fun k hk => by
    refine ⟨?_, by rw [branches_slide, List.getElem?_append_right (by omega)]⟩
    have := arms_slide_high (offset h) h t hl (k := k - (branches h).length) rfl
    rw [← this]
    congr 1
    show k = (branches h).length + _
    omega
  refine ⟨h3.path.trans h1.path.symm, h3.sm.trans h1.sm.symm, ?_, ?_, ?_, ?_, fun k => ?_, fun k => ?_, fun k => ?_, s3.symm.trans s1, s3.symm.trans s2⟩
  · rw [h1.statementMap, h2.statementMap, h3.statementMap, statements_slide]
    exact numbered_moved (fun l => l) _ _
  · rw [h1.s, h2.s, h3.s, statements_slide]
    exact numbered_moved (fun _ => 0) _ _
  · rw [h1.fnMap, h2.fnMap, h3.fnMap, functions_slide, numbered_append]
    refine ⟨_, rfl, ?_⟩
    unfold numbered
    rw [List.forall₂_map_left_iff, List.forall₂_map_right_iff, List.forall₂_same]
    intro x _
    refine ⟨rfl, rfl, rfl, rfl, ?_⟩
    dsimp only
    cases x.1.1 with
    | some n => exact .inl rfl
    | none => exact .inr ⟨rfl, rfl⟩
  · rw [h1.f, h2.f, h3.f, functions_slide]
    exact numbered_moved (fun _ => 0) _ _
  · show _ = if k < (branches h).length then _ else _
    rw [h3.branchMap]
    by_cases hk : k < (branches h).length
    · rw [if_pos hk, (low k hk).1, (low k hk).2, h1.branchMap]
    · rw [if_neg hk, (high k hk).1, (high k hk).2]
      exact (h2.branchMap _).symm
  · show _ = if k < (branches h).length then _ else _
    rw [h3.b]
    by_cases hk : k < (branches h).length
    · rw [if_pos hk, (low k hk).1, h1.b]
    · rw [if_neg hk, (high k hk).1]
      exact (h2.b _).symm
  · show _ = if k < (branches h).length then _ else _
    rw [h3.bT]
    by_cases hk : k < (branches h).length
    · rw [if_pos hk, (low k hk).1, (low k hk).2, h1.bT]
    · rw [if_neg hk, (high k hk).1, (high k hk).2]
      exact (h2.bT _).symm

end RegOp
end Verif
