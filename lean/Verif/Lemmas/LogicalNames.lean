import Verif.Lemmas.Kept
/-
The visitor of logical expressions does not wrap the node it starts from: an anonymous function or class stays one.
-/
namespace Verif
open Node Visitor Sem

/-- What is absent stays so, and what takes a name still does. -/
def KeepsName (n n' : Node) : Prop :=
  (n.isNone = true → n'.isNone = true) ∧ (isFnDef n = true → isFnDef n' = true)

theorem KeepsName.of_children {k : Kind} {sp sp' : Span} {cs cs' : List Node} (hc : List.Forall₂ KeepsName cs cs') :
    KeepsName (mk k sp cs) (mk k sp' cs') := by
  refine ⟨fun h => ?_, fun h => ?_⟩
  · unfold Node.isNone at h
    split at h
    · rename_i h1; cases h1
      cases List.forall₂_nil_left_iff.1 hc
      rfl
    · cases h
  unfold isFnDef at h
  split at h
  · rename_i h1; cases h1; rfl
  · rename_i h1; cases h1
    obtain ⟨a', _, h2, -, rfl⟩ := List.forall₂_cons_left_iff.1 hc
    exact h2.1 h
  · rename_i h1; cases h1
    obtain ⟨a', _, h2, -, rfl⟩ := List.forall₂_cons_left_iff.1 hc
    exact h2.1 h
  · rename_i h1; cases h1
    obtain ⟨a', _, h2, h3, rfl⟩ := List.forall₂_cons_left_iff.1 hc
    cases List.forall₂_nil_left_iff.1 h3
    exact h2.2 h
  · cases h

theorem keepsName_visit (cx : Ctx) (b : Nat) (fuel : Nat) : ∀ m n st n' st', m = .logical b ∨ m = .logicalInner b →
    visit cx fuel m n st = .ok (n', st') → KeepsName n n' := by
  induction fuel with
  | zero => intro m n st n' st' _ h; cases h
  | succ fuel ih =>
    have hc : ∀ n st n' st', logicalChildren (visit cx fuel) b n st = .ok (n', st') → KeepsName n n' := by
      rintro ⟨k, sp, cs⟩ st n' st' h
      unfold logicalChildren at h
      obtain ⟨cs', st1, h1, h⟩ := M.bind_ok h
      cases h
      exact .of_children ((Cover.mapList_ok h1).imp fun a b ⟨s, s', h⟩ => ih _ _ _ _ _ (.inl rfl) h)
    rintro m n st n' st' (rfl | rfl) h
    · change visitLogical cx (visit cx fuel) b n st = _ at h
      unfold visitLogical at h
      split at h
      · unfold frame at h
        obtain ⟨⟨old, cur⟩, st1, h1, h⟩ := M.bind_ok h
        obtain ⟨r, st2, h2, h⟩ := M.bind_ok h
        obtain ⟨_, st3, h3, h⟩ := M.bind_ok h
        cases h
        exact ih _ _ _ _ _ (.inr rfl) h2
      · exact hc _ _ _ _ h
    · change visitLogicalInner cx (visit cx fuel) b n st = _ at h
      unfold visitLogicalInner at h
      split at h
      · next op sp left right =>
        unfold visitBin at h
        obtain ⟨⟨old, cur⟩, st1, h1, h⟩ := M.bind_ok h
        have hn : ∀ st a st', (do
            push .binExpr
            let n ← logicalChildren (visit cx fuel) b (mk (.bin op) sp [left, right])
            exit old
            pure n : M Node) st = .ok (a, st') → KeepsName (mk (.bin op) sp [left, right]) a := by
          intro st a st' h
          obtain ⟨_, st2, h2, h⟩ := M.bind_ok h
          obtain ⟨r, st3, h3, h⟩ := M.bind_ok h
          obtain ⟨_, st4, h4, h⟩ := M.bind_ok h
          cases h
          exact hc _ _ _ _ h3
        simp only at h
        split at h
        · exact hn _ _ _ h
        split at h
        · obtain ⟨_, st2, h2, h⟩ := M.bind_ok h
          obtain ⟨_, st3, h3, h⟩ := M.bind_ok h
          obtain ⟨l, st4, h4, h⟩ := M.bind_ok h
          obtain ⟨r, st5, h5, h⟩ := M.bind_ok h
          cases h
          exact ⟨fun h => (by cases h), fun h => by cases h⟩
        · exact hn _ _ _ h
      · exact hc _ _ _ _ h

end Verif
