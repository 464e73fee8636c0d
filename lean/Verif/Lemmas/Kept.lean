import Verif.Lemmas.Covers
/-
Visits leave function counters at the start of blocks, and wrapped expressions stay wrapped.
-/
namespace Verif
open Node
namespace Cover
open Visitor
variable {cx : Ctx}

theorem visit_normal {fuel : Nat} {m : Mode} (hm : normal m = true) {n n' : Node} {st st' : St}
    (h : visit cx fuel m n st = .ok (n', st')) :
    ∃ f, fuel = f + 1 ∧ visitNode cx (visit cx f) m n st = .ok (n', st') := by
  cases fuel with
  | zero => cases h
  | succ f =>
    refine ⟨f, rfl, ?_⟩
    cases m <;> first | exact h | cases hm

theorem mapList_ok {f : α → M β} {as : List α} {bs : List β} {st st' : St} (h : M.mapList f as st = .ok (bs, st')) :
    List.Forall₂ (fun a b => ∃ s s', f a s = .ok (b, s')) as bs := by
  induction as generalizing st bs with
  | nil => cases h; exact .nil
  | cons a as ih =>
    obtain ⟨b, s1, h1, h2⟩ := M.bind_ok h
    obtain ⟨bs', s2, h3, h4⟩ := M.bind_ok h2
    cases h4
    exact .cons ⟨_, _, h1⟩ (ih h3)

theorem children_ok {go : Mode → Node → M Node} {m : Mode} {k : Kind} {sp : Span} {cs : List Node} {n' : Node} {st st' : St}
    (hs : single (mk k sp cs) = true) (h : Visitor.visitChildren cx go m (mk k sp cs) st = .ok (n', st')) :
    ∃ cs', n' = mk k sp cs' ∧ List.Forall₂ (fun a b => ∃ s s', go m a s = .ok (b, s')) cs cs' := by
  rw [visitChildren_single m hs] at h
  obtain ⟨cs', s1, h1, h2⟩ := M.bind_ok h
  cases h2
  exact ⟨cs', rfl, mapList_ok h1⟩

theorem visit_paren {fuel : Nat} {m : Mode} (hm : normal m = true) {sp : Span} {cs : List Node} {n' : Node} {st st' : St}
    {k : Kind} (hk : k = .paren ∨ k = .seq ∨ (∃ c, k = .counter c) ∨ ∃ a, k = .function a)
    (h : visit cx fuel m (mk k sp cs) st = .ok (n', st')) :
    ∃ f cs', n' = mk k sp cs' ∧ List.Forall₂ (fun a b => ∃ s s', visit cx f m a s = .ok (b, s')) cs cs' := by
  obtain ⟨f, rfl, hn⟩ := visit_normal hm h
  refine ⟨f, ?_⟩
  rcases hk with rfl | rfl | ⟨c, rfl⟩ | ⟨a, rfl⟩ <;> exact children_ok (cx := cx) rfl hn

theorem visit_wrap {fuel : Nat} {m : Mode} (hm : normal m = true) {c : Counter} {e n' : Node} {st st' : St}
    (h : visit cx fuel m (wrapCounter c e) st = .ok (n', st')) : ∃ e', n' = wrapCounter c e' := by
  obtain ⟨f, cs, rfl, h1⟩ := visit_paren hm (.inl rfl) h
  obtain ⟨a, _, ⟨s1, s2, h2⟩, h3, rfl⟩ := List.forall₂_cons_left_iff.1 h1
  cases h3
  obtain ⟨f2, cs, rfl, h4⟩ := visit_paren hm (.inr (.inl rfl)) h2
  obtain ⟨a, _, ⟨s3, s4, h5⟩, h6, rfl⟩ := List.forall₂_cons_left_iff.1 h4
  obtain ⟨b, _, _, h7, rfl⟩ := List.forall₂_cons_left_iff.1 h6
  cases h7
  obtain ⟨f3, cs, rfl, h8⟩ := visit_paren hm (.inr (.inr (.inl ⟨c, rfl⟩))) h5
  cases h8
  exact ⟨b, rfl⟩

theorem insertStmts_counter {go : Mode → Node → M Node} {id : Nat} {ss out : List Node} {st st' : St}
    (h : Visitor.insertStmts cx go (counterStmt (.f id) :: ss) st = .ok (out, st')) :
    ∃ rest, out = counterStmt (.f id) :: rest := by
  unfold Visitor.insertStmts at h
  obtain ⟨a, s1, h1, h2⟩ := M.bind_ok h
  obtain ⟨b, s2, h3, h4⟩ := M.bind_ok h2
  cases h4
  cases h1
  exact ⟨b, rfl⟩

theorem visit_block {fuel : Nat} {m : Mode} (hm : normal m = true) {n n' : Node} {st st' : St}
    (h : visit cx fuel m n st = .ok (n', st')) : StaysBlock n n' := by
  rintro sp id ss rfl
  obtain ⟨f, rfl, hn⟩ := visit_normal hm h
  change Visitor.frame cx .blockStmt sp (fun cur => if cur = some .next then pure _ else
    Visitor.visitChildren cx (visit cx f) m (mk .block sp (counterStmt (.f id) :: ss))) st = _ at hn
  obtain ⟨cur, s1, s2, -, -, h1, -, -⟩ := Sound.frame_ok hn
  split at h1
  · cases h1; exact ⟨ss, rfl⟩
  · obtain ⟨out, s3, h2, h3⟩ := M.bind_ok h1
    cases h3
    unfold Visitor.visitStmts at h2
    obtain ⟨_, s4, -, h4⟩ := M.bind_ok h2
    obtain ⟨out', s5, h5, h6⟩ := M.bind_ok h4
    cases h6
    obtain ⟨rest, rfl⟩ := insertStmts_counter h5
    exact ⟨rest, rfl⟩

theorem kept {fuel : Nat} {m : Mode} (hm : normal m = true) {n n' : Node} {st st' : St}
    (h : visit cx fuel m n st = .ok (n', st')) : Stays n n' := by
  refine ⟨visit_block hm h, ?_, ?_⟩
  · rintro a sp params decorators body rfl
    obtain ⟨f, cs, rfl, h1⟩ := visit_paren hm (.inr (.inr (.inr ⟨a, rfl⟩))) h
    obtain ⟨p', _, -, h2, rfl⟩ := List.forall₂_cons_left_iff.1 h1
    obtain ⟨d', _, -, h3, rfl⟩ := List.forall₂_cons_left_iff.1 h2
    obtain ⟨b', _, ⟨s1, s2, h4⟩, h5, rfl⟩ := List.forall₂_cons_left_iff.1 h3
    cases h5
    exact ⟨p', d', b', rfl, visit_block hm h4⟩
  · rintro c e rfl
    exact visit_wrap hm h

end Cover
end Verif
