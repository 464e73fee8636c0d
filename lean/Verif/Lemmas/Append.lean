import Verif.Spec.Extends
import Verif.Lemmas.Over
import Verif.Lemmas.Outcome
import Verif.Lemmas.Ignored
import Verif.Lemmas.Run
/-
Appending items to a program.
-/
namespace Verif
open Node RegOp Visitor

theorem TableExtends.refl {V : Type} (m : IndexMap Nat V) : TableExtends m m := ⟨fun _ _ h => h, fun _ _ h => .inl h⟩

theorem Extends.refl (r : FileCoverage) : Extends r r :=
  ⟨rfl, rfl, List.prefix_rfl, List.prefix_rfl, List.prefix_rfl, List.prefix_rfl, .refl _, .refl _, .refl _, rfl⟩

namespace RegOp

theorem numbered_prefix {A B : Type} (g : Nat → A → B) {l l' : List A} (h : l <+: l') : numbered g l <+: numbered g l' := by
  obtain ⟨t, rfl⟩ := h
  unfold numbered
  rw [List.zipIdx_append, List.map_append]
  exact List.prefix_append ..

theorem filterMap_prefix {A B : Type} (g : A → Option B) {l l' : List A} (h : l <+: l') : l.filterMap g <+: l'.filterMap g := by
  obtain ⟨t, rfl⟩ := h
  rw [List.filterMap_append]
  exact List.prefix_append ..

/-- If a history goes on without new arms for its branches, the report is extended. -/
theorem extends_of {path : String} {sm : Option SourceMap} {rl : Bool} {h h' : List RegOp} {r r' : FileCoverage}
    (hr : Finished path sm rl h r) (hr' : Finished path sm rl h' r') (hp : h <+: h') (hl : Legal h)
    (harm : ∀ k, k < (branches h).length → arms h' k = arms h k) (hs : rl = r.bT.isSome) (hs' : rl = r'.bT.isSome) : Extends r r' := by
  have hb := filterMap_prefix (fun | .branch t l g => some (t, l, g) | _ => none) hp
  change branches h <+: branches h' at hb
  have hget : ∀ k, k < (branches h).length → (branches h')[k]? = (branches h)[k]? := fun k hk => by
    obtain ⟨t, ht⟩ := hb
    rw [← ht, List.getElem?_append_left hk]
  have hno : ∀ k, ¬ k < (branches h).length → arms h k = [] := fun k hk => arms_eq_nil hl (by omega)
  have hnb : ∀ k, ¬ k < (branches h).length → (branches h)[k]? = none := fun k hk => List.getElem?_eq_none (by omega)
  -- a table of which the entry of a branch is made from the branch and its arms
  have table : ∀ {V : Type} {m m' : IndexMap Nat V}, (∀ k, k < (branches h).length → m'.get k = m.get k) →
      (∀ k, ¬ k < (branches h).length → m.get k = none) → TableExtends m m' := by
    intro V m m' h1 h2
    have hlt : ∀ k v, m.get k = some v → k < (branches h).length := fun k v hk => by
      by_contra hc
      rw [h2 k hc] at hk
      cases hk
    refine ⟨fun k v hk => (h1 k (hlt k v hk)).trans hk, fun k v hk => ?_⟩
    by_cases hc : k < (branches h).length
    · exact .inl ((h1 k hc).symm.trans hk)
    · exact .inr fun k' v' hk' => Nat.lt_of_lt_of_le (hlt k' v' hk') (by omega)
  refine ⟨hr'.path.trans hr.path.symm, hr'.sm.trans hr.sm.symm, ?_, ?_, ?_, ?_, table ?_ ?_, table ?_ ?_, table ?_ ?_, hs.symm.trans hs'⟩
  · rw [hr.statementMap, hr'.statementMap]
    exact numbered_prefix _ (filterMap_prefix _ hp)
  · rw [hr.s, hr'.s]
    exact numbered_prefix _ (filterMap_prefix _ hp)
  · rw [hr.fnMap, hr'.fnMap]
    exact numbered_prefix _ (filterMap_prefix _ hp)
  · rw [hr.f, hr'.f]
    exact numbered_prefix _ (filterMap_prefix _ hp)
  · intro k hk
    rw [hr.branchMap, hr'.branchMap, hget k hk, harm k hk]
  · intro k hk
    rw [hr.branchMap, hnb k hk]
    rfl
  · intro k hk
    rw [hr.b, hr'.b, harm k hk]
  · intro k hk
    rw [hr.b, if_pos (hno k hk)]
  · intro k hk
    rw [hr.bT, hr'.bT, hget k hk, harm k hk]
  · intro k hk
    rw [hr.bT, hnb k hk]
    rfl

/-- Branches that are left alone keep their arms. -/
theorem arms_kept {path : String} {sm : Option SourceMap} {rl : Bool} {h h' : List RegOp} {c c' : SourceCoverage}
    (hi : Inv path rl sm h c) (hi' : Inv path rl sm h' c') (hp : h <+: h')
    (hk : ∀ i, i < c.lastB → c'.inner.branchMap.get i = c.inner.branchMap.get i) (k : Nat) (hlt : k < (branches h).length) :
    arms h' k = arms h k := by
  have h1 := hk k (by rw [hi.lastB]; exact hlt)
  have hb := filterMap_prefix (fun | .branch t l g => some (t, l, g) | _ => none) hp
  change branches h <+: branches h' at hb
  have hget : (branches h')[k]? = (branches h)[k]? := by
    obtain ⟨t, ht⟩ := hb
    rw [← ht, List.getElem?_append_left hlt]
  rw [hi.inner, hi'.inner] at h1
  simp only [report, get_numbered] at h1
  rw [hget, List.getElem?_eq_getElem hlt] at h1
  simp only [Option.map_some, Option.some.injEq, Branch.mk.injEq] at h1
  exact h1.2.2.1

end RegOp

namespace Visitor

theorem visitScriptItems_append {cx : Ctx} {fuel : Nat} : ∀ {a b : List Node} {st s : St} {out : List Node},
    visitScriptItems cx fuel (a ++ b) st = .ok (out, s) → ∃ oa s1 ob, visitScriptItems cx fuel a st = .ok (oa, s1) ∧
      visitScriptItems cx fuel b s1 = .ok (ob, s) ∧ out = oa ++ ob
  | [], b, st, s, out, h => ⟨[], st, out, rfl, h, rfl⟩
  | x :: a, b, st, s, out, h => by
    obtain ⟨o, s1, h1, h2⟩ := M.bind_ok (show (visitScriptItem cx fuel x >>= fun o => visitScriptItems cx fuel (a ++ b) >>= fun r => pure (o ++ r)) st = _ from h)
    obtain ⟨r, s2, h3, h4⟩ := M.bind_ok h2
    cases h4
    obtain ⟨oa, s3, ob, h5, h6, rfl⟩ := visitScriptItems_append h3
    refine ⟨o ++ oa, s3, ob, ?_, h6, by simp⟩
    show M.bind _ _ _ = _
    unfold M.bind
    rw [h1]
    show M.bind _ _ _ = _
    unfold M.bind
    rw [h5]
    rfl

theorem visitItem_ne {cx : Ctx} {fuel : Nat} {x : Node} {st s : St} {out : List Node} (h : visitItem cx fuel x st = .ok (out, s)) : out ≠ [] := by
  unfold visitItem at h
  split at h
  · cases h
    simp
  · obtain ⟨cur, st1, st2, _, _, hx, _, _⟩ := Sound.frame_ok h
    unfold withBefore at hx
    obtain ⟨a, st3, _, h2⟩ := M.bind_ok hx
    obtain ⟨b, st4, _, h4⟩ := M.bind_ok h2
    cases h4
    simp

theorem visitItems_ne {cx : Ctx} {fuel : Nat} {a : List Node} (ha : a ≠ []) {st s : St} {out : List Node}
    (h : visitItems cx fuel a st = .ok (out, s)) : out ≠ [] := by
  cases a with
  | nil => exact absurd rfl ha
  | cons x a =>
    obtain ⟨o, s1, h1, h2⟩ := M.bind_ok (show (visitItem cx fuel x >>= fun o => visitItems cx fuel a >>= fun r => pure (o ++ r)) st = _ from h)
    obtain ⟨r, s2, h3, h4⟩ := M.bind_ok h2
    cases h4
    simp [visitItem_ne h1]

/-- Visits that go on from a state with another history extend the report. -/
theorem extends_visits {cx : Ctx} {path : String} {sm : Option SourceMap} {x : M (List Node)} {h h' : List RegOp} {st s : St} {o : List Node}
    (hx : Over st.cov.lastB x) (hok : x st = .ok (o, s)) (hp : h <+: h') (hg : File.good ⟨path, cx.reportLogic, sm⟩ h st)
    (hg' : File.good ⟨path, cx.reportLogic, sm⟩ h' s) (hs : cx.reportLogic = st.cov.freeze.inner.bT.isSome)
    (hs' : cx.reportLogic = s.cov.freeze.inner.bT.isSome) : Extends st.cov.freeze.inner s.cov.freeze.inner :=
  extends_of (hg.1.finished hg.2) (hg'.1.finished hg'.2) hp hg.2
    (arms_kept hg.1 hg'.1 hp (hx st o s hok (Nat.le_refl _)).2.1) hs hs'

theorem instrument_ignored {cx : Ctx} {fuel : Nat} {path : String} {sm : Option SourceMap} {p : Node}
    (hf : Hint.shouldIgnoreFile cx.cc cx.comments p.span = true) : instrument cx fuel path sm p = .ok (p, (initial cx path sm).cov) := by
  simp only [instrument, visitProgram, Bind.bind, M.bind, push, hf, if_true]
  rfl

theorem good_start (cx : Ctx) (path : String) (sm : Option SourceMap) : File.good ⟨path, cx.reportLogic, sm⟩ [] (start cx path sm) :=
  ⟨inv_setInputSourceMap inv_new sm, legal_nil⟩

end Visitor
end Verif
