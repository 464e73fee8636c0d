import Verif.Lemmas.SoundProgram
import Verif.Spec.Hintable
/-
Under an ignore-next hint the visitors leave everything as it is.
-/
namespace Verif
open Node
namespace Visitor

/-- Under an ignore-next hint, `x` gives `a` and changes nothing. -/
def Still (x : M α) (a : α) : Prop :=
  ∀ st a' st', st.ignore = some .next → x st = .ok (a', st') → a' = a ∧ st' = st

namespace Still
variable {α β : Type} {cx : Ctx}

theorem pure (a : α) : Still (Pure.pure a : M α) a := by
  intro st a' st' _ h
  cases h; exact ⟨rfl, rfl⟩

theorem bind {x : M α} {k : α → M β} {a : α} {b : β} (hx : Still x a) (hk : Still (k a) b) :
    Still (x >>= k) b := by
  intro st b' st' hs h
  obtain ⟨a', st1, h1, h2⟩ := M.bind_ok h
  obtain ⟨rfl, rfl⟩ := hx st a' st1 hs h1
  exact hk _ _ _ hs h2

theorem keepIf {p : Prop} [Decidable p] {a : α} {x : M α} (hp : p) : Still (keepIf p a x) a := by
  unfold Visitor.keepIf
  rw [if_pos hp]
  exact pure a

theorem frame {t : Tag} {sp : Span} {body : Option IgnoreScope → M α} {a : α}
    (hb : Still (body (some .next)) a) : Still (frame cx t sp body) a := by
  intro st a' st' hs h
  unfold Visitor.frame at h
  obtain ⟨⟨old, cur⟩, st1, h1, h2⟩ := M.bind_ok h
  have h1' : st1 = { st with nodes := t :: st.nodes } ∧ old = st.ignore ∧ cur = some .next := by
    simp only [enter, push, enterSpan, Bind.bind, M.bind, hs, if_true] at h1
    cases h1; simp [hs]
  obtain ⟨rfl, rfl, rfl⟩ := h1'
  obtain ⟨r, st2, h3, h4⟩ := M.bind_ok h2
  obtain ⟨rfl, rfl⟩ := hb _ _ _ (by exact hs) h3
  cases h4
  exact ⟨rfl, rfl⟩

theorem guarded {t : Tag} {n : Node} {body : M Node} : Still (guarded cx t n body) n := by
  refine frame ?_
  rw [if_pos rfl]
  exact pure n

theorem bracket {t : Tag} {x : M α} {a : α} (hx : Still x a) :
    Still (do push t; let r ← x; pop; Pure.pure r) a := by
  intro st a' st' hs h
  obtain ⟨_, st1, h1, h2⟩ := M.bind_ok h
  cases h1
  obtain ⟨r, st2, h3, h4⟩ := M.bind_ok h2
  obtain ⟨rfl, rfl⟩ := hx _ _ _ (by exact hs) h3
  cases h4
  exact ⟨rfl, rfl⟩

theorem mapList {f : Node → M Node} (cs : List Node) (hf : ∀ c ∈ cs, Still (f c) c) :
    Still (M.mapList f cs) cs := by
  induction cs with
  | nil => exact pure _
  | cons c cs ih =>
    exact bind (hf c (by simp)) (bind (ih fun d hd => hf d (by simp [hd])) (pure _))

section
variable {go : Mode → Node → M Node} (hgo : ∀ m n, Still (go m n) n)

theorem insertStmt (s : Node) : Still (insertStmt cx go s) [s] := by
  unfold Visitor.insertStmt
  split
  · exact pure _
  · refine frame ?_
    rw [if_pos rfl]
    exact pure _

theorem insertStmts (ss : List Node) : Still (insertStmts cx go ss) ss := by
  induction ss with
  | nil => exact pure _
  | cons s ss ih => exact bind (insertStmt s) (bind ih (pure _))

theorem visitStmts (ss : List Node) : Still (visitStmts cx go ss) ss :=
  bracket (insertStmts ss)

include hgo

theorem visitChildren (m : Mode) (n : Node) : Still (visitChildren cx go m n) n := by
  unfold Visitor.visitChildren
  split
  · exact bind (visitStmts _) (pure _)
  · exact bind (hgo _ _) (bind (visitStmts _) (pure _))
  · exact bind (mapList _ fun c _ => hgo m c) (pure _)

theorem visitBin (m : Mode) (b : Option Nat) {ch : Node → M Node} (hc : ∀ n, Still (ch n) n) (op : BinOp)
    (sp : Span) (left right : Node) :
    Still (visitBin cx go m b ch op sp left right) (mk (.bin op) sp [left, right]) := by
  intro st a' st' hs h
  unfold Visitor.visitBin at h
  obtain ⟨⟨old, cur⟩, st1, h1, h2⟩ := M.bind_ok h
  have h1' : st1 = st ∧ old = st.ignore ∧ cur = some .next := by
    simp only [enterSpan, hs, if_true] at h1
    cases h1; simp [hs]
  obtain ⟨rfl, rfl, rfl⟩ := h1'
  simp only [if_true] at h2
  obtain ⟨_, st2, h3, h4⟩ := M.bind_ok h2
  cases h3
  obtain ⟨r, st3, h5, h6⟩ := M.bind_ok h4
  obtain ⟨rfl, rfl⟩ := hc _ _ _ _ (by exact hs) h5
  cases h6
  exact ⟨rfl, rfl⟩

theorem visitNode (m : Mode) (n : Node) : Still (visitNode cx go m n) n := by
  have hch := visitChildren (cx := cx) hgo m n
  unfold Visitor.visitNode
  split <;> first
    | exact guarded
    | exact frame hch
    | exact frame (bind (keepIf rfl) hch)
    | exact visitBin hgo _ _ (visitChildren hgo m) _ _ _ _
    | skip
  -- expression statement
  · refine frame ?_
    split
    · exact pure _
    · exact bind (keepIf (.inl rfl)) hch
  -- switch, if, with
  · refine frame ?_
    rw [if_pos rfl]
    exact pure _
  · refine frame ?_
    rw [if_pos rfl]
    exact pure _
  · refine frame ?_
    rw [if_pos rfl]
    exact pure _
  -- nodes treated by some visitors only
  · split
    · exact guarded
    · exact hch
  · split
    · exact guarded
    · exact hch
  · split
    · exact guarded
    · exact hch
  · split
    · exact guarded
    · exact hch
  · exact hch

theorem logicalChildren (b : Nat) (n : Node) : Still (logicalChildren go b n) n := by
  unfold Visitor.logicalChildren
  split
  exact bind (mapList _ fun c _ => hgo _ c) (pure _)

theorem step (m : Mode) (n : Node) : Still (step cx go m n) n := by
  unfold Visitor.step
  split
  · unfold visitLogical
    split
    · exact frame (hgo _ _)
    · exact logicalChildren hgo _ _
  · unfold visitLogicalInner
    split
    · exact visitBin hgo _ _ (logicalChildren hgo _) _ _ _ _
    · exact logicalChildren hgo _ _
  · exact visitNode hgo _ _

end

/-- Visits under an ignore-next hint change nothing. -/
theorem visit (cx : Ctx) (fuel : Nat) (m : Mode) (n : Node) : Still (visit cx fuel m n) n := by
  induction fuel generalizing m n with
  | zero => intro st a' st' _ h; cases h
  | succ fuel ih => exact step ih m n

end Still
/-- A frame at a hinted position. -/
theorem frame_hinted {cx : Ctx} {t : Tag} {sp : Span} {body : Option IgnoreScope → M α} {a a' : α}
    {st st' : St} (hh : cx.hint sp = some .next) (hb : Still (body (some .next)) a)
    (h : frame cx t sp body st = .ok (a', st')) : a' = a ∧ st' = st := by
  by_cases hs : st.ignore = some .next
  · exact Still.frame hb st a' st' hs h
  · unfold frame at h
    obtain ⟨⟨old, cur⟩, st1, h1, h2⟩ := M.bind_ok h
    have h1' : st1 = { st with nodes := t :: st.nodes, ignore := some .next } ∧ old = st.ignore ∧
        cur = some .next := by
      simp only [enter, push, enterSpan, Bind.bind, M.bind, hs, if_false, hh] at h1
      cases h1; simp
    obtain ⟨rfl, rfl, rfl⟩ := h1'
    obtain ⟨r, st2, h3, h4⟩ := M.bind_ok h2
    obtain ⟨rfl, rfl⟩ := hb _ _ _ rfl h3
    cases h4
    exact ⟨rfl, rfl⟩

theorem guarded_hinted {cx : Ctx} {t : Tag} {n n' : Node} {body : M Node}
    {st st' : St} (hh : cx.hint n.span = some .next)
    (h : guarded cx t n body st = .ok (n', st')) : n' = n ∧ st' = st := by
  refine frame_hinted hh ?_ h
  rw [if_pos rfl]
  exact Still.pure n

/-- A visit of a hinted construct. -/
theorem visit_hinted {cx : Ctx} {fuel : Nat} {m : Mode} {n n' : Node} {st st' : St}
    (hn : n.hintable = true) (hm : m.emits = .any) (hh : cx.hint n.span = some .next)
    (h : visit cx fuel m n st = .ok (n', st')) : n' = n ∧ st' = st := by
  cases fuel with
  | zero => cases h
  | succ fuel =>
    have hgo := Still.visit cx fuel
    have hch := Still.visitChildren (cx := cx) hgo m n
    have h' : visitNode cx (visit cx fuel) m n st = .ok (n', st') := by
      cases m <;> first | exact h | cases hm
    clear h
    unfold visitNode at h'
    split at h' <;> first
      | exact guarded_hinted hh h'
      | exact frame_hinted hh hch h'
      | exact frame_hinted hh (.bind (.keepIf rfl) hch) h'
      | skip
    -- expression statement
    · refine frame_hinted hh ?_ h'
      split
      · exact .pure _
      · exact .bind (.keepIf (.inl rfl)) hch
    -- switch, if
    · refine frame_hinted hh ?_ h'
      rw [if_pos rfl]
      exact .pure _
    · refine frame_hinted hh ?_ h'
      rw [if_pos rfl]
      exact .pure _
    -- binary
    · unfold visitBin at h'
      obtain ⟨⟨old, cur⟩, st1, h1, h2⟩ := M.bind_ok h'
      have h1' : st1 = { st with ignore := some .next } ∧ old = st.ignore ∧ cur = some .next := by
        unfold enterSpan at h1
        split at h1
        · next hs => cases h1; exact ⟨by rw [← hs], rfl, hs⟩
        · have hh' := hh
          simp only [span] at hh'
          rw [hh'] at h1
          cases h1; exact ⟨rfl, rfl, rfl⟩
      obtain ⟨rfl, rfl, rfl⟩ := h1'
      simp only [if_true] at h2
      obtain ⟨_, st2, h3, h4⟩ := M.bind_ok h2
      cases h3
      obtain ⟨r, st3, h5, h6⟩ := M.bind_ok h4
      obtain ⟨rfl, rfl⟩ := hch _ _ _ rfl h5
      cases h6
      exact ⟨rfl, rfl⟩
    -- with
    · refine frame_hinted hh ?_ h'
      rw [if_pos rfl]
      exact .pure _
    -- not hintable
    · cases hn
    · cases hn
    · cases hn
    · cases hn
    · unfold hintable at hn
      split at hn <;> first | (exfalso; solve_by_elim) | cases hn

/-! ### Lists -/

theorem insertStmts_append {cx : Ctx} {go : Mode → Node → M Node} (a b : List Node) {st st' : St}
    {out : List Node} : insertStmts cx go (a ++ b) st = .ok (out, st') ↔
      ∃ x y st1, insertStmts cx go a st = .ok (x, st1) ∧ insertStmts cx go b st1 = .ok (y, st') ∧
        out = x ++ y := by
  induction a generalizing st out with
  | nil =>
    constructor
    · intro h; exact ⟨[], out, st, rfl, h, rfl⟩
    · rintro ⟨x, y, st1, h1, h2, rfl⟩; cases h1; exact h2
  | cons s a ih =>
    simp only [List.cons_append, insertStmts]
    constructor
    · intro h
      obtain ⟨o, st1, h1, h2⟩ := M.bind_ok h
      obtain ⟨r, st2, h3, h4⟩ := M.bind_ok h2
      cases h4
      obtain ⟨x, y, st3, h5, h6, rfl⟩ := ih.1 h3
      refine ⟨o ++ x, y, st3, ?_, h6, by simp⟩
      simp only [Bind.bind, M.bind, h1, h5, Pure.pure, M.pure]
    · rintro ⟨x, y, st1, h1, h2, rfl⟩
      obtain ⟨o, st2, h3, h4⟩ := M.bind_ok h1
      obtain ⟨r, st3, h5, h6⟩ := M.bind_ok h4
      cases h6
      have := ih.2 ⟨r, y, _, h5, h2, rfl⟩
      simp only [Bind.bind, M.bind, h3, this, Pure.pure, M.pure, List.append_assoc]

theorem insertStmt_hinted {cx : Ctx} {go : Mode → Node → M Node} {s : Node} {st st' : St}
    {out : List Node} (hh : cx.hint s.span = some .next)
    (h : insertStmt cx go s st = .ok (out, st')) : out = [s] ∧ st' = st := by
  unfold insertStmt at h
  split at h
  · cases h; exact ⟨rfl, rfl⟩
  · refine frame_hinted hh ?_ h
    rw [if_pos rfl]
    exact .pure _

theorem visitItems_append {cx : Ctx} {fuel : Nat} (a b : List Node) {st st' : St}
    {out : List Node} : visitItems cx fuel (a ++ b) st = .ok (out, st') ↔
      ∃ x y st1, visitItems cx fuel a st = .ok (x, st1) ∧ visitItems cx fuel b st1 = .ok (y, st') ∧
        out = x ++ y := by
  induction a generalizing st out with
  | nil =>
    constructor
    · intro h; exact ⟨[], out, st, rfl, h, rfl⟩
    · rintro ⟨x, y, st1, h1, h2, rfl⟩; cases h1; exact h2
  | cons s a ih =>
    simp only [List.cons_append, visitItems]
    constructor
    · intro h
      obtain ⟨o, st1, h1, h2⟩ := M.bind_ok h
      obtain ⟨r, st2, h3, h4⟩ := M.bind_ok h2
      cases h4
      obtain ⟨x, y, st3, h5, h6, rfl⟩ := ih.1 h3
      refine ⟨o ++ x, y, st3, ?_, h6, by simp⟩
      simp only [Bind.bind, M.bind, h1, h5, Pure.pure, M.pure]
    · rintro ⟨x, y, st1, h1, h2, rfl⟩
      obtain ⟨o, st2, h3, h4⟩ := M.bind_ok h1
      obtain ⟨r, st3, h5, h6⟩ := M.bind_ok h4
      cases h6
      have := ih.2 ⟨r, y, _, h5, h2, rfl⟩
      simp only [Bind.bind, M.bind, h3, this, Pure.pure, M.pure, List.append_assoc]

/-- Nothing is pending between module items. -/
theorem visitItems_before {cx : Ctx} {fuel : Nat} (items : List Node) {st st' : St} {out : List Node}
    (hb : st.before = []) (h : visitItems cx fuel items st = .ok (out, st')) : st'.before = [] := by
  induction items generalizing st out with
  | nil => cases h; exact hb
  | cons i items ih =>
    unfold visitItems at h
    obtain ⟨o, st1, h1, h2⟩ := M.bind_ok h
    obtain ⟨r, st2, h3, h4⟩ := M.bind_ok h2
    cases h4
    refine ih ?_ h3
    unfold visitItem at h1
    split at h1
    · cases h1; exact hb
    · unfold frame at h1
      obtain ⟨⟨old, cur⟩, s1, e1, e2⟩ := M.bind_ok h1
      obtain ⟨r, s2, e3, e4⟩ := M.bind_ok e2
      unfold withBefore at e3
      obtain ⟨r1, s3, e5, e6⟩ := M.bind_ok e3
      cases e6
      cases e4
      rfl

/-- A hinted module item. -/
theorem visitItem_hinted {cx : Ctx} {fuel : Nat} {item : Node} {st st' : St} {out : List Node}
    (hb : st.before = []) (hh : cx.hint item.span = some .next) (hx : isExportConst item = false)
    (h : visitItem cx fuel item st = .ok (out, st')) : out = [item] ∧ st' = st := by
  unfold visitItem at h
  split at h
  · cases h; exact ⟨rfl, rfl⟩
  · obtain ⟨⟨old, cur⟩, s1, e1, e2⟩ := M.bind_ok h
    have h1' : s1.ignore = some .next ∧ s1.before = [] ∧ { s1 with ignore := old, nodes := s1.nodes.tail } = st := by
      simp only [enter, push, enterSpan, Bind.bind, M.bind, hh] at e1
      split at e1
      · next hs => cases e1; exact ⟨hs, hb, rfl⟩
      · cases e1; exact ⟨rfl, hb, rfl⟩
    obtain ⟨r, s2, e3, e4⟩ := M.bind_ok e2
    unfold withBefore at e3
    obtain ⟨r1, s3, e5, e6⟩ := M.bind_ok e3
    unfold itemBody at e5
    obtain ⟨_, s4, e7, e8⟩ := M.bind_ok e5
    obtain ⟨_, rfl⟩ := Still.keepIf (by exact hx) _ _ _ h1'.1 e7
    obtain ⟨rfl, rfl⟩ := Still.visit cx fuel .coverage item _ _ _ h1'.1 e8
    cases e6
    cases e4
    refine ⟨by simp [h1'.2.1], ?_⟩
    rw [← h1'.2.2]
    simp [h1'.2.1]

end Visitor
end Verif
