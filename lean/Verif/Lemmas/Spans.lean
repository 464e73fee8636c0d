import Verif.Lemmas.SoundProgram
/-
A visit returns a tree with the span of the visited tree.
-/
namespace Verif
open Node

namespace Visitor

/-- The results of `x` have span `sp`. -/
def SpanOf (x : M Node) (sp : Span) : Prop := ∀ st a st', x st = .ok (a, st') → a.span = sp

namespace SpanOf
variable {cx : Ctx} {go : Mode → Node → M Node} {sp : Span}

theorem pure {n : Node} (h : n.span = sp) : SpanOf (Pure.pure n) sp := by
  intro st a st' hx
  cases hx
  exact h

theorem bind {α : Type} {x : M α} {f : α → M Node} (hf : ∀ a, SpanOf (f a) sp) : SpanOf (x >>= f) sp := by
  intro st b st' h
  obtain ⟨a, st1, -, h2⟩ := M.bind_ok h
  exact hf a st1 b st' h2

theorem ite {p : Prop} [Decidable p] {x y : M Node} (hx : SpanOf x sp) (hy : SpanOf y sp) :
    SpanOf (if p then x else y) sp := by
  split
  · exact hx
  · exact hy

theorem frame {t : Tag} {s : Span} {body : Option IgnoreScope → M Node} (hb : ∀ cur, SpanOf (body cur) sp) :
    SpanOf (frame cx t s body) sp := by
  unfold Visitor.frame
  refine bind fun x => ?_
  obtain ⟨old, cur⟩ := x
  intro st a st' h
  obtain ⟨r, st1, h1, h2⟩ := M.bind_ok h
  obtain ⟨_, st2, -, h3⟩ := M.bind_ok h2
  cases h3
  exact hb cur st _ st1 h1

theorem guarded {t : Tag} {n : Node} {body : M Node} (hn : n.span = sp) (hb : SpanOf body sp) :
    SpanOf (guarded cx t n body) sp := frame fun _ => ite (pure hn) hb

theorem fresh {ig : Option IgnoreScope} {x : M Node} (hx : SpanOf x sp) :
    SpanOf (Visitor.fresh ig x >>= fun r => Pure.pure r.1) sp := by
  intro st b st' h
  obtain ⟨a, st1, h1, h2⟩ := M.bind_ok h
  cases h2
  unfold Visitor.fresh at h1
  cases hxs : x { st with before := [], ignore := ig } with
  | error e => rw [hxs] at h1; cases h1
  | ok r =>
    obtain ⟨a1, st1⟩ := r
    rw [hxs] at h1
    cases h1
    exact hx _ _ _ hxs

theorem visitChildren (m : Mode) (n : Node) (hn : n.span = sp) : SpanOf (visitChildren cx go m n) sp := by
  unfold Visitor.visitChildren
  split
  · exact bind fun _ => pure hn
  · exact bind fun _ => bind fun _ => pure hn
  · exact bind fun _ => pure hn

theorem logicalChildren (b : Nat) (n : Node) (hn : n.span = sp) : SpanOf (logicalChildren go b n) sp := by
  cases n
  exact bind fun _ => pure hn

theorem visitBin {m : Mode} {b : Option Nat} {children : Node → M Node} {op : BinOp} {left right : Node}
    (hc : ∀ n, n.span = sp → SpanOf (children n) sp) :
    SpanOf (visitBin cx go m b children op sp left right) sp := by
  have he : ∀ (old : Option IgnoreScope) (t : Tag), SpanOf (do
      push t
      let n ← children (mk (.bin op) sp [left, right])
      exit old
      Pure.pure n) sp := by
    intro old t
    refine bind fun _ => ?_
    intro st a st' h
    obtain ⟨r, st1, h1, h2⟩ := M.bind_ok h
    obtain ⟨_, st2, -, h3⟩ := M.bind_ok h2
    cases h3
    exact hc _ rfl st _ st1 h1
  unfold Visitor.visitBin
  refine bind fun x => ?_
  obtain ⟨old, cur⟩ := x
  simp only
  split
  · exact he old _
  · split
    · exact bind fun _ => bind fun _ => bind fun _ => bind fun _ => pure rfl
    · exact he old _

theorem visitArrow {a : String} {params body : Node} :
    SpanOf (visitArrow cx go a sp params body) (mk (.arrow a) sp [params, body]).span := by
  unfold Visitor.visitArrow
  refine bind fun _ => ?_
  split
  · exact bind fun _ => pure rfl
  · exact bind fun _ => pure rfl

theorem visitCond {m : Mode} {cur : Option IgnoreScope} {test cons alt : Node} :
    SpanOf (visitCond cx go m cur sp test cons alt) (mk .cond sp [test, cons, alt]).span :=
  bind fun _ => visitChildren _ _ rfl

theorem visitIf {m : Mode} {cur : Option IgnoreScope} {test cons alt : Node} :
    SpanOf (visitIf cx go m cur sp test cons alt) (mk .ifStmt sp [test, cons, alt]).span :=
  bind fun _ => bind fun _ => bind fun _ => bind fun _ => bind fun _ => pure rfl

theorem visitCase {b : Nat} {test : Node} {cons : List Node} :
    SpanOf (visitCase cx go b sp test cons) (mk .switchCase sp (test :: cons)).span :=
  bind fun _ => bind fun _ => bind fun _ => pure rfl

theorem visitAccessor {m : Mode} {n key body : Node} {rebuild : Node → Node} (hn : n.span = sp)
    (hr : ∀ b, (rebuild b).span = sp) : SpanOf (visitAccessor cx go m n key body rebuild) sp := by
  unfold Visitor.visitAccessor
  split
  · exact ite (pure hn) (bind fun _ => visitChildren _ _ (hr _))
  · exact bind fun _ => visitChildren _ _ (hr _)

theorem visitNode (m : Mode) (n : Node) : SpanOf (visitNode cx go m n) n.span := by
  unfold Visitor.visitNode
  split
  all_goals (try simp only)
  all_goals repeat' first
    | with_reducible refine visitChildren _ _ ?_
    | with_reducible refine guarded ?_ ?_
    | with_reducible refine frame fun _ => ?_
    | with_reducible refine pure ?_
    | with_reducible refine fresh ?_
    | with_reducible refine bind fun _ => ?_
    | with_reducible refine ite ?_ ?_
    | with_reducible refine visitArrow
    | with_reducible refine visitCond
    | with_reducible refine visitIf
    | with_reducible refine visitCase
    | with_reducible refine visitAccessor ?_ ?_
    | exact visitBin fun _ h => visitChildren _ _ h
    | assumption
    | rfl
    | (intro _; rfl)
    | split

end SpanOf

theorem visit_span (cx : Ctx) (fuel : Nat) (m : Mode) (n : Node) : SpanOf (visit cx fuel m n) n.span := by
  induction fuel generalizing m n with
  | zero => intro st a st' h; cases h
  | succ fuel ih =>
    unfold visit step
    split
    · unfold visitLogical
      split
      · exact .frame fun _ => ih _ _
      · exact .logicalChildren _ _ rfl
    · unfold visitLogicalInner
      split
      · exact .visitBin fun n hn => .logicalChildren _ n hn
      · exact .logicalChildren _ _ rfl
    · exact .visitNode _ _

end Visitor
end Verif
