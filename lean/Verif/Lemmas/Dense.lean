import Verif.Spec.Dense
import Verif.Lemmas.Each
import Verif.Lemmas.Arms
import Mathlib.Data.List.Forall2
/-
No branch of a program is left without arms: every visit gives arms to the branches that it registers, and to the branch of its mode.
-/
namespace Verif
open Node

namespace Dense
variable {cx : Ctx}

/-! ### Trees -/

theorem calm_mk {k : Kind} {sp : Span} {cs : List Node} :
    cx.calm (mk k sp cs) ↔ cx.quiet sp ∧ ∀ c ∈ cs, cx.calm c := by
  constructor
  · exact fun h => ⟨h _ (each_self _), fun c hc x hx => h x (mem_each_mk.2 (.inr ⟨c, hc, hx⟩))⟩
  · rintro ⟨h1, h2⟩ x hx
    rcases mem_each_mk.1 hx with rfl | ⟨c, hc, hx⟩
    · exact h1
    · exact h2 c hc x hx

theorem armed_mk {k : Kind} {sp : Span} {cs : List Node} :
    cx.Armed (mk k sp cs) ↔ cx.armed (mk k sp cs) ∧ ∀ c ∈ cs, cx.Armed c := by
  constructor
  · exact fun h => ⟨h _ (each_self _), fun c hc x hx => h x (mem_each_mk.2 (.inr ⟨c, hc, hx⟩))⟩
  · rintro ⟨h1, h2⟩ x hx
    rcases mem_each_mk.1 hx with rfl | ⟨c, hc, hx⟩
    · exact h1
    · exact h2 c hc x hx

theorem each_sub {a b c : Node} (h : b ∈ each a) (h' : c ∈ each b) : c ∈ each a := by
  induction a using Node.ind with
  | h k sp cs ih =>
    rcases mem_each_mk.1 h with rfl | ⟨x, hx, h⟩
    · exact h'
    · exact mem_each_mk.2 (.inr ⟨x, hx, ih x hx h⟩)

/-- Kinds of which something is asked. -/
def branching : Kind → Bool
  | .bin op => op.isLogical
  | .cond | .assignPat | .switchStmt => true
  | _ => false

theorem armed_of {k : Kind} {sp : Span} {cs : List Node} (hk : branching k = false) : cx.armed (mk k sp cs) := by
  cases k <;> first | trivial | (simp [branching] at hk; done) | skip
  case bin op =>
    intro h
    rcases h with rfl | rfl | rfl <;> cases hk

theorem Armed.child {k : Kind} {sp : Span} {cs : List Node} (h : cx.Armed (mk k sp cs)) {c : Node} (hc : c ∈ cs) : cx.Armed c :=
  (armed_mk.1 h).2 c hc

theorem calm_root {n : Node} (h : cx.calm n) : cx.quiet n.span := h n (each_self n)

/-- A tree that takes the place of another: it is armed, and calm if the other is. -/
def Fine (cx : Ctx) (n r : Node) : Prop := cx.Armed r ∧ (cx.calm n → cx.calm r)

theorem Fine.refl {n : Node} (h : cx.Armed n) : Fine cx n n := ⟨h, id⟩

/-- The same for lists. -/
structure Lists (cx : Ctx) (cs out : List Node) : Prop where
  armed : ∀ c ∈ out, cx.Armed c
  calm : (∀ c ∈ cs, cx.calm c) → ∀ c ∈ out, cx.calm c
  some : cs ≠ [] → out ≠ []

theorem Lists.nil : Lists cx [] [] := ⟨nofun, fun _ => nofun, fun h => (h rfl).elim⟩

theorem Lists.refl {cs : List Node} (h : ∀ c ∈ cs, cx.Armed c) : Lists cx cs cs := ⟨h, id, id⟩

theorem Lists.cons {a a' : Node} {b b' : List Node} (h : Fine cx a a') (h' : Lists cx b b') : Lists cx (a :: b) (a' :: b') where
  armed c hc := by
    rcases List.mem_cons.1 hc with rfl | hc
    · exact h.1
    · exact h'.armed c hc
  calm hcs c hc := by
    rcases List.mem_cons.1 hc with rfl | hc
    · exact h.2 (hcs a (by simp))
    · exact h'.calm (fun d hd => hcs d (by simp [hd])) c hc
  some _ := by simp

/-- Something calm is put in front. -/
theorem Lists.extra {a : Node} {b b' : List Node} (h : cx.Armed a) (hc : cx.calm a) (h' : Lists cx b b') : Lists cx b (a :: b') where
  armed c hc := by
    rcases List.mem_cons.1 hc with rfl | hc
    · exact h
    · exact h'.armed c hc
  calm hcs c hm := by
    rcases List.mem_cons.1 hm with rfl | hm
    · exact hc
    · exact h'.calm hcs c hm
  some _ := by simp

theorem Lists.append {a a' b b' : List Node} (h : Lists cx a a') (h' : Lists cx b b') : Lists cx (a ++ b) (a' ++ b') where
  armed c hc := by
    rcases List.mem_append.1 hc with hc | hc
    · exact h.armed c hc
    · exact h'.armed c hc
  calm hcs c hm := by
    rcases List.mem_append.1 hm with hm | hm
    · exact h.calm (fun d hd => hcs d (by simp [hd])) c hm
    · exact h'.calm (fun d hd => hcs d (by simp [hd])) c hm
  some hn := by
    intro he
    obtain ⟨h1, h2⟩ := List.append_eq_nil_iff.1 he
    refine hn (List.append_eq_nil_iff.2 ⟨?_, ?_⟩)
    · exact Decidable.byContradiction fun hne => h.some hne h1
    · exact Decidable.byContradiction fun hne => h'.some hne h2

/-- Statements put in front of a statement. -/
theorem Lists.before {s s' : Node} {o : List Node} (ho : ∀ c ∈ o, cx.Armed c ∧ cx.calm c) (h : Fine cx s s') :
    Lists cx [s] (o ++ [s']) := by
  induction o with
  | nil => exact .cons h .nil
  | cons a o ih => exact .extra (ho a (by simp)).1 (ho a (by simp)).2 (ih fun c hc => ho c (by simp [hc]))

/-- What becomes of a node that is visited. -/
structure Done (cx : Ctx) (n r : Node) : Prop where
  make ::
  armed : cx.Armed r
  calm : cx.calm n → cx.calm r
  kind : r.kind = n.kind
  span : r.span = n.span
  some : n.children ≠ [] → r.children ≠ []

theorem Done.refl {n : Node} (h : cx.Armed n) : Done cx n n := ⟨h, id, rfl, rfl, id⟩

theorem Done.fine {n r : Node} (h : Done cx n r) : Fine cx n r := ⟨h.armed, h.calm⟩

theorem Done.trans {a b c : Node} (h : Done cx a b) (h' : Done cx b c) : Done cx a c :=
  ⟨h'.armed, fun x => h'.calm (h.calm x), h'.kind.trans h.kind, h'.span.trans h.span, fun x => h'.some (h.some x)⟩

/-- A node is built of new children. -/
theorem Done.build {k : Kind} {sp : Span} {cs cs' : List Node} (hk : branching k = false) (h : Lists cx cs cs') :
    Done cx (mk k sp cs) (mk k sp cs') where
  armed := armed_mk.2 ⟨armed_of hk, h.armed⟩
  calm hc := calm_mk.2 ⟨(calm_mk.1 hc).1, h.calm (calm_mk.1 hc).2⟩
  kind := rfl
  span := rfl
  some := h.some

theorem Fine.build {k : Kind} {sp : Span} {n : Node} {cs cs' : List Node} (hk : branching k = false)
    (hc : cx.calm n → cx.quiet sp ∧ ∀ c ∈ cs, cx.calm c) (h : Lists cx cs cs') : Fine cx n (mk k sp cs') :=
  ⟨armed_mk.2 ⟨armed_of hk, h.armed⟩, fun x => calm_mk.2 ⟨(hc x).1, h.calm (hc x).2⟩⟩

/-- The children of any node are visited one by one. -/
theorem Done.map {k : Kind} {sp : Span} {cs cs' : List Node} (hn : cx.Armed (mk k sp cs)) (h : List.Forall₂ (Done cx) cs cs') :
    Done cx (mk k sp cs) (mk k sp cs') := by
  have hl : Lists cx cs cs' := by
    clear hn
    induction h with
    | nil => exact .nil
    | cons h _ ih => exact .cons h.fine ih
  refine ⟨armed_mk.2 ⟨?_, hl.armed⟩, fun hc => calm_mk.2 ⟨(calm_mk.1 hc).1, hl.calm (calm_mk.1 hc).2⟩, rfl, rfl, hl.some⟩
  have h0 := (armed_mk.1 hn).1
  by_cases hk : branching k = false
  · exact armed_of hk
  cases k <;> first | exact absurd rfl hk | skip
  case bin op =>
    intro ho
    obtain ⟨h1, c, hc, h2⟩ := h0 ho
    obtain ⟨i, hi, rfl⟩ := List.getElem_of_mem hc
    have hi' : i < cs'.length := h.length_eq ▸ hi
    exact ⟨h.length_eq ▸ h1, cs'[i], List.getElem_mem _, ((List.forall₂_iff_get.1 h).2 i hi hi').calm h2⟩
  case cond =>
    intro t c a he
    subst he
    match cs, h with
    | [t0, c0, a0], .cons _ (.cons hc (.cons ha .nil)) =>
      refine (h0 _ _ _ rfl).imp (fun x => ?_) (fun x => ?_)
      · rw [hc.span]; exact x
      · rw [ha.span]; exact x
  case assignPat =>
    intro l r he
    subst he
    match cs, h with
    | [l0, r0], .cons _ (.cons hr .nil) => exact hr.calm (h0 _ _ rfl)
  case switchStmt =>
    obtain ⟨c, hc, h1, h2, h3⟩ := h0
    obtain ⟨i, hi, rfl⟩ := List.getElem_of_mem hc
    have hi' : i < cs'.length := h.length_eq ▸ hi
    have hd := (List.forall₂_iff_get.1 h).2 i hi hi'
    exact ⟨cs'[i], List.getElem_mem _, hd.kind.trans h1, hd.some h2, by
      have := hd.span
      simp only [List.get_eq_getElem] at this
      rw [this]; exact h3⟩

/-! ### Injected trees -/

section
variable (hd : cx.quiet Span.dummy)
include hd

theorem calm_counterExpr (c : Counter) : cx.calm (counterExpr c) := calm_mk.2 ⟨hd, nofun⟩

theorem calm_counterStmt (c : Counter) : cx.calm (counterStmt c) :=
  calm_mk.2 ⟨hd, by simpa using calm_counterExpr hd c⟩

omit hd in
theorem armed_counterExpr (c : Counter) : cx.Armed (counterExpr c) := armed_mk.2 ⟨armed_of rfl, nofun⟩

omit hd in
theorem armed_counterStmt (c : Counter) : cx.Armed (counterStmt c) :=
  armed_mk.2 ⟨armed_of rfl, by simpa using armed_counterExpr c⟩

theorem fine_wrapCounter (c : Counter) {e : Node} (he : cx.Armed e) : Fine cx e (wrapCounter c e) := by
  refine .build rfl (cs := [e]) (fun h => ⟨hd, by simpa using h⟩) (.cons ?_ .nil)
  exact .build rfl (cs := [e]) (fun h => ⟨hd, by simpa using h⟩)
    (.extra (armed_counterExpr c) (calm_counterExpr hd c) (.cons (.refl he) .nil))

theorem calm_of_dummy {n : Node} (h : n.each.all (fun x => decide (x.span = Span.dummy)) = true) : cx.calm n := by
  intro x hx
  rw [of_decide_eq_true (List.all_eq_true.1 h x hx)]
  exact hd

/-- Trees without positions only have to have logical expressions with two operands. -/
def shaped (n : Node) : Bool :=
  n.each.all fun x => decide (x.span = Span.dummy) && (match x.kind with
    | .bin op => !op.isLogical || x.children.length == 2
    | .switchStmt => false
    | _ => true)

theorem armed_of_shaped {n : Node} (h : shaped n = true) : cx.Armed n := by
  have hs : ∀ x ∈ n.each, x.span = Span.dummy := fun x hx =>
    of_decide_eq_true (Bool.and_eq_true_iff.1 (List.all_eq_true.1 h x hx)).1
  have hc : ∀ x ∈ n.each, ∀ c ∈ x.children, cx.calm c := by
    intro x hx c hc y hy
    obtain ⟨k, sp, cs⟩ := x
    rw [hs y (each_sub hx (mem_each_mk.2 (.inr ⟨c, hc, hy⟩)))]
    exact hd
  intro x hx
  have h1 := (Bool.and_eq_true_iff.1 (List.all_eq_true.1 h x hx)).2
  obtain ⟨k, sp, cs⟩ := x
  by_cases hk : branching k = false
  · exact armed_of hk
  cases k <;> first | exact absurd rfl hk | skip
  case bin op =>
    intro ho
    have hl : op.isLogical = true := by rcases ho with rfl | rfl | rfl <;> rfl
    simp only [Node.kind, hl, Bool.not_true, Bool.false_or, beq_iff_eq] at h1
    obtain ⟨a, b, rfl⟩ := List.length_eq_two.1 h1
    exact ⟨rfl, a, List.mem_cons_self, hc _ hx a (by simp [Node.children])⟩
  case cond =>
    rintro t c a rfl
    exact .inl (calm_root (hc _ hx c (by simp [Node.children])))
  case assignPat =>
    rintro l r rfl
    exact hc _ hx r (by simp [Node.children])
  case switchStmt => cases h1

theorem fine_wrapTruth (b a : Nat) {e : Node} (he : cx.Armed e) : Fine cx e (wrapTruth b a e) := by
  have h1 : ∀ {k : Kind} {cs : List Node}, branching k = false → Lists cx [e] cs → Fine cx e (mk k Span.dummy cs) :=
    fun hk h => .build hk (cs := [e]) (fun h => ⟨hd, by simpa using h⟩) h
  refine h1 rfl (.extra (armed_counterExpr _) (calm_counterExpr hd _) (.cons (h1 rfl ?_) .nil))
  refine (Lists.cons (h1 rfl (.extra (armed_of_shaped hd rfl) (calm_of_dummy hd rfl) (.cons (.refl he) .nil))) .nil).append
    (a := [e]) (b := []) ?_
  exact .extra (armed_of_shaped hd rfl) (calm_of_dummy hd rfl) (.extra (armed_of_shaped hd rfl) (calm_of_dummy hd rfl) .nil)

end
end Dense
end Verif
