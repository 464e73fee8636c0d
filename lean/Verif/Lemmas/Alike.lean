import Verif.Spec.Alike
import Verif.Lemmas.Thin
import Verif.Lemmas.Braces
/-
Constructs whose parts are alike are alike.
-/
namespace Verif

theorem Kind.loose_of_inner {k : Kind} (h : k.inner = true) : k.loose = true := by
  cases k with
  | other c _ => cases c <;> first | rfl | exact absurd h Bool.noConfusion
  | _ => first | exact h | rfl

theorem Kind.loose_blur (k : Kind) : k.blur.loose = k.loose := by cases k <;> rfl

theorem Kind.blur_loose {k k' : Kind} (h : k'.blur = k.blur) : k'.loose = k.loose := by
  rw [← Kind.loose_blur k', h, Kind.loose_blur]

namespace Alike
open Node
variable {cx : Ctx} {a b c : Node}

theorem refl (a : Node) : Alike cx a a := ⟨.inl rfl, rfl, rfl, rfl, rfl, rfl, fun _ => ⟨rfl, rfl, rfl⟩, id, rfl, fun _ => rfl⟩

theorem trans (h : Alike cx a b) (h' : Alike cx b c) : Alike cx a c :=
  ⟨by
      rcases h.kind with h1 | h1 <;> rcases h'.kind with h2 | h2
      · exact .inl (h2.trans h1)
      · exact .inr ⟨Kind.blur_loose h1 ▸ h2.1, h2.2⟩
      · exact .inr ⟨h1.1, (Kind.blur_loose h2).trans h1.2⟩
      · exact .inr ⟨h1.1, h2.2⟩,
    h'.span.trans h.span, h'.traits.trans h.traits, h'.fnParts.trans h.fnParts, h'.logical.trans h.logical,
    h'.stmts.trans h.stmts, fun hn => by
      have h1 := h.rest hn
      have h2 := h'.rest (h.stmts.trans hn)
      exact ⟨h2.1.trans h1.1, h2.2.1.trans h1.2.1, h2.2.2.trans h1.2.2⟩,
    fun hb => h'.blocks (h.blocks hb), h'.arms.trans h.arms, fun l => (h'.entries l).trans (h.entries l)⟩

theorem hinted (h : Alike cx a b) : cx.hinted b = cx.hinted a := by
  unfold Ctx.hinted
  rw [h.span]

theorem isCase (h : Alike cx a b) : b.isCase = a.isCase := congrArg (·.1) h.traits

theorem isNone (h : Alike cx a b) : b.isNone = a.isNone := congrArg (·.2.1) h.traits

theorem injected (h : Alike cx a b) : isInjectedStmt b = isInjectedStmt a := congrArg (·.2.2.1) h.traits

theorem isString (h : Alike cx a b) : isString b = isString a := congrArg (·.2.2.2.1) h.traits

theorem isConst (h : Alike cx a b) : isConst b = isConst a := congrArg (·.2.2.2.2) h.traits

/-- Whatever depends on the kind only, and is the same for kinds that are treated alike and for all inner expressions, is the same. -/
theorem same {φ : Node → α} {d : α} (h : Alike cx a b) (h0 : ∀ k sp cs, φ (Node.mk k sp cs) = φ (Node.mk k.blur Span.dummy []))
    (h1 : ∀ (k : Kind) sp cs, k.loose = true → φ (Node.mk k sp cs) = d) : φ b = φ a := by
  have hk := h.kind
  obtain ⟨k, sp, cs⟩ := a
  obtain ⟨k', sp', cs'⟩ := b
  rcases hk with hk | ⟨h2, h3⟩
  · replace hk : k'.blur = k.blur := hk
    rw [h0 k', h0 k, hk]
  · rw [h1 k sp cs h2, h1 k' sp' cs' h3]

theorem isBlock (h : Alike cx a b) : decide (b.kind = .block) = decide (a.kind = .block) :=
  h.same (φ := fun n => decide (n.kind = .block)) (d := false) (fun k _ _ => by cases k <;> rfl)
    fun k _ _ h => by cases k <;> first | rfl | exact absurd h Bool.noConfusion

/-- Both are functions, or none is. -/
theorem isFn (h : Alike cx a b) : (b.kind.blur = .function "") = (a.kind.blur = .function "") :=
  propext (decide_eq_decide.1 (h.same (φ := fun n => decide (n.kind.blur = .function "")) (d := false) (fun k _ _ => by cases k <;> rfl)
    fun k _ _ h => by cases k <;> first | rfl | exact absurd h Bool.noConfusion))

theorem isBlock_eq (h : Alike cx a b) : (b.kind = .block) = (a.kind = .block) := propext (decide_eq_decide.1 h.isBlock)

theorem propName (h : Alike cx a b) : b.propName? = a.propName? :=
  h.same (φ := fun n => n.propName?) (d := none) (fun k _ _ => by cases k <;> rfl)
    fun k _ _ h => by cases k <;> first | rfl | exact absurd h Bool.noConfusion

theorem injectedExpr (h : Alike cx a b) : isInjectedExpr b = isInjectedExpr a :=
  h.same (φ := isInjectedExpr) (d := false) (fun k _ _ => by cases k <;> first | rfl | (rename_i c; cases c <;> rfl))
    fun k _ _ h => by cases k <;> first | rfl | exact absurd h Bool.noConfusion

theorem leaf (h : Alike cx a b) : leaf cx b = leaf cx a := by
  unfold Node.leaf
  rw [h.hinted, h.logical]

theorem lookStmt (h : Alike cx a b) : lookStmt cx b = lookStmt cx a := by
  unfold Node.lookStmt
  rw [h.hinted, h.injected]

theorem operands (h : Alike cx a b) : cx.ranges (operands cx [b]) = cx.ranges (operands cx [a]) := by
  show cx.ranges ((if cx.hinted b = true then [] else if b.any Kind.isLogical = true then leaves cx b else [b]) ++ []) =
    cx.ranges ((if cx.hinted a = true then [] else if a.any Kind.isLogical = true then leaves cx a else [a]) ++ [])
  rw [List.append_nil, List.append_nil, h.hinted, h.logical]
  split
  · rfl
  · split
    · exact h.arms
    · show [cx.range b.span] = [cx.range a.span]
      rw [h.span]

theorem ofInit (h : Alike cx a b) (hb : a.any Kind.hasBody = true → a.any Kind.isBlock = true) (d : Bool) : ofInit cx d b = ofInit cx d a := by
  unfold Node.ofInit
  rw [h.isNone, h.span]
  cases hx : a.any Kind.hasBody with
  | true => rw [if_pos (hb hx), if_pos (h.blocks (hb hx))]
  | false =>
    obtain ⟨h1, h2, h3⟩ := h.rest hx
    have none : ∀ n : Node, n.any Kind.hasBody = false → n.any Kind.isBlock = false := by
      intro n hn
      cases hi : n.any Kind.isBlock with
      | false => rfl
      | true =>
        obtain ⟨m, hm, hk⟩ := any_iff.1 hi
        have := each_of_any hn m hm
        obtain ⟨k, sp, cs⟩ := m
        cases k <;> first | exact absurd hk Bool.noConfusion | exact absurd this Bool.noConfusion
    rw [none a hx, none b (h.stmts.trans hx), h1, h2, h3]

end Alike

namespace Node
variable {cx : Ctx} {g : Node → Node}

private def third : List (Bool × Span) → Option (Bool × Span)
  | [_, _, c] => some c
  | _ => none

section
variable (hg : ∀ c, Alike cx c (g c))
include hg

theorem alike_leaves (k : Kind) (sp : Span) (cs : List Node) : cx.ranges (leaves cx (mk k sp (cs.map g))) = cx.ranges (leaves cx (mk k sp cs)) := by
  have hl : cx.ranges (leavesList cx (cs.map g)) = cx.ranges (leavesList cx cs) := by
    induction cs with
    | nil => rfl
    | cons c cs ih =>
      show cx.ranges (leaves cx (g c) ++ leavesList cx (cs.map g)) = cx.ranges (leaves cx c ++ leavesList cx cs)
      rw [ranges_append, ranges_append, (hg c).arms, ih]
  by_cases hn : (!k.noExpr && decide (cx.hint sp = some .next)) = true
  · unfold leaves
    rw [if_pos hn, if_pos hn]
  · unfold leaves
    rw [if_neg hn, if_neg hn]
    cases k with
    | bin op =>
      match cs, hl with
      | [], hl => exact hl
      | [_], hl => exact hl
      | _ :: _ :: _ :: _, hl => exact hl
      | [a, b], hl =>
        show cx.ranges (if op.isLogical then operands cx [g a, g b] else leavesList cx [g a, g b]) =
          cx.ranges (if op.isLogical then operands cx [a, b] else leavesList cx [a, b])
        by_cases ho : op.isLogical = true
        · rw [if_pos ho, if_pos ho]
          have both (x y : Node) : operands cx [x, y] = operands cx [x] ++ operands cx [y] := by
            simp only [operands, List.append_nil]
          rw [both, both, ranges_append, ranges_append, (hg a).operands, (hg b).operands]
        · rw [if_neg ho, if_neg ho]
          exact hl
    | _ => exact hl

theorem alike_lookLoop (l : Look) (cs : List Node) : lookLoop cx l (cs.map (g)) = lookLoop cx l cs := by
  fun_induction lookLoop cx l cs with
  | case1 => rfl
  | case2 b =>
    show [if (g b).kind = .block then l else if cx.hint Span.dummy = some .next then .skip else lookStmt cx (g b)] = _
    simp only [(hg b).isBlock_eq, (hg b).lookStmt]
  | case3 c cs h ih =>
    match cs, h with
    | [], h => exact absurd rfl h
    | d :: cs, _ => exact congrArg (l :: ·) ih

/-- How the parts are looked at. -/
theorem looks_alike (k : Kind) (l : Look) (sp : Span) (cs : List Node) (hx : ∀ c ∈ cs, (g c).mark k = c.mark k) :
    looks cx l (mk k sp (cs.map (g))) = looks cx l (mk k sp cs) := by
  have hc : ∀ (cs : List Node) (l : Look), (cs.map (g)).map (fun _ => l) = cs.map fun _ => l := fun cs l => by rw [List.map_map]; rfl
  have hs : ∀ ss : List Node, (ss.map g).map (lookStmt cx) = ss.map (lookStmt cx) := fun ss => by
    rw [List.map_map]
    exact List.map_congr_left fun s _ => (hg s).lookStmt
  cases k with
  | block => exact hs cs
  | switchCase =>
    match cs with
    | [] => rfl
    | c :: ss => exact congrArg (l :: ·) (hs ss)
  | ifStmt =>
    match cs with
    | [] | [_] | [_, _] => rfl
    | a :: b :: c :: d :: cs => exact hc (a :: b :: c :: d :: cs) l
    | [a, b, c] =>
      show [l, if cx.hint sp = some .if then .skip else .body, if cx.hint sp = some .else || (g c).isNone then .skip else .body] = _
      rw [(hg c).isNone]
      rfl
  | withStmt =>
    match cs with
    | [] | [_] | [_, _] => rfl
    | a :: b :: c :: cs => exact hc (a :: b :: c :: cs) l
  | loop =>
    show lookLoop cx l (cs.map (g)) = lookLoop cx l cs
    exact alike_lookLoop hg l cs
  | switchStmt => exact hc _ _
  | arrow =>
    match cs with
    | [] | [_] => rfl
    | a :: b :: c :: cs => exact hc (a :: b :: c :: cs) l
    | [a, b] =>
      show [Look.skip, if (g b).kind = .block then .body else if cx.hinted (g b) then .skip else .inner] = _
      simp only [(hg b).isBlock_eq, (hg b).hinted]
      rfl
  | exprStmt =>
    match cs with
    | [] => rfl
    | a :: c :: cs =>
      have h2 : ∀ a b : Node, looks cx l (mk .exprStmt sp (a :: b :: cs)) = l :: l :: cs.map fun _ => l := fun a b => by
        obtain ⟨k', sp', cs'⟩ := a
        cases k' <;> rfl
      have h3 : ∀ a b : Node, looks cx l (mk .exprStmt sp (a :: b :: cs.map g)) = l :: l :: (cs.map g).map fun _ => l := fun a b => by
        obtain ⟨k', sp', cs'⟩ := a
        cases k' <;> rfl
      rw [h2]
      exact (h3 _ _).trans (congrArg (l :: l :: ·) (hc cs l))
    | [a] =>
      exact (hg a).same (φ := fun a => looks cx l (mk .exprStmt sp [a])) (d := [l]) (fun k _ _ => by cases k <;> rfl)
        fun k _ _ h => by cases k <;> first | rfl | exact absurd h Bool.noConfusion
  | fnExpr =>
    match cs with
    | [] | [_] => rfl
    | a :: b :: c :: cs => exact hc (a :: b :: c :: cs) l
    | [a, b] =>
      show (if cx.excludes (g a).identName? then [Look.skip, .skip] else [l, l]) = _
      rw [show (g a).identName? = a.identName? from congrArg (·.2) (hx a (.head _))]
      rfl
  | classMethod =>
    match cs with
    | [] | [_] => rfl
    | a :: b :: c :: cs => exact hc (a :: b :: c :: cs) l
    | [a, b] =>
      show (if (g a).propName? = none || cx.excludes (g a).propName? then [Look.skip, .skip] else [l, l]) = _
      rw [(hg a).propName]
      rfl
  | methodProp =>
    match cs with
    | [] | [_] => rfl
    | a :: b :: c :: cs => exact hc (a :: b :: c :: cs) l
    | [a, b] =>
      show (if cx.excludes (g a).propName? then [Look.skip, .skip] else [l, l]) = _
      rw [(hg a).propName]
      rfl
  | getterProp =>
    match cs with
    | [] | [_] => rfl
    | a :: b :: c :: cs => exact hc (a :: b :: c :: cs) l
    | [a, b] =>
      show (if cx.excludes (g a).propName? then [Look.skip, .skip] else [l, l]) = _
      rw [(hg a).propName]
      rfl
  | setterProp =>
    match cs with
    | [] | [_] | [_, _] | [_, _, _] => rfl
    | a :: b :: c :: d :: e :: cs => exact hc (a :: b :: c :: d :: e :: cs) l
    | [a, b, c, d] =>
      show (if cx.excludes (g a).propName? then [Look.skip, .skip, .skip, .skip] else [l, l, l, l]) = _
      rw [(hg a).propName]
      rfl
  | bin op =>
    match cs with
    | [] | [_] => rfl
    | a :: b :: c :: cs => exact hc (a :: b :: c :: cs) l
    | [a, b] =>
      show (if op.isLogical then [if leaf cx (g a) then l else .skip, if leaf cx (g b) then l else .skip] else [l, l]) = _
      rw [(hg a).leaf, (hg b).leaf]
      rfl
  | assignPat =>
    match cs with
    | [] | [_] => rfl
    | a :: b :: c :: cs => exact hc (a :: b :: c :: cs) l
    | [a, b] =>
      show [Look.skip, if leaf cx (g b) then l else .skip] = _
      rw [(hg b).leaf]
      rfl
  | _ => exact hc _ l


/-! ### Statements, functions and branches of a construct -/

theorem alike_counted {k : Kind} {sp : Span} {cs : List Node}
    (h : ∀ init ∈ initOf (mk k sp cs), init.any Kind.hasBody = true → init.any Kind.isBlock = true) :
    counted cx (mk k sp (cs.map g)) = counted cx (mk k sp cs) := by
  cases k with
  | ifStmt =>
    match cs with
    | [] | [_] | [_, _] | [_, _, _] => rfl
    | _ :: _ :: _ :: _ :: _ => rfl
  | withStmt =>
    match cs with
    | [] | [_] | [_, _] => rfl
    | _ :: _ :: _ :: _ => rfl
  | exprStmt =>
    match cs with
    | [] => rfl
    | a :: c :: cs =>
      have h2 : ∀ (a b : Node) (cs : List Node), counted cx (mk .exprStmt sp (a :: b :: cs)) = [] := fun a b cs => by
        obtain ⟨k', sp', cs'⟩ := a
        cases k' <;> first | rfl | (rename_i c; cases c <;> rfl)
      exact (h2 _ _ _).trans (h2 _ _ _).symm
    | [a] =>
      exact (hg a).same (φ := fun a => counted cx (mk .exprStmt sp [a])) (d := [.statement (cx.range sp) true]) (fun k _ _ => by cases k <;> first | rfl | (rename_i c; cases c <;> rfl))
        fun k _ _ h => by cases k <;> first | rfl | exact absurd h Bool.noConfusion
  | arrow =>
    match cs with
    | [] | [_] => rfl
    | _ :: _ :: _ :: _ => rfl
    | [a, b] =>
      show (if (g b).kind = .block || cx.hinted (g b) then [] else [Entry.statement (cx.range (g b).span) true]) = _
      rw [(hg b).isBlock, (hg b).hinted, (hg b).span]
      rfl
  | varDeclarator =>
    match cs, h with
    | [], _ | [_], _ => rfl
    | _ :: _ :: _ :: _, _ => rfl
    | [a, e], h => exact (hg e).ofInit (h e rfl) true
  | classProp =>
    match cs, h with
    | [], _ | [_], _ | [_, _], _ => rfl
    | _ :: _ :: _ :: _ :: _, _ => rfl
    | [a, e, b], h => exact (hg e).ofInit (h e rfl) false
  | privateProp =>
    match cs, h with
    | [], _ | [_], _ | [_, _], _ => rfl
    | _ :: _ :: _ :: _ :: _, _ => rfl
    | [a, e, b], h => exact (hg e).ofInit (h e rfl) false
  | _ => rfl

theorem alike_filter {f : Node → Bool} (hf : ∀ n, f (g n) = f n) (cs : List Node) :
    cx.ranges ((cs.map g).filter f) = cx.ranges (cs.filter f) := by
  induction cs with
  | nil => rfl
  | cons c cs ih =>
    rw [List.map_cons, List.filter_cons, List.filter_cons, hf]
    split
    · show cx.range (g c).span :: _ = cx.range c.span :: _
      rw [(hg c).span]
      exact congrArg _ ih
    · exact ih

/-- The branch of a construct. -/
theorem alike_branch (k : Kind) (sp : Span) (cs : List Node) : (mk k sp (cs.map g)).branch? cx = (mk k sp cs).branch? cx := by
  cases k with
  | ifStmt =>
    match cs with
    | [] | [_] | [_, _] | [_, _, _] => rfl
    | _ :: _ :: _ :: _ :: _ => rfl
  | cond =>
    match cs with
    | [] | [_] | [_, _] => rfl
    | _ :: _ :: _ :: _ :: _ => rfl
    | [t, a, b] =>
      show some (BranchType.condExpr, cx.ranges (([a, b].map g).filter fun e => !cx.hinted e)) = _
      rw [alike_filter hg fun n => by rw [(hg n).hinted]]
      rfl
  | switchStmt =>
    show some (BranchType.switch, cx.ranges ((cs.map g).filter fun c => c.isCase && !cx.hinted c)) = _
    rw [alike_filter hg fun n => by rw [(hg n).hinted, (hg n).isCase]]
    rfl
  | assignPat =>
    match cs with
    | [] | [_] => rfl
    | _ :: _ :: _ :: _ => rfl
    | [a, b] =>
      show some (BranchType.defaultArg, cx.ranges (operands cx [g b])) = _
      rw [(hg b).operands]
      rfl
  | bin op =>
    match cs with
    | [] | [_] => rfl
    | _ :: _ :: _ :: _ => rfl
    | [a, b] =>
      unfold branch?
      have hk : (mk (.bin op) sp ([a, b].map g)).branchKind = (mk (.bin op) sp [a, b]).branchKind := rfl
      rw [hk]
      congr 1
      funext t
      have hc : cx.ranges ((mk (.bin op) sp ([a, b].map g)).choices cx) = cx.ranges ((mk (.bin op) sp [a, b]).choices cx) := by
        show cx.ranges (if op.isLogical then operands cx [g a, g b] else []) = cx.ranges (if op.isLogical then operands cx [a, b] else [])
        split
        · have both (x y : Node) : operands cx [x, y] = operands cx [x] ++ operands cx [y] := by simp only [operands, List.append_nil]
          rw [both, both, ranges_append, ranges_append, (hg a).operands, (hg b).operands]
        · rfl
      rw [hc]
      rfl
  | _ => rfl

theorem alike_fnHead (k : Kind) (sp : Span) (cs : List Node) (hx : ∀ c ∈ cs, (g c).mark k = c.mark k) : fnHead cx (mk k sp (cs.map g)) = fnHead cx (mk k sp cs) := by
  cases k with
  | fnDecl =>
    match cs with
    | [] | [_] => rfl
    | a :: f :: c :: cs =>
      have h3 : ∀ (a f c : Node) (cs : List Node), fnHead cx (mk .fnDecl sp (a :: f :: c :: cs)) = none := fun a f c cs => by
        obtain ⟨k', sp', cs'⟩ := f
        cases k' <;> rfl
      exact (h3 _ _ _ _).trans (h3 _ _ _ _).symm
    | [a, f] =>
      have hv : ∀ a f : Node, fnHead cx (mk .fnDecl sp [a, f]) = if f.kind.blur = .function "" then
          some (a.identName?, if a.identName?.isSome then a.span else f.span) else none := fun a f => by
        obtain ⟨k, sp, cs⟩ := f
        cases k <;> rfl
      show fnHead cx (mk .fnDecl sp [g a, g f]) = _
      rw [hv, hv, show (g a).identName? = a.identName? from congrArg (·.2) (hx a (.head _)), (hg a).span, (hg f).span]
      simp only [(hg f).isFn]
  | fnExpr =>
    match cs with
    | [] | [_] => rfl
    | a :: f :: c :: cs =>
      have h3 : ∀ (a f c : Node) (cs : List Node), fnHead cx (mk .fnExpr sp (a :: f :: c :: cs)) = none := fun a f c cs => by
        obtain ⟨k', sp', cs'⟩ := f
        cases k' <;> rfl
      exact (h3 _ _ _ _).trans (h3 _ _ _ _).symm
    | [a, f] =>
      have hv : ∀ a f : Node, fnHead cx (mk .fnExpr sp [a, f]) = if f.kind.blur = .function "" then
          (if cx.excludes a.identName? then none else some (a.identName?, if a.identName?.isSome then a.span else f.span)) else none := fun a f => by
        obtain ⟨k, sp, cs⟩ := f
        cases k <;> rfl
      show fnHead cx (mk .fnExpr sp [g a, g f]) = _
      rw [hv, hv, show (g a).identName? = a.identName? from congrArg (·.2) (hx a (.head _)), (hg a).span, (hg f).span]
      simp only [(hg f).isFn]
  | classMethod =>
    match cs with
    | [] => rfl
    | a :: cs =>
      show (if (g a).propName? = none || cx.excludes (g a).propName? then none else some ((g a).propName?, (g a).span)) = _
      rw [(hg a).propName, (hg a).span]
      rfl
  | methodProp =>
    match cs with
    | [] => rfl
    | a :: cs =>
      show (if cx.excludes (g a).propName? then none
        else if (g a).propName?.isSome then some ((g a).propName?, (g a).span) else some (some "anonymous", Span.dummy)) = _
      rw [(hg a).propName, (hg a).span]
      rfl
  | getterProp =>
    match cs with
    | [] => rfl
    | a :: cs =>
      show (if cx.excludes (g a).propName? then none
        else if (g a).propName?.isSome then some ((g a).propName?, (g a).span) else some (some "anonymous", sp)) = _
      rw [(hg a).propName, (hg a).span]
      rfl
  | setterProp =>
    match cs with
    | [] => rfl
    | a :: cs =>
      show (if cx.excludes (g a).propName? then none
        else if (g a).propName?.isSome then some ((g a).propName?, (g a).span) else some (some "anonymous", sp)) = _
      rw [(hg a).propName, (hg a).span]
      rfl
  | _ => rfl

/-- The kind and place of the body of a function. -/
theorem alike_bodyOf (k : Kind) (sp : Span) (cs : List Node) :
    (bodyOf (mk k sp (cs.map g))).map (fun b => (decide (b.kind = .block), b.span)) = (bodyOf (mk k sp cs)).map fun b => (decide (b.kind = .block), b.span) := by
  have one : ∀ a : Node, some (decide ((g a).kind = .block), (g a).span) = some (decide (a.kind = .block), a.span) := fun a => by rw [(hg a).isBlock, (hg a).span]
  have pair : ∀ (k : Kind), k = .fnDecl ∨ k = .fnExpr ∨ k = .classMethod ∨ k = .methodProp → ∀ (sp : Span) (cs : List Node),
      (bodyOf (mk k sp (cs.map g))).map (fun b => (decide (b.kind = .block), b.span)) = (bodyOf (mk k sp cs)).map fun b => (decide (b.kind = .block), b.span) := by
    intro k hk sp cs
    match cs with
    | [] | [_] => rcases hk with rfl | rfl | rfl | rfl <;> rfl
    | a :: f :: c :: cs =>
      have h3 : ∀ (a f c : Node) (cs : List Node), bodyOf (mk k sp (a :: f :: c :: cs)) = none := fun a f c cs => by
        obtain ⟨k', sp', cs'⟩ := f
        rcases hk with rfl | rfl | rfl | rfl <;> cases k' <;> first
          | rfl
          | (match cs' with
            | [] | [_] | [_, _] | [_, _, _] | _ :: _ :: _ :: _ :: _ => rfl)
      rw [List.map_cons, List.map_cons, List.map_cons, h3, h3]
    | [a, f] =>
      have ht : ∀ a f : Node, (bodyOf (mk k sp [a, f])).map (fun b => (decide (b.kind = .block), b.span)) = third f.fnParts := fun a f => by
        obtain ⟨k', sp', cs'⟩ := f
        cases k' with
        | function x =>
          match cs' with
          | [] | [_] | [_, _] | [_, _, _] | _ :: _ :: _ :: _ :: _ => rcases hk with rfl | rfl | rfl | rfl <;> rfl
        | _ => rcases hk with rfl | rfl | rfl | rfl <;> rfl
      rw [List.map_cons, List.map_cons, List.map_nil, ht, ht, (hg f).fnParts]
  cases k with
  | fnDecl => exact pair _ (by simp) sp cs
  | fnExpr => exact pair _ (by simp) sp cs
  | classMethod => exact pair _ (by simp) sp cs
  | methodProp => exact pair _ (by simp) sp cs
  | arrow =>
    match cs with
    | [] | [_] | _ :: _ :: _ :: _ => rfl
    | [_, b] => exact one b
  | getterProp =>
    match cs with
    | [] | [_] | _ :: _ :: _ :: _ => rfl
    | [_, b] => exact one b
  | setterProp =>
    match cs with
    | [] | [_] | [_, _] | [_, _, _] | _ :: _ :: _ :: _ :: _ :: _ => rfl
    | [_, _, _, b] => exact one b
  | _ => rfl

/-- The branch or function that a construct is. -/
theorem alike_head (k : Kind) (sp : Span) (cs : List Node) (hx : ∀ c ∈ cs, (g c).mark k = c.mark k) : head cx (mk k sp (cs.map g)) = head cx (mk k sp cs) := by
  have hb := alike_bodyOf hg k sp cs
  have ha : (mk k sp (cs.map g)).isArrow = (mk k sp cs).isArrow := by cases k <;> rfl
  unfold head
  rw [alike_branch hg, alike_fnHead hg k sp cs hx, ha]
  generalize bodyOf (mk k sp (cs.map g)) = x at hb
  generalize bodyOf (mk k sp cs) = y at hb
  cases (mk k sp cs).branch? cx with
  | some b => rfl
  | none =>
    cases fnHead cx (mk k sp cs) with
    | none => rfl
    | some f =>
      cases x with
      | none =>
        cases y with
        | none => rfl
        | some _ => exact absurd hb (by simp)
      | some b =>
        cases y with
        | none => exact absurd hb (by simp)
        | some b' =>
          obtain ⟨h1, h2⟩ := Prod.mk.inj (Option.some.inj hb)
          show (if b.kind = .block || (mk k sp cs).isArrow then [Entry.function f.1 (cx.range f.2) (cx.range b.span)] else []) = _
          rw [h1, h2]

/-! ### The outline -/

theorem outlines_alike (ls : List Look) (cs : List Node) : outlines cx ls (cs.map g) = outlines cx ls cs := by
  induction cs generalizing ls with
  | nil => rfl
  | cons c cs ih =>
    cases ls with
    | nil => rfl
    | cons l ls =>
      show outline cx l (g c) :: outlines cx ls (cs.map g) = outline cx l c :: outlines cx ls cs
      rw [(hg c).entries, ih]

theorem alike_traits {k : Kind} (sp : Span) {cs : List Node} (hx : ∀ c ∈ cs, (g c).mark k = c.mark k) : (mk k sp (cs.map g)).traits = (mk k sp cs).traits := by
  have h2 : (mk k sp (cs.map g)).isCase = (mk k sp cs).isCase := by
    cases k <;> first | rfl | (cases cs <;> rfl)
  have h3 : (mk k sp (cs.map g)).isNone = (mk k sp cs).isNone := by
    cases k <;> first | rfl | (cases cs <;> rfl)
  have h4 : isInjectedStmt (mk k sp (cs.map g)) = isInjectedStmt (mk k sp cs) := by
    cases k with
    | exprStmt =>
      match cs with
      | [] | _ :: _ :: _ => rfl
      | [e] => exact (hg e).injectedExpr
    | _ => rfl
  have h5 : isString (mk k sp (cs.map g)) = isString (mk k sp cs) := by
    cases k with
    | exprStmt =>
      match cs with
      | [] => rfl
      | a :: b :: cs =>
        have h2 : ∀ (a b : Node) (cs : List Node), isString (mk .exprStmt sp (a :: b :: cs)) = false := fun a b cs => by
          obtain ⟨k', sp', cs'⟩ := a
          cases k' <;> rfl
        exact (h2 _ _ _).trans (h2 _ _ _).symm
      | [a] =>
        exact (hg a).same (φ := fun a => isString (mk .exprStmt sp [a])) (d := false) (fun k _ _ => by cases k <;> rfl)
          fun k _ _ h => by cases k <;> first | rfl | exact absurd h Bool.noConfusion
    | _ => rfl
  have h6 : isConst (mk k sp (cs.map g)) = isConst (mk k sp cs) := by
    cases k with
    | exportDecl =>
      match cs with
      | [] => rfl
      | a :: b :: cs =>
        have h2 : ∀ (a b : Node) (cs : List Node), isConst (mk .exportDecl sp (a :: b :: cs)) = false := fun a b cs => by
          obtain ⟨k', sp', cs'⟩ := a
          cases k' <;> first | rfl | (rename_i v; cases v <;> rfl)
        exact (h2 _ _ _).trans (h2 _ _ _).symm
      | [a] =>
        have hv : ∀ a : Node, isConst (mk .exportDecl sp [a]) = a.constDecl := fun a => by
          obtain ⟨k', sp', cs'⟩ := a
          cases k' <;> first | rfl | (rename_i v; cases v <;> rfl)
        exact (hv (g a)).trans ((congrArg (·.1) (hx a (.head _))).trans (hv a).symm)
    | _ => rfl
  unfold traits
  rw [h2, h3, h4, h5, h6]

/-- The entries of a construct whose parts are alike. -/
theorem alike_entries {k : Kind} {sp : Span} {cs : List Node}
    (h : ∀ init ∈ initOf (mk k sp cs), init.any Kind.hasBody = true → init.any Kind.isBlock = true)
    (hx : ∀ c ∈ cs, (g c).mark k = c.mark k) (l : Look) : outline cx l (mk k sp (cs.map g)) = outline cx l (mk k sp cs) := by
  have ho : own cx (mk k sp (cs.map g)) = own cx (mk k sp cs) := by
    unfold own
    rw [alike_counted hg h, alike_head hg k sp cs hx]
  have ht := alike_traits hg sp hx
  have h1 : (mk k sp (cs.map g)).hintable = (mk k sp cs).hintable := by
    cases k <;> first
      | rfl
      | (match cs with
        | [] | [_] | [_, _] | [_, _, _] | [_, _, _, _] => rfl
        | _ :: _ :: _ :: _ :: _ :: _ => rfl)
  have hn : excluded cx l (mk k sp (cs.map g)) = excluded cx l (mk k sp cs) := by
    unfold excluded
    rw [h1, show (mk k sp (cs.map g)).isCase = _ from congrArg (·.1) ht]
    rfl
  unfold outline
  by_cases hs : l = .skip
  · rw [if_pos hs, if_pos hs]
  rw [if_neg hs, if_neg hs]
  by_cases hb : (decide (l = .body) && decide (k = .block)) = true
  · rw [if_pos hb, if_pos hb, List.map_map, show lookStmt cx ∘ g = lookStmt cx from funext fun s => (hg s).lookStmt, outlines_alike hg]
  · rw [if_neg hb, if_neg hb, hn, ho, looks_alike hg _ _ _ _ hx, outlines_alike hg]
    split
    · rfl
    · congr 2
      generalize outlines cx _ cs = es
      cases k <;> first
        | rfl
        | (match es with
          | [] | [_] | [_, _] | [_, _, _] => rfl
          | _ :: _ :: _ :: _ :: _ => rfl)

/-- A construct whose parts are alike. -/
theorem alike_mk {k : Kind} {sp : Span} {cs : List Node}
    (h : ∀ init ∈ initOf (mk k sp cs), init.any Kind.hasBody = true → init.any Kind.isBlock = true)
    (hx : ∀ c ∈ cs, (g c).mark k = c.mark k) : Alike cx (mk k sp cs) (mk k sp (cs.map g)) := by
  have every {p : Kind → Bool} (hp : ∀ c ∈ cs, (g c).any p = c.any p) : (mk k sp (cs.map g)).any p = (mk k sp cs).any p := by
    show (p k || anyList p (cs.map g)) = (p k || anyList p cs)
    congr 1
    clear h hx
    induction cs with
    | nil => rfl
    | cons c cs ih =>
      show ((g c).any p || anyList p (cs.map g)) = (c.any p || anyList p cs)
      rw [hp c (.head _), ih fun c hc => hp c (.tail _ hc)]
  refine ⟨.inl rfl, rfl, alike_traits hg sp hx, ?_, every fun c _ => (hg c).logical, every fun c _ => (hg c).stmts, fun hn => ?_, fun hb => ?_,
    alike_leaves hg k sp cs, alike_entries hg h hx⟩
  · cases k with
    | function x =>
      show (cs.map g).map (fun c => (decide (c.kind = .block), c.span)) = cs.map fun c => (decide (c.kind = .block), c.span)
      rw [List.map_map]
      refine List.map_congr_left fun c _ => ?_
      show (decide ((g c).kind = .block), (g c).span) = _
      rw [(hg c).isBlock, (hg c).span]
    | _ => rfl
  · have hc : ∀ c ∈ cs, c.any Kind.hasBody = false := fun c hc => by
      cases hx : c.any Kind.hasBody with
      | false => rfl
      | true =>
        obtain ⟨m, hm, hk⟩ := any_iff.1 hx
        exact absurd (each_of_any hn m (mem_each_mk.2 (.inr ⟨c, hc, hm⟩))) (by rw [hk]; exact Bool.noConfusion)
    exact ⟨every fun c hm => ((hg c).rest (hc c hm)).1, every fun c hm => ((hg c).rest (hc c hm)).2.1, every fun c hm => ((hg c).rest (hc c hm)).2.2⟩
  · replace hb : (k.isBlock || anyList Kind.isBlock cs) = true := hb
    show (k.isBlock || anyList Kind.isBlock (cs.map g)) = true
    rw [Bool.or_eq_true] at hb ⊢
    rcases hb with hb | hb
    · exact .inl hb
    · rw [anyList_eq, List.any_eq_true] at hb
      obtain ⟨c, hc, hx⟩ := hb
      refine .inr ?_
      rw [anyList_eq, List.any_eq_true]
      exact ⟨g c, List.mem_map_of_mem hc, (hg c).blocks hx⟩

end

/-! ### Rewriting -/

variable {f : Node → Node}

theorem rewrites_eq (cs : List Node) : rewrites f cs = cs.map (rewrite f) := by
  induction cs with
  | nil => rfl
  | cons c cs ih => exact congrArg (rewrite f c :: ·) ih

open Classical in
/-- The parts of a construct only have to be alike where they are parts of it. -/
theorem alike_parts {k : Kind} {sp : Span} {cs : List Node} (hg : ∀ c ∈ cs, Alike cx c (g c))
    (h : ∀ init ∈ initOf (mk k sp cs), init.any Kind.hasBody = true → init.any Kind.isBlock = true)
    (hx : ∀ c ∈ cs, (g c).mark k = c.mark k) : Alike cx (mk k sp cs) (mk k sp (cs.map g)) := by
  have he : cs.map g = cs.map fun c => if c ∈ cs then g c else c := List.map_congr_left fun c hc => (if_pos hc).symm
  rw [he]
  refine alike_mk (fun c => ?_) h fun c hc => by rw [if_pos hc]; exact hx c hc
  by_cases hc : c ∈ cs
  · rw [if_pos hc]
    exact hg c hc
  · rw [if_neg hc]
    exact Alike.refl c

theorem mark_kind {a b : Node} (h : b.kind = a.kind) (k : Kind) : b.mark k = a.mark k := by
  obtain ⟨ka, sa, ca⟩ := a
  obtain ⟨kb, sb, cb⟩ := b
  obtain rfl : kb = ka := h
  cases k <;> cases kb <;> rfl

theorem inner_mark {n : Node} (h : n.kind.inner = true) (k : Kind) : n.mark k = (false, none) := by
  obtain ⟨kn, sn, cn⟩ := n
  cases k <;> first | rfl | (cases kn <;> first | rfl | exact absurd h Bool.noConfusion)

theorem keepsMarks_mk {k : Kind} {sp : Span} {cs : List Node} (h : (mk k sp cs).KeepsMarks g) {c : Node} (hc : c ∈ cs) : c.KeepsMarks g :=
  fun m hm => h m (mem_each_mk.2 (.inr ⟨c, hc, hm⟩))

/-- If every construct is alike the one that it is exchanged for, then so are they after all exchanges. -/
theorem alike_rewrite (hf : ∀ n, Alike cx n (f n)) (n : Node) : n.StmtsInBlocks → n.KeepsMarks (rewrite f) →
    Alike cx n (rewrite f n) := by
  induction n using ind with
  | h k sp cs ih =>
    intro h hx
    have hm : Alike cx (mk k sp cs) (mk k sp (cs.map (rewrite f))) :=
      alike_parts (fun c hc => ih c hc (stmtsInBlocks_mk h hc) (keepsMarks_mk hx hc)) (h _ (mem_each_mk.2 (.inl rfl)))
        (hx _ (mem_each_mk.2 (.inl rfl)))
    show Alike cx (mk k sp cs) (f (mk k sp (rewrites f cs)))
    rw [rewrites_eq]
    exact hm.trans (hf _)

/-- The entries of a program after all exchanges. -/
theorem programOutline_rewrite (hf : ∀ n, Alike cx n (f n)) (hr : ∀ n : Node, n.kind = .module ∨ n.kind = .script → f n = n) {p : Node}
    (h : p.StmtsInBlocks) (hx : p.KeepsMarks (rewrite f)) : programOutline cx (rewrite f p) = programOutline cx p := by
  obtain ⟨k, sp, cs⟩ := p
  have hc : ∀ c ∈ cs, Alike cx c (rewrite f c) := fun c hc => alike_rewrite hf c (stmtsInBlocks_mk h hc) (keepsMarks_mk hx hc)
  have hn : ∀ m : Node, (decide (m.kind = .module) || decide (m.kind = .script)) = false → programOutline cx m = [] := by
    intro m hm
    obtain ⟨k', sp', cs'⟩ := m
    cases k' <;> first | rfl | exact absurd hm Bool.noConfusion
  have hl {u : Node → List Entry} (hu : ∀ c ∈ cs, u (rewrite f c) = u c) : (cs.map (rewrite f)).flatMap u = cs.flatMap u := by
    rw [List.flatMap_map]
    exact List.flatMap_congr hu
  cases k with
  | module =>
    show programOutline cx (f (mk .module sp (rewrites f cs))) = _
    rw [hr _ (.inl rfl), rewrites_eq]
    show (if Hint.shouldIgnoreFile cx.cc cx.comments sp then [] else (cs.map (rewrite f)).flatMap (itemOutline cx)) = _
    rw [hl fun c h => by unfold itemOutline; rw [(hc c h).isString, (hc c h).isConst, (hc c h).span, (hc c h).hinted, (hc c h).entries]]
    rfl
  | script =>
    show programOutline cx (f (mk .script sp (rewrites f cs))) = _
    rw [hr _ (.inr rfl), rewrites_eq]
    show (if Hint.shouldIgnoreFile cx.cc cx.comments sp then [] else (cs.map (rewrite f)).flatMap (outline cx .outer)) = _
    rw [hl fun c h => (hc c h).entries .outer]
    rfl
  | _ =>
    have hk := (alike_rewrite hf _ h hx).same (φ := fun n => decide (n.kind = .module) || decide (n.kind = .script)) (d := false)
      (fun k _ _ => by cases k <;> rfl) fun k _ _ h => by cases k <;> first | rfl | exact absurd h Bool.noConfusion
    exact hn _ hk

end Node
end Verif
