import Verif.Spec.Braces
import Verif.Lemmas.Each
/-
The outline of a program with braces put around bodies of statements.
-/
namespace Verif
namespace Node
variable {cx : Ctx} {w : Span → Option Span}

theorem braces_eq (cs : List Node) : braces w cs = cs.map (brace w) := by
  induction cs with
  | nil => rfl
  | cons c cs ih => exact congrArg (_ :: ·) ih

/-- Something in braces, or not. -/
theorem wrap_cases (b : Node) : wrap w b = b ∨
    ∃ sp, w b.span = some sp ∧ b.hintable = true ∧ b.kind ≠ .block ∧ isInjectedStmt b = false ∧ wrap w b = mk .block sp [b] := by
  unfold wrap
  split
  · next sp h =>
    split
    · next hc =>
      simp only [Bool.and_eq_true, Bool.not_eq_true', ne_eq, decide_not] at hc
      exact .inr ⟨sp, h, hc.1.1, by simpa using hc.1.2, hc.2, rfl⟩
    · exact .inl rfl
  · exact .inl rfl

theorem brace_kind (n : Node) : (brace w n).kind = n.kind := by
  obtain ⟨k, sp, cs⟩ := n
  rfl

theorem brace_span (n : Node) : (brace w n).span = n.span := by
  obtain ⟨k, sp, cs⟩ := n
  rfl

theorem brace_hinted (n : Node) : cx.hinted (brace w n) = cx.hinted n := by
  unfold Ctx.hinted
  rw [brace_span]

/-- Other constructs than statements with bodies get no braces themselves. -/
theorem brace_other {k : Kind} (hk : k.hasBody = false) (sp : Span) (cs : List Node) : brace w (mk k sp cs) = mk k sp (cs.map (brace w)) := by
  show mk k sp (bodies w k (braces w cs)) = _
  rw [braces_eq]
  cases k <;> first | rfl | exact absurd hk Bool.noConfusion

theorem wrapLast_length (cs : List Node) : (wrapLast w cs).length = cs.length := by
  fun_induction wrapLast w cs with
  | case1 => rfl
  | case2 => rfl
  | case3 c cs h ih => exact congrArg (· + 1) ih

/-- What there is in a construct, except for blocks, does not depend on the braces. -/
theorem wrap_any {p : Kind → Bool} (hp : p .block = false) (b : Node) : (wrap w b).any p = b.any p := by
  rcases wrap_cases (w := w) b with h | ⟨sp, _, _, _, _, h⟩
  · rw [h]
  · rw [h]
    show (p .block || (b.any p || false)) = b.any p
    rw [hp, Bool.or_false, Bool.false_or]

theorem wrapLast_any {p : Kind → Bool} (hp : p .block = false) (cs : List Node) : anyList p (wrapLast w cs) = anyList p cs := by
  fun_induction wrapLast w cs with
  | case1 => rfl
  | case2 b => 
    show ((wrap w b).any p || false) = (b.any p || false)
    rw [wrap_any hp]
  | case3 c cs h ih =>
    show (c.any p || anyList p (wrapLast w cs)) = _
    rw [ih]
    rfl

theorem wraps_any {p : Kind → Bool} (hp : p .block = false) (cs : List Node) : anyList p (cs.map (wrap w)) = anyList p cs := by
  induction cs with
  | nil => rfl
  | cons c cs ih =>
    show ((wrap w c).any p || anyList p (cs.map (wrap w))) = (c.any p || anyList p cs)
    rw [wrap_any hp, ih]

theorem bodies_any {p : Kind → Bool} (hp : p .block = false) (k : Kind) (cs : List Node) : anyList p (bodies w k cs) = anyList p cs := by
  unfold bodies
  split
  · simp only [anyList, wrap_any hp]
  · simp only [anyList, wrap_any hp]
  · exact wrapLast_any hp _
  · exact wraps_any hp _
  · next t ss => exact congrArg (t.any p || ·) (wraps_any hp ss)
  · rfl

theorem brace_any {p : Kind → Bool} (hp : p .block = false) (n : Node) : (brace w n).any p = n.any p := by
  induction n using ind with
  | h k sp cs ih =>
    show (p k || anyList p (bodies w k (braces w cs))) = (p k || anyList p cs)
    rw [bodies_any hp, braces_eq, anyList_eq, anyList_eq, List.any_map]
    congr 1
    rw [Bool.eq_iff_iff, List.any_eq_true, List.any_eq_true]
    exact ⟨fun ⟨c, hc, h⟩ => ⟨c, hc, (ih c hc).symm.trans h⟩, fun ⟨c, hc, h⟩ => ⟨c, hc, (ih c hc).trans h⟩⟩

/-- Where there are no statements with bodies there are no braces. -/
theorem brace_none {n : Node} (h : n.any Kind.hasBody = false) : brace w n = n := by
  induction n using ind with
  | h k sp cs ih =>
    replace h : (k.hasBody || anyList Kind.hasBody cs) = false := h
    rw [Bool.or_eq_false_iff, anyList_eq, List.any_eq_false] at h
    rw [brace_other h.1]
    congr 1
    refine (List.map_congr_left fun c hc => ?_).trans (List.map_id cs)
    exact ih c hc (by simpa using h.2 c hc)

/-! ### Branches -/

theorem wrap_leaves (b : Node) : leaves cx (wrap w b) = leaves cx b := by
  rcases wrap_cases (w := w) b with h | ⟨sp, _, _, _, _, h⟩
  · rw [h]
  · rw [h]
    show leaves cx b ++ [] = leaves cx b
    rw [List.append_nil]

theorem wrapLast_leaves (cs : List Node) : leavesList cx (wrapLast w cs) = leavesList cx cs := by
  fun_induction wrapLast w cs with
  | case1 => rfl
  | case2 b =>
    show leaves cx (wrap w b) ++ [] = leaves cx b ++ []
    rw [wrap_leaves]
  | case3 c cs h ih =>
    show leaves cx c ++ leavesList cx (wrapLast w cs) = _
    rw [ih]
    rfl

theorem wraps_leaves (cs : List Node) : leavesList cx (cs.map (wrap w)) = leavesList cx cs := by
  induction cs with
  | nil => rfl
  | cons c cs ih =>
    show leaves cx (wrap w c) ++ leavesList cx (cs.map (wrap w)) = leaves cx c ++ leavesList cx cs
    rw [wrap_leaves, ih]

theorem bodies_leaves (k : Kind) (cs : List Node) : leavesList cx (bodies w k cs) = leavesList cx cs := by
  unfold bodies
  split
  · simp only [leavesList, wrap_leaves]
  · simp only [leavesList, wrap_leaves]
  · exact wrapLast_leaves _
  · exact wraps_leaves _
  · next t ss => exact congrArg (leaves cx t ++ ·) (wraps_leaves ss)
  · rfl

theorem ranges_append (a b : List Node) : cx.ranges (a ++ b) = cx.ranges a ++ cx.ranges b := List.map_append

/-- The places of the operands do not depend on the braces. -/
theorem brace_leaves (n : Node) : cx.ranges (leaves cx (brace w n)) = cx.ranges (leaves cx n) ∧
    cx.ranges (operands cx [brace w n]) = cx.ranges (operands cx [n]) := by
  induction n using ind with
  | h k sp cs ih =>
    have hl : cx.ranges (leavesList cx (braces w cs)) = cx.ranges (leavesList cx cs) := by
      induction cs with
      | nil => rfl
      | cons c cs ihc =>
        show cx.ranges (leaves cx (brace w c) ++ leavesList cx (braces w cs)) = cx.ranges (leaves cx c ++ leavesList cx cs)
        rw [ranges_append, ranges_append, (ih c (.head _)).1, ihc fun c hc => ih c (.tail _ hc)]
    have h1 : cx.ranges (leaves cx (brace w (mk k sp cs))) = cx.ranges (leaves cx (mk k sp cs)) := by
      by_cases hn : (!k.noExpr && decide (cx.hint sp = some .next)) = true
      · show cx.ranges (leaves cx (mk k sp (bodies w k (braces w cs)))) = _
        unfold leaves
        rw [if_pos hn, if_pos hn]
      · cases k with
        | bin op =>
          rw [brace_other rfl]
          unfold leaves
          rw [if_neg hn, if_neg hn]
          rw [braces_eq] at hl
          match cs, ih, hl with
          | [], _, hl => exact hl
          | [_], _, hl => exact hl
          | _ :: _ :: _ :: _, _, hl => exact hl
          | [a, b], ih, hl =>
            show cx.ranges (if op.isLogical then operands cx [brace w a, brace w b] else leavesList cx [brace w a, brace w b]) =
              cx.ranges (if op.isLogical then operands cx [a, b] else leavesList cx [a, b])
            by_cases ho : op.isLogical = true
            · rw [if_pos ho, if_pos ho]
              have ha := (ih a (by simp)).2
              have hb := (ih b (by simp)).2
              have split (x y : Node) : operands cx [x, y] = operands cx [x] ++ operands cx [y] := by
                simp only [operands, List.append_nil]
              rw [split, split, ranges_append, ranges_append, ha, hb]
            · rw [if_neg ho, if_neg ho]
              exact hl
        | _ =>
          show cx.ranges (leaves cx (mk _ sp (bodies w _ (braces w cs)))) = _
          unfold leaves
          rw [if_neg hn, if_neg hn]
          first
          | exact hl
          | (simp only [bodies_leaves]; exact hl)
    refine ⟨h1, ?_⟩
    show cx.ranges ((if cx.hinted (brace w (mk k sp cs)) = true then [] else
        if (brace w (mk k sp cs)).any Kind.isLogical = true then leaves cx (brace w (mk k sp cs)) else [brace w (mk k sp cs)]) ++ []) =
      cx.ranges ((if cx.hinted (mk k sp cs) = true then [] else if (mk k sp cs).any Kind.isLogical = true then leaves cx (mk k sp cs) else
        [mk k sp cs]) ++ [])
    rw [List.append_nil, List.append_nil, brace_hinted, brace_any rfl]
    split
    · rfl
    · split
      · exact h1
      · rfl

/-! ### What is seen of the parts of a construct -/

theorem brace_identName (n : Node) : (brace w n).identName? = n.identName? := by
  obtain ⟨k, sp, cs⟩ := n
  cases k <;> rfl

theorem brace_propName (n : Node) : (brace w n).propName? = n.propName? := by
  obtain ⟨k, sp, cs⟩ := n
  cases k <;> rfl

theorem brace_isNone (n : Node) : (brace w n).isNone = n.isNone := by
  obtain ⟨k, sp, cs⟩ := n
  cases k <;> first | rfl | (rw [brace_other rfl]; cases cs <;> rfl)

theorem brace_leaf (n : Node) : leaf cx (brace w n) = leaf cx n := by
  unfold leaf
  rw [brace_hinted, brace_any rfl]

theorem brace_injectedExpr (n : Node) : isInjectedExpr (brace w n) = isInjectedExpr n := by
  obtain ⟨k, sp, cs⟩ := n
  cases k with
  | counter c => cases c <;> rfl
  | _ => rfl

theorem brace_injected (n : Node) : isInjectedStmt (brace w n) = isInjectedStmt n := by
  obtain ⟨k, sp, cs⟩ := n
  cases k with
  | exprStmt =>
    rw [brace_other rfl]
    match cs with
    | [] | _ :: _ :: _ => rfl
    | [e] => exact brace_injectedExpr e
  | _ => rfl

theorem brace_lookStmt (n : Node) : lookStmt cx (brace w n) = lookStmt cx n := by
  unfold lookStmt
  rw [brace_hinted, brace_injected]

theorem bodies_length (k : Kind) (cs : List Node) : (bodies w k cs).length = cs.length := by
  unfold bodies
  split
  · rfl
  · rfl
  · exact wrapLast_length _
  · exact List.length_map _
  · exact congrArg (· + 1) (List.length_map _)
  · rfl

theorem brace_hintable (n : Node) : (brace w n).hintable = n.hintable := by
  obtain ⟨k, sp, cs⟩ := n
  show (mk k sp (bodies w k (braces w cs))).hintable = _
  have hl : (bodies w k (braces w cs)).length = cs.length := by rw [bodies_length, braces_eq, List.length_map]
  revert hl
  generalize bodies w k (braces w cs) = ds
  intro hl
  cases k <;> first
    | rfl
    | (match cs, ds, hl with
      | [], [], _ | [_], [_], _ | [_, _], [_, _], _ | [_, _, _], [_, _, _], _ | [_, _, _, _], [_, _, _, _], _ => rfl
      | _ :: _ :: _ :: _ :: _ :: _, _ :: _ :: _ :: _ :: _ :: _, _ => rfl)

theorem brace_isCase (n : Node) : (brace w n).isCase = n.isCase := by
  obtain ⟨k, sp, cs⟩ := n
  cases k <;> first | rfl | (cases cs <;> rfl)

theorem brace_excluded (l : Look) (n : Node) : excluded cx l (brace w n) = excluded cx l n := by
  unfold excluded
  rw [brace_hinted, brace_hintable, brace_isCase, brace_kind]

/-- How the parts are looked at, if none of them is put in braces. -/
theorem looks_other {k : Kind} (hk : k.hasBody = false) (l : Look) (sp : Span) (cs : List Node) :
    looks cx l (mk k sp (cs.map (brace w))) = looks cx l (mk k sp cs) := by
  have hc : ∀ (cs : List Node) (l : Look), (cs.map (brace w)).map (fun _ => l) = cs.map fun _ => l := fun cs l => by rw [List.map_map]; rfl
  cases k with
  | ifStmt => exact absurd hk Bool.noConfusion
  | withStmt => exact absurd hk Bool.noConfusion
  | loop => exact absurd hk Bool.noConfusion
  | block => exact absurd hk Bool.noConfusion
  | switchCase => exact absurd hk Bool.noConfusion
  | switchStmt => exact hc _ _
  | arrow =>
    match cs with
    | [] | [_] => rfl
    | a :: b :: c :: cs => exact hc (a :: b :: c :: cs) l
    | [a, b] =>
      show [Look.skip, if (brace w b).kind = .block then .body else if cx.hinted (brace w b) then .skip else .inner] = _
      rw [brace_kind, brace_hinted]
      rfl
  | exprStmt =>
    match cs with
    | [] => rfl
    | mk k' sp' cs' :: c :: cs => cases k' <;> exact congrArg (l :: l :: ·) (hc cs l)
    | [mk k' sp' cs'] => cases k' <;> rfl
  | fnExpr =>
    match cs with
    | [] | [_] => rfl
    | a :: b :: c :: cs => exact hc (a :: b :: c :: cs) l
    | [a, b] =>
      show (if cx.excludes (brace w a).identName? then [Look.skip, .skip] else [l, l]) = _
      rw [brace_identName]
      rfl
  | classMethod =>
    match cs with
    | [] | [_] => rfl
    | a :: b :: c :: cs => exact hc (a :: b :: c :: cs) l
    | [a, b] =>
      show (if (brace w a).propName? = none || cx.excludes (brace w a).propName? then [Look.skip, .skip] else [l, l]) = _
      rw [brace_propName]
      rfl
  | methodProp =>
    match cs with
    | [] | [_] => rfl
    | a :: b :: c :: cs => exact hc (a :: b :: c :: cs) l
    | [a, b] =>
      show (if cx.excludes (brace w a).propName? then [Look.skip, .skip] else [l, l]) = _
      rw [brace_propName]
      rfl
  | getterProp =>
    match cs with
    | [] | [_] => rfl
    | a :: b :: c :: cs => exact hc (a :: b :: c :: cs) l
    | [a, b] =>
      show (if cx.excludes (brace w a).propName? then [Look.skip, .skip] else [l, l]) = _
      rw [brace_propName]
      rfl
  | setterProp =>
    match cs with
    | [] | [_] | [_, _] | [_, _, _] => rfl
    | a :: b :: c :: d :: e :: cs => exact hc (a :: b :: c :: d :: e :: cs) l
    | [a, b, c, d] =>
      show (if cx.excludes (brace w a).propName? then [Look.skip, .skip, .skip, .skip] else [l, l, l, l]) = _
      rw [brace_propName]
      rfl
  | bin op =>
    match cs with
    | [] | [_] => rfl
    | a :: b :: c :: cs => exact hc (a :: b :: c :: cs) l
    | [a, b] =>
      show (if op.isLogical then [if leaf cx (brace w a) then l else .skip, if leaf cx (brace w b) then l else .skip] else [l, l]) = _
      rw [brace_leaf, brace_leaf]
      rfl
  | assignPat =>
    match cs with
    | [] | [_] => rfl
    | a :: b :: c :: cs => exact hc (a :: b :: c :: cs) l
    | [a, b] =>
      show [Look.skip, if leaf cx (brace w b) then l else .skip] = _
      rw [brace_leaf]
      rfl
  | _ => exact hc _ l

/-! ### Statements, functions and branches of a construct -/

theorem wrap_keeps {p : Kind → Bool} {b : Node} (h : b.any p = true) : (wrap w b).any p = true := by
  rcases wrap_cases (w := w) b with h' | ⟨sp, _, _, _, _, h'⟩
  · rw [h', h]
  · rw [h']
    show (p .block || (b.any p || false)) = true
    rw [h, Bool.true_or, Bool.or_true]

theorem wrapLast_keeps {p : Kind → Bool} {cs : List Node} (h : anyList p cs = true) : anyList p (wrapLast w cs) = true := by
  fun_induction wrapLast w cs with
  | case1 => exact h
  | case2 b =>
    replace h : (b.any p || false) = true := h
    rw [Bool.or_false] at h
    show ((wrap w b).any p || false) = true
    rw [wrap_keeps h]
    rfl
  | case3 c cs hn ih =>
    replace h : (c.any p || anyList p cs) = true := h
    show (c.any p || anyList p (wrapLast w cs)) = true
    rcases Bool.or_eq_true _ _ ▸ h with h | h
    · rw [h, Bool.true_or]
    · rw [ih h, Bool.or_true]

theorem wraps_keeps {p : Kind → Bool} {cs : List Node} (h : anyList p cs = true) : anyList p (cs.map (wrap w)) = true := by
  rw [anyList_eq, List.any_eq_true] at h ⊢
  obtain ⟨c, hc, h⟩ := h
  exact ⟨wrap w c, List.mem_map_of_mem hc, wrap_keeps h⟩

theorem bodies_keeps {p : Kind → Bool} {k : Kind} {cs : List Node} (h : anyList p cs = true) : anyList p (bodies w k cs) = true := by
  unfold bodies
  split
  · next a b c =>
    replace h : (a.any p || (b.any p || (c.any p || false))) = true := h
    show (a.any p || ((wrap w b).any p || ((wrap w c).any p || false))) = true
    simp only [Bool.or_eq_true, Bool.or_false] at h ⊢
    exact h.imp_right fun h => h.imp wrap_keeps wrap_keeps
  · next a b =>
    replace h : (a.any p || (b.any p || false)) = true := h
    show (a.any p || ((wrap w b).any p || false)) = true
    simp only [Bool.or_eq_true, Bool.or_false] at h ⊢
    exact h.imp_right wrap_keeps
  · exact wrapLast_keeps h
  · exact wraps_keeps h
  · next t ss =>
    replace h : (t.any p || anyList p ss) = true := h
    show (t.any p || anyList p (ss.map (wrap w))) = true
    rw [Bool.or_eq_true] at h ⊢
    exact h.imp_right wraps_keeps
  · exact h

/-- Braces are only added. -/
theorem brace_keeps {p : Kind → Bool} {n : Node} (h : n.any p = true) : (brace w n).any p = true := by
  induction n using ind with
  | h k sp cs ih =>
    replace h : (p k || anyList p cs) = true := h
    show (p k || anyList p (bodies w k (braces w cs))) = true
    rw [Bool.or_eq_true] at h ⊢
    refine h.imp_right fun h => bodies_keeps ?_
    rw [anyList_eq, List.any_eq_true] at h ⊢
    obtain ⟨c, hc, h⟩ := h
    exact ⟨brace w c, by rw [braces_eq]; exact List.mem_map_of_mem hc, ih c hc h⟩

theorem brace_ofInit {d : Bool} {e : Node} (h : e.any Kind.hasBody = true → e.any Kind.isBlock = true) : ofInit cx d (brace w e) = ofInit cx d e := by
  cases hb : e.any Kind.hasBody with
  | false => rw [brace_none hb]
  | true =>
    unfold ofInit
    rw [brace_isNone, brace_span, if_pos (h hb), if_pos (brace_keeps (h hb))]

/-- What counts as a statement does not depend on the braces. -/
theorem brace_counted {n : Node} (h : ∀ init ∈ initOf n, init.any Kind.hasBody = true → init.any Kind.isBlock = true) :
    counted cx (brace w n) = counted cx n := by
  obtain ⟨k, sp, cs⟩ := n
  cases k with
  | ifStmt =>
    match cs with
    | [] | [_] | [_, _] | [_, _, _] => rfl
    | _ :: _ :: _ :: _ :: _ => rfl
  | withStmt =>
    match cs with
    | [] | [_] | [_, _] => rfl
    | _ :: _ :: _ :: _ => rfl
  | exprStmt =>
    rw [brace_other rfl]
    match cs with
    | [] => rfl
    | mk k' sp' cs' :: c :: cs => cases k' <;> first | rfl | (rename_i c; cases c <;> rfl)
    | [mk k' sp' cs'] => cases k' <;> first | rfl | (rename_i c; cases c <;> rfl)
  | arrow =>
    rw [brace_other rfl]
    match cs with
    | [] | [_] => rfl
    | _ :: _ :: _ :: _ => rfl
    | [a, b] =>
      show (if (brace w b).kind = .block || cx.hinted (brace w b) then [] else [Entry.statement (cx.range (brace w b).span) true]) = _
      rw [brace_kind, brace_hinted, brace_span]
      rfl
  | varDeclarator =>
    rw [brace_other rfl]
    match cs, h with
    | [], _ | [_], _ => rfl
    | _ :: _ :: _ :: _, _ => rfl
    | [a, e], h => exact brace_ofInit (h e rfl)
  | classProp =>
    rw [brace_other rfl]
    match cs, h with
    | [], _ | [_], _ | [_, _], _ => rfl
    | _ :: _ :: _ :: _ :: _, _ => rfl
    | [a, e, b], h => exact brace_ofInit (h e rfl)
  | privateProp =>
    rw [brace_other rfl]
    match cs, h with
    | [], _ | [_], _ | [_, _], _ => rfl
    | _ :: _ :: _ :: _ :: _, _ => rfl
    | [a, e, b], h => exact brace_ofInit (h e rfl)
  | _ => rfl

theorem filter_ranges {q : Node → Bool} (hq : ∀ n, q (brace w n) = q n) (cs : List Node) :
    cx.ranges ((cs.map (brace w)).filter q) = cx.ranges (cs.filter q) := by
  induction cs with
  | nil => rfl
  | cons c cs ih =>
    rw [List.map_cons, List.filter_cons, List.filter_cons, hq]
    split
    · show cx.range (brace w c).span :: _ = cx.range c.span :: _
      rw [brace_span]
      exact congrArg _ ih
    · exact ih

/-- The branch of a construct does not depend on the braces. -/
theorem brace_branch (n : Node) : (brace w n).branch? cx = n.branch? cx := by
  obtain ⟨k, sp, cs⟩ := n
  cases k with
  | ifStmt =>
    match cs with
    | [] | [_] | [_, _] | [_, _, _] => rfl
    | _ :: _ :: _ :: _ :: _ => rfl
  | cond =>
    rw [brace_other rfl]
    match cs with
    | [] | [_] | [_, _] => rfl
    | _ :: _ :: _ :: _ :: _ => rfl
    | [t, a, b] =>
      show some (BranchType.condExpr, cx.ranges (([a, b].map (brace w)).filter fun e => !cx.hinted e)) = _
      rw [filter_ranges fun n => by rw [brace_hinted]]
      rfl
  | switchStmt =>
    rw [brace_other rfl]
    show some (BranchType.switch, cx.ranges ((cs.map (brace w)).filter fun c => c.isCase && !cx.hinted c)) = _
    rw [filter_ranges fun n => by rw [brace_hinted, brace_isCase]]
    rfl
  | assignPat =>
    rw [brace_other rfl]
    match cs with
    | [] | [_] => rfl
    | _ :: _ :: _ :: _ => rfl
    | [a, b] =>
      show some (BranchType.defaultArg, cx.ranges (operands cx [brace w b])) = _
      rw [(brace_leaves b).2]
      rfl
  | bin op =>
    rw [brace_other rfl]
    match cs with
    | [] | [_] => rfl
    | _ :: _ :: _ :: _ => rfl
    | [a, b] =>
      unfold branch?
      have hk : (mk (.bin op) sp ([a, b].map (brace w))).branchKind = (mk (.bin op) sp [a, b]).branchKind := rfl
      rw [hk]
      congr 1
      funext t
      have hc : cx.ranges ((mk (.bin op) sp ([a, b].map (brace w))).choices cx) = cx.ranges ((mk (.bin op) sp [a, b]).choices cx) := by
        show cx.ranges (if op.isLogical then operands cx [brace w a, brace w b] else []) = cx.ranges (if op.isLogical then operands cx [a, b] else [])
        split
        · have both (x y : Node) : operands cx [x, y] = operands cx [x] ++ operands cx [y] := by simp only [operands, List.append_nil]
          rw [both, both, ranges_append, ranges_append, (brace_leaves a).2, (brace_leaves b).2]
        · rfl
      rw [hc]
      rfl
  | _ => rfl

theorem brace_fnHead (n : Node) : fnHead cx (brace w n) = fnHead cx n := by
  obtain ⟨k, sp, cs⟩ := n
  cases k with
  | fnDecl =>
    rw [brace_other rfl]
    match cs with
    | [] | [_] => rfl
    | a :: mk k' sp' cs' :: c :: cs => cases k' <;> rfl
    | [a, mk k' sp' cs'] =>
      cases k' with
      | function =>
        show some ((brace w a).identName?, if (brace w a).identName?.isSome then (brace w a).span else sp') = _
        rw [brace_identName, brace_span]
        rfl
      | _ => rfl
  | fnExpr =>
    rw [brace_other rfl]
    match cs with
    | [] | [_] => rfl
    | a :: mk k' sp' cs' :: c :: cs => cases k' <;> rfl
    | [a, mk k' sp' cs'] =>
      cases k' with
      | function =>
        show (if cx.excludes (brace w a).identName? then none else
          some ((brace w a).identName?, if (brace w a).identName?.isSome then (brace w a).span else sp')) = _
        rw [brace_identName, brace_span]
        rfl
      | _ => rfl
  | classMethod =>
    rw [brace_other rfl]
    match cs with
    | [] => rfl
    | a :: cs =>
      show (if (brace w a).propName? = none || cx.excludes (brace w a).propName? then none else some ((brace w a).propName?, (brace w a).span)) = _
      rw [brace_propName, brace_span]
      rfl
  | methodProp =>
    rw [brace_other rfl]
    match cs with
    | [] => rfl
    | a :: cs =>
      show (if cx.excludes (brace w a).propName? then none
        else if (brace w a).propName?.isSome then some ((brace w a).propName?, (brace w a).span) else some (some "anonymous", Span.dummy)) = _
      rw [brace_propName, brace_span]
      rfl
  | getterProp =>
    rw [brace_other rfl]
    match cs with
    | [] => rfl
    | a :: cs =>
      show (if cx.excludes (brace w a).propName? then none
        else if (brace w a).propName?.isSome then some ((brace w a).propName?, (brace w a).span) else some (some "anonymous", sp)) = _
      rw [brace_propName, brace_span]
      rfl
  | setterProp =>
    rw [brace_other rfl]
    match cs with
    | [] => rfl
    | a :: cs =>
      show (if cx.excludes (brace w a).propName? then none
        else if (brace w a).propName?.isSome then some ((brace w a).propName?, (brace w a).span) else some (some "anonymous", sp)) = _
      rw [brace_propName, brace_span]
      rfl
  | _ => rfl

theorem brace_bodyOf (n : Node) : bodyOf (brace w n) = (bodyOf n).map (brace w) := by
  have pair : ∀ (k : Kind), k = .fnDecl ∨ k = .fnExpr ∨ k = .classMethod ∨ k = .methodProp → ∀ (sp : Span) (cs : List Node),
      bodyOf (mk k sp (cs.map (brace w))) = (bodyOf (mk k sp cs)).map (brace w) := by
    intro k hk sp cs
    match cs with
    | [] | [_] => rcases hk with rfl | rfl | rfl | rfl <;> rfl
    | a :: mk k' sp' cs' :: c :: cs =>
      cases k' with
      | function x =>
        rw [List.map_cons, List.map_cons, brace_other rfl]
        match cs' with
        | [] | [_] | [_, _] | [_, _, _] | _ :: _ :: _ :: _ :: _ => rcases hk with rfl | rfl | rfl | rfl <;> rfl
      | _ => rcases hk with rfl | rfl | rfl | rfl <;> rfl
    | [a, mk k' sp' cs'] =>
      cases k' with
      | function x =>
        rw [List.map_cons, List.map_cons, brace_other rfl]
        match cs' with
        | [] | [_] | [_, _] | [_, _, _] | _ :: _ :: _ :: _ :: _ => rcases hk with rfl | rfl | rfl | rfl <;> rfl
      | _ => rcases hk with rfl | rfl | rfl | rfl <;> rfl
  obtain ⟨k, sp, cs⟩ := n
  cases k with
  | fnDecl => exact (congrArg bodyOf (brace_other rfl sp cs)).trans (pair _ (by simp) sp cs)
  | fnExpr => exact (congrArg bodyOf (brace_other rfl sp cs)).trans (pair _ (by simp) sp cs)
  | classMethod => exact (congrArg bodyOf (brace_other rfl sp cs)).trans (pair _ (by simp) sp cs)
  | methodProp => exact (congrArg bodyOf (brace_other rfl sp cs)).trans (pair _ (by simp) sp cs)
  | arrow =>
    rw [brace_other rfl]
    match cs with
    | [] | [_] | [_, _] | _ :: _ :: _ :: _ => rfl
  | getterProp =>
    rw [brace_other rfl]
    match cs with
    | [] | [_] | [_, _] | _ :: _ :: _ :: _ => rfl
  | setterProp =>
    rw [brace_other rfl]
    match cs with
    | [] | [_] | [_, _] | [_, _, _] | [_, _, _, _] | _ :: _ :: _ :: _ :: _ :: _ => rfl
  | _ => rfl

theorem brace_isArrow (n : Node) : (brace w n).isArrow = n.isArrow := by
  obtain ⟨k, sp, cs⟩ := n
  cases k <;> rfl

/-- The branch or function that a construct is does not depend on the braces. -/
theorem brace_head (n : Node) : head cx (brace w n) = head cx n := by
  unfold head
  rw [brace_branch, brace_fnHead, brace_bodyOf, brace_isArrow, brace_span]
  cases n.branch? cx with
  | some b => rfl
  | none =>
    cases fnHead cx n with
    | none => rfl
    | some f =>
      cases bodyOf n with
      | none => rfl
      | some b =>
        show (if (brace w b).kind = .block || n.isArrow then [Entry.function f.1 (cx.range f.2) (cx.range (brace w b).span)] else []) = _
        rw [brace_kind, brace_span]

/-! ### The outline -/

theorem own_brace {n : Node} (h : ∀ init ∈ initOf n, init.any Kind.hasBody = true → init.any Kind.isBlock = true) :
    own cx (brace w n) = own cx n := by
  unfold own
  rw [brace_counted h, brace_head]

theorem outlines_congr {ls : List Look} {cs : List Node} (h : ∀ c ∈ cs, ∀ l, outline cx l (brace w c) = outline cx l c) :
    outlines cx ls (cs.map (brace w)) = outlines cx ls cs := by
  induction cs generalizing ls with
  | nil => rfl
  | cons c cs ih =>
    cases ls with
    | nil => rfl
    | cons l ls =>
      show outline cx l (brace w c) :: outlines cx ls (cs.map (brace w)) = outline cx l c :: outlines cx ls cs
      rw [h c (.head _), ih fun c hc => h c (.tail _ hc)]

/-- A body in braces has the entries it had, if it is looked at as a body. -/
theorem wrap_body (b : Node) : outline cx .body (wrap w b) = outline cx .body b := by
  rcases wrap_cases (w := w) b with h | ⟨sp, _, hh, hk, hi, h⟩
  · rw [h]
  · rw [h]
    show outline cx (lookStmt cx b) b ++ [] = _
    rw [List.append_nil]
    obtain ⟨k, bsp, cs⟩ := b
    replace hk : k ≠ .block := hk
    unfold lookStmt
    rw [hi, Bool.or_false]
    cases hx : cx.hinted (mk k bsp cs) with
    | true =>
      rw [if_pos rfl]
      unfold outline
      have he : excluded cx .body (mk k bsp cs) = true := by
        unfold excluded
        rw [hx, hh]
        rfl
      rw [if_pos rfl, if_neg (by decide), if_neg (by simp [hk]), if_pos he]
    | false =>
      rw [if_neg (by simp)]
      unfold outline
      have he : ∀ l, excluded cx l (mk k bsp cs) = false := fun l => by
        unfold excluded
        rw [hx]
        rfl
      simp [he, hk]

/-- A block with one statement has the entries of this statement. -/
theorem block_outline {sp : Span} (hs : cx.hint sp ≠ some .next) {l : Look} (hl : l = .outer ∨ l = .inner) (b : Node) :
    outline cx l (mk .block sp [b]) = outline cx (lookStmt cx b) b := by
  have he : excluded cx l (mk .block sp [b]) = false := by
    unfold excluded Ctx.hinted
    rw [show (mk .block sp [b]).span = sp from rfl, decide_eq_false hs]
    rfl
  have hs : l ≠ .skip := by rcases hl with rfl | rfl <;> decide
  have hb : l ≠ .body := by rcases hl with rfl | rfl <;> decide
  rw [outline, if_neg hs, if_neg (by simp [hb]), he, if_neg (by simp)]
  show outline cx (lookStmt cx b) b ++ [] = _
  rw [List.append_nil]

/-- A statement of a list has the entries it had. -/
theorem wrap_stmt (hw : cx.Bare w) (b : Node) : outline cx (lookStmt cx (wrap w b)) (wrap w b) = outline cx (lookStmt cx b) b := by
  rcases wrap_cases (w := w) b with h | ⟨sp, hsp, _, _, _, h⟩
  · rw [h]
  · rw [h]
    have hn : lookStmt cx (mk .block sp [b]) = .inner := by
      unfold lookStmt Ctx.hinted
      rw [show (mk .block sp [b]).span = sp from rfl, decide_eq_false (hw.2 _ _ hsp)]
      rfl
    rw [hn, block_outline (hw.2 _ _ hsp) (.inr rfl)]

/-- The statements of a list have the entries they had. -/
theorem wraps_outlines (hw : cx.Bare w) (ss : List Node) :
    outlines cx ((ss.map (wrap w)).map (lookStmt cx)) (ss.map (wrap w)) = outlines cx (ss.map (lookStmt cx)) ss := by
  induction ss with
  | nil => rfl
  | cons s ss ih =>
    show outline cx (lookStmt cx (wrap w s)) (wrap w s) :: outlines cx ((ss.map (wrap w)).map (lookStmt cx)) (ss.map (wrap w)) =
      outline cx (lookStmt cx s) s :: outlines cx (ss.map (lookStmt cx)) ss
    rw [wrap_stmt hw, ih]

/-- Several parts of which the last is put in braces have the entries they had. -/
theorem wrapLast_outlines (hw : cx.Bare w) {l : Look} (hl : l = .outer ∨ l = .inner) (cs : List Node) :
    outlines cx (lookLoop cx l (wrapLast w cs)) (wrapLast w cs) = outlines cx (lookLoop cx l cs) cs := by
  fun_induction wrapLast w cs with
  | case1 => rfl
  | case2 b =>
    rcases wrap_cases (w := w) b with h | ⟨sp, hsp, hh, hk, hi, h⟩
    · rw [h]
    · rw [h]
      show [outline cx (if Kind.block = .block then l else _) (mk .block sp [b])] =
        [outline cx (if b.kind = .block then l else if cx.hint Span.dummy = some .next then .skip else lookStmt cx b) b]
      rw [if_pos rfl, if_neg hk, if_neg hw.1]
      rw [block_outline (hw.2 _ _ hsp) hl]
  | case3 c cs h ih =>
    match cs, h with
    | [], h => exact absurd rfl h
    | d :: cs, _ =>
      have hn : ∃ e es, wrapLast w (d :: cs) = e :: es := by
        cases hx : wrapLast w (d :: cs) with
        | nil => exact absurd (hx ▸ wrapLast_length (w := w) (d :: cs)) (by simp)
        | cons e es => exact ⟨e, es, rfl⟩
      obtain ⟨e, es, hx⟩ := hn
      rw [hx] at ih ⊢
      exact congrArg (outline cx l c :: ·) ih

theorem stmtsInBlocks_mk {k : Kind} {sp : Span} {cs : List Node} (h : (mk k sp cs).StmtsInBlocks) {c : Node} (hc : c ∈ cs) : c.StmtsInBlocks :=
  fun m hm => h m (mem_each_mk.2 (.inr ⟨c, hc, hm⟩))

theorem wrap_isNone (b : Node) : (wrap w b).isNone = b.isNone := by
  rcases wrap_cases (w := w) b with h | ⟨sp, _, hh, _, _, h⟩
  · rw [h]
  · rw [h]
    obtain ⟨k, bsp, cs⟩ := b
    cases k <;> first | rfl | exact absurd hh Bool.noConfusion

theorem brace_lookLoop (l : Look) (cs : List Node) : lookLoop cx l (cs.map (brace w)) = lookLoop cx l cs := by
  fun_induction lookLoop cx l cs with
  | case1 => rfl
  | case2 b =>
    show [if (brace w b).kind = .block then l else if cx.hint Span.dummy = some .next then .skip else lookStmt cx (brace w b)] = _
    rw [brace_kind, brace_lookStmt]
  | case3 c cs h ih =>
    match cs, h with
    | [], h => exact absurd rfl h
    | d :: cs, _ => exact congrArg (l :: ·) ih

theorem inOrder_other {k : Kind} (hk : k ≠ .ifStmt) (sp : Span) (cs : List Node) (es : List (List Entry)) : inOrder (mk k sp cs) es = es := by
  cases k <;> first | rfl | exact absurd rfl hk

/-- The entries of the parts of a construct, if those of each of them do not depend on the braces in it. -/
theorem parts_brace (hw : cx.Bare w) {k : Kind} {sp : Span} {cs : List Node} (ih : ∀ c ∈ cs, ∀ l, outline cx l (brace w c) = outline cx l c) {l : Look}
    (hl : l = .outer ∨ l = .inner) :
    inOrder (mk k sp (bodies w k (braces w cs))) (outlines cx (looks cx l (mk k sp (bodies w k (braces w cs)))) (bodies w k (braces w cs))) =
      inOrder (mk k sp cs) (outlines cx (looks cx l (mk k sp cs)) cs) := by
  have hc : ∀ (cs : List Node) (l : Look), (cs.map (brace w)).map (fun _ => l) = cs.map fun _ => l := fun cs l => by rw [List.map_map]; rfl
  have hm : ∀ ss : List Node, (ss.map (brace w)).map (lookStmt cx) = ss.map (lookStmt cx) := fun ss => by
    rw [List.map_map]
    exact List.map_congr_left fun s _ => brace_lookStmt s
  cases hk : k.hasBody with
  | false =>
    have he : bodies w k (braces w cs) = cs.map (brace w) := (Node.mk.inj (brace_other (w := w) hk sp cs)).2.2
    rw [he, looks_other hk, outlines_congr ih]
    cases k <;> first | rfl | exact absurd hk Bool.noConfusion
  | true =>
    rw [braces_eq]
    cases k with
    | loop kind =>
      show outlines cx (lookLoop cx l (wrapLast w (cs.map (brace w)))) (wrapLast w (cs.map (brace w))) = outlines cx (lookLoop cx l cs) cs
      rw [wrapLast_outlines hw hl, brace_lookLoop, outlines_congr ih]
    | block =>
      show outlines cx (((cs.map (brace w)).map (wrap w)).map (lookStmt cx)) ((cs.map (brace w)).map (wrap w)) = outlines cx (cs.map (lookStmt cx)) cs
      rw [wraps_outlines hw, hm, outlines_congr ih]
    | switchCase =>
      match cs, ih with
      | [], _ => rfl
      | t :: ss, ih =>
        show outline cx l (brace w t) :: outlines cx (((ss.map (brace w)).map (wrap w)).map (lookStmt cx)) ((ss.map (brace w)).map (wrap w)) =
          outline cx l t :: outlines cx (ss.map (lookStmt cx)) ss
        rw [wraps_outlines hw, hm, outlines_congr fun c hc => ih c (.tail _ hc), ih t (.head _)]
    | withStmt =>
      match cs, ih with
      | [], _ => rfl
      | [a], ih => exact outlines_congr (ls := [l]) ih
      | a :: b :: c :: cs, ih =>
        show outlines cx (((a :: b :: c :: cs).map (brace w)).map fun _ => l) ((a :: b :: c :: cs).map (brace w)) =
          outlines cx ((a :: b :: c :: cs).map fun _ => l) (a :: b :: c :: cs)
        rw [hc, outlines_congr ih]
      | [a, b], ih =>
        show [outline cx .skip (brace w a), outline cx .body (wrap w (brace w b))] = [outline cx .skip a, outline cx .body b]
        rw [wrap_body, ih a (by simp), ih b (by simp)]
    | ifStmt =>
      match cs, ih with
      | [], _ => rfl
      | [a], ih => exact outlines_congr (ls := [l]) ih
      | [a, b], ih => exact outlines_congr (ls := [l, l]) ih
      | a :: b :: c :: d :: cs, ih =>
        show inOrder (mk .ifStmt sp _) (outlines cx (((a :: b :: c :: d :: cs).map (brace w)).map fun _ => l) ((a :: b :: c :: d :: cs).map (brace w))) =
          inOrder (mk .ifStmt sp _) (outlines cx ((a :: b :: c :: d :: cs).map fun _ => l) (a :: b :: c :: d :: cs))
        rw [hc, outlines_congr ih]
        rfl
      | [a, b, c], ih =>
        have hs : ∀ (q : Prop) [Decidable q] (x y : Node), outline cx .body x = outline cx .body y →
            outline cx (if q then .skip else .body) x = outline cx (if q then .skip else .body) y := by
          intro q _ x y h
          split
          · obtain ⟨kx, sx, cx'⟩ := x
            obtain ⟨ky, sy, cy⟩ := y
            unfold outline
            rw [if_pos rfl, if_pos rfl]
          · exact h
        show [outline cx (if cx.hint sp = some .if then .skip else .body) (wrap w (brace w b)),
            outline cx (if (decide (cx.hint sp = some .else) || (wrap w (brace w c)).isNone) = true then .skip else .body) (wrap w (brace w c)),
            outline cx l (brace w a)] =
          [outline cx (if cx.hint sp = some .if then .skip else .body) b,
            outline cx (if (decide (cx.hint sp = some .else) || c.isNone) = true then .skip else .body) c, outline cx l a]
        rw [wrap_isNone, brace_isNone, ih a (by simp), hs _ _ _ ((wrap_body _).trans (ih b (by simp) .body)),
          hs _ _ _ ((wrap_body _).trans (ih c (by simp) .body))]
    | _ => exact absurd hk Bool.noConfusion

/-- The entries of a construct do not depend on the braces in it. -/
theorem outline_brace (hw : cx.Bare w) (n : Node) : n.StmtsInBlocks → ∀ l, outline cx l (brace w n) = outline cx l n := by
  induction n using ind with
  | h k sp cs ih =>
    intro h l
    replace ih : ∀ c ∈ cs, ∀ l, outline cx l (brace w c) = outline cx l c := fun c hc => ih c hc (stmtsInBlocks_mk h hc)
    have ho : own cx (mk k sp (bodies w k (braces w cs))) = _ := own_brace (w := w) (h (mk k sp cs) (mem_each_mk.2 (.inl rfl)))
    have hx : excluded cx l (mk k sp (bodies w k (braces w cs))) = _ := brace_excluded (w := w) l (mk k sp cs)
    show outline cx l (mk k sp (bodies w k (braces w cs))) = _
    unfold outline
    by_cases hs : l = .skip
    · rw [if_pos hs, if_pos hs]
    rw [if_neg hs, if_neg hs]
    by_cases hb : (decide (l = .body) && decide (k = .block)) = true
    · rw [if_pos hb, if_pos hb]
      obtain rfl : k = .block := of_decide_eq_true (Bool.and_eq_true _ _ ▸ hb).2
      rw [show bodies w .block (braces w cs) = (cs.map (brace w)).map (wrap w) from congrArg _ (braces_eq cs), wraps_outlines hw, List.map_map,
        show lookStmt cx ∘ brace w = lookStmt cx from funext fun s => brace_lookStmt s, outlines_congr ih]
    · rw [if_neg hb, if_neg hb, hx, ho, parts_brace hw ih (by split <;> simp)]

/-- The entries of a program do not depend on the braces in it. -/
theorem programOutline_brace (hw : cx.Bare w) {p : Node} (h : p.StmtsInBlocks) : programOutline cx (brace w p) = programOutline cx p := by
  obtain ⟨k, sp, cs⟩ := p
  have hf {f : Node → List Entry} (hf : ∀ c ∈ cs, f (brace w c) = f c) : (cs.map (brace w)).flatMap f = cs.flatMap f := by
    rw [List.flatMap_map]
    exact List.flatMap_congr hf
  cases k with
  | module =>
    rw [brace_other rfl]
    show (if Hint.shouldIgnoreFile cx.cc cx.comments sp then [] else (cs.map (brace w)).flatMap (itemOutline cx)) = _
    rw [hf fun c hc => ?_]
    · rfl
    have h1 : isString (brace w c) = isString c := by
      obtain ⟨k', sp', cs'⟩ := c
      cases k' with
      | exprStmt =>
        rw [brace_other rfl]
        match cs' with
        | [] => rfl
        | mk k2 _ _ :: _ :: _ => cases k2 <;> rfl
        | [mk k2 _ _] => cases k2 <;> rfl
      | _ => rfl
    have h2 : isConst (brace w c) = isConst c := by
      obtain ⟨k', sp', cs'⟩ := c
      cases k' with
      | exportDecl =>
        rw [brace_other rfl]
        match cs' with
        | [] => rfl
        | mk k2 _ _ :: _ :: _ => cases k2 <;> first | rfl | (rename_i v; cases v <;> rfl)
        | [mk k2 _ _] => cases k2 <;> first | rfl | (rename_i v; cases v <;> rfl)
      | _ => rfl
    unfold itemOutline
    rw [h1, h2, brace_span, brace_hinted, outline_brace hw c (stmtsInBlocks_mk h hc)]
  | script =>
    rw [brace_other rfl]
    show (if Hint.shouldIgnoreFile cx.cc cx.comments sp then [] else (cs.map (brace w)).flatMap (outline cx .outer)) = _
    rw [hf fun c hc => outline_brace hw c (stmtsInBlocks_mk h hc) .outer]
    rfl
  | _ => rfl

/-! ### Conditions -/

theorem mem_bodies {k : Kind} {cs : List Node} {c : Node} (h : c ∈ bodies w k cs) : c ∈ cs ∨ ∃ b ∈ cs, c = wrap w b := by
  have last : ∀ cs : List Node, c ∈ wrapLast w cs → c ∈ cs ∨ ∃ b ∈ cs, c = wrap w b := by
    intro cs
    fun_induction wrapLast w cs with
    | case1 => exact .inl
    | case2 b => exact fun h => .inr ⟨b, .head _, List.mem_singleton.1 h⟩
    | case3 d cs hn ih =>
      intro h
      rcases List.mem_cons.1 h with rfl | h
      · exact .inl (.head _)
      · exact (ih h).imp (.tail _) fun ⟨b, hb, e⟩ => ⟨b, .tail _ hb, e⟩
  unfold bodies at h
  split at h
  · next a b d =>
    simp only [List.mem_cons, List.not_mem_nil, or_false] at h
    rcases h with rfl | rfl | rfl
    · exact .inl (by simp)
    · exact .inr ⟨b, by simp, rfl⟩
    · exact .inr ⟨d, by simp, rfl⟩
  · next a b =>
    simp only [List.mem_cons, List.not_mem_nil, or_false] at h
    rcases h with rfl | rfl
    · exact .inl (by simp)
    · exact .inr ⟨b, by simp, rfl⟩
  · exact last _ h
  · obtain ⟨b, hb, rfl⟩ := List.mem_map.1 h
    exact .inr ⟨b, hb, rfl⟩
  · rcases List.mem_cons.1 h with rfl | h
    · exact .inl (.head _)
    · obtain ⟨b, hb, rfl⟩ := List.mem_map.1 h
      exact .inr ⟨b, .tail _ hb, rfl⟩
  · exact .inl h

/-- The constructs of the program with braces: those of the program, and blocks with one statement. -/
theorem mem_each_brace {n m : Node} (h : m ∈ (brace w n).each) :
    (∃ m0 ∈ n.each, m = brace w m0) ∨ ∃ sp b, b.hintable = true ∧ m = mk .block sp [brace w b] := by
  induction n using ind with
  | h k sp cs ih =>
    rcases mem_each_mk.1 h with rfl | ⟨c, hc, hm⟩
    · exact .inl ⟨_, mem_each_mk.2 (.inl rfl), rfl⟩
    rw [braces_eq] at hc
    have inside : ∀ d ∈ cs, m ∈ (brace w d).each → (∃ m0 ∈ (mk k sp cs).each, m = brace w m0) ∨ ∃ sp b, b.hintable = true ∧ m = mk .block sp [brace w b] :=
      fun d hd hm => (ih d hd hm).imp_left fun ⟨m0, hm0, e⟩ => ⟨m0, mem_each_mk.2 (.inr ⟨d, hd, hm0⟩), e⟩
    rcases mem_bodies hc with hc | ⟨b, hb, rfl⟩
    · obtain ⟨d, hd, rfl⟩ := List.mem_map.1 hc
      exact inside d hd hm
    · obtain ⟨d, hd, rfl⟩ := List.mem_map.1 hb
      rcases wrap_cases (w := w) (brace w d) with h' | ⟨sp', _, hh, _, _, h'⟩
      · rw [h'] at hm
        exact inside d hd hm
      · rw [h'] at hm
        rcases mem_each_mk.1 hm with rfl | ⟨c, hc, hm⟩
        · exact .inr ⟨sp', d, brace_hintable (w := w) d ▸ hh, rfl⟩
        · rw [List.mem_singleton] at hc
          subst hc
          exact inside d hd hm

theorem brace_initOf (n : Node) : initOf (brace w n) = (initOf n).map (brace w) := by
  obtain ⟨k, sp, cs⟩ := n
  cases k with
  | varDeclarator =>
    rw [brace_other rfl]
    match cs with
    | [] | [_] | [_, _] | _ :: _ :: _ :: _ => rfl
  | classProp =>
    rw [brace_other rfl]
    match cs with
    | [] | [_] | [_, _] | [_, _, _] | _ :: _ :: _ :: _ :: _ => rfl
  | privateProp =>
    rw [brace_other rfl]
    match cs with
    | [] | [_] | [_, _] | [_, _, _] | _ :: _ :: _ :: _ :: _ => rfl
  | _ => rfl

theorem brace_untagged {p : Node} (h : p.NoTaggedInits) : (brace w p).NoTaggedInits := by
  intro m hm i hi
  rcases mem_each_brace hm with ⟨m0, hm0, rfl⟩ | ⟨sp, b, _, rfl⟩
  · rw [brace_initOf] at hi
    cases hx : initOf m0 with
    | none => rw [hx] at hi; exact absurd hi (by simp)
    | some e =>
      rw [hx] at hi
      obtain rfl : brace w e = i := by simpa using hi
      rw [brace_kind]
      exact h m0 hm0 e hx
  · exact absurd hi (by simp [initOf])

theorem brace_casesInSwitch {p : Node} (h : p.CasesInSwitch) : (brace w p).CasesInSwitch := by
  intro m hm hs c hc
  rcases mem_each_brace hm with ⟨m0, hm0, rfl⟩ | ⟨sp, b, hb, rfl⟩
  · obtain ⟨k, sp, cs⟩ := m0
    replace hc : c ∈ bodies w k (braces w cs) := hc
    have hin : ∀ d ∈ braces w cs, d.isCase = false := by
      intro d hd
      rw [braces_eq] at hd
      obtain ⟨e, he, rfl⟩ := List.mem_map.1 hd
      rw [brace_isCase]
      exact h _ hm0 hs e he
    rcases mem_bodies hc with hc | ⟨b, hb, rfl⟩
    · exact hin c hc
    · rcases wrap_cases (w := w) b with h' | ⟨sp', _, _, _, _, h'⟩
      · rw [h']
        exact hin b hb
      · rw [h']
        rfl
  · obtain rfl := List.mem_singleton.1 hc
    rw [brace_isCase]
    obtain ⟨k, sp', cs⟩ := b
    cases k <;> first | rfl | exact absurd hb Bool.noConfusion

end Node
end Verif
