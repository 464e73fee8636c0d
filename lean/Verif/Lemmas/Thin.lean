import Verif.Spec.Thin
import Verif.Lemmas.Braces
/-
The outline of a program without some of the statements in it that nothing is counted in.
-/
namespace Verif
namespace Node
variable {cx : Ctx} {q : Span → Bool}

theorem thins_eq (cs : List Node) : thins q cs = cs.map (thin q) := by
  induction cs with
  | nil => rfl
  | cons c cs ih => exact congrArg (_ :: ·) ih

theorem thin_kind (n : Node) : (thin q n).kind = n.kind := by
  obtain ⟨k, sp, cs⟩ := n
  rfl

theorem thin_span (n : Node) : (thin q n).span = n.span := by
  obtain ⟨k, sp, cs⟩ := n
  rfl

theorem thin_hinted (n : Node) : cx.hinted (thin q n) = cx.hinted n := by
  unfold Ctx.hinted
  rw [thin_span]

/-- Nothing is left out of the parts of a construct without a list of statements. -/
theorem thin_other {k : Kind} (hk : k.hasList = false) (sp : Span) (cs : List Node) : thin q (mk k sp cs) = mk k sp (cs.map (thin q)) := by
  show mk k sp (sifted q k (thins q cs)) = _
  rw [thins_eq]
  cases k <;> first | rfl | exact absurd hk Bool.noConfusion

/-! ### Constructs without anything to count -/

theorem traceless_mk {k : Kind} {sp : Span} {cs : List Node} (h : (mk k sp cs).traceless = true) :
    k.traceless = true ∧ ∀ c ∈ cs, c.traceless = true := by
  replace h : (!(!k.traceless || anyList (fun k => !k.traceless) cs)) = true := h
  rw [Bool.not_eq_true', Bool.or_eq_false_iff, Bool.not_eq_false', anyList_eq, List.any_eq_false] at h
  refine ⟨h.1, fun c hc => ?_⟩
  unfold traceless
  rw [Bool.not_eq_true']
  simpa using h.2 c hc

/-- There are no other kinds in them. -/
theorem traceless_any {p : Kind → Bool} (hp : ∀ k : Kind, k.traceless = true → p k = false) {n : Node} (h : n.traceless = true) : n.any p = false := by
  induction n using ind with
  | h k sp cs ih =>
    obtain ⟨hk, hc⟩ := traceless_mk h
    show (p k || anyList p cs) = false
    rw [hp k hk, Bool.false_or, anyList_eq, List.any_eq_false]
    intro c h
    rw [ih c h (hc c h)]
    exact Bool.false_ne_true

/-- There are no operands in them. -/
theorem traceless_leaves {n : Node} (h : n.traceless = true) : leaves cx n = [] := by
  induction n using ind with
  | h k sp cs ih =>
    obtain ⟨hk, hc⟩ := traceless_mk h
    have hl : leavesList cx cs = [] := by
      clear h
      induction cs with
      | nil => rfl
      | cons c cs ihc =>
        show leaves cx c ++ leavesList cx cs = []
        rw [ih c (.head _) (hc c (.head _)), ihc (fun c h => ih c (.tail _ h)) fun c h => hc c (.tail _ h)]
        rfl
    unfold leaves
    split
    · rfl
    · cases k <;> first | exact hl | exact absurd hk Bool.noConfusion

/-- They have no entries. -/
theorem traceless_outline {n : Node} (h : n.traceless = true) (l : Look) : outline cx l n = [] := by
  induction n using ind generalizing l with
  | h k sp cs ih =>
    obtain ⟨hk, hc⟩ := traceless_mk h
    have hl : ∀ ls, (outlines cx ls cs).flatten = [] := by
      clear h
      induction cs with
      | nil => intro ls; cases ls <;> rfl
      | cons c cs ihc =>
        intro ls
        cases ls with
        | nil => rfl
        | cons l ls =>
          show outline cx l c ++ (outlines cx ls cs).flatten = []
          rw [ih c (.head _) (hc c (.head _)), ihc (fun c h => ih c (.tail _ h)) fun c h => hc c (.tail _ h)]
          rfl
    have ho : own cx (mk k sp cs) = [] := by cases k <;> first | rfl | exact absurd hk Bool.noConfusion
    have hi : ∀ es : List (List Entry), inOrder (mk k sp cs) es = es := by cases k <;> first | exact fun _ => rfl | exact absurd hk Bool.noConfusion
    unfold outline
    rw [ho, hi, hl, hl]
    split
    · rfl
    · split
      · rfl
      · split <;> rfl

/-! ### What there is in a construct -/

theorem sift_any {p : Kind → Bool} (hp : ∀ k : Kind, k.traceless = true → p k = false) (ss : List Node) : anyList p (sift q ss) = anyList p ss := by
  unfold sift
  rw [anyList_eq, anyList_eq, List.any_filter]
  congr 1
  funext s
  cases hs : s.traceless with
  | false => simp
  | true => rw [traceless_any hp hs, Bool.and_false]

theorem sifted_any {p : Kind → Bool} (hp : ∀ k : Kind, k.traceless = true → p k = false) (k : Kind) (cs : List Node) :
    anyList p (sifted q k cs) = anyList p cs := by
  unfold sifted
  split
  · exact sift_any hp _
  · exact sift_any hp _
  · exact sift_any hp _
  · next t ss => exact congrArg (t.any p || ·) (sift_any hp ss)
  · rfl

theorem thin_any {p : Kind → Bool} (hp : ∀ k : Kind, k.traceless = true → p k = false) (n : Node) : (thin q n).any p = n.any p := by
  induction n using ind with
  | h k sp cs ih =>
    show (p k || anyList p (sifted q k (thins q cs))) = (p k || anyList p cs)
    rw [sifted_any hp, thins_eq, anyList_eq, anyList_eq, List.any_map]
    congr 1
    rw [Bool.eq_iff_iff, List.any_eq_true, List.any_eq_true]
    exact ⟨fun ⟨c, hc, h⟩ => ⟨c, hc, (ih c hc).symm.trans h⟩, fun ⟨c, hc, h⟩ => ⟨c, hc, (ih c hc).trans h⟩⟩

theorem thin_logical (n : Node) : (thin q n).any Kind.isLogical = n.any Kind.isLogical :=
  thin_any (fun k hk => by cases k <;> first | rfl | exact absurd hk Bool.noConfusion) n

theorem thin_block (n : Node) : (thin q n).any Kind.isBlock = n.any Kind.isBlock :=
  thin_any (fun k hk => by cases k <;> first | rfl | exact absurd hk Bool.noConfusion) n

/-- Where there is no list of statements nothing is left out. -/
theorem thin_none {n : Node} (h : n.any Kind.hasList = false) : thin q n = n := by
  induction n using ind with
  | h k sp cs ih =>
    replace h : (k.hasList || anyList Kind.hasList cs) = false := h
    rw [Bool.or_eq_false_iff, anyList_eq, List.any_eq_false] at h
    rw [thin_other h.1]
    congr 1
    refine (List.map_congr_left fun c hc => ?_).trans (List.map_id cs)
    exact ih c hc (by simpa using h.2 c hc)

/-! ### Branches -/

theorem sift_leaves (ss : List Node) : leavesList cx (sift q ss) = leavesList cx ss := by
  induction ss with
  | nil => rfl
  | cons s ss ih =>
    show leavesList cx ((s :: ss).filter _) = leaves cx s ++ leavesList cx ss
    rw [List.filter_cons]
    split
    · exact congrArg (leaves cx s ++ ·) ih
    · next h =>
      rw [Bool.not_eq_true, Bool.not_eq_false', Bool.and_eq_true] at h
      rw [traceless_leaves h.2]
      exact ih

theorem sifted_leaves (k : Kind) (cs : List Node) : leavesList cx (sifted q k cs) = leavesList cx cs := by
  unfold sifted
  split
  · exact sift_leaves _
  · exact sift_leaves _
  · exact sift_leaves _
  · next t ss => exact congrArg (leaves cx t ++ ·) (sift_leaves ss)
  · rfl

/-- The places of the operands do not depend on what is left out. -/
theorem thin_leaves (n : Node) : cx.ranges (leaves cx (thin q n)) = cx.ranges (leaves cx n) ∧
    cx.ranges (operands cx [thin q n]) = cx.ranges (operands cx [n]) := by
  induction n using ind with
  | h k sp cs ih =>
    have hl : cx.ranges (leavesList cx (thins q cs)) = cx.ranges (leavesList cx cs) := by
      induction cs with
      | nil => rfl
      | cons c cs ihc =>
        show cx.ranges (leaves cx (thin q c) ++ leavesList cx (thins q cs)) = cx.ranges (leaves cx c ++ leavesList cx cs)
        rw [ranges_append, ranges_append, (ih c (.head _)).1, ihc fun c hc => ih c (.tail _ hc)]
    have h1 : cx.ranges (leaves cx (thin q (mk k sp cs))) = cx.ranges (leaves cx (mk k sp cs)) := by
      by_cases hn : (!k.noExpr && decide (cx.hint sp = some .next)) = true
      · show cx.ranges (leaves cx (mk k sp (sifted q k (thins q cs)))) = _
        unfold leaves
        rw [if_pos hn, if_pos hn]
      · cases k with
        | bin op =>
          rw [thin_other rfl]
          unfold leaves
          rw [if_neg hn, if_neg hn]
          rw [thins_eq] at hl
          match cs, ih, hl with
          | [], _, hl => exact hl
          | [_], _, hl => exact hl
          | _ :: _ :: _ :: _, _, hl => exact hl
          | [a, b], ih, hl =>
            show cx.ranges (if op.isLogical then operands cx [thin q a, thin q b] else leavesList cx [thin q a, thin q b]) =
              cx.ranges (if op.isLogical then operands cx [a, b] else leavesList cx [a, b])
            by_cases ho : op.isLogical = true
            · rw [if_pos ho, if_pos ho]
              have ha := (ih a (by simp)).2
              have hb := (ih b (by simp)).2
              have split (x y : Node) : operands cx [x, y] = operands cx [x] ++ operands cx [y] := by
                simp only [operands, List.append_nil]
              rw [split, split, ranges_append, ranges_append, ha, hb]
            · rw [if_neg ho, if_neg ho]
              exact hl
        | _ =>
          show cx.ranges (leaves cx (mk _ sp (sifted q _ (thins q cs)))) = _
          unfold leaves
          rw [if_neg hn, if_neg hn]
          first
          | exact hl
          | (simp only [sifted_leaves]; exact hl)
    refine ⟨h1, ?_⟩
    show cx.ranges ((if cx.hinted (thin q (mk k sp cs)) = true then [] else
        if (thin q (mk k sp cs)).any Kind.isLogical = true then leaves cx (thin q (mk k sp cs)) else [thin q (mk k sp cs)]) ++ []) =
      cx.ranges ((if cx.hinted (mk k sp cs) = true then [] else if (mk k sp cs).any Kind.isLogical = true then leaves cx (mk k sp cs) else
        [mk k sp cs]) ++ [])
    rw [List.append_nil, List.append_nil, thin_hinted, thin_logical]
    split
    · rfl
    · split
      · exact h1
      · rfl

/-! ### What is seen of the parts of a construct -/

theorem thin_identName (n : Node) : (thin q n).identName? = n.identName? := by
  obtain ⟨k, sp, cs⟩ := n
  cases k <;> rfl

theorem thin_propName (n : Node) : (thin q n).propName? = n.propName? := by
  obtain ⟨k, sp, cs⟩ := n
  cases k <;> rfl

theorem thin_isNone (n : Node) : (thin q n).isNone = n.isNone := by
  obtain ⟨k, sp, cs⟩ := n
  cases k <;> first | rfl | (rw [thin_other rfl]; cases cs <;> rfl)

theorem thin_leaf (n : Node) : leaf cx (thin q n) = leaf cx n := by
  unfold leaf
  rw [thin_hinted, thin_logical]

theorem thin_injectedExpr (n : Node) : isInjectedExpr (thin q n) = isInjectedExpr n := by
  obtain ⟨k, sp, cs⟩ := n
  cases k with
  | counter c => cases c <;> rfl
  | _ => rfl

theorem thin_injected (n : Node) : isInjectedStmt (thin q n) = isInjectedStmt n := by
  obtain ⟨k, sp, cs⟩ := n
  cases k with
  | exprStmt =>
    rw [thin_other rfl]
    match cs with
    | [] | _ :: _ :: _ => rfl
    | [e] => exact thin_injectedExpr e
  | _ => rfl

theorem thin_lookStmt (n : Node) : lookStmt cx (thin q n) = lookStmt cx n := by
  unfold lookStmt
  rw [thin_hinted, thin_injected]

theorem thin_hintable (n : Node) : (thin q n).hintable = n.hintable := by
  obtain ⟨k, sp, cs⟩ := n
  cases hk : k.hasList with
  | true => cases k <;> first | rfl | exact absurd hk Bool.noConfusion
  | false =>
    rw [thin_other hk]
    cases k <;> first
      | rfl
      | (match cs with
        | [] | [_] | [_, _] | [_, _, _] | [_, _, _, _] => rfl
        | _ :: _ :: _ :: _ :: _ :: _ => rfl)

theorem thin_isCase (n : Node) : (thin q n).isCase = n.isCase := by
  obtain ⟨k, sp, cs⟩ := n
  cases k <;> first | rfl | (cases cs <;> rfl)

theorem thin_excluded (l : Look) (n : Node) : excluded cx l (thin q n) = excluded cx l n := by
  unfold excluded
  rw [thin_hinted, thin_hintable, thin_isCase, thin_kind]

theorem thin_lookLoop (l : Look) (cs : List Node) : lookLoop cx l (cs.map (thin q)) = lookLoop cx l cs := by
  fun_induction lookLoop cx l cs with
  | case1 => rfl
  | case2 b =>
    show [if (thin q b).kind = .block then l else if cx.hint Span.dummy = some .next then .skip else lookStmt cx (thin q b)] = _
    rw [thin_kind, thin_lookStmt]
  | case3 c cs h ih =>
    match cs, h with
    | [], h => exact absurd rfl h
    | d :: cs, _ => exact congrArg (l :: ·) ih

/-- How the parts are looked at, if none of them is left out. -/
theorem looks_thin {k : Kind} (hk : k.hasList = false) (l : Look) (sp : Span) (cs : List Node) :
    looks cx l (mk k sp (cs.map (thin q))) = looks cx l (mk k sp cs) := by
  have hc : ∀ (cs : List Node) (l : Look), (cs.map (thin q)).map (fun _ => l) = cs.map fun _ => l := fun cs l => by rw [List.map_map]; rfl
  cases k with
  | ifStmt =>
    match cs with
    | [] | [_] | [_, _] => rfl
    | a :: b :: c :: d :: cs => exact hc (a :: b :: c :: d :: cs) l
    | [a, b, c] =>
      show [l, if cx.hint sp = some .if then .skip else .body, if cx.hint sp = some .else || (thin q c).isNone then .skip else .body] = _
      rw [thin_isNone]
      rfl
  | withStmt =>
    match cs with
    | [] | [_] | [_, _] => rfl
    | a :: b :: c :: cs => exact hc (a :: b :: c :: cs) l
  | loop =>
    show lookLoop cx l (cs.map (thin q)) = lookLoop cx l cs
    exact thin_lookLoop l cs
  | module => exact absurd hk Bool.noConfusion
  | script => exact absurd hk Bool.noConfusion
  | block => exact absurd hk Bool.noConfusion
  | switchCase => exact absurd hk Bool.noConfusion
  | switchStmt => exact hc _ _
  | arrow =>
    match cs with
    | [] | [_] => rfl
    | a :: b :: c :: cs => exact hc (a :: b :: c :: cs) l
    | [a, b] =>
      show [Look.skip, if (thin q b).kind = .block then .body else if cx.hinted (thin q b) then .skip else .inner] = _
      rw [thin_kind, thin_hinted]
      rfl
  | exprStmt =>
    match cs with
    | [] => rfl
    | mk k' sp' cs' :: c :: cs => cases k' <;> exact congrArg (l :: l :: ·) (hc cs l)
    | [mk k' sp' cs'] => cases k' <;> rfl
  | fnExpr =>
    match cs with
    | [] | [_] => rfl
    | a :: b :: c :: cs => exact hc (a :: b :: c :: cs) l
    | [a, b] =>
      show (if cx.excludes (thin q a).identName? then [Look.skip, .skip] else [l, l]) = _
      rw [thin_identName]
      rfl
  | classMethod =>
    match cs with
    | [] | [_] => rfl
    | a :: b :: c :: cs => exact hc (a :: b :: c :: cs) l
    | [a, b] =>
      show (if (thin q a).propName? = none || cx.excludes (thin q a).propName? then [Look.skip, .skip] else [l, l]) = _
      rw [thin_propName]
      rfl
  | methodProp =>
    match cs with
    | [] | [_] => rfl
    | a :: b :: c :: cs => exact hc (a :: b :: c :: cs) l
    | [a, b] =>
      show (if cx.excludes (thin q a).propName? then [Look.skip, .skip] else [l, l]) = _
      rw [thin_propName]
      rfl
  | getterProp =>
    match cs with
    | [] | [_] => rfl
    | a :: b :: c :: cs => exact hc (a :: b :: c :: cs) l
    | [a, b] =>
      show (if cx.excludes (thin q a).propName? then [Look.skip, .skip] else [l, l]) = _
      rw [thin_propName]
      rfl
  | setterProp =>
    match cs with
    | [] | [_] | [_, _] | [_, _, _] => rfl
    | a :: b :: c :: d :: e :: cs => exact hc (a :: b :: c :: d :: e :: cs) l
    | [a, b, c, d] =>
      show (if cx.excludes (thin q a).propName? then [Look.skip, .skip, .skip, .skip] else [l, l, l, l]) = _
      rw [thin_propName]
      rfl
  | bin op =>
    match cs with
    | [] | [_] => rfl
    | a :: b :: c :: cs => exact hc (a :: b :: c :: cs) l
    | [a, b] =>
      show (if op.isLogical then [if leaf cx (thin q a) then l else .skip, if leaf cx (thin q b) then l else .skip] else [l, l]) = _
      rw [thin_leaf, thin_leaf]
      rfl
  | assignPat =>
    match cs with
    | [] | [_] => rfl
    | a :: b :: c :: cs => exact hc (a :: b :: c :: cs) l
    | [a, b] =>
      show [Look.skip, if leaf cx (thin q b) then l else .skip] = _
      rw [thin_leaf]
      rfl
  | _ => exact hc _ l

/-! ### Statements, functions and branches of a construct -/

theorem thin_ofInit {d : Bool} {e : Node} (h : e.any Kind.hasList = true → e.any Kind.isBlock = true) : ofInit cx d (thin q e) = ofInit cx d e := by
  cases hb : e.any Kind.hasList with
  | false => rw [thin_none hb]
  | true =>
    unfold ofInit
    rw [thin_isNone, thin_span, thin_block, if_pos (h hb), if_pos (h hb)]

/-- What counts as a statement does not depend on what is left out. -/
theorem thin_counted {n : Node} (h : ∀ init ∈ initOf n, init.any Kind.hasList = true → init.any Kind.isBlock = true) :
    counted cx (thin q n) = counted cx n := by
  obtain ⟨k, sp, cs⟩ := n
  cases k with
  | ifStmt =>
    match cs with
    | [] | [_] | [_, _] | [_, _, _] => rfl
    | _ :: _ :: _ :: _ :: _ => rfl
  | withStmt =>
    match cs with
    | [] | [_] | [_, _] => rfl
    | _ :: _ :: _ :: _ => rfl
  | exprStmt =>
    rw [thin_other rfl]
    match cs with
    | [] => rfl
    | mk k' sp' cs' :: c :: cs => cases k' <;> first | rfl | (rename_i c; cases c <;> rfl)
    | [mk k' sp' cs'] => cases k' <;> first | rfl | (rename_i c; cases c <;> rfl)
  | arrow =>
    rw [thin_other rfl]
    match cs with
    | [] | [_] => rfl
    | _ :: _ :: _ :: _ => rfl
    | [a, b] =>
      show (if (thin q b).kind = .block || cx.hinted (thin q b) then [] else [Entry.statement (cx.range (thin q b).span) true]) = _
      rw [thin_kind, thin_hinted, thin_span]
      rfl
  | varDeclarator =>
    rw [thin_other rfl]
    match cs, h with
    | [], _ | [_], _ => rfl
    | _ :: _ :: _ :: _, _ => rfl
    | [a, e], h => exact thin_ofInit (h e rfl)
  | classProp =>
    rw [thin_other rfl]
    match cs, h with
    | [], _ | [_], _ | [_, _], _ => rfl
    | _ :: _ :: _ :: _ :: _, _ => rfl
    | [a, e, b], h => exact thin_ofInit (h e rfl)
  | privateProp =>
    rw [thin_other rfl]
    match cs, h with
    | [], _ | [_], _ | [_, _], _ => rfl
    | _ :: _ :: _ :: _ :: _, _ => rfl
    | [a, e, b], h => exact thin_ofInit (h e rfl)
  | _ => rfl

theorem sift_ranges {f : Node → Bool} (hf : ∀ n, f (thin q n) = f n) (cs : List Node) :
    cx.ranges ((cs.map (thin q)).filter f) = cx.ranges (cs.filter f) := by
  induction cs with
  | nil => rfl
  | cons c cs ih =>
    rw [List.map_cons, List.filter_cons, List.filter_cons, hf]
    split
    · show cx.range (thin q c).span :: _ = cx.range c.span :: _
      rw [thin_span]
      exact congrArg _ ih
    · exact ih

/-- The branch of a construct does not depend on what is left out. -/
theorem thin_branch (n : Node) : (thin q n).branch? cx = n.branch? cx := by
  obtain ⟨k, sp, cs⟩ := n
  cases k with
  | ifStmt =>
    match cs with
    | [] | [_] | [_, _] | [_, _, _] => rfl
    | _ :: _ :: _ :: _ :: _ => rfl
  | cond =>
    rw [thin_other rfl]
    match cs with
    | [] | [_] | [_, _] => rfl
    | _ :: _ :: _ :: _ :: _ => rfl
    | [t, a, b] =>
      show some (BranchType.condExpr, cx.ranges (([a, b].map (thin q)).filter fun e => !cx.hinted e)) = _
      rw [sift_ranges fun n => by rw [thin_hinted]]
      rfl
  | switchStmt =>
    rw [thin_other rfl]
    show some (BranchType.switch, cx.ranges ((cs.map (thin q)).filter fun c => c.isCase && !cx.hinted c)) = _
    rw [sift_ranges fun n => by rw [thin_hinted, thin_isCase]]
    rfl
  | assignPat =>
    rw [thin_other rfl]
    match cs with
    | [] | [_] => rfl
    | _ :: _ :: _ :: _ => rfl
    | [a, b] =>
      show some (BranchType.defaultArg, cx.ranges (operands cx [thin q b])) = _
      rw [(thin_leaves b).2]
      rfl
  | bin op =>
    rw [thin_other rfl]
    match cs with
    | [] | [_] => rfl
    | _ :: _ :: _ :: _ => rfl
    | [a, b] =>
      unfold branch?
      have hk : (mk (.bin op) sp ([a, b].map (thin q))).branchKind = (mk (.bin op) sp [a, b]).branchKind := rfl
      rw [hk]
      congr 1
      funext t
      have hc : cx.ranges ((mk (.bin op) sp ([a, b].map (thin q))).choices cx) = cx.ranges ((mk (.bin op) sp [a, b]).choices cx) := by
        show cx.ranges (if op.isLogical then operands cx [thin q a, thin q b] else []) = cx.ranges (if op.isLogical then operands cx [a, b] else [])
        split
        · have both (x y : Node) : operands cx [x, y] = operands cx [x] ++ operands cx [y] := by simp only [operands, List.append_nil]
          rw [both, both, ranges_append, ranges_append, (thin_leaves a).2, (thin_leaves b).2]
        · rfl
      rw [hc]
      rfl
  | _ => rfl

theorem thin_fnHead (n : Node) : fnHead cx (thin q n) = fnHead cx n := by
  obtain ⟨k, sp, cs⟩ := n
  cases k with
  | fnDecl =>
    rw [thin_other rfl]
    match cs with
    | [] | [_] => rfl
    | a :: mk k' sp' cs' :: c :: cs => cases k' <;> rfl
    | [a, mk k' sp' cs'] =>
      cases k' with
      | function =>
        show some ((thin q a).identName?, if (thin q a).identName?.isSome then (thin q a).span else sp') = _
        rw [thin_identName, thin_span]
        rfl
      | _ => rfl
  | fnExpr =>
    rw [thin_other rfl]
    match cs with
    | [] | [_] => rfl
    | a :: mk k' sp' cs' :: c :: cs => cases k' <;> rfl
    | [a, mk k' sp' cs'] =>
      cases k' with
      | function =>
        show (if cx.excludes (thin q a).identName? then none else
          some ((thin q a).identName?, if (thin q a).identName?.isSome then (thin q a).span else sp')) = _
        rw [thin_identName, thin_span]
        rfl
      | _ => rfl
  | classMethod =>
    rw [thin_other rfl]
    match cs with
    | [] => rfl
    | a :: cs =>
      show (if (thin q a).propName? = none || cx.excludes (thin q a).propName? then none else some ((thin q a).propName?, (thin q a).span)) = _
      rw [thin_propName, thin_span]
      rfl
  | methodProp =>
    rw [thin_other rfl]
    match cs with
    | [] => rfl
    | a :: cs =>
      show (if cx.excludes (thin q a).propName? then none
        else if (thin q a).propName?.isSome then some ((thin q a).propName?, (thin q a).span) else some (some "anonymous", Span.dummy)) = _
      rw [thin_propName, thin_span]
      rfl
  | getterProp =>
    rw [thin_other rfl]
    match cs with
    | [] => rfl
    | a :: cs =>
      show (if cx.excludes (thin q a).propName? then none
        else if (thin q a).propName?.isSome then some ((thin q a).propName?, (thin q a).span) else some (some "anonymous", sp)) = _
      rw [thin_propName, thin_span]
      rfl
  | setterProp =>
    rw [thin_other rfl]
    match cs with
    | [] => rfl
    | a :: cs =>
      show (if cx.excludes (thin q a).propName? then none
        else if (thin q a).propName?.isSome then some ((thin q a).propName?, (thin q a).span) else some (some "anonymous", sp)) = _
      rw [thin_propName, thin_span]
      rfl
  | _ => rfl

theorem thin_bodyOf (n : Node) : bodyOf (thin q n) = (bodyOf n).map (thin q) := by
  have pair : ∀ (k : Kind), k = .fnDecl ∨ k = .fnExpr ∨ k = .classMethod ∨ k = .methodProp → ∀ (sp : Span) (cs : List Node),
      bodyOf (mk k sp (cs.map (thin q))) = (bodyOf (mk k sp cs)).map (thin q) := by
    intro k hk sp cs
    match cs with
    | [] | [_] => rcases hk with rfl | rfl | rfl | rfl <;> rfl
    | a :: mk k' sp' cs' :: c :: cs =>
      cases k' with
      | function x =>
        rw [List.map_cons, List.map_cons, thin_other rfl]
        match cs' with
        | [] | [_] | [_, _] | [_, _, _] | _ :: _ :: _ :: _ :: _ => rcases hk with rfl | rfl | rfl | rfl <;> rfl
      | _ => rcases hk with rfl | rfl | rfl | rfl <;> rfl
    | [a, mk k' sp' cs'] =>
      cases k' with
      | function x =>
        rw [List.map_cons, List.map_cons, thin_other rfl]
        match cs' with
        | [] | [_] | [_, _] | [_, _, _] | _ :: _ :: _ :: _ :: _ => rcases hk with rfl | rfl | rfl | rfl <;> rfl
      | _ => rcases hk with rfl | rfl | rfl | rfl <;> rfl
  obtain ⟨k, sp, cs⟩ := n
  cases k with
  | fnDecl => exact (congrArg bodyOf (thin_other rfl sp cs)).trans (pair _ (by simp) sp cs)
  | fnExpr => exact (congrArg bodyOf (thin_other rfl sp cs)).trans (pair _ (by simp) sp cs)
  | classMethod => exact (congrArg bodyOf (thin_other rfl sp cs)).trans (pair _ (by simp) sp cs)
  | methodProp => exact (congrArg bodyOf (thin_other rfl sp cs)).trans (pair _ (by simp) sp cs)
  | arrow =>
    rw [thin_other rfl]
    match cs with
    | [] | [_] | [_, _] | _ :: _ :: _ :: _ => rfl
  | getterProp =>
    rw [thin_other rfl]
    match cs with
    | [] | [_] | [_, _] | _ :: _ :: _ :: _ => rfl
  | setterProp =>
    rw [thin_other rfl]
    match cs with
    | [] | [_] | [_, _] | [_, _, _] | [_, _, _, _] | _ :: _ :: _ :: _ :: _ :: _ => rfl
  | _ => rfl

theorem thin_isArrow (n : Node) : (thin q n).isArrow = n.isArrow := by
  obtain ⟨k, sp, cs⟩ := n
  cases k <;> rfl

/-- The branch or function that a construct is does not depend on what is left out. -/
theorem thin_head (n : Node) : head cx (thin q n) = head cx n := by
  unfold head
  rw [thin_branch, thin_fnHead, thin_bodyOf, thin_isArrow, thin_span]
  cases n.branch? cx with
  | some b => rfl
  | none =>
    cases fnHead cx n with
    | none => rfl
    | some f =>
      cases bodyOf n with
      | none => rfl
      | some b =>
        show (if (thin q b).kind = .block || n.isArrow then [Entry.function f.1 (cx.range f.2) (cx.range (thin q b).span)] else []) = _
        rw [thin_kind, thin_span]

/-! ### The outline -/

theorem own_thin {n : Node} (h : ∀ init ∈ initOf n, init.any Kind.hasList = true → init.any Kind.isBlock = true) :
    own cx (thin q n) = own cx n := by
  unfold own
  rw [thin_counted h, thin_head]

theorem outlines_thin {ls : List Look} {cs : List Node} (h : ∀ c ∈ cs, ∀ l, outline cx l (thin q c) = outline cx l c) :
    outlines cx ls (cs.map (thin q)) = outlines cx ls cs := by
  induction cs generalizing ls with
  | nil => rfl
  | cons c cs ih =>
    cases ls with
    | nil => rfl
    | cons l ls =>
      show outline cx l (thin q c) :: outlines cx ls (cs.map (thin q)) = outline cx l c :: outlines cx ls cs
      rw [h c (.head _), ih fun c hc => h c (.tail _ hc)]

theorem sift_outlines (ss : List Node) :
    (outlines cx ((sift q ss).map (lookStmt cx)) (sift q ss)).flatten = (outlines cx (ss.map (lookStmt cx)) ss).flatten := by
  induction ss with
  | nil => rfl
  | cons s ss ih =>
    show (outlines cx (((s :: ss).filter _).map (lookStmt cx)) ((s :: ss).filter _)).flatten =
      outline cx (lookStmt cx s) s ++ (outlines cx (ss.map (lookStmt cx)) ss).flatten
    rw [List.filter_cons]
    split
    · exact congrArg (outline cx (lookStmt cx s) s ++ ·) ih
    · next h =>
      rw [Bool.not_eq_true, Bool.not_eq_false', Bool.and_eq_true] at h
      rw [traceless_outline h.2]
      exact ih

/-- Items without anything to count have no entries. -/
theorem sift_items {f : Node → List Entry} (hf : ∀ s : Node, s.traceless = true → f s = []) (ss : List Node) : (sift q ss).flatMap f = ss.flatMap f := by
  induction ss with
  | nil => rfl
  | cons s ss ih =>
    show ((s :: ss).filter _).flatMap f = f s ++ ss.flatMap f
    rw [List.filter_cons]
    split
    · exact congrArg (f s ++ ·) ih
    · next h =>
      rw [Bool.not_eq_true, Bool.not_eq_false', Bool.and_eq_true] at h
      rw [hf s h.2]
      exact ih

theorem listsInBlocks_mk {k : Kind} {sp : Span} {cs : List Node} (h : (mk k sp cs).ListsInBlocks) {c : Node} (hc : c ∈ cs) : c.ListsInBlocks :=
  fun m hm => h m (mem_each_mk.2 (.inr ⟨c, hc, hm⟩))

theorem sift_flat (f : Node → Look) (ss : List Node) :
    (outlines cx ((sift q ss).map f) (sift q ss)).flatten = (outlines cx (ss.map f) ss).flatten := by
  induction ss with
  | nil => rfl
  | cons s ss ih =>
    show (outlines cx (((s :: ss).filter _).map f) ((s :: ss).filter _)).flatten = outline cx (f s) s ++ (outlines cx (ss.map f) ss).flatten
    rw [List.filter_cons]
    split
    · exact congrArg (outline cx (f s) s ++ ·) ih
    · next h =>
      rw [Bool.not_eq_true, Bool.not_eq_false', Bool.and_eq_true] at h
      rw [traceless_outline h.2]
      exact ih

/-- The entries of the parts of a construct, if those of each of them do not depend on what is left out of it. -/
theorem parts_thin {k : Kind} {sp : Span} {cs : List Node} (ih : ∀ c ∈ cs, ∀ l, outline cx l (thin q c) = outline cx l c) (l : Look) :
    (inOrder (mk k sp (sifted q k (thins q cs))) (outlines cx (looks cx l (mk k sp (sifted q k (thins q cs)))) (sifted q k (thins q cs)))).flatten =
      (inOrder (mk k sp cs) (outlines cx (looks cx l (mk k sp cs)) cs)).flatten := by
  have hm : ∀ ss : List Node, (ss.map (thin q)).map (lookStmt cx) = ss.map (lookStmt cx) := fun ss => by
    rw [List.map_map]
    exact List.map_congr_left fun s _ => thin_lookStmt s
  have hc : ∀ cs : List Node, (cs.map (thin q)).map (fun _ => l) = cs.map fun _ => l := fun cs => by rw [List.map_map]; rfl
  cases hk : k.hasList with
  | false =>
    have he : sifted q k (thins q cs) = cs.map (thin q) := (Node.mk.inj (thin_other (q := q) hk sp cs)).2.2
    rw [he, looks_thin hk, outlines_thin ih]
    generalize outlines cx (looks cx l (mk k sp cs)) cs = es
    cases k <;> first
      | rfl
      | (match es with
        | [] | [_] | [_, _] | [_, _, _] => rfl
        | _ :: _ :: _ :: _ :: _ => rfl)
  | true =>
    rw [thins_eq]
    cases k with
    | block =>
      show (outlines cx ((sift q (cs.map (thin q))).map (lookStmt cx)) (sift q (cs.map (thin q)))).flatten = (outlines cx (cs.map (lookStmt cx)) cs).flatten
      rw [sift_outlines, hm, outlines_thin ih]
    | module =>
      show (outlines cx ((sift q (cs.map (thin q))).map fun _ => l) (sift q (cs.map (thin q)))).flatten = (outlines cx (cs.map fun _ => l) cs).flatten
      rw [sift_flat, hc, outlines_thin ih]
    | script =>
      show (outlines cx ((sift q (cs.map (thin q))).map fun _ => l) (sift q (cs.map (thin q)))).flatten = (outlines cx (cs.map fun _ => l) cs).flatten
      rw [sift_flat, hc, outlines_thin ih]
    | switchCase =>
      match cs, ih with
      | [], _ => rfl
      | t :: ss, ih =>
        show outline cx l (thin q t) ++ (outlines cx ((sift q (ss.map (thin q))).map (lookStmt cx)) (sift q (ss.map (thin q)))).flatten =
          outline cx l t ++ (outlines cx (ss.map (lookStmt cx)) ss).flatten
        rw [sift_outlines, hm, outlines_thin fun c hc => ih c (.tail _ hc), ih t (.head _)]
    | _ => exact absurd hk Bool.noConfusion

/-- The entries of a construct do not depend on what is left out of it. -/
theorem outline_thin (n : Node) : n.ListsInBlocks → ∀ l, outline cx l (thin q n) = outline cx l n := by
  induction n using ind with
  | h k sp cs ih =>
    intro h l
    replace ih : ∀ c ∈ cs, ∀ l, outline cx l (thin q c) = outline cx l c := fun c hc => ih c hc (listsInBlocks_mk h hc)
    have ho : own cx (mk k sp (sifted q k (thins q cs))) = _ := own_thin (q := q) (h (mk k sp cs) (mem_each_mk.2 (.inl rfl)))
    have hx : excluded cx l (mk k sp (sifted q k (thins q cs))) = _ := thin_excluded (q := q) l (mk k sp cs)
    show outline cx l (mk k sp (sifted q k (thins q cs))) = _
    unfold outline
    by_cases hs : l = .skip
    · rw [if_pos hs, if_pos hs]
    rw [if_neg hs, if_neg hs]
    by_cases hb : (decide (l = .body) && decide (k = .block)) = true
    · rw [if_pos hb, if_pos hb]
      obtain rfl : k = .block := of_decide_eq_true (Bool.and_eq_true _ _ ▸ hb).2
      rw [show sifted q .block (thins q cs) = sift q (cs.map (thin q)) from congrArg _ (thins_eq cs), sift_outlines, List.map_map,
        show lookStmt cx ∘ thin q = lookStmt cx from funext fun s => thin_lookStmt s, outlines_thin ih]
    · rw [if_neg hb, if_neg hb, hx, ho, parts_thin ih]

/-- The entries of a program do not depend on what is left out of it. -/
theorem programOutline_thin {p : Node} (h : p.ListsInBlocks) : programOutline cx (thin q p) = programOutline cx p := by
  obtain ⟨k, sp, cs⟩ := p
  have hf {f : Node → List Entry} (hf : ∀ c ∈ cs, f (thin q c) = f c) : (cs.map (thin q)).flatMap f = cs.flatMap f := by
    rw [List.flatMap_map]
    exact List.flatMap_congr hf
  cases k with
  | module =>
    show (if Hint.shouldIgnoreFile cx.cc cx.comments sp then [] else (sift q (thins q cs)).flatMap (itemOutline cx)) = _
    have hs : ∀ s : Node, s.traceless = true → itemOutline cx s = [] := by
      intro s hs
      obtain ⟨k', sp', cs'⟩ := s
      unfold itemOutline
      rw [traceless_outline hs]
      have hk := (traceless_mk hs).1
      cases k' <;> first | rfl | exact absurd hk Bool.noConfusion
    rw [thins_eq, sift_items hs, hf fun c hc => ?_]
    · rfl
    have h1 : isString (thin q c) = isString c := by
      obtain ⟨k', sp', cs'⟩ := c
      cases k' with
      | exprStmt =>
        rw [thin_other rfl]
        match cs' with
        | [] => rfl
        | mk k2 _ _ :: _ :: _ => cases k2 <;> rfl
        | [mk k2 _ _] => cases k2 <;> rfl
      | _ => rfl
    have h2 : isConst (thin q c) = isConst c := by
      obtain ⟨k', sp', cs'⟩ := c
      cases k' with
      | exportDecl =>
        rw [thin_other rfl]
        match cs' with
        | [] => rfl
        | mk k2 _ _ :: _ :: _ => cases k2 <;> first | rfl | (rename_i v; cases v <;> rfl)
        | [mk k2 _ _] => cases k2 <;> first | rfl | (rename_i v; cases v <;> rfl)
      | _ => rfl
    unfold itemOutline
    rw [h1, h2, thin_span, thin_hinted, outline_thin c (listsInBlocks_mk h hc)]
  | script =>
    show (if Hint.shouldIgnoreFile cx.cc cx.comments sp then [] else (sift q (thins q cs)).flatMap (outline cx .outer)) = _
    rw [thins_eq, sift_items fun s hs => traceless_outline hs _, hf fun c hc => outline_thin c (listsInBlocks_mk h hc) .outer]
    rfl
  | _ => rfl

/-! ### Conditions -/

theorem mem_sifted {k : Kind} {cs : List Node} {c : Node} (h : c ∈ sifted q k cs) : c ∈ cs := by
  unfold sifted at h
  split at h
  · exact (List.mem_filter.1 h).1
  · exact (List.mem_filter.1 h).1
  · exact (List.mem_filter.1 h).1
  · rcases List.mem_cons.1 h with rfl | h
    · exact .head _
    · exact .tail _ (List.mem_filter.1 h).1
  · exact h

/-- What is left are constructs of the program. -/
theorem mem_each_thin {n m : Node} (h : m ∈ (thin q n).each) : ∃ m0 ∈ n.each, m = thin q m0 := by
  induction n using ind with
  | h k sp cs ih =>
    rcases mem_each_mk.1 h with rfl | ⟨c, hc, hm⟩
    · exact ⟨_, mem_each_mk.2 (.inl rfl), rfl⟩
    rw [thins_eq] at hc
    obtain ⟨d, hd, rfl⟩ := List.mem_map.1 (mem_sifted hc)
    obtain ⟨m0, hm0, e⟩ := ih d hd hm
    exact ⟨m0, mem_each_mk.2 (.inr ⟨d, hd, hm0⟩), e⟩

theorem thin_initOf (n : Node) : initOf (thin q n) = (initOf n).map (thin q) := by
  obtain ⟨k, sp, cs⟩ := n
  cases k with
  | varDeclarator =>
    rw [thin_other rfl]
    match cs with
    | [] | [_] | [_, _] | _ :: _ :: _ :: _ => rfl
  | classProp =>
    rw [thin_other rfl]
    match cs with
    | [] | [_] | [_, _] | [_, _, _] | _ :: _ :: _ :: _ :: _ => rfl
  | privateProp =>
    rw [thin_other rfl]
    match cs with
    | [] | [_] | [_, _] | [_, _, _] | _ :: _ :: _ :: _ :: _ => rfl
  | _ => rfl

theorem thin_untagged {p : Node} (h : p.NoTaggedInits) : (thin q p).NoTaggedInits := by
  intro m hm i hi
  obtain ⟨m0, hm0, rfl⟩ := mem_each_thin hm
  rw [thin_initOf] at hi
  cases hx : initOf m0 with
  | none => rw [hx] at hi; exact absurd hi (by simp)
  | some e =>
    rw [hx] at hi
    obtain rfl : thin q e = i := by simpa using hi
    rw [thin_kind]
    exact h m0 hm0 e hx

theorem thin_casesInSwitch {p : Node} (h : p.CasesInSwitch) : (thin q p).CasesInSwitch := by
  intro m hm hs c hc
  obtain ⟨m0, hm0, rfl⟩ := mem_each_thin hm
  obtain ⟨k, sp, cs⟩ := m0
  replace hc : c ∈ sifted q k (thins q cs) := hc
  replace hc := mem_sifted hc
  rw [thins_eq] at hc
  obtain ⟨e, he, rfl⟩ := List.mem_map.1 hc
  rw [thin_isCase]
  exact h _ hm0 hs e he

end Node
end Verif
