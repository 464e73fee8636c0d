import Verif.Lemmas.Arms
import Verif.Lemmas.Ignored
import Verif.Spec.Build
/-
C24: `ignore if` and `ignore else`.
-/
namespace Verif
open Node Visitor Build

/-- C24 for the data: every `if` branch of the emitted coverage data is that of an `if` statement of the
source, and it has two arms, or one if an `ignore if` or `ignore else` hint is at the statement; each arm has
the range of the statement. -/
theorem C24_arms {cx : Ctx} {fuel : Nat} {path : String} {sm : Option SourceMap} {p p' : Node}
    {cov : SourceCoverage} (h : instrument cx fuel path sm p = .ok (p', cov)) {k : Nat} {br : Branch}
    (hb : (k, br) ∈ cov.inner.branchMap) (ht : br.branchType = .if) :
    ∃ sp, (Kind.ifStmt, sp) ∈ p.tags ∧ br.loc = some (cx.range sp) ∧
      br.locations = List.replicate (ifArms (cx.hint sp)) (cx.range sp) :=
  instrument_ifs h hb ht

section
variable {cx : Ctx} {fuel : Nat} {m : Mode} {sp : Span} {test cons alt n' : Node} {st st' : St}

/-- A visit of an `if` statement outside of ignored code. -/
theorem visit_if_eq (hm : m = .coverage ∨ m = .stmt ∨ ∃ b, m = .switchCase b)
    (hs : st.ignore ≠ some .next) (hh : cx.hint sp ≠ some .next) :
    visit cx (fuel + 1) m (mk .ifStmt sp [test, cons, alt]) st =
      match visitIf cx (visit cx fuel) m (cx.hint sp) sp test cons alt
        { st with nodes := .ifStmt :: st.nodes, ignore := cx.hint sp } with
      | .error e => .error e
      | .ok (n, s) => .ok (n, { s with ignore := st.ignore, nodes := s.nodes.tail }) := by
  have h1 : visit cx (fuel + 1) m (mk .ifStmt sp [test, cons, alt]) st =
      frame cx .ifStmt sp (fun cur => if cur = some .next then pure (mk .ifStmt sp [test, cons, alt])
        else visitIf cx (visit cx fuel) m cur sp test cons alt) st := by
    rcases hm with rfl | rfl | ⟨b, rfl⟩ <;> rfl
  rw [h1]
  simp only [frame, enter, push, enterSpan, Bind.bind, M.bind, hs, if_false, hh]
  cases visitIf cx (visit cx fuel) m (cx.hint sp) sp test cons alt
    { st with nodes := .ifStmt :: st.nodes, ignore := cx.hint sp } with
  | error e => rfl
  | ok r => rfl

/-- The state after the statement and the branch of an `if` are registered. -/
theorem visitIf_eq {go : Mode → Node → M Node} (cur : Option IgnoreScope) :
    ∃ s0 : St, s0.cov.lastB = st.cov.lastB + 1 ∧
      s0.cov.inner.b.get st.cov.lastB = some [] ∧
      s0.cov.inner.branchMap.get st.cov.lastB =
        some ⟨some (cx.range sp), .if, [], some (cx.range sp).start.line⟩ ∧
      ∀ test cons alt, visitIf cx go m cur sp test cons alt st = (do
        let cons ← keepIf (cur = some .if) cons (wrapArm cx go cur st.cov.lastB (cx.range sp) cons)
        let alt ← keepIf (cur = some .else) alt
          (wrapArm cx go cur st.cov.lastB (cx.range sp) (if alt.isNone then mk .block Span.dummy [] else alt))
        let test ← go m test
        Pure.pure (mk .ifStmt sp [test, cons, alt]) : M Node) s0 := by
  refine ⟨{ st with
    before := st.before ++ [counterStmt (.s st.cov.lastS)]
    cov := ((st.cov.newStatement (cx.range sp)).1.newBranch .if (cx.range sp) false).1 }, ?_, ?_, ?_, ?_⟩
  · rw [(newBranch_lastB _ _ _ _).1]; rfl
  · simp only [SourceCoverage.newBranch, SourceCoverage.maybeNewBranchTrue, SourceCoverage.newStatement,
      if_true]
    rw [IndexMap.get_insert, if_pos rfl]
  · simp only [(newBranch_lastB _ _ _ _).2.2, SourceCoverage.newStatement]
    rw [IndexMap.get_insert, if_pos rfl]
  · intro test cons alt
    rfl

/-- An arm is a block that starts with the counter of the arm. -/
theorem wrapArm_ok {go : Mode → Node → M Node} {cur : Option IgnoreScope} {b : Nat} {r : Range} {s s' : Node}
    {c : List Nat} (hb : st.cov.inner.b.get b = some c)
    (h : wrapArm cx go cur b r s st = .ok (s', st')) :
    ∃ bsp ss, s' = mk .block bsp (counterStmt (.b b c.length) :: ss) := by
  unfold wrapArm at h
  obtain ⟨i, st1, h1, h2⟩ := M.bind_ok h
  have hi : i = c.length := by
    unfold addPath at h1
    cases h3 : st.cov.addBranchPath b r with
    | error e => rw [h3] at h1; cases h1
    | ok x =>
      obtain ⟨cov, j⟩ := x
      rw [h3] at h1
      cases h1
      unfold SourceCoverage.addBranchPath at h3
      cases h4 : st.cov.inner.branchMap.get b with
      | none => rw [h4] at h3; cases h3
      | some br =>
        rw [h4, hb] at h3
        simp only at h3
        have hget : ∀ cv : SourceCoverage, (SourceCoverage.maybeAddBranchTrue cv b).inner.b = cv.inner.b := by
          intro cv
          unfold SourceCoverage.maybeAddBranchTrue
          split
          · rfl
          · split <;> rfl
        rw [hget] at h3
        simp only at h3
        rw [IndexMap.get_modify, if_pos rfl, hb] at h3
        simp only [Option.map_some] at h3
        cases h3
        simp
  subst hi
  split at h2
  · obtain ⟨ss, st2, h3, h4⟩ := M.bind_ok h2
    cases h4
    exact ⟨_, _, rfl⟩
  · obtain ⟨⟨s1, bf⟩, st2, h3, h4⟩ := M.bind_ok h2
    cases h4
    exact ⟨_, _, rfl⟩

/-- What remains to be done for an `if` statement after the registration of its branch `b`. -/
def ifRest (cx : Ctx) (go : Mode → Node → M Node) (m : Mode) (cur : Option IgnoreScope) (b : Nat) (sp : Span)
    (test cons alt : Node) : M Node := do
  let cons ← keepIf (cur = some .if) cons (wrapArm cx go cur b (cx.range sp) cons)
  let alt ← keepIf (cur = some .else) alt
    (wrapArm cx go cur b (cx.range sp) (if alt.isNone then mk .block Span.dummy [] else alt))
  let test ← go m test
  Pure.pure (mk .ifStmt sp [test, cons, alt])

theorem ifRest_if {go : Mode → Node → M Node} {b : Nat} : ifRest cx go m (some .if) b sp test cons alt st =
    match wrapArm cx go (some .if) b (cx.range sp) (if alt.isNone then mk .block Span.dummy [] else alt) st with
    | .error e => .error e
    | .ok (a, s) => match go m test s with
      | .error e => .error e
      | .ok (t, s) => .ok (mk .ifStmt sp [t, cons, a], s) := by
  have h : ifRest cx go m (some .if) b sp test cons alt = (do
      let alt ← wrapArm cx go (some .if) b (cx.range sp) (if alt.isNone then mk .block Span.dummy [] else alt)
      let test ← go m test
      Pure.pure (mk .ifStmt sp [test, cons, alt])) := rfl
  rw [h]
  simp only [Bind.bind, M.bind]
  cases wrapArm cx go (some .if) b (cx.range sp) (if alt.isNone then mk .block Span.dummy [] else alt) st with
  | error e => rfl
  | ok r =>
    obtain ⟨a, s⟩ := r
    simp only
    cases go m test s with
    | error e => rfl
    | ok r => rfl

theorem ifRest_else {go : Mode → Node → M Node} {b : Nat} : ifRest cx go m (some .else) b sp test cons alt st =
    match wrapArm cx go (some .else) b (cx.range sp) cons st with
    | .error e => .error e
    | .ok (c, s) => match go m test s with
      | .error e => .error e
      | .ok (t, s) => .ok (mk .ifStmt sp [t, c, alt], s) := by
  have h : ifRest cx go m (some .else) b sp test cons alt = (do
      let cons ← wrapArm cx go (some .else) b (cx.range sp) cons
      let test ← go m test
      Pure.pure (mk .ifStmt sp [test, cons, alt])) := rfl
  rw [h]
  simp only [Bind.bind, M.bind]
  cases wrapArm cx go (some .else) b (cx.range sp) cons st with
  | error e => rfl
  | ok r =>
    obtain ⟨a, s⟩ := r
    simp only
    cases go m test s with
    | error e => rfl
    | ok r => rfl

/-- The branch at the end. -/
theorem ifRest_branch {cur : Option IgnoreScope} {b : Nat} (hmb : ∀ k, m.adds k → k < b)
    (hb : b < st.cov.lastB) (hbr : st.cov.inner.branchMap.get b =
      some ⟨some (cx.range sp), .if, [], some (cx.range sp).start.line⟩)
    (h : ifRest cx (visit cx fuel) m cur b sp test cons alt st = .ok (n', st')) :
    st'.cov.inner.branchMap.get b = some ⟨some (cx.range sp), .if,
      List.replicate (ifArms cur) (cx.range sp), some (cx.range sp).start.line⟩ := by
  have := Goes.visitIfArms (cx := cx) (S := fun _ => True) (B := m.adds) (Goes.visit cx _ fuel)
    (m := m) (fun k hk => hk) (cur := cur) (sp := sp) (test := test) (cons := cons) (alt := alt)
    (fun _ _ => trivial) b
  rw [Goes.ifArms_eq] at this
  have := (this st n' st' hmb hb (fun _ _ _ _ => trivial) h).2.2.2 _ hbr
  simpa using this

/-- C24, partial, `ignore if`: outside of operands of logical expressions the consequent is emitted exactly as written and has no effect on anything else, it
could be any other statement; the alternative becomes a block that starts with the counter of the only arm of
the branch. -/
theorem C24_ignore_if_partial (hm : m = .coverage ∨ m = .stmt ∨ ∃ b, m = .switchCase b)
    (hs : st.ignore ≠ some .next) (hmb : ∀ k, m.adds k → k < st.cov.lastB) (hh : cx.hint sp = some .if)
    (h : visit cx fuel m (mk .ifStmt sp [test, cons, alt]) st = .ok (n', st')) :
    ∃ test' alt', n' = mk .ifStmt sp [test', cons, alt'] ∧
      (∃ bsp ss, alt' = mk .block bsp (counterStmt (.b st.cov.lastB 0) :: ss)) ∧
      st'.cov.inner.branchMap.get st.cov.lastB =
        some ⟨some (cx.range sp), .if, [cx.range sp], some (cx.range sp).start.line⟩ ∧
      ∀ x, visit cx fuel m (mk .ifStmt sp [test, x, alt]) st =
        .ok (mk .ifStmt sp [test', x, alt'], st') := by
  cases fuel with
  | zero => cases h
  | succ fuel =>
    have hh' : cx.hint sp ≠ some .next := by rw [hh]; simp
    obtain ⟨s0, e1, e2, e3, e4⟩ := visitIf_eq (cx := cx) (m := m) (sp := sp)
      (st := { st with nodes := .ifStmt :: st.nodes, ignore := cx.hint sp }) (go := visit cx fuel) (cx.hint sp)
    simp only at e1 e2 e3
    have e5 : ∀ cons alt, visitIf cx (visit cx fuel) m (cx.hint sp) sp test cons alt
        { st with nodes := .ifStmt :: st.nodes, ignore := cx.hint sp } =
        ifRest cx (visit cx fuel) m (some .if) st.cov.lastB sp test cons alt s0 := by
      intro cons alt
      rw [e4, hh]; rfl
    rw [visit_if_eq hm hs hh', e5] at h
    cases hr : ifRest cx (visit cx fuel) m (some .if) st.cov.lastB sp test cons alt s0 with
    | error e => rw [hr] at h; cases h
    | ok r =>
      obtain ⟨n2, s2⟩ := r
      rw [hr] at h
      cases h
      have hbr := ifRest_branch hmb (by omega) e3 hr
      rw [ifRest_if] at hr
      cases ha : wrapArm cx (visit cx fuel) (some .if) st.cov.lastB (cx.range sp)
          (if alt.isNone then mk .block Span.dummy [] else alt) s0 with
      | error e => rw [ha] at hr; cases hr
      | ok r =>
        obtain ⟨alt', s1⟩ := r
        rw [ha] at hr
        simp only at hr
        cases ht : visit cx fuel m test s1 with
        | error e => rw [ht] at hr; cases hr
        | ok r =>
          obtain ⟨test', s3⟩ := r
          rw [ht] at hr
          cases hr
          refine ⟨test', alt', rfl, wrapArm_ok e2 ha, hbr, ?_⟩
          intro x
          rw [visit_if_eq hm hs hh', e5, ifRest_if, ha]
          simp only [ht]

/-- C24, partial, `ignore else`: outside of operands of logical expressions the alternative is emitted exactly as written and has no effect on anything else, it
could be any other statement; the consequent becomes a block that starts with the counter of the only arm of
the branch. -/
theorem C24_ignore_else_partial (hm : m = .coverage ∨ m = .stmt ∨ ∃ b, m = .switchCase b)
    (hs : st.ignore ≠ some .next) (hmb : ∀ k, m.adds k → k < st.cov.lastB) (hh : cx.hint sp = some .else)
    (h : visit cx fuel m (mk .ifStmt sp [test, cons, alt]) st = .ok (n', st')) :
    ∃ test' cons', n' = mk .ifStmt sp [test', cons', alt] ∧
      (∃ bsp ss, cons' = mk .block bsp (counterStmt (.b st.cov.lastB 0) :: ss)) ∧
      st'.cov.inner.branchMap.get st.cov.lastB =
        some ⟨some (cx.range sp), .if, [cx.range sp], some (cx.range sp).start.line⟩ ∧
      ∀ x, visit cx fuel m (mk .ifStmt sp [test, cons, x]) st =
        .ok (mk .ifStmt sp [test', cons', x], st') := by
  cases fuel with
  | zero => cases h
  | succ fuel =>
    have hh' : cx.hint sp ≠ some .next := by rw [hh]; simp
    obtain ⟨s0, e1, e2, e3, e4⟩ := visitIf_eq (cx := cx) (m := m) (sp := sp)
      (st := { st with nodes := .ifStmt :: st.nodes, ignore := cx.hint sp }) (go := visit cx fuel) (cx.hint sp)
    simp only at e1 e2 e3
    have e5 : ∀ cons alt, visitIf cx (visit cx fuel) m (cx.hint sp) sp test cons alt
        { st with nodes := .ifStmt :: st.nodes, ignore := cx.hint sp } =
        ifRest cx (visit cx fuel) m (some .else) st.cov.lastB sp test cons alt s0 := by
      intro cons alt
      rw [e4, hh]; rfl
    rw [visit_if_eq hm hs hh', e5] at h
    cases hr : ifRest cx (visit cx fuel) m (some .else) st.cov.lastB sp test cons alt s0 with
    | error e => rw [hr] at h; cases h
    | ok r =>
      obtain ⟨n2, s2⟩ := r
      rw [hr] at h
      cases h
      have hbr := ifRest_branch hmb (by omega) e3 hr
      rw [ifRest_else] at hr
      cases ha : wrapArm cx (visit cx fuel) (some .else) st.cov.lastB (cx.range sp)
          cons s0 with
      | error e => rw [ha] at hr; cases hr
      | ok r =>
        obtain ⟨cons', s1⟩ := r
        rw [ha] at hr
        simp only at hr
        cases ht : visit cx fuel m test s1 with
        | error e => rw [ht] at hr; cases hr
        | ok r =>
          obtain ⟨test', s3⟩ := r
          rw [ht] at hr
          cases hr
          refine ⟨test', cons', rfl, wrapArm_ok e2 ha, hbr, ?_⟩
          intro x
          rw [visit_if_eq hm hs hh', e5, ifRest_else, ha]
          simp only [ht]

end

/-- `/* istanbul ignore else */ if (a) f(); else if (b) g();` -/
def elseHinted : Node := Build.module [mk .ifStmt (at' 5) [ident 6 "a", expr 7 (call 7 (ident 7 "f") []),
  mk .ifStmt (at' 8) [ident 9 "b", expr 10 (call 10 (ident 10 "g") []), absent]]]

/-- With the hint there is one branch with one arm; the alternative has no counters. -/
example : yields (run (hinted 5 " istanbul ignore else ") elseHinted) (fun p' r =>
    decide (counters p' = [.s 0, .b 0 0, .s 1] ∧ r.branchMap.map (fun e => e.2.locations) = [[⟨⟨5, 0⟩, ⟨6, 0⟩⟩]])) =
    true := by
  decide +kernel

/-- With `ignore if` the consequent has no counters; the nested `if` has both arms. -/
example : yields (run (hinted 5 " istanbul ignore if ") elseHinted) (fun p' r =>
    decide (counters p' = [.s 0, .b 0 0, .s 1, .b 1 0, .s 2, .b 1 1] ∧
      r.branchMap.map (fun e => e.2.locations.length) = [1, 2])) = true := by
  decide +kernel

/-- `if (c) { x && y }` -/
def hintedIf : Node := mk .ifStmt (at' 7) [ident 8 "c", block 9 [expr 10 (bin 10 .and (ident 10 "x") (ident 11 "y"))], absent]

/-- C24 fails inside operands of logical expressions: in `a || function () { /* istanbul ignore if */ if (c) { x && y } }` there
are counters in the consequent, and the `if` statement has no branch. -/
theorem C24_operand_fails : ∃ cx p' cov, cx.hint hintedIf.span = some .if ∧
    run cx (Build.module [expr 1 (bin 2 .or (ident 3 "a") (mk .fnExpr (at' 4) [absent, function 4 [] (block 6 [hintedIf])]))]) =
      .ok (p', cov) ∧
    counters p' = [.s 0, .b 0 0, .b 0 1, .b 0 2] ∧
    cov.inner.branchMap.map (fun e => e.2.locations) =
      [[cx.range (ident 3 "a").span, cx.range (ident 10 "x").span, cx.range (ident 11 "y").span]] := by
  have h : yields (run (hinted 7 " istanbul ignore if ") (Build.module [expr 1 (bin 2 .or (ident 3 "a")
      (mk .fnExpr (at' 4) [absent, function 4 [] (block 6 [hintedIf])]))])) (fun p' r =>
      decide (counters p' = [.s 0, .b 0 0, .b 0 1, .b 0 2] ∧ r.branchMap.map (fun e => e.2.locations) =
        [[plain.range (at' 3), plain.range (at' 10), plain.range (at' 11)]])) = true := by decide +kernel
  obtain ⟨p', cov, h1, h2⟩ := of_yields h
  have h3 := of_decide_eq_true h2
  exact ⟨_, p', cov, by decide +kernel, h1, h3.1, h3.2⟩

end Verif
