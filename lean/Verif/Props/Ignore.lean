import Verif.Lemmas.Ignored
import Verif.Lemmas.Run
import Verif.Props.Total
/-
C23, C26: constructs that are left out of coverage.
-/
namespace Verif
open Node Visitor Build

/-! ### C23 -/

/-- C23 at any visit: whatever the state of the visitor, a construct with an ignore-next hint is left as it
is, with everything nested inside it, and the coverage data, the pending counters and the rest of the
visitor's state are unchanged. -/
theorem C23_construct {cx : Ctx} {fuel : Nat} {m : Mode} {n n' : Node} {st st' : St}
    (hn : n.hintable = true) (hm : m = .coverage ∨ m = .stmt ∨ ∃ b, m = .switchCase b)
    (hh : cx.hint n.span = some .next) (h : visit cx fuel m n st = .ok (n', st')) :
    n' = n ∧ st' = st :=
  visit_hinted hn (by rcases hm with rfl | rfl | ⟨b, rfl⟩ <;> rfl) hh h

/-- C23 inside a construct with an ignore-next hint: nothing changes, whatever is visited by which
visitor. -/
theorem C23_nested {cx : Ctx} {fuel : Nat} {m : Mode} {n n' : Node} {st st' : St}
    (hs : st.ignore = some .next) (h : visit cx fuel m n st = .ok (n', st')) : n' = n ∧ st' = st :=
  Still.visit cx fuel m n st n' st' hs h

/-- C23 in any statement list: with an ignore-next hint at statement `s`, the list is instrumented to `s`
between what its other statements are instrumented to without it, with the same coverage data. -/
theorem C23_statement {cx : Ctx} {fuel : Nat} {pre post : List Node} {s : Node} {st st' : St}
    {out : List Node} (hh : cx.hint s.span = some .next)
    (h : insertStmts cx (visit cx fuel) (pre ++ s :: post) st = .ok (out, st')) :
    ∃ a b, out = a ++ s :: b ∧ insertStmts cx (visit cx fuel) (pre ++ post) st = .ok (a ++ b, st') := by
  obtain ⟨a, r, st1, h1, h2, rfl⟩ := (insertStmts_append pre (s :: post)).1 h
  obtain ⟨o, st2, h3, h4⟩ := M.bind_ok h2
  obtain ⟨b, st3, h5, h6⟩ := M.bind_ok h4
  cases h6
  obtain ⟨rfl, rfl⟩ := insertStmt_hinted hh h3
  exact ⟨a, b, rfl, (insertStmts_append pre post).2 ⟨a, b, _, h1, h5, rfl⟩⟩

/-- C23, partial, for whole modules: a module with an ignore-next hint at an item is instrumented to that
item, exactly as written, between what the other items are instrumented to in the module without it; and the
emitted coverage data is that of the module without it. Missing: `export const` items, which get a
statement entry in spite of the hint (`C23_refuted`). -/
theorem C23_module_partial {cx : Ctx} {fuel : Nat} {path : String} {sm : Option SourceMap} {sp : Span}
    {pre post : List Node} {item p' : Node} {cov : SourceCoverage}
    (hf : Hint.shouldIgnoreFile cx.cc cx.comments sp = false)
    (hh : cx.hint item.span = some .next) (hx : isExportConst item = false)
    (h : instrument cx fuel path sm (mk .module sp (pre ++ item :: post)) = .ok (p', cov)) :
    ∃ a b x y x' y' decl call,
      p' = mk .module sp (x ++ [decl, call] ++ y) ∧ x ++ y = a ++ item :: b ∧
      instrument cx fuel path sm (mk .module sp (pre ++ post)) =
        .ok (mk .module sp (x' ++ [decl, call] ++ y'), cov) ∧ x' ++ y' = a ++ b := by
  rw [instrument_module _ _ _ _ _ _ hf] at h
  cases hv : visitItems cx fuel (pre ++ item :: post) (start cx path sm) with
  | error e => rw [hv] at h; cases h
  | ok r =>
    obtain ⟨out, st⟩ := r
    rw [hv] at h
    cases h
    obtain ⟨a, r, st1, h1, h2, rfl⟩ := (visitItems_append pre (item :: post)).1 hv
    obtain ⟨o, st2, h3, h4⟩ := M.bind_ok h2
    obtain ⟨b, st3, h5, h6⟩ := M.bind_ok h4
    cases h6
    obtain ⟨rfl, rfl⟩ := visitItem_hinted (visitItems_before pre rfl h1) hh hx h3
    have hins : ∀ d c (l : List Node), ∃ x y, insertModuleTemplates d c l = x ++ [d, c] ++ y ∧ x ++ y = l := by
      intro d c l
      cases l with
      | nil => exact ⟨[], [], rfl, rfl⟩
      | cons i l => exact ⟨[i], l, rfl, rfl⟩
    obtain ⟨x, y, e1, e2⟩ := hins declItem callItem (a ++ item :: b)
    obtain ⟨x', y', e3, e4⟩ := hins declItem callItem (a ++ b)
    refine ⟨a, b, x, y, x', y', declItem, callItem, ?_, e2, ?_, e4⟩
    · rw [← e1]; rfl
    · rw [instrument_module _ _ _ _ _ _ hf, (visitItems_append pre post).2 ⟨a, b, _, h1, h5, rfl⟩, ← e3]

/-- `f(); /* istanbul ignore next */ function g(a = 1) { if (a) return; } h();` -/
def skipped : Node := Build.module [expr 2 (call 2 (ident 2 "f") []),
  fnDecl 5 "g" [mk .assignPat (at' 6) [ident 6 "a", num 7 "1"]]
    [mk .ifStmt (at' 8) [ident 8 "a", mk .returnStmt (at' 9) [absent], absent]],
  expr 10 (call 10 (ident 10 "h") [])]

/-- In the example the hint is found, the function is emitted as written and there are two statements, no
function and no branch. -/
example : yields (run (hinted 5 " istanbul ignore next ") skipped) (fun p' r =>
    (p'.children.map fun c => decide (c ∈ skipped.children)) == [false, false, false, true, true, false, true] &&
    r.s.length == 2 && r.f.length == 0 && r.b.length == 0) = true := by
  decide +kernel

/-- Without the hint there is more. -/
example : yields (run plain skipped) (fun _ r =>
    r.s.length == 4 && r.f.length == 1 && r.b.length == 2) = true := by
  decide +kernel

/-- `/* istanbul ignore next */ export const a = 1;` -/
def exported : Node := Build.module [mk .exportDecl (at' 5) [decl 5 .const "a" (num 6 "1")]]

/-- C23 fails for `export const`: a statement is registered and its counter is emitted before the
item. -/
theorem C23_refuted : ∃ cx item p' cov, cx.hint item.span = some .next ∧
    run cx (Build.module [item]) = .ok (p', cov) ∧ counters p' = [.s 0] ∧ cov.inner.s ≠ [] := by
  have h : yields (run (hinted 5 " istanbul ignore next ") exported) (fun p' r =>
      decide (counters p' = [.s 0] ∧ r.s ≠ [])) = true := by decide +kernel
  obtain ⟨p', cov, h1, h2⟩ := of_yields h
  have h3 := of_decide_eq_true h2
  exact ⟨_, _, p', cov, by decide +kernel, h1, h3.1, h3.2⟩

/-- `function g() /* istanbul ignore next */ { f(); }` -/
def hintedBody : Node := Build.module [mk .fnDecl (at' 2) [ident 2 "g",
  function 2 [] (block 5 [expr 6 (call 6 (ident 6 "f") [])])]]

/-- C23 fails for blocks that are function bodies: the function counter is put inside the hinted block. -/
theorem C23_body_refuted : ∃ cx b p' cov, cx.hint (Node.span b) = some .next ∧ b.kind = .block ∧
    (∃ q, run cx q = .ok (p', cov) ∧ ∃ f g, q = Build.module [mk .fnDecl (at' 2) [f, g]] ∧ b ∈ g.children) ∧
    counters p' = [.f 0] := by
  have h : yields (run (hinted 5 " istanbul ignore next ") hintedBody) (fun p' _ =>
      decide (counters p' = [.f 0])) = true := by decide +kernel
  obtain ⟨p', cov, h1, h2⟩ := of_yields h
  exact ⟨_, block 5 [expr 6 (call 6 (ident 6 "f") [])], p', cov, by decide +kernel, rfl,
    ⟨_, h1, ident 2 "g", _, rfl, by simp [function, children]⟩, of_decide_eq_true h2⟩

/-- `a || function () { s }` -/
def operandOf (s : Node) : Node := Build.module [expr 1 (bin 2 .or (ident 3 "a")
  (mk .fnExpr (at' 4) [absent, function 4 [] (block 6 [s])]))]

/-- `const z = x && y;` -/
def hintedDecl : Node := decl 7 .const "z" (bin 10 .and (ident 10 "x") (ident 11 "y"))

/-- C23 fails for statements inside operands of logical expressions: in
`a || function () { /* istanbul ignore next */ const z = x && y; }` the operands `x` and `y` become arms of the branch of the
outer expression. -/
theorem C23_operand_fails : ∃ cx p' cov, cx.hint hintedDecl.span = some .next ∧
    run cx (operandOf hintedDecl) = .ok (p', cov) ∧ counters p' = [.s 0, .b 0 0, .b 0 1, .b 0 2] ∧
    cov.inner.branchMap.map (fun e => e.2.locations) =
      [[cx.range (ident 3 "a").span, cx.range (ident 10 "x").span, cx.range (ident 11 "y").span]] := by
  have h : yields (run (hinted 7 " istanbul ignore next ") (operandOf hintedDecl)) (fun p' r =>
      decide (counters p' = [.s 0, .b 0 0, .b 0 1, .b 0 2] ∧ r.branchMap.map (fun e => e.2.locations) =
        [[plain.range (at' 3), plain.range (at' 10), plain.range (at' 11)]])) = true := by decide +kernel
  obtain ⟨p', cov, h1, h2⟩ := of_yields h
  have h3 := of_decide_eq_true h2
  exact ⟨_, p', cov, by decide +kernel, h1, h3.1, h3.2⟩

/-! ### C26 -/

/-- A class method, object method, accessor or function expression with the given name. -/
def Named (name : String) (n : Node) : Prop :=
  ∃ sp ksp kcs, (∃ fn, n = mk .classMethod sp [mk (.propIdent name) ksp kcs, fn]) ∨
    (∃ fn, n = mk .methodProp sp [mk (.propIdent name) ksp kcs, fn]) ∨
    (∃ body, n = mk .getterProp sp [mk (.propIdent name) ksp kcs, body]) ∨
    (∃ a b body, n = mk .setterProp sp [mk (.propIdent name) ksp kcs, a, b, body]) ∨
    (∃ fn, n = mk .fnExpr sp [mk (.ident name) ksp kcs, fn])

/-- C26, partial: whatever the state of the visitor, outside of operands of logical expressions a method, accessor or function expression whose name is listed
is emitted unchanged, and neither coverage data nor pending counters change. -/
theorem C26_listed_partial {cx : Ctx} {fuel : Nat} {m : Mode} {n n' : Node} {name : String} {st st' : St}
    (hm : m = .coverage ∨ m = .stmt ∨ ∃ b, m = .switchCase b) (hn : Named name n)
    (hl : name ∈ cx.ignoreMethods) (h : visit cx fuel m n st = .ok (n', st')) :
    n' = n ∧ st' = st := by
  have hg : ∀ t, guarded cx t n (pure n) st = .ok (n', st') → n' = n ∧ st' = st := by
    intro t h
    unfold guarded frame at h
    obtain ⟨⟨old, cur⟩, st1, h1, h2⟩ := M.bind_ok h
    obtain ⟨r, st2, h3, h4⟩ := M.bind_ok h2
    have : r = n ∧ st2 = st1 := by
      simp only at h3
      split at h3 <;> cases h3 <;> exact ⟨rfl, rfl⟩
    obtain ⟨rfl, rfl⟩ := this
    cases h4
    refine ⟨rfl, ?_⟩
    simp only [enter, push, enterSpan, Bind.bind, M.bind] at h1
    split at h1 <;> cases h1 <;> rfl
  have hc : cx.ignoreMethods.contains name = true := by simpa using hl
  cases fuel with
  | zero => cases h
  | succ fuel =>
    have h' : visitNode cx (visit cx fuel) m n st = .ok (n', st') := by
      rcases hm with rfl | rfl | ⟨b, rfl⟩ <;> exact h
    obtain ⟨sp, ksp, kcs, ⟨fn, rfl⟩ | ⟨fn, rfl⟩ | ⟨fn, rfl⟩ | ⟨a, b, fn, rfl⟩ | ⟨fn, rfl⟩⟩ := hn
    · refine hg .classMethod ?_
      simpa only [visitNode, propName?, hc, if_true] using h'
    · refine hg .methodProp ?_
      simpa only [visitNode, propName?, hc, if_true] using h'
    · refine hg .getterProp ?_
      simpa only [visitNode, visitAccessor, propName?, hc, if_true] using h'
    · refine hg .setterProp ?_
      simpa only [visitNode, visitAccessor, propName?, hc, if_true] using h'
    · refine hg .fnExpr ?_
      simpa only [visitNode, identName?, hc, if_true] using h'

/-- `class C { render() { f(); } other() { f(); } }` with `render` listed: one function, one statement; the
listed method is emitted as it is. -/
example :
    let render := mk .classMethod (at' 3) [mk (.propIdent "render") (at' 3) [],
      function 3 [] (block 3 [expr 4 (call 4 (ident 4 "f") [])])]
    let other := mk .classMethod (at' 5) [mk (.propIdent "other") (at' 5) [],
      function 5 [] (block 5 [expr 6 (call 6 (ident 6 "f") [])])]
    let p := Build.module [mk .classDecl (at' 2) [ident 2 "C", mk (.other .misc "Class") (at' 2) [render, other]]]
    yields (run { plain with ignoreMethods := ["render"] } p) (fun p' r =>
      decide (counters p' = [.f 0, .s 0]) && r.f.length == 1 && r.s.length == 1) = true := by
  decide +kernel

/-- `foo() { return x && y; }` -/
def listedMethod : Node := mk .methodProp (at' 5) [mk (.propIdent "foo") (at' 5) [],
  function 5 [] (block 6 [mk .returnStmt (at' 7) [bin 8 .and (ident 9 "x") (ident 10 "y")]])]

/-- C26 fails for methods inside operands of logical expressions: in `a || { foo() { return x && y; } }` with `foo` listed the
operands `x` and `y` become arms of the branch of the outer expression. -/
theorem C26_operand_fails : ∃ cx p' cov, Named "foo" listedMethod ∧ "foo" ∈ cx.ignoreMethods ∧
    run cx (Build.module [expr 1 (bin 2 .or (ident 3 "a") (mk (.other .expr "Object") (at' 4) [listedMethod]))]) = .ok (p', cov) ∧
    counters p' = [.s 0, .b 0 0, .b 0 1, .b 0 2] ∧
    cov.inner.branchMap.map (fun e => e.2.locations) =
      [[cx.range (ident 3 "a").span, cx.range (ident 9 "x").span, cx.range (ident 10 "y").span]] := by
  have h : yields (run { plain with ignoreMethods := ["foo"] } (Build.module [expr 1 (bin 2 .or (ident 3 "a")
      (mk (.other .expr "Object") (at' 4) [listedMethod]))])) (fun p' r =>
      decide (counters p' = [.s 0, .b 0 0, .b 0 1, .b 0 2] ∧ r.branchMap.map (fun e => e.2.locations) =
        [[plain.range (at' 3), plain.range (at' 9), plain.range (at' 10)]])) = true := by decide +kernel
  obtain ⟨p', cov, h1, h2⟩ := of_yields h
  have h3 := of_decide_eq_true h2
  exact ⟨_, p', cov, ⟨_, _, _, .inr (.inl ⟨_, rfl⟩)⟩, List.mem_singleton_self _, h1, h3.1, h3.2⟩

end Verif
