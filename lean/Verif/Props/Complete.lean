import Verif.Lemmas.CoversProgram
import Verif.Lemmas.Halts
import Verif.Props.Instrument
/-
C37, C38, C39: nothing is left out. `Reached` (Spec/Reached.lean) says which parts of a program instrumentation looks at; for
these the counters are where they belong and their entries are in the coverage data. What is not reached is missing in
the claims, and the last theorems of each section show that counters are indeed missing there.
-/
namespace Verif
open Node Visitor Build

section
variable {cx : Ctx} {fuel : Nat} {path : String} {sm : Option SourceMap} {p p' : Node} {cov : SourceCoverage}

/-! ### C37 -/

/-- C37 for the statements of a module or script: each item that no hint excludes is in the result, and the
injected statements before it include the statement counters due for it, whose entries have the ranges due. -/
theorem C37_items_partial (hf : Hint.shouldIgnoreFile cx.cc cx.comments p.span = false)
    (hk : p.kind = .module ∨ p.kind = .script) (hr : instrument cx fuel path sm p = .ok (p', cov)) :
    ItemsLead cx (.report cov.inner) p p' :=
  (Cover.instrument hf hk hr).1

/-- C37 for statement lists below: the same for the statements of every block, case, function and arm that is reached. -/
theorem C37_lists_partial (hf : Hint.shouldIgnoreFile cx.cc cx.comments p.span = false)
    (hk : p.kind = .module ∨ p.kind = .script) (hr : instrument cx fuel path sm p = .ok (p', cov)) (x : Node)
    (hx : InProgram cx p x) :
    ∃ x' ∈ each p', strip x' = strip x ∧ ListsCounted cx (.report cov.inner) x x' := by
  obtain ⟨x', h1, h2, h3⟩ := (Cover.instrument hf hk hr).2 x hx
  exact ⟨x', h1, h2, h3.lists⟩

/-- C37 for initialisers: an initialiser of a variable or field that is reached and contains no function, class or tagged template is
wrapped with a statement counter whose entry has its range. -/
theorem C37_initialisers_partial (hf : Hint.shouldIgnoreFile cx.cc cx.comments p.span = false)
    (hk : p.kind = .module ∨ p.kind = .script) (hr : instrument cx fuel path sm p = .ok (p', cov)) (x : Node)
    (hx : InProgram cx p x) :
    ∃ x' ∈ each p', strip x' = strip x ∧ InitCounted cx (.report cov.inner) x x' := by
  obtain ⟨x', h1, h2, h3⟩ := (Cover.instrument hf hk hr).2 x hx
  exact ⟨x', h1, h2, h3.init⟩

/-! ### C38 -/

/-- C38: the body of every function-like construct that is reached starts with a function counter whose entry has its name, the
range of its declaration and the range of its body. -/
theorem C38_functions_partial (hf : Hint.shouldIgnoreFile cx.cc cx.comments p.span = false)
    (hk : p.kind = .module ∨ p.kind = .script) (hr : instrument cx fuel path sm p = .ok (p', cov)) (x : Node)
    (hx : InProgram cx p x) :
    ∃ x' ∈ each p', strip x' = strip x ∧ FnCounted cx (.report cov.inner) x x' := by
  obtain ⟨x', h1, h2, h3⟩ := (Cover.instrument hf hk hr).2 x hx
  exact ⟨x', h1, h2, h3.fn⟩

/-! ### C39 -/

/-- C39: every branching construct that is reached has a branch with its type and range, and its arms that no hint excludes
start with, or are wrapped with, the counter of an arm of that branch with their range. -/
theorem C39_branches_partial (hf : Hint.shouldIgnoreFile cx.cc cx.comments p.span = false)
    (hk : p.kind = .module ∨ p.kind = .script) (hr : instrument cx fuel path sm p = .ok (p', cov)) (x : Node)
    (hx : InProgram cx p x) :
    ∃ x' ∈ each p', strip x' = strip x ∧ BranchesCounted cx (.report cov.inner) x x' := by
  obtain ⟨x', h1, h2, h3⟩ := (Cover.instrument hf hk hr).2 x hx
  exact ⟨x', h1, h2, h3.branches⟩

end

/-! ### Cases

`function f(p = a || b) { if (p) q; const y = p ? a : b; switch (y) { case 1: r } return (() => y) }` -/

/-- The program above. -/
def busy : Node := Build.module [fnDecl 1 "f" [mk .assignPat (at' 2) [ident 2 "p", bin 3 .or (ident 4 "a") (ident 5 "b")]]
  [mk .ifStmt (at' 6) [ident 7 "p", expr 8 (ident 8 "q"), mk .none Span.dummy []],
   decl 9 .const "y" (cond 10 (ident 11 "p") (ident 12 "a") (ident 13 "b")),
   mk .switchStmt (at' 14) [ident 15 "y", mk .switchCase (at' 16) [num 17 "1", expr 18 (ident 18 "r")]],
   mk .returnStmt (at' 19) [arrow 20 (ident 21 "y")]]]

/-- It is instrumented. -/
example : ∃ p' cov, run plain busy = .ok (p', cov) ∧ counters p' = [.b 0 0, .b 0 1, .f 0, .s 0, .b 1 0, .s 1, .b 1 1, .s 2,
    .b 2 0, .b 2 1, .s 3, .b 3 0, .s 4, .s 5, .f 1, .s 6] := by
  have h : yields (run plain busy) (fun p' _ => decide (counters p' = [.b 0 0, .b 0 1, .f 0, .s 0, .b 1 0, .s 1, .b 1 1, .s 2,
    .b 2 0, .b 2 1, .s 3, .b 3 0, .s 4, .s 5, .f 1, .s 6])) = true := by decide +kernel
  obtain ⟨p', cov, h1, h2⟩ := of_yields h
  exact ⟨p', cov, h1, of_decide_eq_true h2⟩

/-- Its items: `C37_items_partial` asks for a counter for `export const x = a` twice. -/
example : itemDues plain .module (mk .exportDecl (at' 1) [decl 2 .const "x" (arrow 3 (block 4 []))]) = [at' 1, at' 3] := by
  decide +kernel

/-- Lists: `C37_lists_partial` asks for counters before the `if`, the `switch` and the `return`. -/
example : ∃ x, InProgram plain busy x ∧ ((!plain.ignores x && (lists plain x).map
    (fun l => (ownStmts plain l).map (dues plain)) = [[[at' 6], [], [at' 14], [at' 19]]]) = true) :=
  inProgram_find (i := 0) (is := [1, 2]) (by decide +kernel)

/-- Initialisers: `C37_initialisers_partial` asks for a counter around the initialiser of `y`. -/
example : ∃ x, InProgram plain busy x ∧ ((!plain.ignores x && (initOf x).any (wrappable x)) = true) :=
  inProgram_find (i := 0) (is := [1, 2, 1, 0]) (by decide +kernel)

/-- Functions: `C38_functions_partial` asks for a counter in `f`, and one in the arrow function. -/
example : ∃ x, InProgram plain busy x ∧ ((!plain.ignores x && (fnHead plain x = some (some "f", at' 1)) &&
    (bodyOf x).any fun b => b.kind = .block) = true) :=
  inProgram_find (i := 0) (is := []) (by decide +kernel)

/-- The arrow function. -/
example : ∃ x, InProgram plain busy x ∧ ((!plain.ignores x && (fnHead plain x = some (none, at' 20)) &&
    (bodyOf x).any fun b => b.span = at' 21) = true) :=
  inProgram_find (i := 0) (is := [1, 2, 3, 0]) (by decide +kernel)

/-- Branches: `C39_branches_partial` asks for the branches of the `if`, the conditional expression, the `switch` and the default
value, the latter with two operands. -/
example : (∃ x, InProgram plain busy x ∧ (!plain.ignores x && x.kind = .ifStmt && x.children.length = 3) = true) ∧
    (∃ x, InProgram plain busy x ∧ (!plain.ignores x && x.kind = .cond && x.children.length = 3) = true) ∧
    (∃ x, InProgram plain busy x ∧ (!plain.ignores x && x.kind = .switchStmt) = true) ∧
    (∃ x, InProgram plain busy x ∧ (!plain.ignores x && x.kind = .assignPat &&
      (operands plain x.children.tail).map (·.span) = [at' 4, at' 5]) = true) :=
  ⟨inProgram_find (i := 0) (is := [1, 2, 0]) (by decide +kernel),
   inProgram_find (i := 0) (is := [1, 2, 1, 0, 1]) (by decide +kernel),
   inProgram_find (i := 0) (is := [1, 2, 2]) (by decide +kernel),
   inProgram_find (i := 0) (is := [1, 0, 0]) (by decide +kernel)⟩

/-! ### Failures -/

/-- C37 fails: inside a function, an initialiser that contains an arrow function gets no statement entry, here `const g = () => h`. -/
theorem C37_hoisted_initialiser_fails : ∃ p p' cov x init, Clean p ∧ run plain p = .ok (p', cov) ∧
    InProgram plain p x ∧ initOf x = some init ∧ ∀ id, cov.inner.statementMap.get id ≠ some (plain.range init.span) := by
  have h : yields (run plain (Build.module [fnDecl 1 "f" [] [decl 2 .const "g" (arrow 3 (ident 4 "h"))]]))
      (fun _ r => decide (r.statementMap = [(0, plain.range (at' 4))])) = true := by decide +kernel
  obtain ⟨p', cov, h1, h2⟩ := of_yields h
  have h2 := of_decide_eq_true h2
  obtain ⟨x, h3, h4⟩ := inProgram_find (cx := plain) (i := 0) (is := [1, 2, 0, 0])
    (p := Build.module [fnDecl 1 "f" [] [decl 2 .const "g" (arrow 3 (ident 4 "h"))]])
    (f := fun x => (initOf x).any fun e => e.span = at' 3) (by decide +kernel)
  obtain ⟨e, h5, h6⟩ := of_any h4
  refine ⟨_, p', cov, x, e, by unfold Clean; decide +kernel, h1, h3, h5, fun id => ?_⟩
  rw [of_decide_eq_true h6, h2]
  cases id with
  | zero => simp [IndexMap.get, Ctx.range, plain, at']
  | succ id => simp [IndexMap.get]

/-- C37 fails: whether such an initialiser of a module gets a counter depends on code before it. With `const f = () => h` alone
there is an entry for the initialiser, after `a || b` there is none. -/
theorem C37_earlier_code_fails : ∃ s d p' p'' cov cov', run plain (Build.module [d]) = .ok (p', cov) ∧
    run plain (Build.module [s, d]) = .ok (p'', cov') ∧
    plain.range (at' 3) ∈ cov.inner.statementMap.map (·.2) ∧ plain.range (at' 3) ∉ cov'.inner.statementMap.map (·.2) := by
  have h : yields (run plain (Build.module [decl 2 .const "f" (arrow 3 (ident 4 "h"))]))
      (fun _ r => decide (plain.range (at' 3) ∈ r.statementMap.map (·.2))) = true := by decide +kernel
  have h' : yields (run plain (Build.module [expr 5 (bin 6 .or (ident 7 "a") (ident 8 "b")), decl 2 .const "f" (arrow 3 (ident 4 "h"))]))
      (fun _ r => decide (plain.range (at' 3) ∉ r.statementMap.map (·.2))) = true := by decide +kernel
  obtain ⟨p', cov, h1, h2⟩ := of_yields h
  obtain ⟨p'', cov', h3, h4⟩ := of_yields h'
  exact ⟨_, _, p', p'', cov, cov', h1, h3, of_decide_eq_true h2, of_decide_eq_true h4⟩

/-- C37 fails: a module item that is a string literal gets no counter, wherever it stands; a script item does. -/
theorem C37_string_item_fails : ∃ s p' p'' cov cov', run plain (Build.module [expr 1 (num 1 "1"), s]) = .ok (p', cov) ∧
    run plain (Build.script [expr 1 (num 1 "1"), s]) = .ok (p'', cov') ∧
    cov.inner.statementMap = [(0, plain.range (at' 1))] ∧
    cov'.inner.statementMap = [(0, plain.range (at' 1)), (1, plain.range (at' 2))] := by
  have h : yields (run plain (Build.module [expr 1 (num 1 "1"), expr 2 (mk (.strLit "text") (at' 3) [])]))
      (fun _ r => decide (r.statementMap = [(0, plain.range (at' 1))])) = true := by decide +kernel
  have h' : yields (run plain (Build.script [expr 1 (num 1 "1"), expr 2 (mk (.strLit "text") (at' 3) [])]))
      (fun _ r => decide (r.statementMap = [(0, plain.range (at' 1)), (1, plain.range (at' 2))])) = true := by decide +kernel
  obtain ⟨p', cov, h1, h2⟩ := of_yields h
  obtain ⟨p'', cov', h3, h4⟩ := of_yields h'
  exact ⟨_, p', p'', cov, cov', h1, h3, of_decide_eq_true h2, of_decide_eq_true h4⟩

/-- A class with one method. -/
def classWith (method : Node) : Node :=
  mk .classDecl (at' 1) [ident 1 "C", mk (.other .misc "Class") (at' 1) [mk .list Span.dummy [method]]]

/-- C38 fails: a method whose name is written as a string is not registered, here `class C { "m"() { return x } }`; nor are
its statements (C37) and branches (C39). -/
theorem C38_string_method_fails : ∃ p p' cov, Clean p ∧ run plain p = .ok (p', cov) ∧
    (∃ sp, (Kind.classMethod, sp) ∈ p.tags) ∧ (∃ sp, (Kind.returnStmt, sp) ∈ p.tags) ∧
    cov.inner.fnMap = [] ∧ cov.inner.statementMap = [] := by
  have h : yields (run plain (Build.module [classWith (mk .classMethod (at' 2) [mk (.strLit "m") (at' 2) [],
      function 2 [] (block 2 [mk .returnStmt (at' 3) [ident 4 "x"]])])]))
      (fun _ r => decide (r.fnMap = [] ∧ r.statementMap = [])) = true := by decide +kernel
  obtain ⟨p', cov, h1, h2⟩ := of_yields h
  have h2 := of_decide_eq_true h2
  exact ⟨_, p', cov, by unfold Clean; decide +kernel, h1, ⟨at' 2, by decide +kernel⟩, ⟨at' 3, by decide +kernel⟩, h2⟩

/-- C38 fails: a constructor is not registered, here `class C { constructor() { x } }`; its statements are. -/
theorem C38_constructor_fails : ∃ p p' cov, Clean p ∧ run plain p = .ok (p', cov) ∧
    (∃ sp, (Kind.other .misc "Constructor", sp) ∈ p.tags) ∧
    cov.inner.fnMap = [] ∧ cov.inner.statementMap = [(0, plain.range (at' 3))] := by
  have h : yields (run plain (Build.module [classWith (mk (.other .misc "Constructor") (at' 2) [
      mk (.propIdent "constructor") (at' 2) [], mk .list Span.dummy [], block 2 [expr 3 (ident 3 "x")]])]))
      (fun _ r => decide (r.fnMap = [] ∧ r.statementMap = [(0, plain.range (at' 3))])) = true := by decide +kernel
  obtain ⟨p', cov, h1, h2⟩ := of_yields h
  have h2 := of_decide_eq_true h2
  exact ⟨_, p', cov, by unfold Clean; decide +kernel, h1, ⟨at' 2, by decide +kernel⟩, h2⟩

/-- C39 fails: a conditional expression inside an operand of a nested logical expression has no branch, here
`a || (b && (c ? d : e))`. -/
theorem C39_nested_operand_fails : ∃ p p' cov, Clean p ∧ run plain p = .ok (p', cov) ∧
    (∃ sp, (Kind.cond, sp) ∈ p.tags) ∧ ∀ e ∈ cov.inner.branchMap, e.2.branchType = .binaryExpr := by
  have h : yields (run plain (Build.module [expr 1 (bin 2 .or (ident 3 "a") (bin 4 .and (ident 5 "b")
      (cond 6 (ident 7 "c") (ident 8 "d") (ident 9 "e"))))]))
      (fun _ r => decide (∀ e ∈ r.branchMap, e.2.branchType = .binaryExpr)) = true := by decide +kernel
  obtain ⟨p', cov, h1, h2⟩ := of_yields h
  have h2 := of_decide_eq_true h2
  exact ⟨_, p', cov, by unfold Clean; decide +kernel, h1, ⟨at' 6, by decide +kernel⟩, h2⟩

/-- C39 fails: default values of parameters of arrow functions have no branch, here `(p = a) => p`; nor are the functions in
them registered (C38). -/
theorem C39_arrow_default_fails : ∃ p p' cov, Clean p ∧ run plain p = .ok (p', cov) ∧
    (∃ sp, (Kind.assignPat, sp) ∈ p.tags) ∧ cov.inner.branchMap = [] := by
  have h : yields (run plain (Build.module [expr 1 (mk (.arrow "") (at' 2) [mk .list Span.dummy
      [mk .assignPat (at' 3) [ident 3 "p", ident 4 "a"]], ident 5 "p"])]))
      (fun _ r => decide (r.branchMap = [])) = true := by decide +kernel
  obtain ⟨p', cov, h1, h2⟩ := of_yields h
  exact ⟨_, p', cov, by unfold Clean; decide +kernel, h1, ⟨at' 3, by decide +kernel⟩, of_decide_eq_true h2⟩

end Verif
