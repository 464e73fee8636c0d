import Verif.Lemmas.FollowTruth
import Verif.Props.Behaviour
import Verif.Props.Complete
/-
C22: what the counts mean. In every execution of the instrumented program (`Spec/Sem.lean`) the counter of a statement is incremented as often
as the statement begins, that of a function as often as its body is entered, that of a branch arm as often as the arm is taken
(`Spec/Counts.lean`).

Parts are identified by kind and position; the theorems are about those that exist once (`Only`).
-/
namespace Verif
open Node Visitor Build
open Sem hiding Outcome

namespace Sem

theorem fn_strip (i : Node) (cs : List Node) (sp sp' : Span) {k : Kind} (hk : k = .fnDecl ∨ k = .fnExpr ∨ k = .classMethod ∨ k = .methodProp) :
    bodyPart (strip (mk k sp (i :: cs))) = bodyPart (mk k sp' (i :: cs)) := by
  rw [strip_mk]
  have h : tidy k ((i :: cs).map strip) = (i :: cs).map strip := by
    rcases hk with rfl | rfl | rfl | rfl <;> simp [tidy, Kind.wraps]
  rw [h]
  match cs with
  | [] => rcases hk with rfl | rfl | rfl | rfl <;> rfl
  | [mk kf spf csf] =>
    simp only [List.map_cons, List.map_nil, strip_mk kf]
    rcases hk with rfl | rfl | rfl | rfl <;> (cases kf <;> rfl)
  | mk kf spf csf :: _ :: _ =>
    simp only [List.map_cons, strip_mk kf]
    rcases hk with rfl | rfl | rfl | rfl <;> (cases kf <;> rfl)

theorem bodyPart_strip (n : Node) : bodyPart (strip n) = bodyPart n := by
  cases n with
  | mk k sp cs =>
    have hnil : ∀ (k : Kind), k = .fnDecl ∨ k = .fnExpr ∨ k = .classMethod ∨ k = .methodProp →
        bodyPart (strip (mk k sp [])) = bodyPart (mk k sp []) := by
      intro k hk
      rcases hk with rfl | rfl | rfl | rfl <;> rfl
    cases k with
    | fnDecl => cases cs with
      | nil => exact hnil _ (by simp)
      | cons i cs => exact fn_strip i cs _ _ (by simp)
    | fnExpr => cases cs with
      | nil => exact hnil _ (by simp)
      | cons i cs => exact fn_strip i cs _ _ (by simp)
    | classMethod => cases cs with
      | nil => exact hnil _ (by simp)
      | cons i cs => exact fn_strip i cs _ _ (by simp)
    | methodProp => cases cs with
      | nil => exact hnil _ (by simp)
      | cons i cs => exact fn_strip i cs _ _ (by simp)
    | _ => rw [strip_mk]; rfl

/-- The node with the body, in the instrumented program. -/
theorem bodyPart_of {m body : Node} {t : Sem.Tag} {j : Nat} (hb : bodyOf m = some body) (hk : body.kind = .block)
    (h : bodyPart m = some (t, j)) :
    ∃ f ∈ each m, tag f = t ∧ (kids f)[j]? = some body ∧ look f = .plain ∧ Steps.hull f.kind = false ∧
      f.kind.injected = false := by
  unfold bodyOf at hb
  split at hb
  all_goals first | (cases hb; done) | skip
  · cases hb; cases h
    exact ⟨_, mem_each_mk.2 (.inr ⟨_, by simp; exact .inr rfl, each_self _⟩), rfl, rfl, rfl, rfl, rfl⟩
  · cases hb; cases h
    exact ⟨_, mem_each_mk.2 (.inr ⟨_, by simp; exact .inr rfl, each_self _⟩), rfl, rfl, rfl, rfl, rfl⟩
  · cases hb; cases h
    exact ⟨_, mem_each_mk.2 (.inr ⟨_, by simp; exact .inr rfl, each_self _⟩), rfl, rfl, rfl, rfl, rfl⟩
  · cases hb; cases h
    exact ⟨_, mem_each_mk.2 (.inr ⟨_, by simp; exact .inr rfl, each_self _⟩), rfl, rfl, rfl, rfl, rfl⟩
  · cases hb; cases h
    refine ⟨_, each_self _, rfl, ?_, rfl, rfl, rfl⟩
    have : asArrowBody body = body := by
      cases body
      cases hk
      rfl
    simp [kids, tidyBodies, this]
  · cases hb; cases h
    exact ⟨_, each_self _, rfl, rfl, rfl, rfl, rfl⟩
  · cases hb; cases h
    exact ⟨_, each_self _, rfl, rfl, rfl, rfl, rfl⟩

end Sem

section
variable {cx : Ctx} {fuel : Nat} {path : String} {sm : Option SourceMap} {p p' : Node} {cov : SourceCoverage}

/-- C22 for the items of a program: the counters before an item are incremented as often as the item begins. -/
theorem C22_items_partial (hp : Clean p) (hf : Hint.shouldIgnoreFile cx.cc cx.comments p.span = false)
    (hk : p.kind = .module ∨ p.kind = .script) (hr : instrument cx fuel path sm p = .ok (p', cov)) (s : Node)
    (hs : s ∈ ownStmts cx p.children) (ho : Only p (tag s)) (sp : Span) (hsp : sp ∈ itemDues cx p.kind s) :
    ∃ id, (Tables.report cov.inner).statement id (cx.range sp) ∧ CountsBegun p' (.s id) (tag s) := by
  obtain ⟨pre, s', post, h1, h2, h3⟩ := C37_items_partial hf hk hr s hs
  obtain ⟨id, h4, h5⟩ := h3 sp hsp
  refine ⟨id, h5, ?_⟩
  obtain ⟨n, h, o⟩ := outcome hr
  have hkind : p'.kind = p.kind := by rw [← strip_kind p', o.strip_eq, strip_kind]
  have hl : look p' = .list (pre ++ s' :: post) := by
    rw [← h1]
    cases p' with
    | mk k sp cs =>
      change k = p.kind at hkind
      rcases hk with hk | hk <;> rw [hk] at hkind <;> subst hkind <;> rfl
  have hc : Clean s := by
    cases p with
    | mk k sp cs => exact (clean_mk.1 hp).2 s (List.mem_filter.1 hs).1
  exact (followed hp hr).listed ho hc h2 (.here _) hl h4

/-- C22 for statements: the counters before a statement of any list that is reached are incremented as often as the statement begins. -/
theorem C22_statements_partial (hp : Clean p) (hf : Hint.shouldIgnoreFile cx.cc cx.comments p.span = false)
    (hk : p.kind = .module ∨ p.kind = .script) (hr : instrument cx fuel path sm p = .ok (p', cov)) (x : Node)
    (hx : InProgram cx p x) (hi : cx.ignores x = false) (l : List Node) (hl : l ∈ lists cx x) (s : Node)
    (hs : s ∈ ownStmts cx l) (ho : Only p (tag s)) (sp : Span) (hsp : sp ∈ dues cx s) :
    ∃ id, (Tables.report cov.inner).statement id (cx.range sp) ∧ CountsBegun p' (.s id) (tag s) := by
  obtain ⟨x', h1, h2, h3⟩ := C37_lists_partial hf hk hr x hx
  have h3 := h3 hi
  obtain ⟨l', h4, h5⟩ : ∃ l' ∈ lists cx x', Leads cx (.report cov.inner) l l' := by
    generalize lists cx x = a at h3 hl
    generalize lists cx x' = b at h3
    induction h3 with
    | nil => cases hl
    | cons h _ ih =>
      rcases List.mem_cons.1 hl with rfl | hl
      · exact ⟨_, List.mem_cons_self .., h⟩
      · obtain ⟨l', h1, h2⟩ := ih hl
        exact ⟨l', List.mem_cons_of_mem _ h1, h2⟩
  obtain ⟨pre, s', post, rfl, h6, h7⟩ := h5 s hs
  obtain ⟨id, h8, h9⟩ := h7 sp hsp
  refine ⟨id, h9, ?_⟩
  exact (followed hp hr).inList ho (lists_clean (inProgram_clean hp hx) hl (List.mem_filter.1 hs).1) h6 h1 h4 h8

/-- C22 for initialisers: the counter around an initialiser is incremented as often as its evaluation begins. -/
theorem C22_initialisers_partial (hp : Clean p) (hf : Hint.shouldIgnoreFile cx.cc cx.comments p.span = false)
    (hk : p.kind = .module ∨ p.kind = .script) (hr : instrument cx fuel path sm p = .ok (p', cov)) (x : Node)
    (hx : InProgram cx p x) (hi : cx.ignores x = false) (init : Node) (hn : initOf x = some init) (hw : wrappable x init = true)
    (ho : Only p (tag init)) :
    ∃ id, (Tables.report cov.inner).statement id (cx.range init.span) ∧ CountsBegun p' (.s id) (tag init) := by
  obtain ⟨x', h1, h2, h3⟩ := C37_initialisers_partial hf hk hr x hx
  obtain ⟨id, y, h4, h5, h6⟩ := h3 hi init hn hw
  refine ⟨id, h6, ?_⟩
  have hc : Clean init := by
    have := inProgram_clean hp hx
    unfold initOf at hn
    split at hn <;> cases hn <;> exact (clean_mk.1 this).2 _ (by simp)
  have hm : wrapCounter (.s id) y ∈ each p' := by
    refine Steps.each_trans h1 ?_
    unfold initOf at h4
    split at h4 <;> cases h4 <;> exact mem_each_mk.2 (.inr ⟨_, by simp, each_self _⟩)
  exact (followed hp hr).wrapped ho hc h5 hm (.inl ⟨_, rfl, rfl⟩)

/-- C22 for functions: the counter of a function is incremented as often as its body is entered. -/
theorem C22_functions_partial (hp : Clean p) (hf : Hint.shouldIgnoreFile cx.cc cx.comments p.span = false)
    (hk : p.kind = .module ∨ p.kind = .script) (hr : instrument cx fuel path sm p = .ok (p', cov)) (x : Node)
    (hx : InProgram cx p x) (hi : cx.ignores x = false) (name : Option String) (decl : Span) (body : Node)
    (hh : fnHead cx x = some (name, decl)) (hb : bodyOf x = some body)
    (hbk : body.kind = .block ∨ ∃ a, x.kind = .arrow a) (t : Sem.Tag) (j : Nat) (ht : bodyPart x = some (t, j)) (ho : Only p t) :
    ∃ id, (Tables.report cov.inner).function id (name, cx.range decl, cx.range body.span) ∧
      CountsEntered p' (.f id) t j := by
  obtain ⟨x', h1, h2, h3⟩ := C38_functions_partial hf hk hr x hx
  obtain ⟨id, sp, ss, h4, h5⟩ := h3 hi name decl body hh hb hbk
  refine ⟨id, h5, ?_⟩
  have ht' : bodyPart x' = some (t, j) := by rw [← bodyPart_strip, h2, bodyPart_strip, ht]
  obtain ⟨f, g1, g2, g3, g4, g5, g6⟩ := bodyPart_of h4 rfl ht'
  exact (followed hp hr).entersBlock ho (Steps.each_trans h1 g1) g5 g6 g4 g2 g3

/-- C22 for `if`: the counter of an arm is incremented as often as the arm is taken. Part 1 of an `if` is the first arm, part 2
the other one, also if there is no `else`. -/
theorem C22_if_partial (hp : Clean p) (hf : Hint.shouldIgnoreFile cx.cc cx.comments p.span = false)
    (hk : p.kind = .module ∨ p.kind = .script) (hr : instrument cx fuel path sm p = .ok (p', cov)) (sp : Span)
    (test cons alt : Node) (hx : InProgram cx p (mk .ifStmt sp [test, cons, alt]))
    (hi : cx.ignores (mk .ifStmt sp [test, cons, alt]) = false) (ho : Only p (.ifStmt, sp)) :
    ∃ b, HasBranch cx (.report cov.inner) b .if sp ∧
      (cx.hint sp ≠ some .if → ∃ i, HasArm cx (.report cov.inner) b i sp ∧ CountsEntered p' (.b b i) (.ifStmt, sp) 1) ∧
      (cx.hint sp ≠ some .else → ∃ i, HasArm cx (.report cov.inner) b i sp ∧ CountsEntered p' (.b b i) (.ifStmt, sp) 2) := by
  obtain ⟨x', h1, h2, h3⟩ := C39_branches_partial hf hk hr _ hx
  obtain ⟨b, test', cons', alt', rfl, h4, h5, h6⟩ := h3 hi
  refine ⟨b, h4, fun h => ?_, fun h => ?_⟩
  · obtain ⟨i, bsp, ss, rfl, h7⟩ := h5 h
    exact ⟨i, h7, (followed hp hr).entersBlock (sp := bsp) (ss := ss) ho h1 rfl rfl rfl rfl rfl⟩
  · obtain ⟨i, bsp, ss, rfl, h7⟩ := h6 h
    exact ⟨i, h7, (followed hp hr).entersBlock (sp := bsp) (ss := ss) ho h1 rfl rfl rfl rfl rfl⟩

/-- C22 for `switch`: the counter of a case is incremented as often as its statements are entered. -/
theorem C22_cases_partial (hp : Clean p) (hf : Hint.shouldIgnoreFile cx.cc cx.comments p.span = false)
    (hk : p.kind = .module ∨ p.kind = .script) (hr : instrument cx fuel path sm p = .ok (p', cov)) (sp : Span)
    (cs : List Node) (hx : InProgram cx p (mk .switchStmt sp cs)) (hi : cx.ignores (mk .switchStmt sp cs) = false) :
    ∃ b, HasBranch cx (.report cov.inner) b .switch sp ∧
      ∀ csp test ss, mk .switchCase csp (test :: ss) ∈ cs → cx.hint csp ≠ some .next → Only p (.switchCase, csp) →
        ∃ i, HasArm cx (.report cov.inner) b i csp ∧ CountsEntered p' (.b b i) (.switchCase, csp) 1 := by
  obtain ⟨x', h1, h2, h3⟩ := C39_branches_partial hf hk hr _ hx
  obtain ⟨b, h4, h5⟩ := h3 hi
  refine ⟨b, h4, fun csp test ss hm hh ho => ?_⟩
  obtain ⟨i, test', ss', h6, h7, h8⟩ := h5 csp test ss hm hh
  refine ⟨i, h8, ?_⟩
  refine (followed hp hr).entersBlock (m := mk .switchCase csp (test' :: counterStmt (.b b i) :: ss')) (sp := Span.dummy) (ss := ss')
    ho (Steps.each_trans h1 ?_) rfl rfl rfl rfl rfl
  cases x'
  exact mem_each_mk.2 (.inr ⟨_, h6, each_self _⟩)

/-- C22 for conditional expressions: the counter of an arm is incremented as often as its evaluation begins. -/
theorem C22_conditional_partial (hp : Clean p) (hf : Hint.shouldIgnoreFile cx.cc cx.comments p.span = false)
    (hk : p.kind = .module ∨ p.kind = .script) (hr : instrument cx fuel path sm p = .ok (p', cov)) (sp : Span)
    (test cons alt : Node) (hx : InProgram cx p (mk .cond sp [test, cons, alt]))
    (hi : cx.ignores (mk .cond sp [test, cons, alt]) = false) :
    ∃ b, HasBranch cx (.report cov.inner) b .condExpr sp ∧ ∀ e ∈ [cons, alt], cx.hinted e = false → Only p (tag e) →
      ∃ i, HasArm cx (.report cov.inner) b i e.span ∧ CountsBegun p' (.b b i) (tag e) := by
  obtain ⟨x', h1, h2, h3⟩ := C39_branches_partial hf hk hr _ hx
  obtain ⟨b, test', cons', alt', rfl, h4, h5, h6⟩ := h3 hi
  have hc := (clean_mk.1 (inProgram_clean hp hx)).2
  have arm : ∀ e e', Clean e → Only p (tag e) → WrapsArm cx (.report cov.inner) b e e' → e' ∈ each p' →
      ∃ i, HasArm cx (.report cov.inner) b i e.span ∧ CountsBegun p' (.b b i) (tag e) := by
    rintro e e' he ho ⟨i, y, rfl, h7, h8⟩ hm
    exact ⟨i, h8, (followed hp hr).wrapped ho he h7 hm (.inl ⟨_, rfl, rfl⟩)⟩
  refine ⟨b, h4, fun e he hh ho => ?_⟩
  simp only [List.mem_cons, List.not_mem_nil, or_false] at he
  rcases he with rfl | rfl
  · exact arm _ _ (hc _ (by simp)) ho (h5 hh) (Steps.each_trans h1 (mem_each_mk.2 (.inr ⟨cons', by simp, each_self _⟩)))
  · exact arm _ _ (hc _ (by simp)) ho (h6 hh) (Steps.each_trans h1 (mem_each_mk.2 (.inr ⟨alt', by simp, each_self _⟩)))

theorem operand_begun {b : Nat} {e n : Node} (hp : Clean p) (hr : instrument cx fuel path sm p = .ok (p', cov)) (he : Clean e)
    (ho : Only p (tag e)) (h : OperandArm cx (.report cov.inner) b e n) (hm : n ∈ each p') :
    ∃ i, HasArm cx (.report cov.inner) b i e.span ∧ CountsBegun p' (.b b i) (tag e) := by
  obtain ⟨i, y, rfl, h7, h8⟩ := h
  refine ⟨i, h8, (followed hp hr).wrapped ho he h7 hm ?_⟩
  split
  · exact .inr ⟨b, i, rfl, rfl⟩
  · exact .inl ⟨_, rfl, rfl⟩

/-- C22 for logical expressions: the counter of an operand is incremented as often as its evaluation begins. -/
theorem C22_operands_partial (hp : Clean p) (hf : Hint.shouldIgnoreFile cx.cc cx.comments p.span = false)
    (hk : p.kind = .module ∨ p.kind = .script) (hr : instrument cx fuel path sm p = .ok (p', cov)) (op : BinOp) (sp : Span)
    (left right : Node) (hop : op = .and ∨ op = .or ∨ op = .nullish) (hx : InProgram cx p (mk (.bin op) sp [left, right]))
    (hi : cx.ignores (mk (.bin op) sp [left, right]) = false) :
    ∃ b, HasBranch cx (.report cov.inner) b .binaryExpr sp ∧ ∀ e ∈ operands cx [left, right], Only p (tag e) →
      ∃ i, HasArm cx (.report cov.inner) b i e.span ∧ CountsBegun p' (.b b i) (tag e) := by
  obtain ⟨x', h1, h2, h3⟩ := C39_branches_partial hf hk hr _ hx
  obtain ⟨b, h4, h5⟩ := h3.operands hi hop
  have hc := (clean_mk.1 (inProgram_clean hp hx)).2
  refine ⟨b, h4, fun e he ho => ?_⟩
  obtain ⟨n, h6, h7⟩ := h5 e he
  exact operand_begun hp hr (operands_clean hc he) ho h7 (Steps.each_trans h1 h6)

/-- C22 for truthiness: with `reportLogic` the second counter of an operand is incremented as often as its evaluation ends with a
value that is truthy, not an empty array and not an empty plain object. -/
theorem C22_truths_partial (hp : Clean p) (hf : Hint.shouldIgnoreFile cx.cc cx.comments p.span = false)
    (hk : p.kind = .module ∨ p.kind = .script) (hr : instrument cx fuel path sm p = .ok (p', cov)) (op : BinOp) (sp : Span)
    (left right : Node) (hop : op = .and ∨ op = .or ∨ op = .nullish) (hx : InProgram cx p (mk (.bin op) sp [left, right]))
    (hi : cx.ignores (mk (.bin op) sp [left, right]) = false) (hl : cx.reportLogic = true) :
    ∃ b, HasBranch cx (.report cov.inner) b .binaryExpr sp ∧ ∀ e ∈ operands cx [left, right], Only p (tag e) →
      ∃ i, HasArm cx (.report cov.inner) b i e.span ∧ CountsBegun p' (.b b i) (tag e) ∧ CountsSolid p' (.bT b i) (tag e) := by
  obtain ⟨x', h1, h2, h3⟩ := C39_branches_partial hf hk hr _ hx
  obtain ⟨b, h4, h5⟩ := h3.operands hi hop
  have hc := (clean_mk.1 (inProgram_clean hp hx)).2
  refine ⟨b, h4, fun e he ho => ?_⟩
  obtain ⟨n, h6, i, y, rfl, h7, h8⟩ := h5 e he
  rw [if_pos hl] at h6
  have he := operands_clean hc he
  have hm := Steps.each_trans h1 h6
  exact ⟨i, h8, (followed hp hr).wrapped ho he h7 hm (.inr ⟨b, i, rfl, rfl⟩), (followed hp hr).gives ho he h7 hm rfl⟩

/-- C22 for default values: the counter is incremented as often as the evaluation of the default value begins. -/
theorem C22_defaults_partial (hp : Clean p) (hf : Hint.shouldIgnoreFile cx.cc cx.comments p.span = false)
    (hk : p.kind = .module ∨ p.kind = .script) (hr : instrument cx fuel path sm p = .ok (p', cov)) (sp : Span)
    (left right : Node) (hx : InProgram cx p (mk .assignPat sp [left, right]))
    (hi : cx.ignores (mk .assignPat sp [left, right]) = false) :
    ∃ b, HasBranch cx (.report cov.inner) b .defaultArg sp ∧ ∀ e ∈ operands cx [right], Only p (tag e) →
      ∃ i, HasArm cx (.report cov.inner) b i e.span ∧ CountsBegun p' (.b b i) (tag e) := by
  obtain ⟨x', h1, h2, h3⟩ := C39_branches_partial hf hk hr _ hx
  obtain ⟨b, r, rfl, h4, -, -, h5⟩ := h3 hi
  have hc := (clean_mk.1 (inProgram_clean hp hx)).2
  refine ⟨b, h4, fun e he ho => ?_⟩
  obtain ⟨n, h6, h7⟩ := h5 e he
  exact operand_begun hp hr (operands_clean (fun c hc' => hc c (by simp at hc'; simp [hc'])) he) ho h7
    (Steps.each_trans h1 (mem_each_child (by simp) _ h6))

/-! ### In terms of the source program and the report -/

/-- The counts of the theorems above start from zero in the report. -/
theorem C22_start_partial {r : FileCoverage} : (∀ id l, (Tables.report r).statement id l → r.count (.s id) = some 0) ∧
    (∀ id x, (Tables.report r).function id x → r.count (.f id) = some 0) ∧
    ∀ b i x l, (Tables.report r).branch b x → (Tables.report r).arm b i l → r.count (.b b i) = some 0 ∧
      (x.1 = .binaryExpr → x.2.2 = true → r.count (.bT b i) = some 0) := by
  refine ⟨fun id l h => h.2, fun id x h => h.2, fun b i x l h h' => ?_⟩
  obtain ⟨br, h1, h2⟩ := h'
  refine ⟨?_, fun h3 h4 => ?_⟩
  · simp only [FileCoverage.count, (h br h1).2.1, Option.bind_some, List.getElem?_map, h2, Option.map_some]
  · have h5 := (h br h1).2.2 h3 h4
    cases hb : r.bT with
    | none => rw [hb] at h5; cases h5
    | some bt =>
      rw [hb] at h5
      simp only [Option.getD_some] at h5
      simp only [FileCoverage.count, hb, Option.bind_some, h5, List.getElem?_map, h2, Option.map_some]

/-- C22 for what begins: whatever the source program can do, its instrumented version can do as well, and then the report has
exactly the number of beginnings as the count. (Counts above 2^53 cannot be represented.) -/
theorem C22_reported_beginnings_partial {V A : Type} {solid : V → Bool} (hp : Clean p) (hU : UnnamedFields p) (hF : FewDirectives p)
    (hr : instrument cx fuel path sm p = .ok (p', cov)) {c : Counter} {t : Sem.Tag} (hc : CountsBegun p' c t)
    (h0 : cov.inner.count c = some 0) {tr : List (Ev V A)} {o o' : Sem.Outcome V A} (h : Exec solid p tr o o')
    (h1 : o ≠ .cut) (h2 : o' ≠ .cut) (hb : began t tr ≤ 2 ^ 53) :
    ∃ tr', Exec solid p' tr' o o' ∧ visible tr' = tr ∧ (cov.inner.hits (increments tr')).count c = some (began t tr) := by
  obtain ⟨tr', rfl, h3⟩ := (C21_partial hp hU hF hr tr o o').1 h
  obtain ⟨ε, h4, h5⟩ := hc V A solid tr' o o' h3
  rw [slack_ne h1, slack_ne h2] at h4
  have h6 : (increments tr').count c = began t (visible tr') := by rw [← counted_eq, h5]; omega
  refine ⟨tr', h3, rfl, ?_⟩
  rw [hits_count _ _ _ 0 h0 (by have : Js.maxInt = 2 ^ 53 := rfl; omega), Nat.zero_add, h6]

/-- C22 for what is entered, in the same way. -/
theorem C22_reported_entries_partial {V A : Type} {solid : V → Bool} (hp : Clean p) (hU : UnnamedFields p) (hF : FewDirectives p)
    (hr : instrument cx fuel path sm p = .ok (p', cov)) {c : Counter} {t : Sem.Tag} {j : Nat} (hc : CountsEntered p' c t j)
    (h0 : cov.inner.count c = some 0) {tr : List (Ev V A)} {o o' : Sem.Outcome V A} (h : Exec solid p tr o o')
    (h1 : o ≠ .cut) (h2 : o' ≠ .cut) (hb : entered t j tr ≤ 2 ^ 53) :
    ∃ tr', Exec solid p' tr' o o' ∧ visible tr' = tr ∧ (cov.inner.hits (increments tr')).count c = some (entered t j tr) := by
  obtain ⟨tr', rfl, h3⟩ := (C21_partial hp hU hF hr tr o o').1 h
  obtain ⟨ε, h4, h5⟩ := hc V A solid tr' o o' h3
  rw [slack_ne h1, slack_ne h2] at h4
  have h6 : (increments tr').count c = entered t j (visible tr') := by rw [← counted_eq]; omega
  refine ⟨tr', h3, rfl, ?_⟩
  rw [hits_count _ _ _ 0 h0 (by have : Js.maxInt = 2 ^ 53 := rfl; omega), Nat.zero_add, h6]

/-- C22 for solid values, in the same way. -/
theorem C22_reported_truths_partial {V A : Type} {solid : V → Bool} (hp : Clean p) (hU : UnnamedFields p) (hF : FewDirectives p)
    (hr : instrument cx fuel path sm p = .ok (p', cov)) {c : Counter} {t : Sem.Tag} (hc : CountsSolid p' c t)
    (h0 : cov.inner.count c = some 0) {tr : List (Ev V A)} {o o' : Sem.Outcome V A} (h : Exec solid p tr o o')
    (h1 : o ≠ .cut) (hb : gave solid t [] tr ≤ 2 ^ 53) :
    ∃ tr', Exec solid p' tr' o o' ∧ visible tr' = tr ∧ (cov.inner.hits (increments tr')).count c = some (gave solid t [] tr) := by
  obtain ⟨tr', rfl, h3⟩ := (C21_partial hp hU hF hr tr o o').1 h
  obtain ⟨ε, h4, h5⟩ := hc V A solid tr' o o' h3
  rw [slack_ne h1] at h4
  have h6 : (increments tr').count c = gave solid t [] (visible tr') := by rw [← counted_eq]; omega
  refine ⟨tr', h3, rfl, ?_⟩
  rw [hits_count _ _ _ 0 h0 (by have : Js.maxInt = 2 ^ 53 := rfl; omega), Nat.zero_add, h6]

end

/-! ### Examples -/

/-- `busy` has the hypotheses of the theorems. -/
example : Clean busy ∧ UnnamedFields busy ∧ FewDirectives busy :=
  ⟨by unfold Clean; decide +kernel, by decide +kernel, by decide +kernel⟩

instance (p : Node) (t : Sem.Tag) : Decidable (Only p t) := by unfold Only; infer_instance

/-- Its parts that are counted exist once: the statements, the initialiser, the functions, `if`, the case, the arms of
the conditional expression and the operands of the default value. -/
example : ∀ t ∈ [(Kind.ifStmt, at' 6), (.switchStmt, at' 14), (.returnStmt, at' 19), (.cond, at' 10), (.function "", at' 1),
    (.arrow "", at' 20), (.switchCase, at' 16), (.ident "a", at' 12), (.ident "b", at' 13), (.ident "a", at' 4),
    (.ident "b", at' 5)], Only busy t := by decide +kernel

/-- The parts that `C22_functions_partial` is about. -/
example : (each busy).filterMap bodyPart = [((.function "", at' 1), 2), ((.arrow "", at' 20), 1)] := by decide +kernel

/-- An item that `C22_items_partial` is about. -/
example : ∃ s ∈ ownStmts plain (Build.module [expr 1 (call 2 (ident 3 "g") [])]).children,
    Only (Build.module [expr 1 (call 2 (ident 3 "g") [])]) (tag s) ∧ itemDues plain .module s = [at' 1] :=
  ⟨_, List.mem_cons_self .., by decide +kernel, by decide +kernel⟩

/-- `f() && g()` -/
def bothCalls : Node := Build.module [expr 1 (bin 2 .and (call 3 (ident 4 "f") []) (call 5 (ident 6 "g") []))]

/-- It has the hypotheses of `C22_truths_partial`, for both operands. -/
example : Clean bothCalls ∧ UnnamedFields bothCalls ∧ FewDirectives bothCalls ∧
    (∃ x, InProgram logic bothCalls x ∧ (!logic.ignores x && x.kind = .bin .and && x.span = at' 2) = true) ∧
    (operands logic [call 3 (ident 4 "f") [], call 5 (ident 6 "g") []]).map tag =
      [tag (call 3 (ident 4 "f") []), tag (call 5 (ident 6 "g") [])] ∧
    Only bothCalls (tag (call 3 (ident 4 "f") [])) ∧ Only bothCalls (tag (call 5 (ident 6 "g") [])) :=
  ⟨by unfold Clean; decide +kernel, by decide +kernel, by decide +kernel, inProgram_find (i := 0) (is := [0]) (by decide +kernel),
    by decide +kernel, by decide +kernel, by decide +kernel⟩

/-- It executes with values that are numbers: `f` returns 7 and `g` returns 0. -/
def bothCallsTrace : List (Ev Nat Unit) :=
  let f := call 3 (ident 4 "f") []
  let g := call 5 (ident 6 "g") []
  let b := bin 2 .and f g
  let s := expr 1 b
  [.present (face bothCalls), .present (face s), .pick 1 0 (face s), .present (face b), .pick 2 0 (face b), .present (face f),
    .answer (.normal (some 7)), .got (.normal (some 7)), .pick 2 1 (face b), .present (face g), .answer (.normal (some 0)),
    .got (.normal (some 0)), .answer (.normal (some 0)), .got (.normal (some 0)), .answer (.normal none), .got (.normal none),
    .answer (.normal none)] ++ [.answer (.normal none)]

theorem bothCalls_exec : Exec (fun v => v != 0) bothCalls bothCallsTrace (.normal none) (.normal none) := by
  refine ⟨_, _, _, _, rfl, .block rfl (.next rfl (.node rfl (.pick rfl rfl (.node rfl (.pick rfl rfl (.node rfl (.answer ?_)) ?_
    (.pick rfl rfl (.node rfl (.answer ?_)) ?_ (.answer ?_)))) ?_ (.answer ?_))) .nil) ?_ (.answer ?_), .answer ?_⟩ <;> nofun

example : began (tag (call 3 (ident 4 "f") [])) bothCallsTrace = 1 ∧ began (tag (call 5 (ident 6 "g") [])) bothCallsTrace = 1 ∧
    gave (fun v => v != 0) (tag (call 3 (ident 4 "f") [])) [] bothCallsTrace = 1 ∧
    gave (fun v => v != 0) (tag (call 5 (ident 6 "g") [])) [] bothCallsTrace = 0 := by decide +kernel

/-! ### Counts that cannot be represented -/

/-- C22: counters are doubles, so that a count is exact up to 2^53 and stays there: after any increments it is the
smaller one of the number of increments and 2^53. -/
theorem C22_saturates (fc : FileCoverage) (c : Counter) (l : List Counter) (n : Nat) (hn : n ≤ 2 ^ 53) (h : fc.count c = some n) :
    (fc.hits l).count c = some (min (n + l.count c) (2 ^ 53)) := by
  induction l generalizing fc n with
  | nil =>
    rw [List.count_nil, Nat.add_zero, Nat.min_eq_left hn]
    exact h
  | cons c' l ih =>
    change ((fc.hit c').hits l).count c = _
    by_cases hc : c' = c
    · subst hc
      have hm : Js.maxInt = 2 ^ 53 := rfl
      rw [List.count_cons_self]
      have h2 : (fc.hit c').count c' = some (Js.bump n) := by rw [hit_count, if_pos rfl, h, Option.map_some]
      by_cases hlt : n < 2 ^ 53
      · have h1 : Js.bump n = n + 1 := by
          unfold Js.bump
          rw [if_pos (by omega)]
        rw [ih (fc.hit c') (n + 1) (by omega) (by rw [h2, h1])]
        congr 1
        omega
      · have h1 : Js.bump n = n := by
          unfold Js.bump
          rw [if_neg (by omega)]
        rw [ih (fc.hit c') n hn (by rw [h2, h1])]
        congr 1
        omega
    · rw [List.count_cons_of_ne hc]
      exact ih (fc.hit c') n hn (by rw [hit_count, if_neg hc, h])

/-- After 2^53 + 5 executions of a statement its count is 2^53. -/
example : (({ FileCoverage.empty "a" false with s := [(0, 0)] } : FileCoverage).hits (List.replicate (2 ^ 53 + 5) (.s 0))).count (.s 0)
    = some (2 ^ 53) := by
  rw [C22_saturates _ _ _ 0 (by omega) rfl, List.count_replicate_self]
  congr 1

/-! ### Failures -/

/-- `const a = g(), h = () => {};` -/
def twoInits : Node := Build.module [mk (.varDecl .const) (at' 1) [
  mk .varDeclarator (at' 2) [ident 2 "a", call 3 (ident 3 "g") []],
  mk .varDeclarator (at' 5) [ident 5 "h", arrow 6 (block 7 [])]]]

/-- What happens if `g` throws: the second initialiser is not reached. -/
def twoInitsTrace : List (Ev Unit Unit) :=
  let d := mk (.varDecl .const) (at' 1) [mk .varDeclarator (at' 2) [ident 2 "a", call 3 (ident 3 "g") []],
    mk .varDeclarator (at' 5) [ident 5 "h", arrow 6 (block 7 [])]]
  let v := mk .varDeclarator (at' 2) [ident 2 "a", call 3 (ident 3 "g") []]
  let o : Sem.Outcome Unit Unit := .abrupt ()
  [.present (face twoInits), .present (face d), .pick 1 0 (face d), .present (face v), .pick 2 1 (face v),
    .present (face (call 3 (ident 3 "g") [])), .answer o, .got o, .answer o, .got o, .answer o, .got o, .answer o] ++
  [.answer (.normal none)]

theorem twoInits_exec : Exec (fun _ => true) twoInits twoInitsTrace (.abrupt ()) (.normal none) := by
  refine ⟨_, _, _, _, rfl, .block rfl (.stop rfl (.node rfl (.pick rfl rfl (.node rfl (.pick rfl rfl (.node rfl (.answer ?_)) ?_
    (.answer ?_))) ?_ (.answer ?_))) rfl) ?_ (.answer ?_), .answer ?_⟩ <;> nofun

/-- C22 fails: an initialiser with a block in it is counted before the whole declaration. In `const a = g(), h = () => {}` the
initialiser of `h` is counted although it is never evaluated if `g` throws. -/
theorem C22_hoisted_initialiser_fails : ∃ p p' cov id, Clean p ∧ run plain p = .ok (p', cov) ∧
    cov.inner.statementMap.get id = some (plain.range (at' 6)) ∧ Only p (.arrow "", at' 6) ∧
    ∃ tr tr' : List (Ev Unit Unit), ∃ o o', o ≠ .cut ∧ o' ≠ .cut ∧ Exec (fun _ => true) p tr o o' ∧
      Exec (fun _ => true) p' tr' o o' ∧ visible tr' = tr ∧ counted (.s id) tr' = 1 ∧ began (.arrow "", at' 6) tr = 0 := by
  have h : yields (run plain twoInits) (fun _ _ => true) = true := by decide +kernel
  obtain ⟨p', cov, h1, -⟩ := of_yields h
  have hp : Clean twoInits := by unfold Clean; decide +kernel
  obtain ⟨id, h2, h3⟩ := C22_items_partial hp (by decide +kernel) (.inl rfl) h1
    (mk (.varDecl .const) (at' 1) [mk .varDeclarator (at' 2) [ident 2 "a", call 3 (ident 3 "g") []],
      mk .varDeclarator (at' 5) [ident 5 "h", arrow 6 (block 7 [])]]) (List.mem_filter.2 ⟨List.mem_cons_self .., by decide +kernel⟩)
    (by decide +kernel) (at' 6) (by decide +kernel)
  obtain ⟨tr', h4, h5⟩ := (C21_partial hp (by decide +kernel) (by decide +kernel) h1 _ _ _).1 twoInits_exec
  obtain ⟨ε, h6, h7⟩ := h3 _ _ _ _ _ _ h5
  have h8 : ε = 0 := by
    change ε ≤ 0 at h6
    omega
  refine ⟨twoInits, p', cov, id, hp, h1, h2.1, by decide +kernel, twoInitsTrace, tr', .abrupt (), .normal none, nofun, nofun, twoInits_exec, h5, h4, ?_,
    by decide +kernel⟩
  rw [h7, h4, h8]
  decide +kernel

end Verif
