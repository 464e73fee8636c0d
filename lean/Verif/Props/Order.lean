import Verif.Lemmas.OrderProgram
import Verif.Props.Counts
/-
C68: how the counts of a report fit together.
-/
namespace Verif
open Node Visitor Sem Build

section
variable {cx : Ctx} {fuel : Nat} {path : String} {sm : Option SourceMap} {p p' : Node} {cov : SourceCoverage}

/-- C68 for the items of a program: at no moment a later item has a higher count than an earlier one. -/
theorem C68_items_partial (hp : Clean p) (hf : Hint.shouldIgnoreFile cx.cc cx.comments p.span = false)
    (hk : p.kind = .module ∨ p.kind = .script) (hr : instrument cx fuel path sm p = .ok (p', cov)) (A B C : List Node) (s t : Node)
    (hl : p.children = A ++ s :: (B ++ t :: C)) (hn : (p.children.map tag).Nodup) (hs : cx.hinted s = false)
    (ht : cx.hinted t = false) (sp sp' : Span) (hsp : sp ∈ itemDues cx p.kind s) (hsp' : sp' ∈ itemDues cx p.kind t) :
    ∃ id id', (Tables.report cov.inner).statement id (cx.range sp) ∧ (Tables.report cov.inner).statement id' (cx.range sp') ∧
      NeverAhead p' (.s id) (.s id') := by
  have hc : ∀ x ∈ p.children, isInjectedItem x = false := by
    intro x hx
    obtain ⟨k, psp, cs⟩ := p
    exact clean_not_item ((clean_mk.1 hp).2 x hx)
  have hown : ∀ x ∈ p.children, cx.hinted x = false → x ∈ ownStmts cx p.children := by
    intro x hx h
    exact List.mem_filter.2 ⟨hx, by rw [hc x hx, h]; rfl⟩
  obtain ⟨pre, s', post, h1, h2, h3⟩ := C37_items_partial hf hk hr s (hown s (by rw [hl]; simp) hs)
  obtain ⟨pre', t', post', h4, h5, h6⟩ := C37_items_partial hf hk hr t (hown t (by rw [hl]; simp) ht)
  obtain ⟨id, h7, h8⟩ := h3 sp hsp
  obtain ⟨id', h9, h10⟩ := h6 sp' hsp'
  refine ⟨id, id', h8, h10, ?_⟩
  obtain ⟨n, h, o⟩ := outcome hr
  have hkind : p'.kind = p.kind := by rw [← strip_kind p', o.strip_eq, strip_kind]
  have hlook : look p' = .list p'.children := by
    obtain ⟨k, psp, cs⟩ := p'
    change k = p.kind at hkind
    rcases hk with hk | hk <;> rw [hk] at hkind <;> subst hkind <;> rfl
  have ho : own p'.children = own p.children := by
    have hst := o.strip_eq
    obtain ⟨k', psp', cs'⟩ := p'
    obtain ⟨k, psp, cs⟩ := p
    change k' = k at hkind
    change k = .module ∨ k = .script at hk
    subst hkind
    rcases hk with rfl | rfl <;> (rw [strip_mk, strip_mk] at hst; injection hst)
  obtain ⟨u, v, w, h11⟩ := two_before hl hc hn ho h1 h2 h4 h5 h7 h9
  exact (followed hp hr).trails (.here _) (hlook.trans (by rw [h11]))

/-- C68 for the statements of any list that is reached: at no moment a later statement has a higher count than an earlier one. -/
theorem C68_statements_partial (hp : Clean p) (hf : Hint.shouldIgnoreFile cx.cc cx.comments p.span = false)
    (hk : p.kind = .module ∨ p.kind = .script) (hr : instrument cx fuel path sm p = .ok (p', cov)) (x : Node)
    (hx : InProgram cx p x) (hi : cx.ignores x = false) (A B C : List Node) (s t : Node)
    (hl : A ++ s :: (B ++ t :: C) ∈ lists cx x) (hn : ((A ++ s :: (B ++ t :: C)).map tag).Nodup) (hs : cx.hinted s = false)
    (ht : cx.hinted t = false) (hd : s.span ≠ Span.dummy) (sp sp' : Span) (hsp : sp ∈ dues cx s) (hsp' : sp' ∈ dues cx t) :
    ∃ id id', (Tables.report cov.inner).statement id (cx.range sp) ∧ (Tables.report cov.inner).statement id' (cx.range sp') ∧
      NeverAhead p' (.s id) (.s id') := by
  have hc : ∀ y ∈ A ++ s :: (B ++ t :: C), isInjectedItem y = false := fun y hy =>
    clean_not_item (lists_clean (inProgram_clean hp hx) hl hy)
  have hown : ∀ y ∈ A ++ s :: (B ++ t :: C), cx.hinted y = false → y ∈ ownStmts cx (A ++ s :: (B ++ t :: C)) := by
    intro y hy h
    exact List.mem_filter.2 ⟨hy, by rw [hc y hy, h]; rfl⟩
  obtain ⟨x', g1, g2, g3⟩ := C37_lists_partial hf hk hr x hx
  obtain ⟨l', g4, g5, g6⟩ := lists_at g2 (g3 hi) hl
  obtain ⟨pre, s', post, h1, h2, h3⟩ := g5 s (hown s (by simp) hs)
  obtain ⟨pre', t', post', h4, h5, h6⟩ := g5 t (hown t (by simp) ht)
  obtain ⟨id, h7, h8⟩ := h3 sp hsp
  obtain ⟨id', h9, h10⟩ := h6 sp' hsp'
  refine ⟨id, id', h8, h10, ?_⟩
  have ho : own l' = own (A ++ s :: (B ++ t :: C)) := by
    rcases g6 with h | rfl | h
    · simp at h
    · simp at h1
    · exact h
  obtain ⟨u, v, w, h11⟩ := two_before rfl hc hn ho h1 h2 h4 h5 h7 h9
  have hs' : s'.span ≠ Span.dummy := by
    rw [← strip_span, h2, strip_span]
    exact hd
  obtain ⟨y, h12, h13⟩ := (followed hp hr).site (s := s') g1 g4 (by rw [h1]; simp) hs'
  exact (followed hp hr).trails h12 (h13.trans (by rw [h11]))

/-- The counter at the start of a list and the counter of a statement in it. -/
theorem head_order (hp : Clean p) (hr : instrument cx fuel path sm p = .ok (p', cov)) {x' : Node} (hx' : x' ∈ each p')
    {l l' ss : List Node} {A C : List Node} {s : Node} {c : Counter} (hl : l = A ++ s :: C) (hc : ∀ y ∈ l, isInjectedItem y = false)
    (hn : (l.map tag).Nodup) (hs : cx.hinted s = false) (hd : s.span ≠ Span.dummy) {sp : Span} (hsp : sp ∈ dues cx s)
    (hl' : l' ∈ lists cx x') (hlead : Leads cx (.report cov.inner) l l') (ho : l = [] ∨ l' = [] ∨ own l' = own l)
    (hh : l' = counterStmt c :: ss) (hne : ∀ id, c ≠ .s id) :
    ∃ id, (Tables.report cov.inner).statement id (cx.range sp) ∧ NeverAhead p' c (.s id) ∧ (A = [] → InStep p' c (.s id)) := by
  obtain ⟨pre, s', post, h1, h2, h3⟩ := hlead s
    (List.mem_filter.2 ⟨by rw [hl]; simp, by rw [hc s (by rw [hl]; simp), hs]; rfl⟩)
  obtain ⟨id, h7, h8⟩ := h3 sp hsp
  have ho : own l' = own l := by
    rcases ho with h | rfl | h
    · rw [hl] at h; simp at h
    · simp at h1
    · exact h
  obtain ⟨h4, h5⟩ := own_before hl hc hn ho h1 h2
  obtain ⟨v, w, h6, h9⟩ := head_before hh h1 (hne id) h7
  have hs' : s'.span ≠ Span.dummy := by
    rw [← strip_span, h2, strip_span]
    exact hd
  obtain ⟨y, h12, h13⟩ := (followed hp hr).site (s := s') hx' hl' (by rw [h1]; simp) hs'
  rw [h6] at h13
  refine ⟨id, h8, (followed hp hr).trails (u := []) h12 h13, fun hA => ?_⟩
  subst hA
  exact (followed hp hr).joined (u := []) h12 (h9 h4) h13

/-- C68 for functions: at no moment a statement of the body has a higher count than the function, and the first statement has the
count of the function. -/
theorem C68_functions_partial (hp : Clean p) (hf : Hint.shouldIgnoreFile cx.cc cx.comments p.span = false)
    (hk : p.kind = .module ∨ p.kind = .script) (hr : instrument cx fuel path sm p = .ok (p', cov)) (x : Node)
    (hx : InProgram cx p x) (hi : cx.ignores x = false) (ha : ∀ a, x.kind ≠ .arrow a) (name : Option String) (decl : Span)
    (bsp : Span) (A C : List Node) (s : Node) (hh : fnHead cx x = some (name, decl))
    (hb : bodyOf x = some (mk .block bsp (A ++ s :: C))) (hxb : InProgram cx p (mk .block bsp (A ++ s :: C)))
    (hib : cx.ignores (mk .block bsp (A ++ s :: C)) = false) (hob : Only p (.block, bsp))
    (hn : ((A ++ s :: C).map tag).Nodup) (hs : cx.hinted s = false) (hd : s.span ≠ Span.dummy) (sp : Span) (hsp : sp ∈ dues cx s) :
    ∃ fid id, (Tables.report cov.inner).function fid (name, cx.range decl, cx.range bsp) ∧
      (Tables.report cov.inner).statement id (cx.range sp) ∧ NeverAhead p' (.f fid) (.s id) ∧
      (A = [] → InStep p' (.f fid) (.s id)) := by
  obtain ⟨x', h1, h2, h3⟩ := C38_functions_partial hf hk hr x hx
  obtain ⟨fid, bsp', ss, h4, h5⟩ := h3 hi name decl _ hh hb (.inl rfl)
  obtain ⟨b', h6, h7, h8⟩ := C37_lists_partial hf hk hr _ hxb
  have h9 : strip (mk .block bsp' (counterStmt (.f fid) :: ss)) = strip (mk .block bsp (A ++ s :: C)) := by
    have h10 := bodyOf_strip h4 (fun a h => ha a (by rw [← h, ← strip_kind x', h2, strip_kind]))
    rw [h2, bodyOf_strip hb ha] at h10
    injection h10 with h10
    exact h10.symm
  have h11 : bsp' = bsp := by
    have := congrArg Node.span h9
    rw [strip_span, strip_span] at this
    exact this
  subst h11
  have hm : mk .block bsp' (counterStmt (.f fid) :: ss) ∈ each p' := Steps.each_trans h1 (bodyOf_each h4)
  have hkb : b'.kind = .block := by rw [← strip_kind, h7, strip_kind]; rfl
  have h12 : mk .block bsp' (counterStmt (.f fid) :: ss) = b' := by
    refine (followed hp hr).same hob hm h6 ((tag_of h7).trans rfl) trivial ?_ rfl rfl
    obtain ⟨k, q, cs⟩ := b'
    cases hkb
    trivial
  subst h12
  obtain ⟨l', g4, g5, g6⟩ := lists_at h7 (h8 hib) (l := A ++ s :: C) (List.mem_singleton.2 rfl)
  cases List.mem_singleton.1 g4
  have hc : ∀ y ∈ A ++ s :: C, isInjectedItem y = false := fun y hy =>
    clean_not_item (lists_clean (inProgram_clean hp hxb) (cx := cx) (List.mem_singleton.2 rfl) hy)
  obtain ⟨id, h13⟩ := head_order hp hr h6 rfl hc hn hs hd hsp g4 g5 g6 rfl (by intro id h; cases h)
  exact ⟨fid, id, h5, h13⟩

/-- C68 for arrow functions, in the same way. The body of `=> e` is the statement `return e`. -/
theorem C68_arrows_partial (hp : Clean p) (hf : Hint.shouldIgnoreFile cx.cc cx.comments p.span = false)
    (hk : p.kind = .module ∨ p.kind = .script) (hr : instrument cx fuel path sm p = .ok (p', cov)) (a : String) (asp : Span)
    (params body : Node) (hx : InProgram cx p (mk (.arrow a) asp [params, body]))
    (hi : cx.ignores (mk (.arrow a) asp [params, body]) = false) (A C : List Node) (s : Node)
    (hb : (asArrowBody body).children = A ++ s :: C)
    (hn : ((A ++ s :: C).map tag).Nodup) (hs : cx.hinted s = false) (hd : s.span ≠ Span.dummy) (sp : Span) (hsp : sp ∈ dues cx s) :
    ∃ fid id, (Tables.report cov.inner).function fid (none, cx.range asp, cx.range body.span) ∧
      (Tables.report cov.inner).statement id (cx.range sp) ∧ NeverAhead p' (.f fid) (.s id) ∧
      (A = [] → InStep p' (.f fid) (.s id)) := by
  obtain ⟨x', h1, h2, h3⟩ := (Cover.instrument hf hk hr).2 _ hx
  obtain ⟨fid, bsp', ss, h4, h5⟩ := h3.fn hi none asp body rfl rfl (.inr ⟨a, rfl⟩)
  have hmem : A ++ s :: C ∈ lists cx (mk (.arrow a) asp [params, body]) := by
    rw [← hb]
    exact List.mem_singleton.2 rfl
  obtain ⟨l', g4, g5, g6⟩ := lists_at h2 (h3.lists hi) hmem
  have hkx : x'.kind = .arrow a := by rw [← strip_kind, h2, strip_kind]; rfl
  have hl' : l' = counterStmt (.f fid) :: ss := by
    obtain ⟨k, q, cs⟩ := x'
    cases hkx
    match cs, h4, g4 with
    | [ps, b], h4, g4 =>
      injection h4 with h4
      subst h4
      exact List.mem_singleton.1 g4
  have hc : ∀ y ∈ A ++ s :: C, isInjectedItem y = false := fun y hy =>
    clean_not_item (lists_clean (inProgram_clean hp hx) hmem hy)
  obtain ⟨id, h13⟩ := head_order hp hr h1 rfl hc hn hs hd hsp g4 g5 g6 hl' (by intro id h; cases h)
  exact ⟨fid, id, h5, h13⟩

/-- C68 for the arms of `if`: at no moment a statement of an arm has a higher count than the arm, and the first one has the count
of the arm. -/
theorem C68_if_partial (hp : Clean p) (hf : Hint.shouldIgnoreFile cx.cc cx.comments p.span = false)
    (hk : p.kind = .module ∨ p.kind = .script) (hr : instrument cx fuel path sm p = .ok (p', cov)) (isp : Span)
    (test cons alt : Node) (hx : InProgram cx p (mk .ifStmt isp [test, cons, alt]))
    (hi : cx.ignores (mk .ifStmt isp [test, cons, alt]) = false) :
    ∃ b, HasBranch cx (.report cov.inner) b .if isp ∧
      ∀ arm ∈ [(IgnoreScope.if, cons), (.else, alt)], cx.hint isp ≠ some arm.1 →
        ∃ i, HasArm cx (.report cov.inner) b i isp ∧ ∀ A s C, bodyStmts arm.2 = A ++ s :: C → ((A ++ s :: C).map tag).Nodup →
          cx.hinted s = false → s.span ≠ Span.dummy → ∀ sp ∈ dues cx s,
            ∃ id, (Tables.report cov.inner).statement id (cx.range sp) ∧ NeverAhead p' (.b b i) (.s id) ∧
              (A = [] → InStep p' (.b b i) (.s id)) := by
  obtain ⟨x', h1, h2, h3⟩ := (Cover.instrument hf hk hr).2 _ hx
  obtain ⟨b, test', cons', alt', rfl, h4, h5, h6⟩ := h3.branches hi
  refine ⟨b, h4, ?_⟩
  obtain ⟨g1, g2⟩ := two_lists (lists_both h2 (h3.lists hi))
  intro arm harm hhint
  rcases List.mem_cons.1 harm with rfl | harm
  · obtain ⟨i, bsp, ss, rfl, h7⟩ := h5 hhint
    refine ⟨i, h7, fun A s C hb hn hs hd sp hsp => ?_⟩
    have hm : ∀ cons alt, bodyStmts cons ∈ lists cx (mk .ifStmt isp [test', cons, alt]) := fun cons alt =>
      List.mem_append_left _ (by rw [if_neg hhint]; exact List.mem_singleton.2 rfl)
    have hm' : bodyStmts cons ∈ lists cx (mk .ifStmt isp [test, cons, alt]) :=
      List.mem_append_left _ (by rw [if_neg hhint]; exact List.mem_singleton.2 rfl)
    rw [← hb] at hn
    exact head_order hp hr h1 hb (fun y hy => clean_not_item (lists_clean (inProgram_clean hp hx) hm' hy)) hn hs hd hsp
      (hm _ _) (g1 hhint).1 (g1 hhint).2 rfl (by intro id h; cases h)
  · cases List.mem_singleton.1 harm
    obtain ⟨i, bsp, ss, rfl, h7⟩ := h6 hhint
    refine ⟨i, h7, fun A s C hb hn hs hd sp hsp => ?_⟩
    have hm : ∀ cons alt, bodyStmts alt ∈ lists cx (mk .ifStmt isp [test', cons, alt]) := fun cons alt =>
      List.mem_append_right _ (by rw [if_neg hhint]; exact List.mem_singleton.2 rfl)
    have hm' : bodyStmts alt ∈ lists cx (mk .ifStmt isp [test, cons, alt]) :=
      List.mem_append_right _ (by rw [if_neg hhint]; exact List.mem_singleton.2 rfl)
    rw [← hb] at hn
    exact head_order hp hr h1 hb (fun y hy => clean_not_item (lists_clean (inProgram_clean hp hx) hm' hy)) hn hs hd hsp
      (hm _ _) (g2 hhint).1 (g2 hhint).2 rfl (by intro id h; cases h)

/-- C68 for the cases of `switch`: at no moment a statement of a case has a higher count than the case, and the first one has the count
of the case. -/
theorem C68_cases_partial (hp : Clean p) (hf : Hint.shouldIgnoreFile cx.cc cx.comments p.span = false)
    (hk : p.kind = .module ∨ p.kind = .script) (hr : instrument cx fuel path sm p = .ok (p', cov)) (ssp : Span)
    (cs : List Node) (hx : InProgram cx p (mk .switchStmt ssp cs)) (hi : cx.ignores (mk .switchStmt ssp cs) = false) :
    ∃ b, HasBranch cx (.report cov.inner) b .switch ssp ∧
      ∀ csp test A s C, mk .switchCase csp (test :: (A ++ s :: C)) ∈ cs → cx.hint csp ≠ some .next → Only p (.switchCase, csp) →
        InProgram cx p (mk .switchCase csp (test :: (A ++ s :: C))) → ((A ++ s :: C).map tag).Nodup →
          cx.hinted s = false → s.span ≠ Span.dummy → ∀ sp ∈ dues cx s,
        ∃ i id, HasArm cx (.report cov.inner) b i csp ∧ (Tables.report cov.inner).statement id (cx.range sp) ∧
          NeverAhead p' (.b b i) (.s id) ∧ (A = [] → InStep p' (.b b i) (.s id)) := by
  obtain ⟨x', h1, h2, h3⟩ := C39_branches_partial hf hk hr _ hx
  obtain ⟨b, h4, h5⟩ := h3 hi
  refine ⟨b, h4, fun csp test A s C hm hh ho hxc hn hs hd sp hsp => ?_⟩
  obtain ⟨i, test', ss', h6, h7, h8⟩ := h5 csp test _ hm hh
  have hcase : mk .switchCase csp (test' :: counterStmt (.b b i) :: ss') ∈ each p' := by
    refine Steps.each_trans h1 ?_
    cases x'
    exact mem_each_mk.2 (.inr ⟨_, h6, each_self _⟩)
  obtain ⟨c', g1, g2, g3⟩ := C37_lists_partial hf hk hr _ hxc
  have hkc : c'.kind = .switchCase := by rw [← strip_kind, g2, strip_kind]; rfl
  have hsame : mk .switchCase csp (test' :: counterStmt (.b b i) :: ss') = c' := by
    refine (followed hp hr).same ho hcase g1 ((tag_of g2).trans rfl) trivial ?_ rfl rfl
    obtain ⟨k, q, cs⟩ := c'
    cases hkc
    trivial
  subst hsame
  have hic : cx.ignores (mk .switchCase csp (test :: (A ++ s :: C))) = false := by
    have h9 : cx.hinted (mk .switchCase csp (test :: (A ++ s :: C))) = false := by
      simp only [Ctx.hinted, Node.span]
      exact decide_eq_false hh
    rw [Ctx.ignores, h9, Bool.and_false]
  have hmem : A ++ s :: C ∈ lists cx (mk .switchCase csp (test :: (A ++ s :: C))) := List.mem_singleton.2 rfl
  obtain ⟨l', g4, g5, g6⟩ := lists_at g2 (g3 hic) hmem
  have hc : ∀ y ∈ A ++ s :: C, isInjectedItem y = false := fun y hy =>
    clean_not_item (lists_clean (inProgram_clean hp hxc) hmem hy)
  obtain ⟨id, h13, h14⟩ := head_order hp hr g1 rfl hc hn hs hd hsp g4 g5 g6 (List.mem_singleton.1 g4) (by intro id h; cases h)
  exact ⟨i, id, h8, h13, h14⟩

/-- C68 for the counts of a report, at any moment of an execution. -/
theorem C68_reported {V A : Type} {solid : V → Bool} {r : FileCoverage} {a b : Counter} (hab : NeverAhead p' a b)
    (ha : r.count a = some 0) (hb : r.count b = some 0) {tr : List (Ev V A)} {o o' : Sem.Outcome V A}
    (h : Exec solid p' tr o o') :
    ∃ n m, (r.hits (increments tr)).count a = some n ∧ (r.hits (increments tr)).count b = some m ∧ m ≤ n := by
  refine ⟨_, _, C22_saturates r a (increments tr) 0 (Nat.zero_le _) ha, C22_saturates r b (increments tr) 0 (Nat.zero_le _) hb, ?_⟩
  have h1 := hab V A solid tr o o' h
  rw [counted_eq, counted_eq] at h1
  omega

/-- C68 for equal counts, at the end of an execution. -/
theorem C68_reported_equal {V A : Type} {solid : V → Bool} {r : FileCoverage} {a b : Counter} (hab : InStep p' a b)
    (ha : r.count a = some 0) (hb : r.count b = some 0) {tr : List (Ev V A)} {o o' : Sem.Outcome V A}
    (h : Exec solid p' tr o o') (h1 : o ≠ .cut) (h2 : o' ≠ .cut) :
    (r.hits (increments tr)).count a = (r.hits (increments tr)).count b := by
  rw [C22_saturates r a (increments tr) 0 (Nat.zero_le _) ha, C22_saturates r b (increments tr) 0 (Nat.zero_le _) hb]
  obtain ⟨ε, h3, h4⟩ := hab V A solid tr o o' h
  rw [slack_ne h1, slack_ne h2] at h3
  rw [counted_eq, counted_eq] at h4
  congr 2
  omega

end
/-! ### Programs -/

/-- `g(); h();` -/
def twoCalls : Node := Build.module [expr 1 (call 2 (ident 3 "g") []), expr 5 (call 6 (ident 7 "h") [])]

/-- What happens if `g` throws. -/
def twoCallsTrace : List (Ev Unit Unit) :=
  let s := expr 1 (call 2 (ident 3 "g") [])
  let o : Sem.Outcome Unit Unit := .abrupt ()
  [.present (face twoCalls), .present (face s), .pick 1 0 (face s), .present (face (call 2 (ident 3 "g") [])), .answer o, .got o,
    .answer o, .got o, .answer o] ++ [.answer (.normal none)]

theorem twoCalls_exec : Exec (fun _ => true) twoCalls twoCallsTrace (.abrupt ()) (.normal none) := by
  refine ⟨_, _, _, _, rfl, .block rfl (.stop rfl (.node rfl (.pick rfl rfl (.node rfl (.answer ?_)) ?_ (.answer ?_))) rfl) ?_
    (.answer ?_), .answer ?_⟩ <;> nofun

/-- The later statement falls behind: if `g` throws, the counts are 1 and 0. -/
theorem C68_behind : ∃ p' cov id id', run plain twoCalls = .ok (p', cov) ∧
    (Tables.report cov.inner).statement id (plain.range (at' 1)) ∧ (Tables.report cov.inner).statement id' (plain.range (at' 5)) ∧
    NeverAhead p' (.s id) (.s id') ∧ ∃ tr' : List (Ev Unit Unit), Exec (fun _ => true) p' tr' (.abrupt ()) (.normal none) ∧
      counted (.s id) tr' = 1 ∧ counted (.s id') tr' = 0 := by
  have h : yields (run plain twoCalls) (fun _ fc => fc.statementMap.all fun e => fc.statementMap.all fun e' => e.2 != e'.2 || e.1 == e'.1)
      = true := by decide +kernel
  obtain ⟨p', cov, h1, h2⟩ := of_yields h
  have same : ∀ {i j l}, (Tables.report cov.inner).statement i l → (Tables.report cov.inner).statement j l → i = j := by
    intro i j l hi hj
    have h3 := List.all_eq_true.1 (List.all_eq_true.1 h2 _ (IndexMap.mem_of_get hi.1)) _ (IndexMap.mem_of_get hj.1)
    simpa using h3
  have hp : Clean twoCalls := by unfold Clean; decide +kernel
  obtain ⟨tr', h4, h5⟩ := (C21_partial hp (by decide +kernel) (by decide +kernel) h1 _ _ _).1 twoCalls_exec
  obtain ⟨id, g1, g2⟩ := C22_items_partial hp (by decide +kernel) (.inl rfl) h1 (expr 1 (call 2 (ident 3 "g") []))
    (List.mem_filter.2 ⟨List.mem_cons_self .., by decide +kernel⟩) (by decide +kernel) (at' 1) (by decide +kernel)
  obtain ⟨id', g3, g4⟩ := C22_items_partial hp (by decide +kernel) (.inl rfl) h1 (expr 5 (call 6 (ident 7 "h") []))
    (List.mem_filter.2 ⟨List.mem_cons_of_mem _ (List.mem_cons_self ..), by decide +kernel⟩) (by decide +kernel) (at' 5)
    (by decide +kernel)
  obtain ⟨i, i', g5, g6, g7⟩ := C68_items_partial hp (by decide +kernel) (.inl rfl) h1 [] [] [] (expr 1 (call 2 (ident 3 "g") []))
    (expr 5 (call 6 (ident 7 "h") [])) rfl (by decide +kernel) (by decide +kernel) (by decide +kernel) (at' 1) (at' 5)
    (by decide +kernel) (by decide +kernel)
  cases same g1 g5
  cases same g3 g6
  refine ⟨p', cov, id, id', h1, g1, g3, g7, tr', h5, ?_, ?_⟩
  · obtain ⟨ε, h6, h7⟩ := g2 _ _ _ _ _ _ h5
    cases Nat.le_zero.1 h6
    rw [h7, h4]
    decide +kernel
  · obtain ⟨ε, h6, h7⟩ := g4 _ _ _ _ _ _ h5
    cases Nat.le_zero.1 h6
    rw [h7, h4]
    decide +kernel

/-- `if (a) { g(); h(); } else k();` -/
def layeredIf : Node := mk .ifStmt (at' 10) [ident 11 "a",
  block 12 [expr 13 (call 14 (ident 15 "g") []), expr 16 (call 17 (ident 18 "h") [])], expr 20 (call 21 (ident 22 "k") [])]

/-- `case c: g(); h();` -/
def layeredCase : Node :=
  mk .switchCase (at' 32) [ident 33 "c", expr 34 (call 35 (ident 36 "g") []), expr 38 (call 39 (ident 40 "h") [])]

/-- `function f() { if (a) { g(); h(); } else k(); switch (b) { case c: g(); h(); } }` -/
def layered : Node := Build.module [fnDecl 1 "f" [] [layeredIf, mk .switchStmt (at' 30) [ident 31 "b", layeredCase]]]

/-- What the theorems say about it. -/
example (p' : Node) (cov : SourceCoverage) (hr : run plain layered = .ok (p', cov)) :
    (∃ fid id, cov.inner.f.get fid = some 0 ∧ cov.inner.s.get id = some 0 ∧
      cov.inner.statementMap.get id = some (plain.range (at' 10)) ∧ InStep p' (.f fid) (.s id)) ∧
    (∃ b i id, HasBranch plain (.report cov.inner) b .if (at' 10) ∧ cov.inner.statementMap.get id = some (plain.range (at' 16)) ∧
      NeverAhead p' (.b b i) (.s id)) ∧
    (∃ b i id, HasBranch plain (.report cov.inner) b .switch (at' 30) ∧ HasArm plain (.report cov.inner) b i (at' 32) ∧
      cov.inner.statementMap.get id = some (plain.range (at' 34)) ∧ InStep p' (.b b i) (.s id)) ∧
    (∃ id id', cov.inner.statementMap.get id = some (plain.range (at' 13)) ∧
      cov.inner.statementMap.get id' = some (plain.range (at' 16)) ∧ NeverAhead p' (.s id) (.s id')) := by
  have hp : Clean layered := by unfold Clean; decide +kernel
  have reached : ∀ is x, follow plain (fnDecl 1 "f" [] [layeredIf, mk .switchStmt (at' 30) [ident 31 "b", layeredCase]]) is = some x →
      InProgram plain layered x := fun is x h => ⟨_, List.mem_filter.2 ⟨List.mem_cons_self .., by decide +kernel⟩, reached_follow h⟩
  refine ⟨?_, ?_, ?_, ?_⟩
  · obtain ⟨fid, id, h1, h2, -, h3⟩ := C68_functions_partial hp (by decide +kernel) (.inl rfl) hr
      _ (reached [] _ rfl) (by decide +kernel) nofun (some "f") (at' 1) (at' 1) []
      [mk .switchStmt (at' 30) [ident 31 "b", layeredCase]] layeredIf (by decide +kernel) rfl (reached [1, 2] _ rfl) (by decide +kernel)
      (by decide +kernel) (by decide +kernel) (by decide +kernel) (by decide +kernel) (at' 10) (by decide +kernel)
    exact ⟨fid, id, h1.2, h2.2, h2.1, h3 rfl⟩
  · obtain ⟨b, h1, h2⟩ := C68_if_partial hp (by decide +kernel) (.inl rfl) hr (at' 10) _ _ _ (reached [1, 2, 0] _ rfl) (by decide +kernel)
    obtain ⟨i, -, h3⟩ := h2 _ (List.mem_cons_self ..) (by decide +kernel)
    obtain ⟨id, h4, h5, -⟩ := h3 [expr 13 (call 14 (ident 15 "g") [])] (expr 16 (call 17 (ident 18 "h") [])) [] rfl (by decide +kernel)
      (by decide +kernel) (by decide +kernel) (at' 16) (by decide +kernel)
    exact ⟨b, i, id, h1, h4.1, h5⟩
  · obtain ⟨b, h1, h2⟩ := C68_cases_partial hp (by decide +kernel) (.inl rfl) hr (at' 30) _ (reached [1, 2, 1] _ rfl) (by decide +kernel)
    obtain ⟨i, id, h3, h4, -, h5⟩ := h2 (at' 32) _ [] _ _ (List.mem_cons_of_mem _ (List.mem_cons_self ..)) (by decide +kernel)
      (by decide +kernel) (reached [1, 2, 1, 1] _ rfl) (by decide +kernel) (by decide +kernel) (by decide +kernel) (at' 34) (by decide +kernel)
    exact ⟨b, i, id, h1, h3, h4.1, h5 rfl⟩
  · obtain ⟨id, id', h1, h2, h3⟩ := C68_statements_partial hp (by decide +kernel) (.inl rfl) hr layeredIf (reached [1, 2, 0] _ rfl)
      (by decide +kernel) [] [] [] (expr 13 (call 14 (ident 15 "g") [])) (expr 16 (call 17 (ident 18 "h") []))
      (List.mem_append_left _ (List.mem_singleton.2 rfl)) (by decide +kernel) (by decide +kernel) (by decide +kernel) (by decide +kernel)
      (at' 13) (at' 16) (by decide +kernel) (by decide +kernel)
    exact ⟨id, id', h1.1, h2.1, h3⟩

example : ∃ p' cov, run plain layered = .ok (p', cov) := by
  have h : yields (run plain layered) (fun _ _ => true) = true := by decide +kernel
  obtain ⟨p', cov, h, -⟩ := of_yields h
  exact ⟨p', cov, h⟩

/-- The body of an arrow function that is an expression has the count of the function. -/
example (p' : Node) (cov : SourceCoverage) (hr : run plain (Build.module [expr 1 (arrow 2 (ident 3 "a"))]) = .ok (p', cov)) :
    ∃ fid id, cov.inner.f.get fid = some 0 ∧ cov.inner.statementMap.get id = some (plain.range (at' 3)) ∧
      InStep p' (.f fid) (.s id) := by
  obtain ⟨fid, id, h1, h2, -, h3⟩ := C68_arrows_partial (by unfold Clean; decide +kernel) (by decide +kernel) (.inl rfl) hr "" (at' 2)
    (mk .list Span.dummy []) (ident 3 "a")
    ⟨_, List.mem_filter.2 ⟨List.mem_cons_self .., by decide +kernel⟩, reached_follow (is := [0]) rfl⟩ (by decide +kernel) [] []
    (mk .returnStmt (at' 3) [ident 3 "a"]) rfl (by decide +kernel) (by decide +kernel) (by decide +kernel) (at' 3) (by decide +kernel)
  exact ⟨fid, id, h1.2, h2.1, h3 rfl⟩

end Verif
