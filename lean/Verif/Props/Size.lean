import Verif.Lemmas.Size
import Verif.Props.Once
/-
C56: reports and instrumented programs are not much larger than programs.
-/
namespace Verif
open Node Visitor Build

section
variable {cx : Ctx} {fuel : Nat} {path : String} {sm : Option SourceMap} {p p' : Node} {cov : SourceCoverage}

/-- C56 for reports: there are at most four entries for each node of the program. Missing are programs in which an initialiser is a tagged
template (`C56_exponential_fails`). -/
theorem C56_report_partial (hp : PlainInits p) (hr : instrument cx fuel path sm p = .ok (p', cov)) :
    cov.inner.entries ≤ 4 * p.size := by
  refine Nat.le_trans ?_ (Nat.le_trans (Costs.instrument (mt := .entries) hp hr) (Meter.weight_entries cx p))
  simp only [FileCoverage.entries, Meter.entries]
  have h1 : ∀ m : List (Nat × Branch), (∀ e ∈ m, e.2.branchType = .if → e.2.locations.length ≤ 2) →
      m.length + (m.map fun e => e.2.locations.length).sum ≤ (m.map fun e => Meter.branchSize e.2).sum := by
    intro m hm
    induction m with
    | nil => simp
    | cons e m ih =>
      have := ih fun x hx => hm x (List.mem_cons_of_mem _ hx)
      have h2 : e.2.locations.length + 1 ≤ Meter.branchSize e.2 := by
        unfold Meter.branchSize
        split
        · next ht => have := hm e (List.mem_cons_self ..) ht; omega
        · omega
      simp only [List.map_cons, List.sum_cons, List.length_cons]
      omega
  have := h1 cov.inner.branchMap fun e he ht => by
    obtain ⟨sp, -, -, hl⟩ := instrument_ifs hr he ht
    rw [hl, List.length_replicate]
    unfold ifArms
    split <;> omega
  omega

/-- C56 for programs: the emitted program has at most three nodes for each node of the program, 48 for each entry of the report, and the
two that stand for the coverage function. -/
theorem C56_program (hr : instrument cx fuel path sm p = .ok (p', cov)) :
    p'.size ≤ 3 * p.size + 48 * cov.inner.entries + 2 := by
  obtain ⟨n, h, o⟩ := outcome hr
  have h1 := o.steps.room_le
  have h2 := o.asked_le
  have h3 := size_le_room n
  have h4 := size_le_room p
  have h5 : p'.size ≤ n.size + 2 := by
    rcases o.result with ⟨rfl, -⟩ | ⟨ht, -⟩
    · omega
    · cases ht with
      | module sp items =>
        cases items with
        | nil => simp [insertModuleTemplates, size_mk]
        | cons i items => simp [insertModuleTemplates, size_mk]; omega
      | script sp items => simp [size_mk]; omega
  simp only [List.length_nil, RegOp.asked, List.countP_nil, Counter.nodes] at h1 h2
  omega

/-- C56: the emitted program is at most as large as a constant times the program. -/
theorem C56_linear_partial (hp : PlainInits p) (hr : instrument cx fuel path sm p = .ok (p', cov)) :
    p'.size ≤ 195 * p.size + 2 := by
  have h1 := C56_report_partial hp hr
  have h2 := C56_program hr
  omega

end

/-- For `handful` the bounds are not reached. -/
example : ∃ p' cov, run plain handful = .ok (p', cov) ∧ PlainInits handful ∧ 0 < cov.inner.entries ∧
    cov.inner.entries ≤ 4 * handful.size ∧ handful.size < p'.size := by
  have h : yields (run plain handful) (fun p' r => decide (0 < r.entries ∧ r.entries ≤ 4 * handful.size ∧
      handful.size < p'.size)) = true := by decide +kernel
  obtain ⟨p', cov, h1, h2⟩ := of_yields h
  have h2 := of_decide_eq_true h2
  exact ⟨p', cov, h1, by unfold PlainInits; decide +kernel, h2⟩

/-! ### Failure -/

/-- ``t`${class { x = t`...` }}` ``, nested `n` times. -/
def nest : Nat → Node
  | 0 => tagged 2 (ident 2 "t") []
  | n + 1 => tagged (n + 3) (ident (n + 3) "t") [mk .classExpr (at' (n + 3)) [absent, mk (.other .misc "Class") (at' (n + 3))
      [mk .classProp (at' (n + 3)) [mk (.propIdent "x") (at' (n + 3)) [], nest n, mk .list Span.dummy []]]]]

/-- `const y = ` such a template. -/
def nested (n : Nat) : Node := Build.module [decl 1 .const "y" (nest n)]

namespace Nest

/-- The state after a counter has been asked for. -/
def ask (sp : Span) (st : St) : St :=
  { st with
    cov := (st.cov.newStatement (plain.range sp)).1
    before := st.before ++ [counterStmt (.s (st.cov.newStatement (plain.range sp)).2)] }

/-- The state after some counters have been asked for. -/
def asked : List Span → St → St
  | [], st => st
  | sp :: l, st => asked l (ask sp st)

theorem asked_append (l l' : List Span) (st : St) : asked (l ++ l') st = asked l' (asked l st) := by
  induction l generalizing st with
  | nil => rfl
  | cons sp l ih => exact ih _

theorem asked_ignore (l : List Span) (st : St) : (asked l st).ignore = st.ignore := by
  induction l generalizing st with
  | nil => rfl
  | cons sp l ih => exact ih _

theorem asked_nodes (l : List Span) (st : St) : (asked l st).nodes = st.nodes := by
  induction l generalizing st with
  | nil => rfl
  | cons sp l ih => exact ih _

theorem asked_stack (l : List Span) (st : St) (ts : List Tag) :
    asked l { st with nodes := ts } = { asked l st with nodes := ts } := by
  induction l generalizing st with
  | nil => rfl
  | cons sp l ih => exact ih (ask sp st)

theorem asked_lastS (l : List Span) (st : St) : (asked l st).cov.lastS = st.cov.lastS + l.length := by
  induction l generalizing st with
  | nil => rfl
  | cons sp l ih =>
    have h1 := ih (ask sp st)
    have h2 : (ask sp st).cov.lastS = st.cov.lastS + 1 := rfl
    rw [asked, h1, h2, List.length_cons]
    omega

theorem asked_before (l : List Span) (st : St) : (asked l st).before.length = st.before.length + l.length := by
  induction l generalizing st with
  | nil => rfl
  | cons sp l ih =>
    have h1 := ih (ask sp st)
    have h2 : (ask sp st).before.length = st.before.length + 1 := by simp [ask]
    rw [asked, h1, h2, List.length_cons]
    omega

/-- `x` returns `a` and asks for counters at `l`. -/
def Asks (x : M α) (a : α) (l : List Span) : Prop := ∀ st, st.ignore = none → x st = .ok (a, asked l st)

theorem Asks.pure (a : α) : Asks (Pure.pure a : M α) a [] := fun _ _ => rfl

theorem Asks.bind {x : M α} {f : α → M β} {a : α} {b : β} {l l' : List Span} (hx : Asks x a l) (hf : Asks (f a) b l') :
    Asks (x >>= f) b (l ++ l') := by
  intro st hs
  have h1 := hx st hs
  have h2 := hf (asked l st) (by rw [asked_ignore, hs])
  simp only [Bind.bind, M.bind, h1, h2, asked_append]

theorem Asks.mark (sp : Span) : Asks (mark plain sp) () [sp] := fun _ _ => rfl

theorem hint_plain (sp : Span) : plain.hint sp = none := rfl

theorem Asks.frame {t : Tag} {sp : Span} {body : Option IgnoreScope → M α} {a : α} {l : List Span} (h : Asks (body none) a l) :
    Asks (frame plain t sp body) a l := by
  intro st hs
  have h1 := h { st with nodes := t :: st.nodes } hs
  have h2 : ({ st with nodes := t :: st.nodes, ignore := none } : St) = { st with nodes := t :: st.nodes } := by rw [← hs]
  simp only [Visitor.frame, enter, push, enterSpan, Bind.bind, M.bind, hs, hint_plain, reduceCtorEq, if_false, h2, h1, exit, pop,
    Pure.pure, M.pure, asked_stack]
  have h3 : ∀ s : St, s.ignore = none → s.nodes = st.nodes → ({ s with nodes := st.nodes, ignore := none } : St) = s := by
    intro s e1 e2; rw [← e1, ← e2]
  have := h3 (asked l st) (by rw [asked_ignore, hs]) (asked_nodes ..)
  simpa using this

theorem Asks.guarded {t : Tag} {n a : Node} {body : M Node} {l : List Span} (h : Asks body a l) : Asks (guarded plain t n body) a l :=
  Asks.frame (by simpa using h)

theorem Asks.mapList_nil (f : Node → M Node) : Asks (M.mapList f []) [] [] := .pure _

theorem Asks.mapList_cons {f : Node → M Node} {c c' : Node} {cs cs' : List Node} {l l' : List Span} (h : Asks (f c) c' l)
    (h' : Asks (M.mapList f cs) cs' l') : Asks (M.mapList f (c :: cs)) (c' :: cs') (l ++ l') := by
  have := h.bind (f := fun b => do let bs ← M.mapList f cs; Pure.pure (b :: bs)) (h'.bind (.pure (c' :: cs')))
  rw [List.append_nil] at this
  exact this

/-- Where the counters for `nest n` go. -/
def spans : Nat → List Span
  | 0 => [at' 2]
  | n + 1 => at' (n + 3) :: (nest n).span :: (spans n ++ spans n)

theorem spans_length (n : Nat) : (spans n).length + 2 = 3 * 2 ^ n := by
  induction n with
  | zero => rfl
  | succ n ih => simp only [spans, List.length_cons, List.length_append, Nat.pow_succ]; omega

/-- A visit of a node that only its children matter for. -/
theorem Asks.plain_visit {F : Nat} {k : Kind} {sp : Span} {cs : List Node} {l : List Span}
    (hk : k = .classExpr ∨ ∃ c x, k = .other c x ∨ k = .list ∨ k = .none ∨ k = .ident x ∨ k = .propIdent x)
    (h : Asks (M.mapList (visit plain F .coverage) cs) cs l) : Asks (visit plain (F + 1) .coverage (mk k sp cs)) (mk k sp cs) l := by
  have h1 := h.bind (f := fun cs => Pure.pure (mk k sp cs)) (.pure (mk k sp cs))
  rw [List.append_nil] at h1
  rcases hk with rfl | ⟨c, x, rfl | rfl | rfl | rfl | rfl⟩ <;> exact h1

theorem Asks.leaf {F : Nat} {k : Kind} {sp : Span}
    (hk : k = .classExpr ∨ ∃ c x, k = .other c x ∨ k = .list ∨ k = .none ∨ k = .ident x ∨ k = .propIdent x) :
    Asks (visit plain (F + 1) .coverage (mk k sp [])) (mk k sp []) [] := plain_visit hk (.mapList_nil _)

theorem Asks.single {f : Node → M Node} {c c' : Node} {l : List Span} (h : Asks (f c) c' l) : Asks (M.mapList f [c]) [c'] l := by
  have := Asks.mapList_cons h (.mapList_nil f)
  rwa [List.append_nil] at this

theorem asks_tagged {F n : Nat} {es : List Node} {x : String} {l : List Span}
    (h : Asks (M.mapList (visit plain F .coverage) es) es l) :
    Asks (visit plain (F + 2) .coverage (tagged n (ident n x) es)) (tagged n (ident n x) es) (at' n :: l) := by
  refine Asks.guarded (n := tagged n (ident n x) es) ((Asks.mark (at' n)).bind ?_)
  have h1 : Asks (visit plain (F + 1) .coverage (ident n x)) (ident n x) [] :=
    .leaf (.inr ⟨.expr, x, .inr (.inr (.inr (.inl rfl)))⟩)
  have h2 := Asks.mapList_cons h1 (Asks.single (Asks.plain_visit (sp := at' n) (k := .other .misc "Tpl") (.inr ⟨.misc, "Tpl", .inl rfl⟩) h))
  have h3 := h2.bind (f := fun cs => Pure.pure (mk .taggedTpl (at' n) cs)) (.pure _)
  rw [List.append_nil] at h3
  exact h3

/-- Visiting `nest n` leaves it as it is, and asks for the counters at `spans n`. -/
theorem asks_nest (n F : Nat) : Asks (visit plain (5 * n + F + 3) .coverage (nest n)) (nest n) (spans n) := by
  induction n generalizing F with
  | zero => exact asks_tagged (.mapList_nil _)
  | succ n ih =>
    have e : 5 * (n + 1) + F + 3 = (5 * n + F + 3 + 1 + 1 + 1) + 2 := by omega
    rw [e]
    have hkind : (nest n).kind = .taggedTpl := by cases n <;> rfl
    have hnone : (nest n).isNone = false := by cases n <;> rfl
    have hprop : Asks (visit plain (5 * n + F + 3 + 1) .coverage (mk .classProp (at' (n + 3)) [mk (.propIdent "x") (at' (n + 3)) [],
        nest n, mk .list Span.dummy []])) (mk .classProp (at' (n + 3)) [mk (.propIdent "x") (at' (n + 3)) [], nest n,
        mk .list Span.dummy []]) ((nest n).span :: (spans n ++ spans n)) := by
      refine Asks.guarded ?_
      have h1 : Asks (keepIf (nest n).isNone (nest n) (coverStatement plain (visit plain (5 * n + F + 3)) .coverage (nest n))) (nest n)
          ((nest n).span :: spans n) := by
        simp only [keepIf, hnone, Bool.false_eq_true, if_false, coverStatement, hkind, if_true]
        exact (Asks.mark _).bind (ih F)
      have h2 := Asks.mapList_cons (f := visit plain (5 * n + F + 3) .coverage)
        (Asks.leaf (k := .propIdent "x") (sp := at' (n + 3)) (.inr ⟨.expr, "x", by simp⟩))
        (Asks.mapList_cons (ih F) (Asks.single (Asks.leaf (k := .list) (sp := Span.dummy) (.inr ⟨.expr, "x", by simp⟩))))
      have h3 := h2.bind (f := fun cs => Pure.pure (mk .classProp (at' (n + 3)) cs)) (.pure _)
      rw [List.append_nil, List.append_nil, List.nil_append] at h3
      exact h1.bind h3
    refine asks_tagged (Asks.single (.plain_visit (.inl rfl) ?_))
    exact Asks.mapList_cons (l := []) (Asks.leaf (.inr ⟨.expr, "x", by simp⟩))
      (Asks.single (.plain_visit (.inr ⟨.misc, "Class", .inl rfl⟩) (Asks.single hprop)))

/-- The same for a declaration. -/
theorem asks_decl (n : Nat) : Asks (visit plain (5 * n + 5) .coverage (decl 1 .const "y" (nest n))) (decl 1 .const "y" (nest n))
    ((nest n).span :: (spans n ++ spans n)) := by
  have hkind : (nest n).kind = .taggedTpl := by cases n <;> rfl
  have hnone : (nest n).isNone = false := by cases n <;> rfl
  have h1 : Asks (keepIf (nest n).isNone (nest n) (coverStatement plain (visit plain (5 * n + 0 + 3)) .coverage (nest n))) (nest n)
      ((nest n).span :: spans n) := by
    simp only [keepIf, hnone, Bool.false_eq_true, if_false, coverStatement, hkind, if_true]
    exact (Asks.mark _).bind (asks_nest n 0)
  have h2 := Asks.mapList_cons (f := visit plain (5 * n + 0 + 3) .coverage)
    (Asks.leaf (k := .ident "y") (sp := at' 1) (.inr ⟨.expr, "y", by simp⟩)) (Asks.single (asks_nest n 0))
  have h3 := h2.bind (f := fun cs => Pure.pure (mk .varDeclarator (at' 1) cs)) (.pure _)
  rw [List.append_nil, List.nil_append] at h3
  have h4 : Asks (visit plain (5 * n + 0 + 3 + 1) .coverage (mk .varDeclarator (at' 1) [ident 1 "y", nest n])) _ _ :=
    Asks.guarded (h1.bind h3)
  have h5 := (Asks.single (f := visit plain (5 * n + 0 + 3 + 1) .coverage) h4).bind
    (f := fun cs => Pure.pure (mk (.varDecl .const) (at' 1) cs)) (.pure _)
  rw [List.append_nil] at h5
  exact Asks.frame (t := .varDecl) (sp := at' 1) (body := fun _ => visitChildren plain (visit plain (5 * n + 4)) .coverage
    (decl 1 .const "y" (nest n))) h5

theorem run_bind {x : M α} {f : α → M β} {st st' : St} {a : α} {r : Except Panic (β × St)} (h : x st = .ok (a, st')) (h' : f a st' = r) :
    (x >>= f) st = r := by
  simp only [Bind.bind, M.bind, h]
  exact h'

/-- Instrumentation of `nested n`. -/
theorem instrument_nested (n : Nat) : ∃ (st : St) (before : List Node), instrument plain (5 * n + 5) "/f.js" none (nested n) =
      .ok (mk .module ⟨1, 1000⟩ (insertModuleTemplates (mk .covDecl Span.dummy []) (mk .covCall Span.dummy [])
        (before ++ [decl 1 .const "y" (nest n)])), st.cov.freeze) ∧
    st.cov.lastS = 1 + 2 * (spans n).length ∧ before.length = 1 + 2 * (spans n).length := by
  let st0 : St := { initial plain "/f.js" none with nodes := [.stmt, .program] }
  have h := asks_decl n st0 rfl
  generalize hl : (nest n).span :: (spans n ++ spans n) = l at h
  have hlen : l.length = 1 + 2 * (spans n).length := by rw [← hl]; simp; omega
  refine ⟨asked l st0, (asked l st0).before, ?_, ?_, ?_⟩
  · have hn : (asked l st0).nodes = [.stmt, .program] := asked_nodes ..
    have h0 : itemBody plain (5 * n + 5) (decl 1 .const "y" (nest n)) st0 = .ok (decl 1 .const "y" (nest n), asked l st0) :=
      run_bind (a := ()) (st' := st0) rfl h
    have h1 : withBefore (itemBody plain (5 * n + 5) (decl 1 .const "y" (nest n))) st0 =
        .ok ((asked l st0).before ++ [decl 1 .const "y" (nest n)], { asked l st0 with before := [] }) :=
      run_bind h0 (run_bind (a := (asked l st0).before) rfl rfl)
    have h2 : visitItem plain (5 * n + 5) (decl 1 .const "y" (nest n)) { initial plain "/f.js" none with nodes := [.program] } =
        .ok ((asked l st0).before ++ [decl 1 .const "y" (nest n)],
          { asked l st0 with before := [], nodes := (asked l st0).nodes.tail, ignore := none }) := by
      refine (run_bind (a := (none, none)) (st' := st0) rfl ?_)
      exact run_bind h1 (run_bind (a := ()) rfl rfl)
    rw [hn] at h2
    have h3 : moduleItems plain (5 * n + 5) [decl 1 .const "y" (nest n)] { initial plain "/f.js" none with nodes := [.program] } = _ :=
      run_bind (a := true) rfl (run_bind (run_bind h2 (run_bind (a := []) rfl rfl)) (run_bind (a := (_, _)) rfl (run_bind (a := ()) rfl rfl)))
    have h4 : visitProgram plain (5 * n + 5) (nested n) (initial plain "/f.js" none) = _ :=
      run_bind (a := ()) rfl (run_bind (run_bind h3 rfl) (run_bind (a := ()) rfl rfl))
    unfold instrument
    rw [h4, List.append_nil]
    rfl
  · rw [asked_lastS, hlen]; exact Nat.zero_add _
  · rw [asked_before, hlen]; exact Nat.zero_add _

theorem size_nested (n : Nat) : (nested n).size = 9 * n + 7 := by
  have h : ∀ n, (nest n).size = 9 * n + 3 := by
    intro n
    induction n with
    | zero => rfl
    | succ n ih => simp [nest, tagged, ident, absent, size_mk, ih]; omega
  simp [nested, Build.module, decl, ident, size_mk, h]
  omega

theorem clean_nested (n : Nat) : Clean (nested n) := by
  have h : ∀ n, (nest n).any Kind.injected = false := by
    intro n
    induction n with
    | zero => rfl
    | succ n ih => simp [nest, tagged, ident, absent, any_mk, ih, Kind.injected]
  simp [Clean, nested, Build.module, decl, ident, any_mk, h, Kind.injected]

end Nest

/-- C56 fails: for `const y = ` with `n + 1` tagged templates, each the value of a class field within the one around it, the report has more
than `2 ^ n` entries and the emitted program more than `2 ^ n` nodes, while the program has `9 * n + 7`: an initialiser that is a tagged
template is visited twice, and so is all that is within it, at each level. -/
theorem C56_exponential_fails (n : Nat) : ∃ p p' cov, Clean p ∧ p.size = 9 * n + 7 ∧
    (∃ fuel, instrument plain fuel "/f.js" none p = .ok (p', cov)) ∧ 2 ^ n < cov.inner.entries ∧ 2 ^ n < p'.size := by
  obtain ⟨st, before, h1, h2, h3⟩ := Nest.instrument_nested n
  have h4 := Nest.spans_length n
  have h5 : 1 ≤ 2 ^ n := Nat.one_le_two_pow
  refine ⟨_, _, _, Nest.clean_nested n, Nest.size_nested n, ⟨_, h1⟩, ?_, ?_⟩
  · have h6 : st.cov.freeze.inner.statementMap.length = st.cov.lastS := by
      have h7 : ∀ c : SourceCoverage, c.freeze.lastS = c.lastS ∧ c.freeze.inner.statementMap = c.inner.statementMap :=
        fun c => ⟨rfl, rfl⟩
      rcases Sound.instrument h1 with ⟨-, h8, -⟩ | ⟨-, -, h, cov0, -, -, hi, -, h8⟩
      · have h9 : st.cov.freeze.lastS = 0 := by rw [h8]; rfl
        rw [(h7 _).1] at h9
        omega
      · have h9 := (h7 st.cov).1
        rw [h8, (h7 cov0).1] at h9
        rw [h8, (h7 cov0).2, ← h9, hi.inner, hi.lastS]
        simp only [RegOp.report]
        exact numbered_length ..
    unfold FileCoverage.entries
    omega
  · have h6 : before.length ≤ (before.map Node.size).sum := by
      clear h1 h3
      induction before with
      | nil => simp
      | cons b bs ih =>
        have : 1 ≤ b.size := by cases b; rw [size_mk]; omega
        simp only [List.length_cons, List.map_cons, List.sum_cons]
        omega
    cases before with
    | nil => rw [List.length_nil] at h3; omega
    | cons b bs =>
      simp only [insertModuleTemplates, List.cons_append, size_mk, List.map_cons, List.sum_cons, List.map_append, List.sum_append] at h6 ⊢
      omega

/-- So there is no constant that bounds the entries per node. -/
theorem C56_unbounded_fails (k : Nat) : ∃ p p' cov, Clean p ∧ (∃ fuel, instrument plain fuel "/f.js" none p = .ok (p', cov)) ∧
    k * p.size < cov.inner.entries ∧ k * p.size < p'.size := by
  obtain ⟨p, p', cov, h1, h2, h3, h4, h5⟩ := C56_exponential_fails (2 * k + 10)
  have h6 : k * p.size ≤ 2 ^ (2 * k + 10) := by
    rw [h2, Nat.pow_add, Nat.two_mul k, Nat.pow_add]
    have h7 : k * k ≤ 2 ^ k * 2 ^ k := Nat.mul_le_mul (Nat.le_of_lt Nat.lt_two_pow_self) (Nat.le_of_lt Nat.lt_two_pow_self)
    cases k with
    | zero => simp
    | succ k =>
      refine Nat.le_trans (Nat.mul_le_mul_left _ (m := (k + 1) * 1024) (by omega)) ?_
      rw [← Nat.mul_assoc]
      exact Nat.mul_le_mul_right _ h7
  exact ⟨p, p', cov, h1, h3, by omega, by omega⟩

end Verif
