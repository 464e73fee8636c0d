import Verif.Lemmas.Kept
/-
Continuation of `Lemmas/Covers.lean`: nodes.
-/
namespace Verif
open Node RegOp

namespace Cover
open Visitor
variable {cx : Ctx} {fi : File} {go : Mode → Node → M Node}

/-- What is to be shown of a visit. -/
structure Core (cx : Ctx) (m : Mode) (h : List RegOp) (n n' : Node) (o : List Node) : Prop where
  loc : Local cx h n n'
  under : Under cx h n n'
  case : CaseOk cx m h n n'
  dues : ∀ sp ∈ dues cx n, Due cx h o sp

/-- Constructs with counters of their own, by kind and number of children. -/
def special (k : Kind) (len : Nat) : Bool :=
  match k, len with
  | .block, _ | .switchCase, _ + 1 | .arrow _, 2 | .ifStmt, 3 | .withStmt, 2 | .varDeclarator, 2 | .classProp, 3
  | .privateProp, 3 | .fnDecl, 2 | .fnExpr, 2 | .classMethod, 2 | .methodProp, 2 | .getterProp, 2 | .setterProp, 4
  | .cond, 3 | .switchStmt, _ | .assignPat, 2 | .bin _, 2 | .loop _, _ => true
  | _, _ => false

section
variable {k : Kind} {sp : Span} {cs : List Node} (hs : special k cs.length = false)
include hs

theorem lists_plain : lists cx (mk k sp cs) = [] := by
  unfold lists
  split <;> first | rfl | (next e => cases e; simp [special] at hs)

theorem initOf_plain : initOf (mk k sp cs) = none := by
  unfold initOf
  split <;> first | rfl | (next e => cases e; simp [special] at hs)

theorem bodyOf_plain : bodyOf (mk k sp cs) = none := by
  unfold bodyOf
  split <;> first | rfl | (next e => cases e; simp [special] at hs)

theorem branches_plain (h : List RegOp) (n' : Node) : BranchesCounted cx h (mk k sp cs) n' := by
  intro _
  split <;> first | trivial | (next e => cases e; simp [special] at hs)

theorem heads_plain : ∀ c ∈ heads cx (mk k sp cs), c ∈ cs := by
  unfold heads
  split <;> first
    | (next e => cases e; intro c hc; exact hc)
    | (next e => cases e; intro c hc; cases hc)
    | (next e => cases e; simp [special] at hs)

theorem case_plain (m : Mode) (h : List RegOp) (n' : Node) : CaseOk cx m h (mk k sp cs) n' := by
  intro b csp test ss _ e
  cases e; simp [special] at hs

end

theorem _root_.Verif.Local.mk' {h : List RegOp} {n n' : Node} (h1 : ListsCounted cx h n n') (h2 : initOf n = none)
    (h3 : bodyOf n = none) (h4 : BranchesCounted cx h n n') : Local cx h n n' :=
  ⟨h1, fun _ i hi => by rw [h2] at hi; (cases hi), fun _ _ _ b _ hb => by rw [h3] at hb; (cases hb), h4⟩

theorem noLists {h : List RegOp} {n n' : Node} (h1 : lists cx n = []) (h2 : lists cx n' = []) : ListsCounted cx h n n' := by
  intro _
  rw [h1, h2]; exact .nil

theorem _root_.Verif.Local.plain {k : Kind} {sp : Span} {cs cs' : List Node} (hs : special k cs.length = false)
    (hl : cs'.length = cs.length) (h : List RegOp) : Local cx h (mk k sp cs) (mk k sp cs') :=
  .mk' (noLists (lists_plain hs) (lists_plain (by rw [hl]; exact hs))) (initOf_plain hs) (bodyOf_plain hs)
    (branches_plain hs h _)

theorem _root_.Verif.Local.ignored {h : List RegOp} {n n' : Node} (hi : cx.ignores n = true) : Local cx h n n' :=
  ⟨fun h => by (rw [hi] at h; cases h), fun h => by (rw [hi] at h; cases h), fun h => by (rw [hi] at h; cases h),
    fun h => by (rw [hi] at h; cases h)⟩

theorem ignores_hint {n : Node} (hi : cx.ignores n = true) : cx.hint n.span = some .next := by
  unfold Ctx.ignores Ctx.hinted at hi
  simp only [Bool.and_eq_true, decide_eq_true_eq] at hi
  exact hi.2

theorem dues_hinted {n : Node} (hh : cx.hint n.span = some .next) : dues cx n = [] := by
  obtain ⟨k, sp, cs⟩ := n
  simp only [Node.span] at hh
  unfold dues; rw [if_pos hh]

theorem Core.ignored {m : Mode} {h : List RegOp} {n n' : Node} {o : List Node} (hi : cx.ignores n = true) :
    Core cx m h n n' o := by
  have hh := ignores_hint hi
  refine ⟨.ignored hi, ?_, ?_, ?_⟩
  · intro c hc
    unfold opened at hc
    rw [hi] at hc; cases hc
  · rintro b csp test ss _ rfl hn
    exact absurd hh hn
  · rw [dues_hinted hh]
    intro _ hx; cases hx

theorem forall₂_mem {R : α → β → Prop} {as : List α} {bs : List β} (hf : List.Forall₂ R as bs) {a : α} (ha : a ∈ as) :
    ∃ b ∈ bs, R a b := by
  induction hf with
  | nil => cases ha
  | cons hr _ ih =>
    rcases List.mem_cons.1 ha with rfl | ha
    · exact ⟨_, by simp, hr⟩
    · obtain ⟨b, hb, h⟩ := ih ha
      exact ⟨b, by simp [hb], h⟩

theorem opened_sub {n c : Node} (hc : c ∈ opened cx n) :
    c ∈ heads cx n ∨ ∃ l ∈ lists cx n, c ∈ ownStmts cx l := by
  unfold opened at hc
  split at hc
  · cases hc
  · rcases List.mem_append.1 hc with hc | hc
    · exact .inl hc
    · exact .inr (List.mem_flatMap.1 hc)

theorem Part.under {m : Mode} {h : List RegOp} {k : Kind} {sp : Span} {cs cs' : List Node}
    (hp : List.Forall₂ (Part cx m h) cs cs') {c : Node} (hc : c ∈ cs) :
    ∃ c', (∀ x ∈ each c', x ∈ each (mk k sp cs')) ∧ Covered cx h c c' := by
  obtain ⟨c', h1, h2⟩ := forall₂_mem hp hc
  exact ⟨c', mem_each_child h1, h2.covered⟩

theorem core_plain {m : Mode} {h : List RegOp} {k : Kind} {sp : Span} {cs cs' o : List Node}
    (hs : special k cs.length = false) (hp : List.Forall₂ (Part cx m h) cs cs')
    (hd : ∀ x ∈ dues cx (mk k sp cs), Due cx h o x) : Core cx m h (mk k sp cs) (mk k sp cs') o := by
  refine ⟨.plain hs hp.length_eq.symm h, ?_, case_plain hs m h _, hd⟩
  intro c hc
  rcases opened_sub hc with hc | ⟨l, hl, _⟩
  · exact Part.under hp (heads_plain hs c hc)
  · rw [lists_plain hs] at hl; cases hl

theorem single_of_plain {k : Kind} {sp : Span} {cs : List Node} (hs : special k cs.length = false) :
    single (mk k sp cs) = true := by
  unfold single
  split <;> first | rfl | (next e => cases e; simp [special] at hs)

/-- A node without counters of its own. -/
theorem plain (hgo : Go cx fi go) {m : Mode} (hm : normal m = true) {k : Kind} {sp : Span} {cs : List Node}
    (hs : special k cs.length = false) (hd : ∀ x ∈ dues cx (mk k sp cs), x ∈ duesList cx cs) (h : List RegOp)
    (hok : m.ok cx h) :
    Gets fi (Visitor.visitChildren cx go m (mk k sp cs)) h fun n' h' o => Core cx m h' (mk k sp cs) n' o := by
  refine .conseq (visitChildren hgo hm k sp cs (single_of_plain hs) h hok) ?_
  rintro _ h' o _ ⟨cs', rfl, hp⟩
  exact core_plain hs hp.parts fun x hx => hp.dues x (hd x hx)

/-- A statement without other counters. -/
theorem marked (hgo : Go cx fi go) {m : Mode} (hm : normal m = true) {k : Kind} {sp : Span} {cs : List Node}
    (hs : special k cs.length = false)
    (hd : ∀ x ∈ dues cx (mk k sp cs), x = sp ∨ x ∈ duesList cx cs) (h : List RegOp)
    (hok : m.ok cx h) :
    Gets fi (do mark cx sp; Visitor.visitChildren cx go m (mk k sp cs)) h
      fun n' h' o => Core cx m h' (mk k sp cs) n' o := by
  refine .bind (.mark sp) ?_
  intro _ h1 o1 hp1 hdue
  refine .conseq (visitChildren hgo hm k sp cs (single_of_plain hs) h1 (hok.mono hp1)) ?_
  rintro _ h' o hp ⟨cs', rfl, hps⟩
  refine core_plain hs hps.parts fun x hx => ?_
  rcases hd x hx with rfl | hx
  · exact hdue.mono hp (by simp; grind)
  · exact (hps.dues x hx).mono (List.prefix_refl _) (by simp; grind)

/-! ### Statement lists -/

theorem block (hgo : Go cx fi go) {m : Mode} (sp : Span) (ss : List Node) (h : List RegOp) :
    Gets fi (Visitor.visitChildren cx go m (mk .block sp ss)) h
      fun n' h' o => Core cx m h' (mk .block sp ss) n' o := by
  refine .bind (visitStmts hgo ss h) ?_
  rintro ss' h1 o1 _ ⟨rfl, hl⟩
  refine .pure ⟨.mk' ?_ rfl rfl (fun _ => trivial), ?_, ?_, ?_⟩
  · exact fun _ => .cons hl.leads .nil
  · intro c hc
    rcases opened_sub hc with hc | ⟨l, hl', hc⟩
    · cases hc
    · cases List.mem_singleton.1 hl'
      obtain ⟨c', h2, h3⟩ := hl.covered c hc
      exact ⟨c', mem_each_child h2, h3⟩
  · intro b csp test ss _ e; cases e
  · intro x hx
    unfold dues at hx
    split at hx <;> cases hx

/-! ### Functions -/

theorem strip_counter_block (sp : Span) (c : Counter) (ss : List Node) :
    strip (mk .block sp (counterStmt c :: ss)) = strip (mk .block sp ss) := by
  rw [Sem.strip_block, Sem.strip_block]
  rfl

theorem Leads.counter {h : List RegOp} {c : Counter} {ss ss' : List Node} :
    Leads cx h (counterStmt c :: ss) ss' ↔ Leads cx h ss ss' := by
  have : ownStmts cx (counterStmt c :: ss) = ownStmts cx ss := rfl
  unfold Leads
  rw [this]

/-- Adding a counter to a block beforehand makes no difference. -/
theorem covered_block {h : List RegOp} {sp : Span} {c : Counter} {ss : List Node} {n' : Node}
    (hc : Covered cx h (mk .block sp (counterStmt c :: ss)) n') : Covered cx h (mk .block sp ss) n' := by
  intro x hx
  rcases reached_iff.1 hx with rfl | ⟨d, hd, hr⟩
  · obtain ⟨x', h1, h2, h3⟩ := hc _ .here
    refine ⟨x', h1, by rw [h2, strip_counter_block], .mk' ?_ rfl rfl fun _ => trivial⟩
    intro hi
    have := h3.lists hi
    have h4 : lists cx (mk .block sp (counterStmt c :: ss)) = [counterStmt c :: ss] := rfl
    have h5 : lists cx (mk .block sp ss) = [ss] := rfl
    rw [h4] at this
    rw [h5]
    obtain ⟨l, ls, h6, h7, h8⟩ := List.forall₂_cons_left_iff.1 this
    rw [h8]
    exact .cons (Leads.counter.1 h6) h7
  · exact hc x (reached_iff.2 (.inr ⟨d, hd, hr⟩))

theorem covered_fn {h : List RegOp} {a : String} {fsp bsp : Span} {params decorators : Node} {c : Counter}
    {ss : List Node} {n' : Node} (hs : strip n' = strip (mk (.function a) fsp [params, decorators, mk .block bsp (counterStmt c :: ss)]))
    (hlen : ∃ cs', n' = mk (.function a) fsp cs' ∧ cs'.length = 3)
    (hc : Covered cx h (mk (.function a) fsp [params, decorators, mk .block bsp (counterStmt c :: ss)]) n') :
    Covered cx h (mk (.function a) fsp [params, decorators, mk .block bsp ss]) n' := by
  intro x hx
  rcases reached_iff.1 hx with rfl | ⟨d, hd, hr⟩
  · obtain ⟨cs', rfl, hl⟩ := hlen
    refine ⟨_, each_self _, ?_, .plain (by rfl) hl h⟩
    rw [hs, strip_mk, strip_mk]
    simp only [List.map_cons, List.map_nil, strip_counter_block]
  · have hd' : d = params ∨ d = decorators ∨ d = mk .block bsp ss := by
      rcases opened_sub hd with hd | ⟨l, hl, _⟩
      · simpa [heads] using hd
      · cases hl
    have hopen : ∀ b, opened cx (mk (.function a) fsp [params, decorators, b]) = [params, decorators, b] := by
      intro b
      simp [opened, Ctx.ignores, hintable, Node.kind, heads, lists]
    rcases hd' with rfl | rfl | rfl
    · exact hc x (reached_iff.2 (.inr ⟨_, by simp [hopen], hr⟩))
    · exact hc x (reached_iff.2 (.inr ⟨_, by simp [hopen], hr⟩))
    · have : Covered cx h (mk .block bsp (counterStmt c :: ss)) n' := by
        intro y hy
        exact hc y (reached_iff.2 (.inr ⟨_, by simp [hopen], hy⟩))
      exact covered_block this x hr

/-- What `createFn` makes of a function. -/
theorem createFn (ident : Option (Span × String)) (fn : Node) (h : List RegOp) :
    Gets fi (createFn cx ident fn) h fun fn1 h' o => o = [] ∧
      ((fn1 = fn ∧ ∀ a fsp p d b, fn ≠ mk (.function a) fsp [p, d, b]) ∨
       ∃ a fsp params decorators bsp ss id, fn = mk (.function a) fsp [params, decorators, mk .block bsp ss] ∧
        fn1 = mk (.function a) fsp [params, decorators, mk .block bsp (counterStmt (.f id) :: ss)] ∧
        (functions h')[id]? = some (ident.map (·.2), cx.range ((ident.map (·.1)).getD fsp), cx.range bsp)) := by
  unfold Visitor.createFn
  split
  · next a fsp params decorators body =>
    refine .bind (.newFunction _ _ _) ?_
    rintro id h1 o1 _ ⟨hf, rfl⟩
    unfold Visitor.prependFn
    split
    · next bsp ss =>
      have hn : (mk .block bsp ss).isNone = false := rfl
      rw [hn] at hf
      exact .pure ⟨rfl, .inr ⟨_, _, _, _, _, _, id, rfl, rfl, by simpa [Node.span] using hf⟩⟩
    · intro st r st' _ _ hx
      cases hx
  · next hne =>
    exact .pure ⟨rfl, .inl ⟨rfl, fun a fsp p d b e => hne a fsp p d b e⟩⟩

/-- Kinds of nodes with a `Function`. -/
def hasFn : Kind → Bool
  | .fnDecl | .fnExpr | .classMethod | .methodProp => true
  | _ => false

theorem hasFn_body {k : Kind} (hk : hasFn k = true) {sp : Span} {first fn body : Node} :
    bodyOf (mk k sp [first, fn]) = some body ↔ ∃ a fsp p d, fn = mk (.function a) fsp [p, d, body] := by
  cases k <;> cases hk
  all_goals
    constructor
    · intro h
      unfold bodyOf at h
      split at h <;> cases h
      all_goals
        rename_i e
        cases e
        try exact ⟨_, _, _, _, rfl⟩
    · rintro ⟨a, fsp, p, d, rfl⟩
      rfl

theorem withFn (hgo : Go cx fi go) {m : Mode} (hm : normal m = true) {k : Kind} (hk : hasFn k = true)
    (sp : Span) (first fn : Node) (ident : Option (Span × String))
    (hh : ∀ a fsp p d b name decl, fn = mk (.function a) fsp [p, d, b] → fnHead cx (mk k sp [first, fn]) = some (name, decl) →
      name = ident.map (·.2) ∧ decl = (ident.map (·.1)).getD fsp) (h : List RegOp) (hok : m.ok cx h) :
    Gets fi (do
        let fn ← Visitor.createFn cx ident fn
        Visitor.visitChildren cx go m (mk k sp [first, fn])) h
      fun n' h' o => Core cx m h' (mk k sp [first, fn]) n' o := by
  have hsingle : ∀ cs, single (mk k sp cs) = true := by
    intro cs; cases k <;> first | rfl | cases hk
  refine .bind (createFn ident fn h) ?_
  rintro fn1 h1 o1 hp1 ⟨rfl, hfn⟩
  refine .conseq (visitChildren hgo hm k sp [first, fn1] (hsingle _) h1 (hok.mono hp1)) ?_
  rintro _ h2 o2 hp2 ⟨cs', rfl, hp⟩
  obtain ⟨first', _, p1, hr, rfl⟩ := List.forall₂_cons_left_iff.1 hp.parts
  obtain ⟨fn', _, p2, hr', rfl⟩ := List.forall₂_cons_left_iff.1 hr
  cases List.forall₂_nil_left_iff.1 hr'
  have hcov : Covered cx h2 fn fn' := by
    rcases hfn with ⟨rfl, _⟩ | ⟨a, fsp, params, decorators, bsp, ss, id, rfl, rfl, _⟩
    · exact p2.covered
    · obtain ⟨p', d', b', e, _⟩ := p2.kept.fn _ _ _ _ _ rfl
      exact covered_fn p2.strip ⟨_, e, rfl⟩ p2.covered
  refine ⟨⟨noLists ?_ ?_, ?_, ?_, ?_⟩, ?_, ?_, ?_⟩
  · cases k <;> first | rfl | cases hk
  · cases k <;> first | rfl | cases hk
  · intro _ i hi
    cases k <;> first | (cases hk; done) | cases hi
  · intro _ name decl body h3 h4 h5
    obtain ⟨a, fsp, p, d, rfl⟩ := (hasFn_body hk).1 h4
    obtain ⟨rfl, rfl⟩ := hh a fsp p d body name decl rfl h3
    rcases hfn with ⟨_, hne⟩ | ⟨a', fsp', params, decorators, bsp, ss, id, e1, rfl, hf⟩
    · exact absurd rfl (hne _ _ _ _ _)
    · cases e1
      obtain ⟨p', d', b', rfl, hb⟩ := p2.kept.fn _ _ _ _ _ rfl
      obtain ⟨ss', rfl⟩ := hb _ _ _ rfl
      exact ⟨id, bsp, ss', (hasFn_body hk).2 ⟨_, _, _, _, rfl⟩, functions_prefix hp2 hf⟩
  · intro _
    cases k <;> first | (cases hk; done) | trivial
  · intro c hc
    have hc' : c = first ∨ c = fn := by
      rcases opened_sub hc with hc | ⟨l, hl, _⟩
      · have : ∀ d ∈ heads cx (mk k sp [first, fn]), d ∈ [first, fn] := by
          cases k <;> first | (cases hk; done) | skip
          all_goals
            intro d hd
            simp only [heads] at hd
            first
              | exact hd
              | (split at hd <;> first | cases hd; done | exact hd)
        simpa using this c hc
      · exfalso
        cases k <;> first | (cases hk; done) | cases hl
    rcases hc' with rfl | rfl
    · exact ⟨first', mem_each_child (by simp), p1.covered⟩
    · exact ⟨fn', mem_each_child (by simp), hcov⟩
  · intro b csp test ss _ e
    cases e; cases hk
  · intro x hx
    cases k <;> first | (cases hk; done) | skip
    all_goals
      unfold dues at hx
      split at hx <;> cases hx

end Cover
end Verif
