import Verif.Lemmas.Gets
import Verif.Lemmas.Each
import Verif.Lemmas.Sem
import Verif.Spec.Reached
/-
Instrumentation leaves nothing out that is reached: one lemma for each definition of `Model/Visitor.lean`.
-/
namespace Verif
open Node RegOp

theorem reached_iff {cx : Ctx} {n x : Node} :
    Reached cx n x ↔ x = n ∨ ∃ c ∈ opened cx n, Reached cx c x := by
  constructor
  · intro h
    induction h with
    | here => exact .inl rfl
    | @step m c hm hc ih =>
      rcases ih with rfl | ⟨d, hd, hr⟩
      · exact .inr ⟨c, hc, .here⟩
      · exact .inr ⟨d, hd, .step hr hc⟩
  · rintro (rfl | ⟨c, hc, hr⟩)
    · exact .here
    · induction hr with
      | here => exact .step .here hc
      | step _ hx ih => exact .step ih hx

/-- One account of the coverage data implies another. -/
structure Tables.Le (T T' : Tables) : Prop where
  statement : ∀ {id l}, T.statement id l → T'.statement id l
  function : ∀ {id x}, T.function id x → T'.function id x
  branch : ∀ {id x}, T.branch id x → T'.branch id x
  arm : ∀ {id i l}, T.arm id i l → T'.arm id i l

instance : Coe (List RegOp) Tables := ⟨Tables.of⟩

theorem Tables.Le.of {h h' : List RegOp} (hp : h <+: h') : Tables.Le h h' :=
  ⟨statements_prefix hp, functions_prefix hp, getElem?_prefix hp, arms_prefix hp⟩

/-- The counters of a node are there. -/
structure Local (cx : Ctx) (T : Tables) (m m' : Node) : Prop where
  lists : ListsCounted cx T m m'
  init : InitCounted cx T m m'
  fn : FnCounted cx T m m'
  branches : BranchesCounted cx T m m'

/-- The counters of everything reached from `n` are in `n'`. -/
def Covered (cx : Ctx) (T : Tables) (n n' : Node) : Prop :=
  ∀ x, Reached cx n x → ∃ x' ∈ each n', strip x' = strip x ∧ Local cx T x x'

/-- The same for the parts of `n`. -/
def Under (cx : Ctx) (T : Tables) (n n' : Node) : Prop :=
  ∀ c ∈ opened cx n, ∃ c', (∀ x ∈ each c', x ∈ each n') ∧ Covered cx T c c'

theorem Covered.of {cx : Ctx} {T : Tables} {n n' : Node} (hs : strip n' = strip n) (hl : Local cx T n n')
    (hu : Under cx T n n') : Covered cx T n n' := by
  intro x hx
  rcases reached_iff.1 hx with rfl | ⟨c, hc, hr⟩
  · exact ⟨n', each_self _, hs, hl⟩
  · obtain ⟨c', hs', hc'⟩ := hu c hc
    obtain ⟨x', hx', h1, h2⟩ := hc' x hr
    exact ⟨x', hs' x' hx', h1, h2⟩

/-! ### Monotony -/
section
variable {cx : Ctx} {T T' : Tables} (hp : T.Le T')
include hp

theorem Leads.le {ss ss' : List Node} (hl : Leads cx T ss ss') : Leads cx T' ss ss' := by
  intro s hs
  obtain ⟨pre, s', post, h1, h2, h3⟩ := hl s hs
  refine ⟨pre, s', post, h1, h2, fun sp hsp => ?_⟩
  obtain ⟨id, h4, h5⟩ := h3 sp hsp
  exact ⟨id, h4, hp.statement h5⟩

theorem ListsCounted.le {m m' : Node} (hl : ListsCounted cx T m m') : ListsCounted cx T' m m' :=
  fun hi => (hl hi).imp fun _ _ => Leads.le hp

theorem InitCounted.le {m m' : Node} (hl : InitCounted cx T m m') : InitCounted cx T' m m' := by
  intro hi init h1 h2
  obtain ⟨id, x, h3, h4, h5⟩ := hl hi init h1 h2
  exact ⟨id, x, h3, h4, hp.statement h5⟩

theorem FnCounted.le {m m' : Node} (hl : FnCounted cx T m m') : FnCounted cx T' m m' := by
  intro hi name decl body h1 h2 h3
  obtain ⟨id, sp, ss, h4, h5⟩ := hl hi name decl body h1 h2 h3
  exact ⟨id, sp, ss, h4, hp.function h5⟩

theorem HasBranch.le {b : Nat} {t : BranchType} {sp : Span} (hb : HasBranch cx T b t sp) : HasBranch cx T' b t sp :=
  hp.branch hb

theorem HasArm.le {b i : Nat} {sp : Span} (hb : HasArm cx T b i sp) : HasArm cx T' b i sp :=
  hp.arm hb

theorem StartsArm.le {b : Nat} {sp : Span} {n : Node} (hb : StartsArm cx T b sp n) : StartsArm cx T' b sp n := by
  obtain ⟨i, bsp, ss, h1, h2⟩ := hb
  exact ⟨i, bsp, ss, h1, h2.le hp⟩

theorem WrapsArm.le {b : Nat} {e n : Node} (hb : WrapsArm cx T b e n) : WrapsArm cx T' b e n := by
  obtain ⟨i, x, h1, h2, h3⟩ := hb
  exact ⟨i, x, h1, h2, h3.le hp⟩

theorem OperandArm.le {b : Nat} {e n : Node} (hb : OperandArm cx T b e n) : OperandArm cx T' b e n := by
  obtain ⟨i, x, h1, h2, h3⟩ := hb
  exact ⟨i, x, h1, h2, h3.le hp⟩

theorem WrapsOperand.le {b : Nat} {e n : Node} (hb : WrapsOperand cx T b e n) : WrapsOperand cx T' b e n :=
  fun h1 h2 => (hb h1 h2).le hp

theorem BranchesCounted.le {m m' : Node} (hl : BranchesCounted cx T m m') : BranchesCounted cx T' m m' := by
  intro hi
  replace hl := hl hi
  split
  · obtain ⟨b, t, c, a, h1, h2, h3, h4⟩ := hl
    exact ⟨b, t, c, a, h1, h2.le hp, fun hh => (h3 hh).le hp, fun hh => (h4 hh).le hp⟩
  · obtain ⟨b, t, c, a, h1, h2, h3, h4⟩ := hl
    exact ⟨b, t, c, a, h1, h2.le hp, fun hh => (h3 hh).le hp, fun hh => (h4 hh).le hp⟩
  · obtain ⟨b, h1, h2⟩ := hl
    refine ⟨b, h1.le hp, fun csp test ss hm hh => ?_⟩
    obtain ⟨i, t, s, h3, h4, h5⟩ := h2 csp test ss hm hh
    exact ⟨i, t, s, h3, h4, h5.le hp⟩
  · obtain ⟨b, r, h0, h1, hw, hs, h2⟩ := hl
    refine ⟨b, r, h0, h1.le hp, hw.le hp, hs, fun e he => ?_⟩
    obtain ⟨n, hn, ho⟩ := h2 e he
    exact ⟨n, hn, ho.le hp⟩
  · intro hlog
    obtain ⟨b, l, r, h0, h1, hw, hw', h2, h3⟩ := hl hlog
    refine ⟨b, l, r, h0, h1.le hp, hw.le hp, hw'.le hp, fun e he => ?_, fun e he => ?_⟩
    · obtain ⟨n, hn, ho⟩ := h2 e he
      exact ⟨n, hn, ho.le hp⟩
    · obtain ⟨n, hn, ho⟩ := h3 e he
      exact ⟨n, hn, ho.le hp⟩
  · trivial

theorem Local.le {m m' : Node} (hl : Local cx T m m') : Local cx T' m m' :=
  ⟨hl.lists.le hp, hl.init.le hp, hl.fn.le hp, hl.branches.le hp⟩

theorem Covered.le {n n' : Node} (hc : Covered cx T n n') : Covered cx T' n n' := by
  intro x hx
  obtain ⟨x', h1, h2, h3⟩ := hc x hx
  exact ⟨x', h1, h2, h3.le hp⟩

end

section
variable {cx : Ctx} {h h' : List RegOp} (hp : h <+: h')
include hp

theorem Leads.mono {ss ss' : List Node} (hl : Leads cx h ss ss') : Leads cx h' ss ss' := hl.le (.of hp)

theorem ListsCounted.mono {m m' : Node} (hl : ListsCounted cx h m m') : ListsCounted cx h' m m' := hl.le (.of hp)

theorem InitCounted.mono {m m' : Node} (hl : InitCounted cx h m m') : InitCounted cx h' m m' := hl.le (.of hp)

theorem FnCounted.mono {m m' : Node} (hl : FnCounted cx h m m') : FnCounted cx h' m m' := hl.le (.of hp)

theorem HasBranch.mono {b : Nat} {t : BranchType} {sp : Span} (hb : HasBranch cx h b t sp) : HasBranch cx h' b t sp := hb.le (.of hp)

theorem HasArm.mono {b i : Nat} {sp : Span} (hb : HasArm cx h b i sp) : HasArm cx h' b i sp := hb.le (.of hp)

theorem StartsArm.mono {b : Nat} {sp : Span} {n : Node} (hb : StartsArm cx h b sp n) : StartsArm cx h' b sp n := hb.le (.of hp)

theorem WrapsArm.mono {b : Nat} {e n : Node} (hb : WrapsArm cx h b e n) : WrapsArm cx h' b e n := hb.le (.of hp)

theorem OperandArm.mono {b : Nat} {e n : Node} (hb : OperandArm cx h b e n) : OperandArm cx h' b e n := hb.le (.of hp)

theorem WrapsOperand.mono {b : Nat} {e n : Node} (hb : WrapsOperand cx h b e n) : WrapsOperand cx h' b e n := hb.le (.of hp)

theorem BranchesCounted.mono {m m' : Node} (hl : BranchesCounted cx h m m') : BranchesCounted cx h' m m' := hl.le (.of hp)

theorem Local.mono {m m' : Node} (hl : Local cx h m m') : Local cx h' m m' := hl.le (.of hp)

theorem Covered.mono {n n' : Node} (hc : Covered cx h n n') : Covered cx h' n n' := hc.le (.of hp)

end

/-! ### What a visit achieves -/

/-- A case visited by the visitor of its `switch`. -/
def CaseOk (cx : Ctx) (m : Mode) (h : List RegOp) (n n' : Node) : Prop :=
  ∀ b csp test ss, m = .switchCase b → n = mk .switchCase csp (test :: ss) → cx.hint csp ≠ some .next →
    ∃ i test' ss', n' = mk .switchCase csp (test' :: counterStmt (.b b i) :: ss') ∧ HasArm cx h b i csp

/-- The function counter at the start of a block stays there. -/
def StaysBlock (n n' : Node) : Prop :=
  ∀ sp id ss, n = mk .block sp (counterStmt (.f id) :: ss) → ∃ ss', n' = mk .block sp (counterStmt (.f id) :: ss')

/-- Counters stay where they are. -/
structure Stays (n n' : Node) : Prop where
  block : StaysBlock n n'
  fn : ∀ a sp params decorators body, n = mk (.function a) sp [params, decorators, body] →
    ∃ params' decorators' body', n' = mk (.function a) sp [params', decorators', body'] ∧ StaysBlock body body'
  wrap : ∀ c e, n = wrapCounter c e → ∃ e', n' = wrapCounter c e'

/-- A part has been visited. -/
structure Part (cx : Ctx) (m : Mode) (h : List RegOp) (n n' : Node) : Prop where
  strip : strip n' = strip n
  kept : Stays n n'
  covered : Covered cx h n n'
  case : CaseOk cx m h n n'

/-- The operands of an expression have been wrapped. -/
def Operands (cx : Ctx) (h : List RegOp) (b : Nat) (es : List Node) (n' : Node) : Prop :=
  ∀ e ∈ es, ∃ n ∈ each n', OperandArm cx h b e n

/-- What a visit achieves. -/
def Post (cx : Ctx) (m : Mode) (n n' : Node) (h : List RegOp) (o : List Node) : Prop :=
  match m with
  | .logical b => strip n' = strip n ∧ Operands cx h b (leaves cx n) n' ∧ (Sem.isFnDef n = true → Sem.isFnDef n' = true)
  | .logicalInner b => strip n' = strip n ∧ Operands cx h b (leaves cx n) n' ∧ (Sem.isFnDef n = true → Sem.isFnDef n' = true)
  | m => Part cx m h n n' ∧ ∀ sp ∈ dues cx n, Due cx h o sp

theorem CaseOk.mono {cx : Ctx} {m : Mode} {h h' : List RegOp} (hp : h <+: h') {n n' : Node}
    (hc : CaseOk cx m h n n') : CaseOk cx m h' n n' := by
  intro b csp test ss h1 h2 h3
  obtain ⟨i, t, s, h4, h5⟩ := hc b csp test ss h1 h2 h3
  exact ⟨i, t, s, h4, h5.mono hp⟩

theorem Part.mono {cx : Ctx} {m : Mode} {h h' : List RegOp} (hp : h <+: h') {n n' : Node}
    (hc : Part cx m h n n') : Part cx m h' n n' := ⟨hc.strip, hc.kept, hc.covered.mono hp, hc.case.mono hp⟩

theorem Operands.mono {cx : Ctx} {h h' : List RegOp} (hp : h <+: h') {b : Nat} {es : List Node} {n' : Node}
    (hc : Operands cx h b es n') : Operands cx h' b es n' := by
  intro e he
  obtain ⟨n, hn, ho⟩ := hc e he
  exact ⟨n, hn, ho.mono hp⟩

theorem Operands.sub {cx : Ctx} {h : List RegOp} {b : Nat} {es : List Node} {n n' : Node}
    (hs : ∀ x ∈ each n, x ∈ each n') (hc : Operands cx h b es n) : Operands cx h b es n' := by
  intro e he
  obtain ⟨x, hx, ho⟩ := hc e he
  exact ⟨x, hs x hx, ho⟩

theorem Operands.append {cx : Ctx} {h : List RegOp} {b : Nat} {es es' : List Node} {n : Node}
    (h1 : Operands cx h b es n) (h2 : Operands cx h b es' n) : Operands cx h b (es ++ es') n := by
  intro e he
  rcases List.mem_append.1 he with he | he
  · exact h1 e he
  · exact h2 e he

theorem mem_each_child {k : Kind} {sp : Span} {cs : List Node} {c : Node} (hc : c ∈ cs) :
    ∀ x ∈ each c, x ∈ each (mk k sp cs) := fun _ hx => mem_each_mk.2 (.inr ⟨c, hc, hx⟩)

/-! ### Lists -/

namespace Cover
open Visitor
variable {cx : Ctx} {fi : File} {go : Mode → Node → M Node}

/-- What is assumed of recursive visits. -/
def Go (cx : Ctx) (fi : File) (go : Mode → Node → M Node) : Prop :=
  ∀ m n h, m.ok cx h → Gets fi (go m n) h fun n' h' o => Post cx m n n' h' o

/-- A list of statements has been visited. -/
structure Listed (cx : Ctx) (h : List RegOp) (ss ss' : List Node) : Prop where
  leads : Leads cx h ss ss'
  covered : ∀ s ∈ ownStmts cx ss, ∃ s' ∈ ss', Covered cx h s s'

theorem Listed.mono {h h' : List RegOp} (hp : h <+: h') {ss ss' : List Node} (hl : Listed cx h ss ss') :
    Listed cx h' ss ss' := by
  refine ⟨hl.leads.mono hp, fun s hs => ?_⟩
  obtain ⟨s', h1, h2⟩ := hl.covered s hs
  exact ⟨s', h1, h2.mono hp⟩

theorem Listed.nil (h : List RegOp) (ss' : List Node) : Listed cx h [] ss' :=
  ⟨fun _ hs => by simp [ownStmts] at hs, fun _ hs => by simp [ownStmts] at hs⟩

theorem ownStmts_cons (cx : Ctx) (s : Node) (ss : List Node) :
    ownStmts cx (s :: ss) = (if !isInjectedItem s && !cx.hinted s then [s] else []) ++ ownStmts cx ss := by
  unfold ownStmts
  rw [List.filter_cons]
  split <;> rfl

theorem Before.append {pre : List Node} {c : Counter} (hb : Before pre c) (l : List Node) : Before (l ++ pre) c := by
  obtain ⟨a, b, rfl, h1, h2⟩ := hb
  exact ⟨l ++ a, b, by simp, h1, h2⟩

theorem Listed.cons {h : List RegOp} {s : Node} {ss out rest : List Node} (h1 : Listed cx h [s] out)
    (h2 : Listed cx h ss rest) : Listed cx h (s :: ss) (out ++ rest) := by
  constructor
  · intro x hx
    rw [ownStmts_cons] at hx
    rcases List.mem_append.1 hx with hx | hx
    · obtain ⟨pre, s', post, h3, h4, h5⟩ := h1.leads x (by rw [ownStmts_cons]; exact List.mem_append_left _ hx)
      exact ⟨pre, s', post ++ rest, by rw [h3]; simp, h4, h5⟩
    · obtain ⟨pre, s', post, h3, h4, h5⟩ := h2.leads x hx
      refine ⟨out ++ pre, s', post, by rw [h3]; simp, h4, fun sp hsp => ?_⟩
      obtain ⟨id, h6, h7⟩ := h5 sp hsp
      exact ⟨id, Before.append h6 _, h7⟩
  · intro x hx
    rw [ownStmts_cons] at hx
    rcases List.mem_append.1 hx with hx | hx
    · obtain ⟨s', h3, h4⟩ := h1.covered x (by rw [ownStmts_cons]; exact List.mem_append_left _ hx)
      exact ⟨s', by simp [h3], h4⟩
    · obtain ⟨s', h3, h4⟩ := h2.covered x hx
      exact ⟨s', by simp [h3], h4⟩

theorem Listed.single {h : List RegOp} {s s' : Node} {before : List Node} (hs : Covered cx h s s')
    (he : strip s' = strip s) (hd : ∀ sp ∈ dues cx s, Due cx h before sp)
    (hb : ∀ c ∈ before, isInjectedItem c = true) : Listed cx h [s] (before ++ [s']) := by
  have hx : ∀ x ∈ ownStmts cx [s], x = s := fun x hx => List.mem_singleton.1 (List.mem_filter.1 hx).1
  constructor
  · intro x hx'
    cases hx x hx'
    refine ⟨before, s', [], rfl, he, fun sp hsp => ?_⟩
    obtain ⟨id, h1, h2⟩ := hd sp hsp
    exact ⟨id, ⟨[], before, rfl, hb, h1⟩, h2⟩
  · intro x hx'
    cases hx x hx'
    exact ⟨s', by simp, hs⟩

theorem Listed.skip {h : List RegOp} {s : Node} (ho : ownStmts cx [s] = []) (out : List Node) :
    Listed cx h [s] out := by
  constructor <;> intro x hx <;> rw [ho] at hx <;> cases hx

/-- Additional counters in front. -/
theorem Listed.prepend {h : List RegOp} {ss ss' : List Node} (hl : Listed cx h ss ss') (l : List Node) :
    Listed cx h ss (l ++ ss') := by
  constructor
  · intro x hx
    obtain ⟨pre, s', post, h3, h4, h5⟩ := hl.leads x hx
    refine ⟨l ++ pre, s', post, by rw [h3]; simp, h4, fun sp hsp => ?_⟩
    obtain ⟨id, h6, h7⟩ := h5 sp hsp
    exact ⟨id, Before.append h6 _, h7⟩
  · intro x hx
    obtain ⟨s', h3, h4⟩ := hl.covered x hx
    exact ⟨s', by simp [h3], h4⟩

theorem injected_item {s : Node} (h : isInjectedStmt s = true) : isInjectedItem s = true := by
  unfold isInjectedStmt isInjectedExpr at h
  split at h
  · split at h
    · rfl
    · rfl
    · cases h
  · cases h

theorem insertStmt (hgo : Go cx fi go) (s : Node) (h : List RegOp) :
    Gets fi (insertStmt cx go s) h fun out h' o => o = [] ∧ Listed cx h' [s] out := by
  unfold Visitor.insertStmt
  split
  · next hi =>
    exact .pure ⟨rfl, .skip (by simp [ownStmts, injected_item hi]) _⟩
  · by_cases hh : cx.hint s.span = some .next
    · have hskip : ∀ (h' : List RegOp) out, Listed cx h' [s] out :=
        fun h' out => .skip (by simp [ownStmts, Ctx.hinted, hh]) _
      intro st a st' hg hi hx
      obtain ⟨rfl, rfl⟩ := frame_hinted hh (by rw [if_pos rfl]; exact Still.pure _) hx
      exact ⟨h, [], List.prefix_refl _, hg, hi, by simp, by simp, rfl, hskip _ _⟩
    · refine .frame hh ?_
      rw [if_neg hh]
      refine .bind (.fresh hh (hgo .stmt s h trivial)) ?_
      rintro ⟨s', before⟩ h1 o1 _ ⟨rfl, ⟨hp, hd⟩, hb⟩
      exact .pure ⟨rfl, .single hp.covered hp.strip hd hb⟩

theorem insertStmts (hgo : Go cx fi go) (ss : List Node) (h : List RegOp) :
    Gets fi (insertStmts cx go ss) h fun out h' o => o = [] ∧ Listed cx h' ss out := by
  induction ss generalizing h with
  | nil => exact .pure ⟨rfl, .nil _ _⟩
  | cons s ss ih =>
    refine .bind (insertStmt hgo s h) ?_
    rintro out h1 o1 _ ⟨rfl, h2⟩
    refine .bind (ih h1) ?_
    rintro rest h3 o3 hp ⟨rfl, h4⟩
    exact .pure ⟨rfl, .cons (h2.mono hp) h4⟩

theorem visitStmts (hgo : Go cx fi go) (ss : List Node) (h : List RegOp) :
    Gets fi (visitStmts cx go ss) h fun out h' o => o = [] ∧ Listed cx h' ss out := by
  unfold Visitor.visitStmts
  refine .bind (.push _) ?_
  rintro _ _ _ _ ⟨rfl, rfl⟩
  refine .bind (insertStmts hgo ss _) ?_
  rintro out h1 o1 _ ⟨rfl, h2⟩
  refine .bind .pop ?_
  rintro _ _ _ _ ⟨rfl, rfl⟩
  exact .pure ⟨rfl, h2⟩

/-- Normal modes. -/
def normal : Mode → Bool
  | .logical _ | .logicalInner _ => false
  | _ => true

theorem Post.normal {m : Mode} (hm : normal m = true) {n n' : Node} {h : List RegOp} {o : List Node}
    (hp : Post cx m n n' h o) : Part cx m h n n' ∧ ∀ sp ∈ dues cx n, Due cx h o sp := by
  cases m <;> first | exact hp | cases hm

/-- A list of parts has been visited. -/
structure Parts (cx : Ctx) (m : Mode) (h : List RegOp) (cs cs' : List Node) (o : List Node) : Prop where
  parts : List.Forall₂ (Part cx m h) cs cs'
  dues : ∀ sp ∈ duesList cx cs, Due cx h o sp

theorem mapList (hgo : Go cx fi go) {m : Mode} (hm : normal m = true) (cs : List Node) (h : List RegOp)
    (hok : m.ok cx h) : Gets fi (M.mapList (go m) cs) h fun cs' h' o => Parts cx m h' cs cs' o := by
  induction cs generalizing h with
  | nil => exact .pure ⟨.nil, by simp [duesList]⟩
  | cons c cs ih =>
    refine .bind (hgo m c h hok) ?_
    intro c' h1 o1 p1 hc
    obtain ⟨hc, hd⟩ := Post.normal hm hc
    refine .bind (ih h1 (hok.mono p1)) ?_
    intro cs' h2 o2 p2 hcs
    refine .pure ⟨.cons (hc.mono p2) hcs.parts, ?_⟩
    intro sp hsp
    rw [duesList] at hsp
    rcases List.mem_append.1 hsp with hsp | hsp
    · exact (hd sp hsp).mono p2 (by simp; grind)
    · exact (hcs.dues sp hsp).mono (List.prefix_refl _) (by simp; grind)

/-- Kinds whose children are visited one by one. -/
def single : Node → Bool
  | mk .block _ _ => false
  | mk .switchCase _ (_ :: _) => false
  | _ => true

theorem visitChildren_single (m : Mode) {k : Kind} {sp : Span} {cs : List Node} (hs : single (mk k sp cs) = true) :
    Visitor.visitChildren cx go m (mk k sp cs) = (do
      let cs ← M.mapList (go m) cs
      pure (mk k sp cs)) := by
  unfold Visitor.visitChildren
  split
  · next h => cases h; cases hs
  · next h => cases h; cases hs
  · next h => cases h; rfl

theorem visitChildren (hgo : Go cx fi go) {m : Mode} (hm : normal m = true) (k : Kind) (sp : Span) (cs : List Node)
    (hs : single (mk k sp cs) = true) (h : List RegOp) (hok : m.ok cx h) :
    Gets fi (visitChildren cx go m (mk k sp cs)) h fun n' h' o => ∃ cs', n' = mk k sp cs' ∧ Parts cx m h' cs cs' o := by
  rw [visitChildren_single m hs]
  refine .bind (mapList hgo hm cs h hok) ?_
  intro cs' h1 o1 _ hp
  exact .pure ⟨cs', rfl, by simpa using hp⟩

end Cover
end Verif
