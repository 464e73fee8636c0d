import Verif.Lemmas.Sound
import Verif.Lemmas.SoundProgram
import Verif.Lemmas.Ignored
/-
A second program logic, for what must be there: `Gets` is about computations that are not under an ignore-next hint, and
its postcondition sees the result, the registrations made so far and the statements that are to go before the current one.
-/
namespace Verif
open Node RegOp

/-! ### Registrations are kept -/

theorem filterMap_prefix {α β : Type} {f : α → Option β} {h h' : List α} (hp : h <+: h') {k : Nat} {x : β}
    (hk : (h.filterMap f)[k]? = some x) : (h'.filterMap f)[k]? = some x := by
  obtain ⟨t, rfl⟩ := hp
  rw [List.filterMap_append]
  have hlt : k < (h.filterMap f).length := by
    rcases Nat.lt_or_ge k (h.filterMap f).length with h1 | h1
    · exact h1
    · rw [List.getElem?_eq_none h1] at hk; cases hk
  rw [List.getElem?_append_left hlt]
  exact hk

theorem statements_prefix {h h' : List RegOp} (hp : h <+: h') {k : Nat} {x : Range}
    (hk : (statements h)[k]? = some x) : (statements h')[k]? = some x := filterMap_prefix hp hk

theorem functions_prefix {h h' : List RegOp} (hp : h <+: h') {k : Nat} {x : Option String × Range × Range}
    (hk : (functions h)[k]? = some x) : (functions h')[k]? = some x := filterMap_prefix hp hk

theorem arms_prefix {h h' : List RegOp} (hp : h <+: h') {b k : Nat} {x : Range}
    (hk : (arms h b)[k]? = some x) : (arms h' b)[k]? = some x := filterMap_prefix hp hk

/-! ### The triple -/

/-- `x`, run after history `h` and not under an ignore-next hint, gives a result, a history and pending statements with
property `P`. -/
def Gets (fi : File) (x : M α) (h : List RegOp) (P : α → List RegOp → List Node → Prop) : Prop :=
  ∀ st a st', fi.good h st → st.ignore ≠ some .next → x st = .ok (a, st') →
    ∃ h' o, h <+: h' ∧ fi.good h' st' ∧ st'.ignore ≠ some .next ∧ st'.before = st.before ++ o ∧
      (∀ c ∈ o, isInjectedItem c = true) ∧ P a h' o

namespace Gets
variable {cx : Ctx} {fi : File} {h : List RegOp} {α β : Type} {P : α → List RegOp → List Node → Prop}

theorem pure {a : α} (hP : P a h []) : Gets fi (Pure.pure a : M α) h P := by
  intro st a' st' hg hi hx
  cases hx
  exact ⟨h, [], List.prefix_refl _, hg, hi, by simp, by simp, hP⟩

theorem bind {x : M α} {f : α → M β} {Q : β → List RegOp → List Node → Prop} (hx : Gets fi x h P)
    (hf : ∀ a h1 o1, h <+: h1 → P a h1 o1 → Gets fi (f a) h1 fun b h2 o2 => Q b h2 (o1 ++ o2)) :
    Gets fi (x >>= f) h Q := by
  intro st b st' hg hi hb
  obtain ⟨a, st1, h1, h2⟩ := M.bind_ok hb
  obtain ⟨h', o1, p1, g1, i1, b1, c1, q1⟩ := hx st a st1 hg hi h1
  obtain ⟨h'', o2, p2, g2, i2, b2, c2, q2⟩ := hf a h' o1 p1 q1 st1 b st' g1 i1 h2
  refine ⟨h'', o1 ++ o2, p1.trans p2, g2, i2, by rw [b2, b1, List.append_assoc], ?_, q2⟩
  intro c hc
  rcases List.mem_append.1 hc with hc | hc
  · exact c1 c hc
  · exact c2 c hc

theorem conseq {x : M α} {Q : α → List RegOp → List Node → Prop} (hx : Gets fi x h P)
    (hP : ∀ a h' o, h <+: h' → P a h' o → Q a h' o) : Gets fi x h Q := by
  intro st a st' hg hi hs
  obtain ⟨h', o, p, g, i, b, c, q⟩ := hx st a st' hg hi hs
  exact ⟨h', o, p, g, i, b, c, hP a h' o p q⟩

/-- A fact about all runs. -/
theorem and_run {x : M α} {S : α → Prop} (hx : Gets fi x h P) (hS : ∀ st a st', x st = .ok (a, st') → S a) :
    Gets fi x h fun a h' o => P a h' o ∧ S a := by
  intro st a st' hg hi hs
  obtain ⟨h', o, p, g, i, b, c, q⟩ := hx st a st' hg hi hs
  exact ⟨h', o, p, g, i, b, c, q, hS st a st' hs⟩

/-- A fact about all runs on coverage data of the history. -/
theorem and_good {x : M α} {S : α → Prop} (hx : Gets fi x h P)
    (hS : ∀ st a st', fi.good h st → x st = .ok (a, st') → S a) :
    Gets fi x h fun a h' o => P a h' o ∧ S a := by
  intro st a st' hg hi hs
  obtain ⟨h', o, p, g, i, b, c, q⟩ := hx st a st' hg hi hs
  exact ⟨h', o, p, g, i, b, c, q, hS st a st' hg hs⟩

theorem keepIf {p : Prop} [Decidable p] {a : α} {x : M α} (h1 : p → P a h [])
    (h2 : ¬ p → Gets fi x h P) : Gets fi (Visitor.keepIf p a x) h P := by
  unfold Visitor.keepIf
  split
  · next hp => exact pure (h1 hp)
  · next hp => exact h2 hp

/-- A computation that changes only the node stack. -/
theorem neutral {x : M α} (hx : ∀ st a st', x st = .ok (a, st') → st'.before = st.before ∧ st'.cov = st.cov ∧
    st'.ignore = st.ignore) (hP : ∀ st a st', x st = .ok (a, st') → P a h []) : Gets fi x h P := by
  intro st a st' hg hi hs
  obtain ⟨h1, h2, h3⟩ := hx st a st' hs
  refine ⟨h, [], List.prefix_refl _, ?_, by rw [h3]; exact hi, by simp [h1], by simp, hP st a st' hs⟩
  unfold File.good at hg ⊢
  rw [h2]; exact hg

theorem push (t : Tag) : Gets fi (Visitor.push t) h fun _ h' o => h' = h ∧ o = [] :=
  neutral (fun st a st' hs => by cases hs; exact ⟨rfl, rfl, rfl⟩) fun _ _ _ _ => ⟨rfl, rfl⟩

theorem pop : Gets fi Visitor.pop h fun _ h' o => h' = h ∧ o = [] :=
  neutral (fun st a st' hs => by cases hs; exact ⟨rfl, rfl, rfl⟩) fun _ _ _ _ => ⟨rfl, rfl⟩

theorem enterSpan {sp : Span} (hh : cx.hint sp ≠ some .next) :
    Gets fi (Visitor.enterSpan cx sp) h fun a h' o => a.1 ≠ some .next ∧ a.2 = cx.hint sp ∧ h' = h ∧ o = [] := by
  intro st a st' hg hi hs
  unfold Visitor.enterSpan at hs
  rw [if_neg hi] at hs
  cases hs
  exact ⟨h, [], List.prefix_refl _, hg, hh, by simp, by simp, hi, rfl, rfl, rfl⟩

theorem exit {old : Option IgnoreScope} (ho : old ≠ some .next) :
    Gets fi (Visitor.exit old) h fun _ h' o => h' = h ∧ o = [] := by
  intro st a st' hg hi hs
  cases hs
  exact ⟨h, [], List.prefix_refl _, hg, ho, by simp, by simp, rfl, rfl⟩

/-- The frame of a visit function at a position without hint. -/
theorem frame {t : Tag} {sp : Span} {body : Option IgnoreScope → M α} (hh : cx.hint sp ≠ some .next)
    (hb : Gets fi (body (cx.hint sp)) h P) : Gets fi (Visitor.frame cx t sp body) h P := by
  unfold Visitor.frame Visitor.enter
  refine bind (bind (push t) ?_) ?_ (P := fun a h' o => a.1 ≠ some .next ∧ a.2 = cx.hint sp ∧ h' = h ∧ o = [])
  · rintro _ _ _ _ ⟨rfl, rfl⟩
    exact enterSpan hh
  · rintro ⟨old, cur⟩ _ _ _ ⟨ho, rfl, rfl, rfl⟩
    refine bind hb ?_
    intro a h2 o2 _ hp
    refine bind (exit ho) ?_
    rintro _ _ _ _ ⟨rfl, rfl⟩
    exact pure (by simpa using hp)

/-- The same with knowledge of the top of the node stack. -/
theorem frame_top {t : Tag} {sp : Span} {body : Option IgnoreScope → M α} (hh : cx.hint sp ≠ some .next)
    {body' : Option IgnoreScope → M α} (heq : ∀ st, st.nodes.head? = some t → body (cx.hint sp) st = body' (cx.hint sp) st)
    (hb : Gets fi (body' (cx.hint sp)) h P) : Gets fi (Visitor.frame cx t sp body) h P := by
  intro st a st' hg hi hs
  refine frame (t := t) hh hb st a st' hg hi ?_
  rw [← hs]
  unfold Visitor.frame
  simp only [Visitor.enter, Visitor.push, Visitor.enterSpan, Bind.bind, M.bind, hi, if_false]
  rw [heq _ rfl]

theorem guarded {t : Tag} {n : Node} {body : M Node} {P : Node → List RegOp → List Node → Prop}
    (hh : cx.hint n.span ≠ some .next) (hb : Gets fi body h P) : Gets fi (Visitor.guarded cx t n body) h P := by
  unfold Visitor.guarded
  refine frame hh ?_
  rw [if_neg hh]
  exact hb

/-- A new visitor. -/
theorem fresh {x : M α} {ig : Option IgnoreScope} (hig : ig ≠ some .next) (hx : Gets fi x h P) :
    Gets fi (Visitor.fresh ig x) h fun a h' o => o = [] ∧ P a.1 h' a.2 ∧ ∀ c ∈ a.2, isInjectedItem c = true := by
  intro st a st' hg hi hs
  unfold Visitor.fresh at hs
  cases hxs : x { st with before := [], ignore := ig } with
  | error er => rw [hxs] at hs; cases hs
  | ok r =>
    obtain ⟨a1, st1⟩ := r
    rw [hxs] at hs
    cases hs
    obtain ⟨h', o, p, g, i, b, c, q⟩ := hx _ _ _ (by exact hg) hig hxs
    simp only [List.nil_append] at b
    refine ⟨h', [], p, g, hi, by simp, by simp, rfl, ?_, ?_⟩
    · rw [b]; exact q
    · rw [b]; exact c

/-- A registration. -/
theorem register {x : M Nat} (op : RegOp) (hk : ∀ k l, op = .path k l → k < (branches h).length)
    (hr : ∀ st, x st = match op.run st.cov with
      | .error er => .error er
      | .ok (cov, id) => .ok (id, { st with cov := cov })) :
    Gets fi x h fun a h' o => a = expectedId h op ∧ h' = h ++ [op] ∧ o = [] := by
  intro st a st' hg hi hx
  obtain ⟨c', h1, h2⟩ := inv_run hg.2 hg.1 op hk
  rw [hr, h1] at hx
  cases hx
  exact ⟨h ++ [op], [], List.prefix_append _ _, ⟨h2, legal_concat hg.2 hk⟩, hi, by simp, by simp, rfl, rfl, rfl⟩

theorem newStatement (r : Range) :
    Gets fi (Visitor.newStatement r) h fun a h' o => (statements h')[a]? = some r ∧ o = [] :=
  conseq (register (.statement r) (by simp) fun _ => rfl) fun a h' o _ ⟨h1, h2, h3⟩ => by
    subst h1 h2
    exact ⟨by simp [statements, expectedId], h3⟩

theorem newFunction (name : Option String) (d l : Range) :
    Gets fi (Visitor.newFunction name d l) h fun a h' o => (functions h')[a]? = some (name, d, l) ∧ o = [] :=
  conseq (register (.function name d l) (by simp) fun _ => rfl) fun a h' o _ ⟨h1, h2, h3⟩ => by
    subst h1 h2
    exact ⟨by simp [functions, expectedId], h3⟩

theorem newBranch (t : BranchType) (l : Range) (g : Bool) :
    Gets fi (Visitor.newBranch t l g) h fun a h' o => (branches h')[a]? = some (t, l, g) ∧ o = [] :=
  conseq (register (.branch t l g) (by simp) fun _ => rfl) fun a h' o _ ⟨h1, h2, h3⟩ => by
    subst h1 h2
    exact ⟨by simp [branches, expectedId], h3⟩

theorem addPath {k : Nat} (l : Range) (hk : ∃ x, (branches h)[k]? = some x) :
    Gets fi (Visitor.addPath k l) h fun a h' o => (arms h' k)[a]? = some l ∧ o = [] := by
  refine conseq (register (.path k l) ?_ fun _ => rfl) fun a h' o _ ⟨h1, h2, h3⟩ => ?_
  · rintro k l ⟨⟩
    obtain ⟨x, hx⟩ := hk
    rcases Nat.lt_or_ge k (branches h).length with h2 | h2
    · exact h2
    · rw [List.getElem?_eq_none h2] at hx; cases hx
  · subst h1 h2
    exact ⟨by simp [arms, expectedId], h3⟩

/-- A counter is among the pending statements. -/
def _root_.Verif.Due (cx : Ctx) (h : List RegOp) (o : List Node) (sp : Span) : Prop :=
  ∃ id, counterStmt (.s id) ∈ o ∧ (statements h)[id]? = some (cx.range sp)

theorem _root_.Verif.Due.mono {h h' : List RegOp} {o o' : List Node} {sp : Span} (hp : h <+: h')
    (ho : ∀ c ∈ o, c ∈ o') (hd : Due cx h o sp) : Due cx h' o' sp := by
  obtain ⟨id, h1, h2⟩ := hd
  exact ⟨id, ho _ h1, statements_prefix hp h2⟩

theorem mark (sp : Span) : Gets fi (Visitor.mark cx sp) h fun _ h' o => Due cx h' o sp := by
  unfold Visitor.mark
  refine bind (newStatement _) ?_
  rintro id h1 o1 _ ⟨h2, rfl⟩
  intro st a st' hg hi hx
  cases hx
  exact ⟨h1, [counterStmt (.s id)], List.prefix_refl _, hg, hi, rfl, by simp [isInjectedItem, counterStmt, isCounterStmt, counterExpr],
    id, by simp, h2⟩

theorem replaceWithStmtCounter (e : Node) :
    Gets fi (Visitor.replaceWithStmtCounter cx e) h fun a h' o => o = [] ∧ ∃ id, a = wrapCounter (.s id) e ∧
      (statements h')[id]? = some (cx.range e.span) := by
  unfold Visitor.replaceWithStmtCounter
  refine bind (newStatement _) ?_
  rintro id h1 o1 _ ⟨h2, rfl⟩
  exact pure ⟨rfl, id, rfl, h2⟩

theorem replaceWithBranchCounter {b : Nat} (e : Node) (hk : ∃ x, (branches h)[b]? = some x) :
    Gets fi (Visitor.replaceWithBranchCounter cx b e) h fun a h' o => o = [] ∧ ∃ i, a = wrapCounter (.b b i) e ∧
      (arms h' b)[i]? = some (cx.range e.span) := by
  unfold Visitor.replaceWithBranchCounter
  refine bind (addPath _ hk) ?_
  rintro id h1 o1 _ ⟨h2, rfl⟩
  exact pure ⟨rfl, id, rfl, h2⟩

end Gets
end Verif
