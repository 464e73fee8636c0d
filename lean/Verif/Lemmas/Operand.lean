import Verif.Spec.Operand
import Verif.Lemmas.Veil
import Verif.Lemmas.IndexMap
import Verif.Lemmas.Ignored
import Verif.Lemmas.Arms
/-
What the visitor of logical expressions does to an operand.
-/
namespace Verif
open Node Visitor

namespace FileCoverage.AddsArms

theorem refl (a : FileCoverage) (k : Nat) : a.AddsArms k [] a :=
  ⟨⟨rfl, rfl⟩, ⟨rfl, rfl⟩, fun j => by cases a.branchMap.get j <;> simp, fun j => by cases a.b.get j <;> simp⟩

theorem trans {a b c : FileCoverage} {k : Nat} {l l' : List Range} (h : a.AddsArms k l b) (h' : b.AddsArms k l' c) :
    a.AddsArms k (l ++ l') c := by
  refine ⟨⟨h'.1.1.trans h.1.1, h'.1.2.trans h.1.2⟩, ⟨h'.2.1.trans h.2.1, h'.2.2.trans h.2.2⟩, fun j => ?_, fun j => ?_⟩
  · rw [h'.branches, h.branches]
    cases a.branchMap.get j with
    | none => rfl
    | some br =>
      by_cases hj : j = k
      · simp [hj, List.append_assoc]
      · simp [hj]
  · rw [h'.counts, h.counts]
    cases a.b.get j with
    | none => rfl
    | some br =>
      by_cases hj : j = k
      · simp [hj, List.append_assoc]
      · simp [hj]

theorem one {c : SourceCoverage} {k i : Nat} {r : Range} {c' : SourceCoverage} (h : c.addBranchPath k r = .ok (c', i)) :
    c.inner.AddsArms k [r] c'.inner := by
  unfold SourceCoverage.addBranchPath at h
  split at h
  · cases h
  · split at h
    · cases h
    · rename_i counts hc
      dsimp only at h
      split at h
      · cases h
      · cases h
        have key : ∀ c : SourceCoverage, (SourceCoverage.maybeAddBranchTrue c k).inner.statementMap = c.inner.statementMap ∧
            (SourceCoverage.maybeAddBranchTrue c k).inner.s = c.inner.s ∧
            (SourceCoverage.maybeAddBranchTrue c k).inner.fnMap = c.inner.fnMap ∧
            (SourceCoverage.maybeAddBranchTrue c k).inner.f = c.inner.f ∧
            (SourceCoverage.maybeAddBranchTrue c k).inner.branchMap = c.inner.branchMap ∧
            (SourceCoverage.maybeAddBranchTrue c k).inner.b = c.inner.b := by
          intro c
          unfold SourceCoverage.maybeAddBranchTrue
          split
          · exact ⟨rfl, rfl, rfl, rfl, rfl, rfl⟩
          · split <;> exact ⟨rfl, rfl, rfl, rfl, rfl, rfl⟩
        obtain ⟨h1, h2, h3, h4, h5, h6⟩ := key _
        refine ⟨⟨h1, h2⟩, ⟨h3, h4⟩, fun j => ?_, fun j => ?_⟩
        · rw [h5]
          dsimp only
          rw [IndexMap.get_modify]
          by_cases hj : k = j
          · subst hj; simp
          · rw [if_neg hj]
            cases c.inner.branchMap.get j <;> simp [Ne.symm hj]
        · rw [h6]
          dsimp only
          rw [IndexMap.get_modify]
          by_cases hj : k = j
          · subst hj; simp [hc]
          · rw [if_neg hj]
            cases c.inner.b.get j <;> simp [Ne.symm hj]

end FileCoverage.AddsArms

namespace Operand

/-- Adding an arm does not change functions. -/
theorem addBranchPath_functions {c c' : SourceCoverage} {k i : Nat} {r : Range} (h : c.addBranchPath k r = .ok (c', i)) :
    (c'.lastF = c.lastF ∧ c'.inner.fnMap = c.inner.fnMap) ∧ c'.lastS = c.lastS ∧ c'.inner.statementMap = c.inner.statementMap := by
  unfold SourceCoverage.addBranchPath at h
  split at h
  · cases h
  · split at h
    · cases h
    · dsimp only at h
      split at h
      · cases h
      · cases h
        refine ⟨⟨?_, ?_⟩, ?_, ?_⟩ <;>
        · simp only [SourceCoverage.maybeAddBranchTrue]
          split
          · rfl
          · split <;> rfl

/-- Unless everything is ignored, the computation adds these arms, and with none it changes nothing but the stack and the scope. -/
def Adds (b : Nat) (l : List Range) (P : α → Prop) (x : M α) : Prop := ∀ st a s, x st = .ok (a, s) → st.ignore ≠ some .next →
  s.ignore ≠ some .next ∧ (s.before = st.before ∧ (s.cov.lastB, s.cov.lastF, s.cov.lastS) = (st.cov.lastB, st.cov.lastF, st.cov.lastS)) ∧ st.cov.inner.AddsArms b l s.cov.inner ∧ (l = [] → P a ∧ s.cov = st.cov) ∧
    (l ≠ [] → (st.cov.inner.branchMap.get b).isSome = true)

namespace Adds
variable {b : Nat} {l l' : List Range} {P : α → Prop} {Q : β → Prop}

theorem pure {a : α} (h : P a) : Adds b [] P (Pure.pure a) := fun st _ _ hs hi => by
  cases hs
  exact ⟨hi, ⟨rfl, rfl⟩, .refl _ _, fun _ => ⟨h, rfl⟩, nofun⟩

theorem bind {x : M α} {f : α → M β} (hx : Adds b l P x) (hf : ∀ a, (l = [] → P a) → Adds b l' (fun c => l = [] → Q c) (f a)) :
    Adds b (l ++ l') Q (x >>= f) := by
  intro st c s h hi
  obtain ⟨a, s1, h1, h2⟩ := M.bind_ok h
  obtain ⟨g1, g0, g2, g3, g4⟩ := hx st a s1 h1 hi
  obtain ⟨k1, k0, k2, k3, k4⟩ := hf a (fun hl => (g3 hl).1) s1 c s h2 g1
  refine ⟨k1, ⟨k0.1.trans g0.1, k0.2.trans g0.2⟩, g2.trans k2, fun hl => ?_, fun hl => ?_⟩
  · obtain ⟨hl1, hl2⟩ := List.append_eq_nil_iff.1 hl
    exact ⟨(k3 hl2).1 hl1, (k3 hl2).2.trans (g3 hl1).2⟩
  · by_cases hl1 : l = []
    · have := k4 fun h => hl (by rw [hl1, h]; rfl)
      rw [(g3 hl1).2] at this
      exact this
    · exact g4 hl1

theorem last {x : M α} {f : α → M β} (hx : Adds b l P x) (hf : ∀ a, (l = [] → P a) → Adds b [] (fun c => l = [] → Q c) (f a)) :
    Adds b l Q (x >>= f) := by
  have := bind hx hf
  rwa [List.append_nil] at this

theorem of_idle {x : M α} {a : α} (h : Lock.Idle x a) (hP : P a) : Adds b [] P x := fun st a' s hs hi => by
  obtain ⟨rfl, rfl⟩ := h st a' s hs
  exact ⟨hi, ⟨rfl, rfl⟩, .refl _ _, fun _ => ⟨hP, rfl⟩, nofun⟩

theorem imp {x : M α} {P' : α → Prop} (hx : Adds b l P x) (h : ∀ a, P a → P' a) : Adds b l P' x := fun st a s hs hi => by
  obtain ⟨g1, g0, g2, g3, g4⟩ := hx st a s hs hi
  exact ⟨g1, g0, g2, fun hl => ⟨h a (g3 hl).1, (g3 hl).2⟩, g4⟩

theorem mapList {f : Node → M Node} {ls : Node → List Range} : ∀ {cs : List Node}, (∀ c ∈ cs, Adds b (ls c) (· = c) (f c)) →
    Adds b (cs.flatMap ls) (· = cs) (M.mapList f cs)
  | [], _ => pure rfl
  | c :: cs, h => by
    rw [List.flatMap_cons]
    refine bind (h c (by simp)) fun a ha => last (mapList (cs := cs) fun c hc => h c (by simp [hc])) fun a' ha' => pure fun h1 h2 => ?_
    rw [ha h2, ha' h1]

theorem addPath {r : Range} {P : Nat → Prop} : Adds b [r] P (Visitor.addPath b r) := by
  intro st a s h hi
  unfold Visitor.addPath at h
  split at h
  · cases h
  · rename_i cov idx h1
    cases h
    refine ⟨hi, ⟨rfl, Prod.ext (addBranchPath_ok h1).1 (Prod.ext (addBranchPath_functions h1).1.1 (addBranchPath_functions h1).2.1)⟩, .one h1, nofun, fun _ => ?_⟩
    unfold SourceCoverage.addBranchPath at h1
    split at h1
    · cases h1
    · rename_i hb
      rw [hb]
      rfl

theorem fresh {ig : Option IgnoreScope} {x : M α} (hig : ig ≠ some .next) (hx : Adds b l P x) : Adds b l (fun r => P r.1) (fresh ig x) := by
  intro st r s h hi
  unfold Visitor.fresh at h
  cases hxs : x { st with before := [], ignore := ig } with
  | error e => rw [hxs] at h; cases h
  | ok r =>
    obtain ⟨a1, st1⟩ := r
    rw [hxs] at h
    cases h
    obtain ⟨_, h1, h2, h3⟩ := hx _ _ _ hxs hig
    exact ⟨hi, ⟨rfl, h1.2⟩, h2, h3⟩

/-- The arms of a tree. -/
abbrev ranges (cx : Ctx) (ns : List Node) : List Range := ns.map fun n => cx.range n.span

theorem push (t : Tag) {P : Unit → Prop} (h : P ()) : Adds b [] P (Visitor.push t) := fun st a s hs hi => by
  cases hs
  exact ⟨hi, ⟨rfl, rfl⟩, .refl _ _, fun _ => ⟨h, rfl⟩, nofun⟩

section
variable {cx : Ctx} {go : Mode → Node → M Node} 
  (hl : ∀ n, Adds b (ranges cx (leaves cx n)) (· = n) (go (.logical b) n))
  (hi : ∀ n, cx.hinted n = false → Adds b (ranges cx (leaves cx n)) (· = n) (go (.logicalInner b) n))
  (hidle : ∀ n, n.any Kind.isLogical = false → Lock.Idle (go (.logicalInner b) n) n)

theorem leavesList_flatMap (cx : Ctx) : ∀ cs : List Node, leavesList cx cs = cs.flatMap (leaves cx)
  | [] => rfl
  | c :: cs => by rw [leavesList, leavesList_flatMap cx cs]; rfl

theorem leaves_bin {sp : Span} (h : cx.hint sp ≠ some .next) (op : BinOp) (l r : Node) : leaves cx (mk (.bin op) sp [l, r]) =
    if op.isLogical then operands cx [l, r] else leavesList cx [l, r] := by
  rw [leaves, if_neg (by simp [h])]

theorem leaves_other {k : Kind} {sp : Span} {cs : List Node} (h : (!k.noExpr && cx.hint sp = some .next) = false)
    (hne : ∀ op l r, mk k sp cs ≠ mk (.bin op) sp [l, r]) : leaves cx (mk k sp cs) = leavesList cx cs := by
  unfold leaves
  rw [if_neg (by simpa using h)]
  split
  · exact absurd rfl (hne _ _ _)
  · rfl

include hl in
theorem logicalChildren (k : Kind) (sp : Span) (cs : List Node) :
    Adds b (ranges cx (leavesList cx cs)) (· = mk k sp cs) (logicalChildren go b (mk k sp cs)) := by
  have h := mapList (b := b) (cs := cs) (f := go (.logical b)) (ls := fun n => ranges cx (leaves cx n)) fun c _ => hl c
  rw [leavesList_flatMap]
  unfold ranges
  rw [List.map_flatMap]
  exact last h fun a ha => pure fun h => by rw [ha h]

include hi hidle in
theorem wrapBin (e : Node) :
    Adds b (ranges cx (if cx.hinted e then [] else if e.any Kind.isLogical then leaves cx e else [e])) (· = e)
      (wrapBin cx go (.logicalInner b) b e) := by
  unfold Visitor.wrapBin
  by_cases hh : cx.hint e.span = some .next
  · rw [if_pos (by simpa [Ctx.hinted] using hh)]
    simp only [hh, if_true]
    exact pure rfl
  · have hh' : cx.hinted e = false := by simpa [Ctx.hinted] using hh
    simp only [hh, hh', if_false, Bool.false_eq_true]
    split
    · exact last (fresh hh (hi e hh')) fun r hr => pure fun h => hr h
    · rename_i hlog
      split
      · exact last (addPath (P := fun _ => True)) fun _ _ => pure nofun
      · intro st a s h hig
        obtain ⟨e', s1, h1, h2⟩ := M.bind_ok h
        obtain ⟨rfl, rfl⟩ := hidle e (by simpa using hlog) st e' s1 h1
        exact last (Q := fun x => x = e') (addPath (P := fun _ => True)) (fun _ _ => pure nofun) _ a s h2 hig

include hl hi hidle in
theorem inner {n : Node} (hn : cx.hinted n = false) : Adds b (ranges cx (leaves cx n)) (· = n) (visitLogicalInner cx go b n) := by
  obtain ⟨k, sp, cs⟩ := n
  have hsp : cx.hint sp ≠ some .next := of_decide_eq_false hn
  unfold visitLogicalInner
  split
  · rename_i op sp' left right heq
    cases heq
    rw [leaves_bin hsp]
    have hrest : ∀ {L : List Range} {old : Option IgnoreScope} {x : M Node}, old ≠ some .next →
        Adds b L (· = mk (.bin op) sp [left, right]) x → Adds b L (· = mk (.bin op) sp [left, right]) (do
          let n ← x
          Visitor.exit old
          Pure.pure n) := by
      intro L old x ho hx
      refine last hx fun a ha st r s hs hi => ?_
      cases hs
      exact ⟨ho, ⟨rfl, rfl⟩, .refl _ _, fun _ => ⟨ha, rfl⟩, nofun⟩
    intro st a s h hig
    unfold Visitor.visitBin at h
    obtain ⟨⟨old, cur⟩, s1, h1, h2⟩ := M.bind_ok h
    unfold enterSpan at h1
    rw [if_neg hig] at h1
    cases h1
    dsimp only at h2
    rw [if_neg hsp] at h2
    have go' : ∀ {L : List Range} {x : M Node}, Adds b L (· = mk (.bin op) sp [left, right]) x →
        x { st with ignore := cx.hint sp } = .ok (a, s) → s.ignore ≠ some .next ∧ (s.before = st.before ∧ (s.cov.lastB, s.cov.lastF, s.cov.lastS) = (st.cov.lastB, st.cov.lastF, st.cov.lastS)) ∧
          st.cov.inner.AddsArms b L s.cov.inner ∧ (L = [] → a = mk (.bin op) sp [left, right] ∧ s.cov = st.cov) ∧
          (L ≠ [] → (st.cov.inner.branchMap.get b).isSome = true) :=
      fun hx hs => hx { st with ignore := cx.hint sp } _ _ hs hsp
    split at h2
    · rename_i hop
      rw [if_pos hop]
      have h3 : ranges cx (operands cx [left, right]) =
          ranges cx (if cx.hinted left then [] else if left.any Kind.isLogical then leaves cx left else [left]) ++
          ranges cx (if cx.hinted right then [] else if right.any Kind.isLogical then leaves cx right else [right]) := by
        rw [operands, operands, operands, List.append_nil]
        exact List.map_append
      rw [h3]
      refine go' (L := [] ++ (_ ++ _)) ?_ h2
      refine bind (push (P := fun _ => True) _ trivial) fun _ _ => (bind (l := []) (P := fun x => x = b) (pure rfl) fun b' hb' => ?_ : Adds b ([] ++ _) _ _)
      cases hb' rfl
      exact bind (wrapBin hi hidle left) fun a1 ha1 => last (wrapBin hi hidle right) fun a2 ha2 => pure fun h4 h5 _ _ => by
        rw [ha1 h5, ha2 h4]
    · rename_i hop
      rw [if_neg hop]
      refine go' (L := [] ++ _) ?_ h2
      exact bind (push (P := fun _ => True) _ trivial) fun _ _ => (hrest hig (logicalChildren hl _ _ _)).imp fun _ h _ => h
  · rename_i hne
    rw [leaves_other (by simp [hsp]) fun op l r h => hne _ _ _ _ h]
    exact logicalChildren hl k sp cs

theorem isExpr_noExpr (k : Kind) : k.isExpr = !k.noExpr := by
  cases k with
  | temp b => cases b <;> rfl
  | other c n => cases c <;> rfl
  | _ => rfl

end

theorem visit (cx : Ctx) (b : Nat) (fuel : Nat) : (∀ n, Adds b (ranges cx (leaves cx n)) (· = n) (Visitor.visit cx fuel (.logical b) n)) ∧
    ∀ n, cx.hinted n = false → Adds b (ranges cx (leaves cx n)) (· = n) (Visitor.visit cx fuel (.logicalInner b) n) := by
  induction fuel with
  | zero => exact ⟨fun n st a s (h : Except.error _ = _) => (nomatch h), fun n _ st a s (h : Except.error _ = _) => (nomatch h)⟩
  | succ fuel ih =>
    have hidle : ∀ n : Node, n.any Kind.isLogical = false → Lock.Idle (Visitor.visit cx fuel (.logicalInner b) n) n :=
      idle_logical cx b fuel _ (.inr rfl)
    refine ⟨fun n => ?_, fun n hn => inner ih.1 ih.2 hidle hn⟩
    obtain ⟨k, sp, cs⟩ := n
    show Adds _ _ _ (visitLogical cx (Visitor.visit cx fuel) b (mk k sp cs))
    unfold visitLogical
    split
    · rename_i he
      intro st a s h hig
      obtain ⟨⟨old, cur⟩, s1, h1, h2⟩ := M.bind_ok h
      obtain ⟨r, s2, h3, h4⟩ := M.bind_ok h2
      have e1 : old = st.ignore ∧ s1.ignore = cx.hint sp ∧ s1.cov = st.cov ∧ s1.before = st.before := by
        obtain ⟨_, s3, g1, g2⟩ := M.bind_ok h1
        cases g1
        unfold enterSpan at g2
        rw [if_neg hig] at g2
        cases g2
        exact ⟨rfl, rfl, rfl, rfl⟩
      obtain ⟨rfl, e2, e3, e4⟩ := e1
      cases h4
      by_cases hh : cx.hint sp = some .next
      · obtain ⟨rfl, rfl⟩ := Still.visit cx fuel _ _ _ _ _ (e2.trans hh) h3
        have : leaves cx (mk k sp cs) = [] := by
          unfold leaves
          rw [if_pos (by rw [← isExpr_noExpr, show k.isExpr = true from he]; simp [hh])]
        rw [this]
        exact ⟨hig, ⟨e4, congrArg (fun c => (c.lastB, c.lastF, c.lastS)) e3⟩, by show FileCoverage.AddsArms _ _ _ s2.cov.inner; rw [e3]; exact .refl _ _, fun _ => ⟨rfl, e3⟩, nofun⟩
      · obtain ⟨_, g0, g2, g3⟩ := ih.2 (mk k sp cs) (decide_eq_false hh) _ _ _ h3 (e2 ▸ hh)
        rw [e3] at g2 g3
        exact ⟨hig, ⟨g0.1.trans e4, g0.2.trans (congrArg (fun c => (c.lastB, c.lastF, c.lastS)) e3)⟩, g2, g3⟩
    · rename_i he
      have : leaves cx (mk k sp cs) = leavesList cx cs := by
        have : k.noExpr = true := by
          have : k.isExpr = false := Bool.eq_false_iff.2 he
          rw [isExpr_noExpr] at this
          simpa using this
        exact leaves_other (by simp [this]) fun op l r h => by cases h; cases this
      rw [this]
      exact logicalChildren ih.1 k sp cs

end Adds
end Operand
end Verif
