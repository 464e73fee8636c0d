import Verif.Lemmas.Operand
import Verif.Props.Ignore
import Verif.Props.Arms
/-
C23, C24 and C26 inside operands of logical expressions: what exactly happens to constructs that should be left alone.
-/
namespace Verif
open Visitor Node Build

variable {cx : Ctx} {fuel b : Nat} {m : Mode} {n n' : Node} {st st' : St}

/-- C23, inside operands of logical expressions: whatever `n` is there, statement, function or expression, the report gets no entry for it
or for anything in it, and the only effect is that the operands of logical expressions in it become arms of the branch of the expression
around it. An ignore-next hint at an expression or operand excludes these (`leaves`), one at a statement, a declaration or a method does not. So a
construct is left alone if and only if it has no such operands. -/
theorem C23_operand_exact (hm : m = .logical b ∨ m = .logicalInner b ∧ cx.hinted n = false) (hs : st.ignore ≠ some .next)
    (h : visit cx fuel m n st = .ok (n', st')) :
    st.cov.inner.AddsArms b ((leaves cx n).map fun e => cx.range e.span) st'.cov.inner ∧ st'.before = st.before ∧
    ((n' = n ∧ st'.cov = st.cov) ↔ leaves cx n = []) := by
  have key : Operand.Adds b ((leaves cx n).map fun e => cx.range e.span) (· = n) (visit cx fuel m n) := by
    rcases hm with rfl | ⟨rfl, hn⟩
    · exact (Operand.Adds.visit cx b fuel).1 n
    · exact (Operand.Adds.visit cx b fuel).2 n hn
  obtain ⟨_, h0, h1, h2, h3⟩ := key st n' st' h hs
  refine ⟨h1, h0.1, fun ⟨_, hc⟩ => ?_, fun hl => h2 (by rw [hl]; rfl)⟩
  by_contra hl
  obtain ⟨br, hb⟩ := Option.isSome_iff_exists.1 (h3 (by simpa using hl))
  have := h1.branches b
  rw [hc, hb] at this
  simp only [Option.map_some, if_true, Option.some.injEq] at this
  have := congrArg (fun x => x.locations.length) this
  simp only [List.length_append, List.length_map] at this
  exact hl (List.length_eq_zero_iff.1 (by omega))

/-- C24, inside operands of logical expressions: an `if` statement has no branch there, and whatever hint it has, the operands in its test
and in both arms become arms of the branch of the expression around it. -/
theorem C24_operand_exact {sp : Span} {test cons alt : Node} (hs : st.ignore ≠ some .next)
    (h : visit cx fuel (.logical b) (mk .ifStmt sp [test, cons, alt]) st = .ok (n', st')) :
    st.cov.inner.AddsArms b ((leaves cx test ++ leaves cx cons ++ leaves cx alt).map fun e => cx.range e.span) st'.cov.inner := by
  have := (C23_operand_exact (.inl rfl) hs h).1
  rwa [Operand.Adds.leaves_other (by rfl) (fun op l r h => by cases h), leavesList, leavesList, leavesList, leavesList, List.append_nil, ← List.append_assoc] at this

/-- C26, inside operands of logical expressions: a method, accessor or function expression is visited in the same way whether or not its name
is listed. It has no function entry in either case, and the operands of the logical expressions in it are arms of the branch of the
expression around it. -/
theorem C26_operand_exact {name : String} (hn : Named name n) (hh : cx.hinted n = false) (hs : st.ignore ≠ some .next)
    (h : visit cx fuel (.logical b) n st = .ok (n', st')) :
    st.cov.inner.AddsArms b ((n.children.flatMap (leaves cx)).map fun e => cx.range e.span) st'.cov.inner ∧
    ((n' = n ∧ st'.cov = st.cov) ↔ ∀ c ∈ n.children, leaves cx c = []) := by
  have h1 := C23_operand_exact (.inl rfl) hs h
  have hl : leaves cx n = n.children.flatMap (leaves cx) := by
    have hne : ∀ {k : Kind} {sp : Span} {cs : List Node}, n = mk k sp cs → (∀ op, k ≠ .bin op) → leaves cx n = n.children.flatMap (leaves cx) := by
      rintro k sp cs rfl hk
      have : cx.hint sp ≠ some .next := of_decide_eq_false hh
      rw [Operand.Adds.leaves_other (by simp [this]) fun op l r h => hk op (by cases h; rfl), Operand.Adds.leavesList_flatMap]
      rfl
    obtain ⟨sp, ksp, kcs, ⟨fn, h⟩ | ⟨fn, h⟩ | ⟨body, h⟩ | ⟨x, y, body, h⟩ | ⟨fn, h⟩⟩ := hn <;> exact hne h nofun
  rw [hl] at h1
  exact ⟨h1.1, h1.2.2.trans List.flatMap_eq_nil_iff⟩

/-- In `a || { foo() { return x && y; } }` with `foo` listed, `x` and `y` become arms (`C26_operand_fails`); with a hint at the expression
`x && y` nothing does. -/
example : Named "foo" listedMethod ∧ (leaves plain listedMethod).map Node.span = [at' 9, at' 10] ∧
    leaves (hinted 9 " istanbul ignore next ") listedMethod = [] := by
  refine ⟨?_, by decide +kernel, by decide +kernel⟩
  exact ⟨_, _, _, .inr (.inl ⟨_, rfl⟩)⟩

/-- The visit of `foo` itself. -/
example : ∃ st n' st', st.ignore ≠ some .next ∧ visit plain 20 (.logical 0) listedMethod st = .ok (n', st') ∧ n' ≠ listedMethod := by
  let st : St := ⟨[], [], none, ((Visitor.initial plain "/f.js" none).cov.newBranch .binaryExpr Range.zero false).1⟩
  have h : (match visit plain 20 (.logical 0) listedMethod st with
    | .ok (n', _) => decide (n' ≠ listedMethod)
    | .error _ => false) = true := by decide +kernel
  split at h
  · rename_i n' st' hv
    exact ⟨st, n', st', nofun, hv, of_decide_eq_true h⟩
  · cases h

end Verif
