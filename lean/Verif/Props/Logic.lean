import Verif.Lemmas.Akin
import Verif.Props.Instrument
/-
C48: the option reportLogic adds truthiness counts, and changes nothing else.
-/
namespace Verif
open Node Build Visitor

/-- C48, for programs without tagged templates as initialisers, whose operands and default values contain either a logical
operator or nothing to instrument: with reportLogic the file has the same statements, functions, branches and arms under the
same keys, and the same code up to the truthiness wrapper that takes the place of the plain counter of an operand. (What is
missing: other operands are not visited with reportLogic, `C48_fails`, and initialisers that are tagged templates are visited
twice, with the wrappers already in them, `C48_tagged_fails`.) -/
theorem C48_partial {cx : Ctx} {fuel : Nat} {path : String} {sm : Option SourceMap} {p q : Node} {c : SourceCoverage}
    (hoff : cx.reportLogic = false) (hp : Calm p) (h : instrument cx fuel path sm p = .ok (q, c)) :
    ∃ q' c', instrument { cx with reportLogic := true } fuel path sm p = .ok (q', c') ∧ Akin .none true q q' ∧
      c'.inner = { c.inner with bT := c'.inner.bT } := by
  have hin : (Lock.make Change.none true cx { cx with reportLogic := true } rfl (fun h => by cases h; rfl)
      (fun h => by rcases h with rfl | h; exacts [rfl, h.elim]) (fun h => by cases h) (fun _ => hoff)).In p p :=
    ⟨.refl fun _ _ => rfl, fun _ => hp⟩
  obtain ⟨q', c', h1, h2, h3⟩ := Lock.instrument hin rfl h
  refine ⟨q', c', h1, h2, h3.inner.eq (fun _ _ h => h) ?_⟩
  rintro r r' ⟨a, b, rfl, rfl, rfl⟩
  rfl

/-- `f(a && b || c)`. -/
def mixed : Node := Build.module [expr 2 (call 3 (ident 4 "f") [bin 5 .or (bin 6 .and (ident 7 "a") (ident 8 "b")) (ident 9 "c")])]

/-- It is such a program, it has three arms, and with reportLogic all of them have truthiness counts. -/
example : Calm mixed ∧ yields (run plain mixed) (fun _ c => c.b.map (·.2.length) == [3] && c.bT == none) = true ∧
    yields (run logic mixed) (fun _ c => c.b.map (·.2.length) == [3] && c.bT == some [(0, [0, 0, 0])]) = true := by
  refine ⟨?_, by decide +kernel, by decide +kernel⟩
  have h : (mixed.each.all fun m => (match initOf m with | some i => decide (i.kind ≠ .taggedTpl) | none => true) &&
      (Node.operands m).all fun e => e.any Kind.isLogical || !e.any fun k => !k.passive) = true := by decide +kernel
  intro m hm
  have h1 := List.all_eq_true.1 h m hm
  rw [Bool.and_eq_true] at h1
  constructor
  · intro i hi
    have := h1.1
    rw [hi] at this
    exact of_decide_eq_true this
  · intro e he
    have := List.all_eq_true.1 h1.2 e he
    rw [Bool.or_eq_true] at this
    exact this.imp_right fun h => by unfold Passive; simpa using h

/-- C48 fails: with reportLogic an operand without logical operators is not visited. The statement in the function of
`a && function () { g(); }` is not reported. -/
theorem C48_fails : ∃ (p q q' : Node) (c c' : SourceCoverage), run plain p = .ok (q, c) ∧ run logic p = .ok (q', c') ∧
    c.inner.statementMap.length = 2 ∧ c'.inner.statementMap.length = 1 ∧
    c.inner.fnMap.length = 1 ∧ c'.inner.fnMap.length = 0 := by
  have h1 : yields (run plain (Build.module [expr 2 (bin 3 .and (ident 4 "a") (mk .fnExpr (at' 5) [mk .none Span.dummy [], function 5 []
    (block 6 [expr 7 (call 8 (ident 9 "g") [])])]))])) (fun _ c => c.statementMap.length == 2 && c.fnMap.length == 1) = true := by
    decide +kernel
  have h2 : yields (run logic (Build.module [expr 2 (bin 3 .and (ident 4 "a") (mk .fnExpr (at' 5) [mk .none Span.dummy [], function 5 []
    (block 6 [expr 7 (call 8 (ident 9 "g") [])])]))])) (fun _ c => c.statementMap.length == 1 && c.fnMap.length == 0) = true := by
    decide +kernel
  obtain ⟨q, c, e1, g1⟩ := of_yields h1
  obtain ⟨q', c', e2, g2⟩ := of_yields h2
  simp only [Bool.and_eq_true, beq_iff_eq] at g1 g2
  exact ⟨_, q, q', c, c', e1, e2, g1.1, g2.1, g1.2, g2.2⟩

/-- C48 fails: a tagged template that initialises a variable is visited twice, the second time with the truthiness wrappers in
it. With reportLogic `const x = tag`${a && b}`` has ten arms where there are two operands, those of the wrapper code. -/
theorem C48_tagged_fails : ∃ (p q q' : Node) (c c' : SourceCoverage), run plain p = .ok (q, c) ∧ run logic p = .ok (q', c') ∧
    c.inner.b.map (·.2.length) = [2, 2] ∧ c'.inner.b.map (·.2.length) = [2, 10] := by
  have h1 : yields (run plain (Build.module [decl 2 .const "x" (tagged 3 (ident 4 "tag") [bin 5 .and (ident 6 "a") (ident 7 "b")])]))
    (fun _ c => c.b.map (·.2.length) == [2, 2]) = true := by
    decide +kernel
  have h2 : yields (run logic (Build.module [decl 2 .const "x" (tagged 3 (ident 4 "tag") [bin 5 .and (ident 6 "a") (ident 7 "b")])]))
    (fun _ c => c.b.map (·.2.length) == [2, 10]) = true := by
    decide +kernel
  obtain ⟨q, c, e1, g1⟩ := of_yields h1
  obtain ⟨q', c', e2, g2⟩ := of_yields h2
  rw [beq_iff_eq] at g1 g2
  exact ⟨_, q, q', c, c', e1, e2, g1, g2⟩

end Verif
