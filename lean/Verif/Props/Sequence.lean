import Verif.Lemmas.Sequence
import Verif.Spec.Build
import Verif.Spec.Instrumented
/-
C69: ids follow the order of the source.
-/
namespace Verif
open Visitor Node Build

variable {cx : Ctx} {fuel : Nat} {path : String} {sm : Option SourceMap} {p p' : Node} {cov : SourceCoverage}

/-- C69. Of two entries of a table the one with the smaller id does not start later in the source. It is partial because of the parts
that are visited out of order or twice (`Orderly`), and because of entries that are not made in the order of the source (`AsWritten`). -/
theorem C69_order_partial (t : Table) (hpos : ∀ a b, a ≤ b → (cx.pos a).NotAfter (cx.pos b)) (hw : p.AsWritten t) (ho : p.Orderly t)
    (hr : instrument cx fuel path sm p = .ok (p', cov)) : cov.inner.InOrder t :=
  (Sequence.instrument_sorted hpos hw ho hr).inOrder

/-- `function f() { a() ? b : c; } var x = () => { f(); };` -/
private def inOrder : Node := Build.module
  [mk .fnDecl (at' 2) [ident 3 "f", function 2 [] (block 4 [expr 5 (cond 5 (call 5 (ident 5 "a") []) (ident 6 "b") (ident 7 "c"))])],
    decl 8 .var "x" (arrow 9 (block 10 [expr 11 (call 11 (ident 11 "f") [])]))]

/-- The conditions hold for it, and there are several entries in the tables of statements and functions. -/
example : (∀ t ∈ [Table.s, .f, .b], inOrder.AsWritten t ∧ inOrder.Orderly t) ∧
    (∀ a b, a ≤ b → (plain.pos a).NotAfter (plain.pos b)) ∧
    yields (run plain inOrder) (fun _ r => decide ((r.shown .s).length = 3 ∧ (r.shown .f).length = 2 ∧ (r.shown .b).length = 1)) = true := by
  refine ⟨by unfold AsWritten Orderly; decide +kernel, fun a b h => ?_, by decide +kernel⟩
  · rcases Nat.lt_or_eq_of_le h with h | rfl
    · exact .inl h
    · exact .inr ⟨rfl, Nat.le_refl _⟩

/-- Two entries in the wrong order. -/
private def wrong (r : FileCoverage) (t : Table) (i j : Nat × Range) : Bool :=
  decide (i ∈ r.shown t ∧ j ∈ r.shown t ∧ i.1 < j.1 ∧ i.2 ≠ Range.zero ∧ j.2 ≠ Range.zero ∧ j.2.start.line < i.2.start.line)

private theorem not_inOrder {r : FileCoverage} {t : Table} {i j : Nat × Range} (h : wrong r t i j = true) : ¬r.InOrder t := by
  intro hr
  obtain ⟨h1, h2, h3, h4, h5, h6⟩ := of_decide_eq_true h
  rcases hr i h1 j h2 h3 h4 h5 with h | ⟨h, _⟩ <;> omega

/-- C69 fails for the test of `if`: in `if (f(() => { a(); })) { b(); }` the statement `b();` comes before `a();`. -/
theorem C69_test_fails : ∃ p p' cov, Clean p ∧ p.Ascending ∧ run plain p = .ok (p', cov) ∧ ¬cov.inner.InOrder .s := by
  have h : yields (run plain (Build.module [mk .ifStmt (at' 2) [call 3 (ident 3 "f") [arrow 4 (block 5 [expr 6 (call 6 (ident 6 "a") [])])],
      block 7 [expr 8 (call 8 (ident 8 "b") [])], absent]])) (fun _ r => wrong r .s (1, plain.range (at' 8)) (2, plain.range (at' 6))) = true := by
    decide +kernel
  obtain ⟨p', cov, h1, h2⟩ := of_yields h
  exact ⟨_, p', cov, by unfold Clean; decide +kernel, by unfold Ascending; decide +kernel, h1, not_inOrder h2⟩

/-- C69 fails for the pattern of a declaration: in `var { x = () => 1 } = y;` the initialiser comes before the arrow function's `1`. -/
theorem C69_pattern_fails : ∃ p p' cov, Clean p ∧ p.Ascending ∧ run plain p = .ok (p', cov) ∧ ¬cov.inner.InOrder .s := by
  have h : yields (run plain (Build.module [mk (.varDecl .var) (at' 2) [mk .varDeclarator (at' 3)
      [mk (.other .misc "ObjectPat") (at' 3) [mk .assignPat (at' 4) [ident 4 "x", arrow 5 (num 6 "1")]], ident 7 "y"]]]))
      (fun _ r => wrong r .s (0, plain.range (at' 7)) (1, plain.range (at' 6))) = true := by
    decide +kernel
  obtain ⟨p', cov, h1, h2⟩ := of_yields h
  exact ⟨_, p', cov, by unfold Clean; decide +kernel, by unfold Ascending; decide +kernel, h1, not_inOrder h2⟩

/-- C69 fails for initialisers that are tagged templates, which are visited twice: in ``var x = f`${() => 1}${() => 2}`;`` the first
function is visited a second time after the second one. -/
theorem C69_tagged_fails : ∃ p p' cov, Clean p ∧ p.Ascending ∧ run plain p = .ok (p', cov) ∧ ¬cov.inner.InOrder .f := by
  have h : yields (run plain (Build.module [decl 2 .var "x" (tagged 3 (ident 3 "f") [arrow 4 (num 5 "1"), arrow 6 (num 7 "2")])]))
      (fun _ r => wrong r .f (1, plain.range (at' 6)) (2, plain.range (at' 4))) = true := by
    decide +kernel
  obtain ⟨p', cov, h1, h2⟩ := of_yields h
  exact ⟨_, p', cov, by unfold Clean; decide +kernel, by unfold Ascending; decide +kernel, h1, not_inOrder h2⟩

end Verif
