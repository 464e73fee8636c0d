import Verif.Lemmas.VeilProgram
import Verif.Props.Total
/-
C65: what ignored code has to do with the rest.
-/
namespace Verif
open Node Visitor Build

/-- C65, partial: two programs that are the same except inside constructs with an ignore-next hint have the same coverage data, and
are instrumented alike: to programs that are the same except inside these constructs. Missing: hinted blocks, which are not left out if
they belong to another statement (`C23_arm_fails`); logical expressions in ignored code inside of operands and default values
(`C65_operand_fails`); ignored code without blocks inside of initialisers (`C65_initialiser_fails`). -/
theorem C65_report_partial {cx : Ctx} {fuel fuel' : Nat} {path : String} {sm : Option SourceMap} {p q p' q' : Node} {cov cov' : SourceCoverage}
    (hpq : Veiled cx p q) (h : instrument cx fuel path sm p = .ok (p', cov)) (h' : instrument cx fuel' path sm q = .ok (q', cov')) :
    cov' = cov ∧ Veiled cx p' q' := by
  obtain ⟨rfl, h1⟩ := Veil.instrument hpq h h'
  exact ⟨rfl, h1⟩

/-- C65, partial: if the second program has bodies for all functions then it is instrumented, with the coverage data of the first.
Missing: as for `C65_report_partial`. -/
theorem C65_same_partial {cx : Ctx} {fuel : Nat} {path : String} {sm : Option SourceMap} {p q p' : Node} {cov : SourceCoverage}
    (hpq : Veiled cx p q) (hq : q.bodied = true) (h : instrument cx fuel path sm p = .ok (p', cov)) :
    ∃ F q', Veiled cx p' q' ∧ ∀ fuel', F ≤ fuel' → instrument cx fuel' path sm q = .ok (q', cov) := by
  obtain ⟨F, q', cov', h1⟩ := C36_ends cx path sm q hq
  obtain ⟨rfl, h2⟩ := C65_report_partial hpq h (h1 F (Nat.le_refl F))
  exact ⟨F, q', h2, h1⟩

namespace VeilEx

/-- The comment of the examples leads position 7. -/
def cx : Ctx := hinted 7 " istanbul ignore next "

/-- `if (x) f(); /* istanbul ignore next */ function g() { ss }` -/
def twoItems (ss : List Node) : Node := Build.module [mk .ifStmt (at' 2) [ident 2 "x", expr 3 (call 3 (ident 3 "f") []), absent], fnDecl 7 "g" [] ss]

/-- `a ? h() : b` and a tagged template. -/
def ignoredCode : List Node := [expr 9 (cond 9 (ident 9 "a") (call 10 (ident 10 "h") []) (ident 11 "b")), expr 12 (tagged 12 (ident 12 "t") [])]

theorem veiled : Veiled cx (twoItems []) (twoItems ignoredCode) := by
  refine .mk' (.cons (Veil.refl _ _ _) (.cons (.hinted ?_ nofun rfl rfl nofun nofun) .nil))
  decide +kernel

-- The two programs are different, and each of them has entries for a statement, its arm and the branch.
example : ∃ p' q' cov, run cx (twoItems []) = .ok (p', cov) ∧ run cx (twoItems ignoredCode) = .ok (q', cov) ∧
    counters p' = [.s 0, .b 0 0, .s 1, .b 0 1] ∧ counters q' = counters p' ∧ twoItems [] ≠ twoItems ignoredCode := by
  have h : yields (run cx (twoItems [])) (fun p' _ => decide (counters p' = [.s 0, .b 0 0, .s 1, .b 0 1])) = true := by decide +kernel
  have h' : yields (run cx (twoItems ignoredCode)) (fun p' _ => decide (counters p' = [.s 0, .b 0 0, .s 1, .b 0 1])) = true := by decide +kernel
  obtain ⟨p', cov, h1, h2⟩ := of_yields h
  obtain ⟨q', cov', h3, h4⟩ := of_yields h'
  obtain ⟨rfl, -⟩ := C65_report_partial veiled h1 h3
  refine ⟨p', q', _, h1, h3, of_decide_eq_true h2, (of_decide_eq_true h4).trans (of_decide_eq_true h2).symm, ?_⟩
  intro e
  simp [twoItems, fnDecl, Build.module, block, function, ignoredCode] at e

/-- `a || f(/* istanbul ignore next */ () => e)` -/
def operand (e : Node) : Node := Build.module [expr 1 (bin 2 .or (ident 3 "a") (call 4 (ident 5 "f") [arrow 7 e]))]

/-- `function g() { const x = [/* istanbul ignore next */ () => e]; }` -/
def initialiser (e : Node) : Node := Build.module [fnDecl 2 "g" [] [decl 3 .const "x" (mk (.other .expr "Array") (at' 4) [arrow 7 e])]]

/-- `if (a) /* istanbul ignore next */ { b; }` -/
def arm : Node := Build.module [mk .ifStmt (at' 2) [ident 2 "a", block 7 [expr 8 (ident 8 "b")], absent]]

end VeilEx

/-- C65 fails in operands: the second operand of `a || f(/* istanbul ignore next */ () => b)` has an arm in the report, and that of
`a || f(/* istanbul ignore next */ () => b && c)` does not, although only ignored code differs. -/
theorem C65_operand_fails : ∃ cx e e' p' q' cov cov', cx.hint (arrow 7 e).span = some .next ∧
    run cx (VeilEx.operand e) = .ok (p', cov) ∧ run cx (VeilEx.operand e') = .ok (q', cov') ∧
    cov.inner.branchMap.map (fun x => x.2.locations) = [[cx.range (at' 3), cx.range (at' 4)]] ∧
    cov'.inner.branchMap.map (fun x => x.2.locations) = [[cx.range (at' 3)]] := by
  have h : yields (run VeilEx.cx (VeilEx.operand (ident 8 "b"))) (fun _ r =>
      decide (r.branchMap.map (fun x => x.2.locations) = [[VeilEx.cx.range (at' 3), VeilEx.cx.range (at' 4)]])) = true := by decide +kernel
  have h' : yields (run VeilEx.cx (VeilEx.operand (bin 8 .and (ident 8 "b") (ident 9 "c")))) (fun _ r =>
      decide (r.branchMap.map (fun x => x.2.locations) = [[VeilEx.cx.range (at' 3)]])) = true := by decide +kernel
  obtain ⟨p', cov, h1, h2⟩ := of_yields h
  obtain ⟨q', cov', h3, h4⟩ := of_yields h'
  exact ⟨VeilEx.cx, _, _, p', q', cov, cov', by decide +kernel, h1, h3, of_decide_eq_true h2, of_decide_eq_true h4⟩

/-- C65 fails in initialisers: in a function the declaration `const x = [/* istanbul ignore next */ () => 1];` has no statement in the
report, and with `() => {}` instead it has one, although only ignored code differs. -/
theorem C65_initialiser_fails : ∃ cx e e' p' q' cov cov', cx.hint (arrow 7 e).span = some .next ∧
    run cx (VeilEx.initialiser e) = .ok (p', cov) ∧ run cx (VeilEx.initialiser e') = .ok (q', cov') ∧
    cov.inner.statementMap = [] ∧ cov'.inner.statementMap = [(0, cx.range (at' 4))] := by
  have h : yields (run VeilEx.cx (VeilEx.initialiser (num 8 "1"))) (fun _ r => decide (r.statementMap = [])) = true := by decide +kernel
  have h' : yields (run VeilEx.cx (VeilEx.initialiser (block 8 []))) (fun _ r =>
      decide (r.statementMap = [(0, VeilEx.cx.range (at' 4))])) = true := by decide +kernel
  obtain ⟨p', cov, h1, h2⟩ := of_yields h
  obtain ⟨q', cov', h3, h4⟩ := of_yields h'
  exact ⟨VeilEx.cx, _, _, p', q', cov, cov', by decide +kernel, h1, h3, of_decide_eq_true h2, of_decide_eq_true h4⟩

/-- C23 fails for blocks that are arms of `if`: in `if (a) /* istanbul ignore next */ { b; }` the block is hinted, and what is in it is
instrumented: the block has the counter of the arm and the counter of the statement `b;`, which is in the report. -/
theorem C23_arm_fails : ∃ cx p' cov, cx.hint (block 7 [expr 8 (ident 8 "b")]).span = some .next ∧
    run cx VeilEx.arm = .ok (p', cov) ∧ counters p' = [.s 0, .b 0 0, .s 1, .b 0 1] ∧
    cov.inner.statementMap = [(0, cx.range (at' 2)), (1, cx.range (at' 8))] := by
  have h : yields (run VeilEx.cx VeilEx.arm) (fun p' r => decide (counters p' = [.s 0, .b 0 0, .s 1, .b 0 1] ∧
      r.statementMap = [(0, VeilEx.cx.range (at' 2)), (1, VeilEx.cx.range (at' 8))])) = true := by decide +kernel
  obtain ⟨p', cov, h1, h2⟩ := of_yields h
  have h3 := of_decide_eq_true h2
  exact ⟨VeilEx.cx, p', cov, by decide +kernel, h1, h3.1, h3.2⟩

end Verif
