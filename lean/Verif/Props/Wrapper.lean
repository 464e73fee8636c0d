import Verif.Lemmas.Wrapper
import Verif.Props.Outline
import Verif.Spec.Build
/-
C77: a script in a function that is called at once has the report of the script, with a statement and a function before its own.
-/
namespace Verif
open Visitor Node Build

section
variable {cx : Ctx} {fuel fuel' : Nat} {path path' : String} {sm sm' : Option SourceMap} {w : Places} {params args items : List Node} {sp : Span}
  {p1 p2 : Node} {cov cov' : SourceCoverage}

/-- C77 for branches: in a wrapper a script has the same branches with the same arms under the same numbers. -/
theorem C77_branches_partial (hp : (mk .script sp items).NoTaggedInits) (hc : (mk .script sp items).CasesInSwitch) (hs : (mk .script sp items).IsScript)
    (hn : Clean (mk .script sp items)) (hh : cx.HintsApply items) (hi : Hint.shouldIgnoreFile cx.cc cx.comments sp = false) (hw : cx.Spares w)
    (ha : ∀ c ∈ params ++ args, c.traceless = true) (hr : instrument cx fuel path sm (mk .script sp items) = .ok (p1, cov))
    (hr' : instrument cx fuel' path' sm' (mk .script sp [wrapper w params args items]) = .ok (p2, cov')) (id : Nat) :
    cov'.inner.branchMap.get id = cov.inner.branchMap.get id := by
  rw [C72_branches_partial (wrapper_untagged ha hp) (wrapper_casesInSwitch ha hc) hr', C72_branches_partial hp hc hr,
    programOutline_wrapper hw (fun c h => ha c (List.mem_append_left _ h)) (fun c h => ha c (List.mem_append_right _ h)) hs hn hh hi]
  rfl

/-- C77 for functions: the first is the wrapper, and the others have their numbers increased by one. -/
theorem C77_functions_partial (hp : (mk .script sp items).NoTaggedInits) (hc : (mk .script sp items).CasesInSwitch) (hs : (mk .script sp items).IsScript)
    (hn : Clean (mk .script sp items)) (hh : cx.HintsApply items) (hi : Hint.shouldIgnoreFile cx.cc cx.comments sp = false) (hw : cx.Spares w)
    (ha : ∀ c ∈ params ++ args, c.traceless = true) (hr : instrument cx fuel path sm (mk .script sp items) = .ok (p1, cov))
    (hr' : instrument cx fuel' path' sm' (mk .script sp [wrapper w params args items]) = .ok (p2, cov')) :
    cov'.inner.fnMap.get 0 = some ⟨"(anonymous_0)", cx.range w.function, cx.range w.body, (cx.range w.body).start.line⟩ ∧
    ∀ id, (cov'.inner.fnMap.get (id + 1) = none ∧ cov.inner.fnMap.get id = none) ∨
      ∃ fn' fn, cov'.inner.fnMap.get (id + 1) = some fn' ∧ cov.inner.fnMap.get id = some fn ∧ fn'.decl = fn.decl ∧ fn'.loc = fn.loc ∧
        fn'.line = fn.line ∧ SameName id (id + 1) fn fn' := by
  have ho := programOutline_wrapper hw (fun c h => ha c (List.mem_append_left _ h)) (fun c h => ha c (List.mem_append_right _ h)) hs hn hh hi
  refine ⟨?_, fun id => ?_⟩
  · rw [C72_functions_partial (wrapper_untagged ha hp) (wrapper_casesInSwitch ha hc) hr', ho]
    rfl
  · rw [C72_functions_partial (wrapper_untagged ha hp) (wrapper_casesInSwitch ha hc) hr', C72_functions_partial hp hc hr, ho, functions_heads, functions_heads]
    show ((Entry.heads (programOutline cx (mk .script sp items)))[id]?.map _ = none ∧ _) ∨ ∃ fn' fn,
      (Entry.heads (programOutline cx (mk .script sp items)))[id]?.map _ = some fn' ∧ _
    cases (Entry.heads (programOutline cx (mk .script sp items)))[id]? with
    | none => exact .inl ⟨rfl, rfl⟩
    | some d =>
      refine .inr ⟨_, _, rfl, rfl, rfl, rfl, rfl, ?_⟩
      obtain ⟨name, d⟩ := d
      cases name with
      | some x => exact .inl rfl
      | none => exact .inr ⟨by rw [Nat.zero_add]; rfl, by rw [Nat.zero_add]; rfl⟩

/-- C77 for statements, if no initialiser has functions but no block in it: the first is the wrapper, and the others have their numbers increased by
one. -/
theorem C77_statements_partial (hp : (mk .script sp items).NoTaggedInits) (hc : (mk .script sp items).CasesInSwitch)
    (hs : (mk .script sp items).IsScript) (hn : Clean (mk .script sp items)) (hh : cx.HintsApply items)
    (hi : Hint.shouldIgnoreFile cx.cc cx.comments sp = false) (hw : cx.Spares w) (ha : ∀ c ∈ params ++ args, c.traceless = true)
    (hu : ∀ e ∈ Entry.statements (programOutline cx (mk .script sp items)), e.2 = true)
    (hr : instrument cx fuel path sm (mk .script sp items) = .ok (p1, cov))
    (hr' : instrument cx fuel' path' sm' (mk .script sp [wrapper w params args items]) = .ok (p2, cov')) :
    cov'.inner.statementMap.get 0 = some (cx.range w.stmt) ∧ ∀ id, cov'.inner.statementMap.get (id + 1) = cov.inner.statementMap.get id := by
  have ho := programOutline_wrapper hw (fun c h => ha c (List.mem_append_left _ h)) (fun c h => ha c (List.mem_append_right _ h)) hs hn hh hi
  have hu' : ∀ e ∈ Entry.statements (programOutline cx (mk .script sp [wrapper w params args items])), e.2 = true := by
    rw [ho]
    intro e he
    replace he : e ∈ (cx.range w.stmt, true) :: Entry.statements (programOutline cx (mk .script sp items)) := he
    rcases List.mem_cons.1 he with rfl | he
    · rfl
    · exact hu e he
  refine ⟨?_, fun id => ?_⟩
  · rw [C72_sure_partial (wrapper_untagged ha hp) (wrapper_casesInSwitch ha hc) hu' hr', ho]
    rfl
  · rw [C72_sure_partial (wrapper_untagged ha hp) (wrapper_casesInSwitch ha hc) hu' hr', C72_sure_partial hp hc hu hr, ho]
    rfl

end

/-- `a || b; function f() { return () => c; } debugger;` -/
private def looseItems : List Node := [expr 1 (bin 2 .or (ident 3 "a") (ident 4 "b")),
  fnDecl 5 "f" [] [mk .returnStmt (at' 6) [arrow 7 (ident 8 "c")]], mk .debugger (at' 9) []]

private def loosePlaces : Places := ⟨at' 20, at' 21, at' 22, at' 23, at' 24, at' 25⟩

/-- `(function (x) { a || b; function f() { return () => c; } debugger; })(y);` has a statement and a function more than the script in it, and the
function that was number 1 is number 2 and called after it. -/
example : (mk .script ⟨1, 1000⟩ looseItems).NoTaggedInits ∧ (mk .script ⟨1, 1000⟩ looseItems).CasesInSwitch ∧
    (mk .script ⟨1, 1000⟩ looseItems).IsScript ∧ Clean (mk .script ⟨1, 1000⟩ looseItems) ∧ plain.HintsApply looseItems ∧ plain.Spares loosePlaces ∧
    (∀ e ∈ Entry.statements (programOutline plain (mk .script ⟨1, 1000⟩ looseItems)), e.2 = true) ∧
    yields (run plain (mk .script ⟨1, 1000⟩ looseItems)) (fun _ r => decide (r.statementMap.length = 3) && decide (r.fnMap.length = 2) &&
      decide ((r.fnMap.get 1).map (·.name) = some "(anonymous_1)")) = true ∧
    yields (run plain (mk .script ⟨1, 1000⟩ [wrapper loosePlaces [ident 30 "x"] [ident 31 "y"] looseItems])) (fun _ r =>
      decide (r.statementMap.length = 4) && decide (r.fnMap.length = 3) && decide ((r.fnMap.get 2).map (·.name) = some "(anonymous_2)")) = true :=
  ⟨by unfold NoTaggedInits; decide +kernel, by unfold CasesInSwitch; decide +kernel, by unfold IsScript; decide +kernel,
    by unfold Clean; decide +kernel, by unfold Ctx.HintsApply; decide +kernel, ⟨nofun, nofun, nofun⟩, by decide +kernel, by decide +kernel,
    by decide +kernel⟩

/-- `/* istanbul ignore next */ enum E { x = a || b }` -/
private def hintedEnum : Node := mk (.other .stmt "TsEnum") (at' 5) [ident 6 "E", bin 7 .or (ident 8 "a") (ident 9 "b")]

/-- C77 fails for hints before other statements: the branch in the initialiser of an enumeration with a hint before it is reported, but not if the
script is in a wrapper. -/
theorem C77_hint_fails : ∃ (cx : Ctx) (w : Places) (s : Node) (p1 p2 : Node) (cov cov' : SourceCoverage), Clean s ∧ cx.Spares w ∧
    run cx (mk .script ⟨1, 1000⟩ [s]) = .ok (p1, cov) ∧ run cx (mk .script ⟨1, 1000⟩ [wrapper w [] [] [s]]) = .ok (p2, cov') ∧
    cov.inner.branchMap.length = 1 ∧ cov'.inner.branchMap.length = 0 := by
  have h1 : yields (run (hinted 5 "istanbul ignore next") (mk .script ⟨1, 1000⟩ [hintedEnum])) (fun _ r => decide (r.branchMap.length = 1)) = true := by
    decide +kernel
  have h2 : yields (run (hinted 5 "istanbul ignore next") (mk .script ⟨1, 1000⟩ [wrapper loosePlaces [] [] [hintedEnum]]))
      (fun _ r => decide (r.branchMap.length = 0)) = true := by
    decide +kernel
  obtain ⟨p1, cov, e1, h1⟩ := of_yields h1
  obtain ⟨p2, cov', e2, h2⟩ := of_yields h2
  exact ⟨hinted 5 "istanbul ignore next", loosePlaces, hintedEnum, p1, p2, cov, cov', by unfold Clean; decide +kernel,
    by unfold Ctx.Spares; decide +kernel, e1, e2, of_decide_eq_true h1, of_decide_eq_true h2⟩

/-- C77 fails for statements: the initialiser of `const f = () => 1` is a statement of the report, but not if the script is in a wrapper. -/
theorem C77_initialiser_fails : ∃ (w : Places) (s : Node) (r : Range) (p1 p2 : Node) (cov cov' : SourceCoverage), Clean s ∧ plain.Spares w ∧
    run plain (mk .script ⟨1, 1000⟩ [s]) = .ok (p1, cov) ∧ run plain (mk .script ⟨1, 1000⟩ [wrapper w [] [] [s]]) = .ok (p2, cov') ∧
    r ∈ cov.inner.statementMap.values ∧ r ∉ cov'.inner.statementMap.values := by
  have h1 : yields (run plain (mk .script ⟨1, 1000⟩ [decl 1 .const "f" (arrow 2 (num 3 "1"))]))
      (fun _ r => decide (plain.range (at' 2) ∈ r.statementMap.values)) = true := by
    decide +kernel
  have h2 : yields (run plain (mk .script ⟨1, 1000⟩ [wrapper loosePlaces [] [] [decl 1 .const "f" (arrow 2 (num 3 "1"))]]))
      (fun _ r => decide (plain.range (at' 2) ∉ r.statementMap.values)) = true := by
    decide +kernel
  obtain ⟨p1, cov, e1, h1⟩ := of_yields h1
  obtain ⟨p2, cov', e2, h2⟩ := of_yields h2
  exact ⟨loosePlaces, decl 1 .const "f" (arrow 2 (num 3 "1")), plain.range (at' 2), p1, p2, cov, cov', by unfold Clean; decide +kernel,
    by unfold Ctx.Spares; decide +kernel, e1, e2, of_decide_eq_true h1, of_decide_eq_true h2⟩

end Verif
