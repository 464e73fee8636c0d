import Verif.Lemmas.Unsure
import Verif.Props.Braces
import Verif.Props.Thin
import Verif.Props.Goal
import Verif.Props.EmptyArm
import Verif.Props.Exchange
import Verif.Props.Variant
import Verif.Props.Core
import Verif.Props.Wrapper
import Verif.Props.Reorder
import Verif.Props.Stricter
/-
C73 to C82 for programs in which initialisers have functions but no block in them: what else is listed as a statement is the same, in the
same order.
-/
namespace Verif
open Visitor Node Build

section
variable {cx : Ctx} {fuel fuel' : Nat} {path path' : String} {sm sm' : Option SourceMap} {w : Span → Option Span} {q : Span → Bool} {f : Node → Node}
  {items : List Node} {sp sp' : Span} {p p1 p2 : Node} {cov cov' : SourceCoverage}

/-- C75: with braces the same statements are listed in the same order, except for initialisers with functions but no block in them. -/
theorem C75_nearly_partial (hp : p.NoTaggedInits) (hc : p.CasesInSwitch) (hb : p.StmtsInBlocks) (hw : cx.Bare w)
    (hr : instrument cx fuel path sm p = .ok (p1, cov)) (hr' : instrument cx fuel' path' sm' (brace w p) = .ok (p2, cov')) :
    NearStatements cx p cov.inner cov'.inner :=
  near_statements hp hc (brace_untagged hp) (brace_casesInSwitch hc) (programOutline_brace hw hb) hr hr'

/-- C76: likewise without statements that nothing is counted in. -/
theorem C76_nearly_partial (hp : p.NoTaggedInits) (hc : p.CasesInSwitch) (hb : p.ListsInBlocks)
    (hr : instrument cx fuel path sm p = .ok (p1, cov)) (hr' : instrument cx fuel' path' sm' (thin q p) = .ok (p2, cov')) :
    NearStatements cx p cov.inner cov'.inner :=
  near_statements hp hc (thin_untagged hp) (thin_casesInSwitch hc) (programOutline_thin hb) hr hr'

/-- C78: likewise for a file as a script and as a module. -/
theorem C78_nearly_partial (hp : (mk .script sp items).NoTaggedInits) (hc : (mk .script sp items).CasesInSwitch)
    (hs : (mk .script sp items).IsScript) (hh : cx.HintsApply items) (hd : StringsDirect items)
    (hf : Hint.shouldIgnoreFile cx.cc cx.comments sp' = Hint.shouldIgnoreFile cx.cc cx.comments sp)
    (hr : instrument cx fuel path sm (mk .script sp items) = .ok (p1, cov))
    (hr' : instrument cx fuel' path' sm' (mk .module sp' items) = .ok (p2, cov')) :
    NearStatements cx (mk .script sp items) cov.inner cov'.inner :=
  near_statements hp hc (goal_untagged hp) (goal_casesInSwitch hc) (programOutline_goal hs hh hd hf) hr hr'

/-- C79: likewise with empty `else` and `finally` blocks. -/
theorem C79_nearly_partial (hp : p.NoTaggedInits) (hc : p.CasesInSwitch) (hb : p.StmtsInBlocks)
    (hr : instrument cx fuel path sm p = .ok (p1, cov)) (hr' : instrument cx fuel' path' sm' (rewrite (emptyArm w) p) = .ok (p2, cov')) :
    NearStatements cx p cov.inner cov'.inner :=
  near_statements hp hc (emptyArm_untagged hp) (emptyArm_casesInSwitch hc) (programOutline_emptyArm hb) hr hr'

/-- C80: likewise with other expressions in the places of those that nothing is counted in. -/
theorem C80_nearly_partial (hf : ∀ n, Exchange n (f n)) (hp : p.NoTaggedInits) (hc : p.CasesInSwitch) (hb : p.StmtsInBlocks)
    (hr : instrument cx fuel path sm p = .ok (p1, cov)) (hr' : instrument cx fuel' path' sm' (rewrite f p) = .ok (p2, cov')) :
    NearStatements cx p cov.inner cov'.inner :=
  near_statements hp hc (exchange_untagged hf hp) (exchange_casesInSwitch hf hc) (programOutline_exchange hf hb) hr hr'

/-- C81: likewise with other words. -/
theorem C81_nearly_partial (hf : ∀ n, Variant n (f n)) (hx : p.SparesExports f) (hp : p.NoTaggedInits) (hc : p.CasesInSwitch) (hb : p.StmtsInBlocks)
    (hr : instrument cx fuel path sm p = .ok (p1, cov)) (hr' : instrument cx fuel' path' sm' (rewrite f p) = .ok (p2, cov')) :
    NearStatements cx p cov.inner cov'.inner :=
  near_statements hp hc (variant_untagged hf hp) (variant_casesInSwitch hf hc) (programOutline_variant hf hb hx) hr hr'

/-- C82: likewise with other expressions around the same counted constructs. -/
theorem C82_nearly_partial (hf : ∀ n, Regroup cx n (f n)) (hp : p.NoTaggedInits) (hc : p.CasesInSwitch) (hb : p.StmtsInBlocks) (hx : p.SparesNames f)
    (hr : instrument cx fuel path sm p = .ok (p1, cov)) (hr' : instrument cx fuel' path' sm' (rewrite f p) = .ok (p2, cov')) :
    NearStatements cx p cov.inner cov'.inner :=
  near_statements hp hc (regroup_untagged hf hp) (regroup_casesInSwitch hf hc) (programOutline_regroup hf hb hx) hr hr'

/-- C77: the first statement is the wrapper, and the others are the same in the same order, except for initialisers with functions but no block in
them. -/
theorem C77_nearly_partial {w : Places} {params args : List Node} (hp : (mk .script sp items).NoTaggedInits)
    (hc : (mk .script sp items).CasesInSwitch) (hs : (mk .script sp items).IsScript) (hn : Clean (mk .script sp items)) (hh : cx.HintsApply items)
    (hi : Hint.shouldIgnoreFile cx.cc cx.comments sp = false) (hw : cx.Spares w) (ha : ∀ c ∈ params ++ args, c.traceless = true)
    (hr : instrument cx fuel path sm (mk .script sp items) = .ok (p1, cov))
    (hr' : instrument cx fuel' path' sm' (mk .script sp [wrapper w params args items]) = .ok (p2, cov')) :
    ∃ S S', (∀ id, cov.inner.statementMap.get id = S[id]?) ∧ (∀ id, cov'.inner.statementMap.get id = (cx.range w.stmt :: S')[id]?) ∧
      Nearly ((mk .script sp items).UnsureInit cx) S S' := by
  have ho := programOutline_wrapper hw (fun c h => ha c (List.mem_append_left _ h)) (fun c h => ha c (List.mem_append_right _ h)) hs hn hh hi
  obtain ⟨S, h1, h2⟩ := C72_statements_partial hp hc hr
  obtain ⟨S', h3, h4⟩ := C72_statements_partial (wrapper_untagged ha hp) (wrapper_casesInSwitch ha hc) hr'
  rw [ho] at h3
  replace h3 : Picks ((cx.range w.stmt, true) :: Entry.statements (programOutline cx (mk .script sp items))) S' := h3
  cases h3 with
  | take h3 => exact ⟨S, _, h2, h4, h1.nearly h3 fun r h => unsure_program h⟩

/-- C74: what is no initialiser with functions but no block in it is listed as often after the items are reordered. -/
theorem C74_nearly_partial {p' : Node} (hp : p.NoTaggedInits) (hc : p.CasesInSwitch) (ho : p.Reordered p')
    (hf : Hint.shouldIgnoreFile cx.cc cx.comments p.span = false) (hf' : Hint.shouldIgnoreFile cx.cc cx.comments p'.span = false)
    (hr : instrument cx fuel path sm p = .ok (p1, cov)) (hr' : instrument cx fuel' path' sm' p' = .ok (p2, cov')) :
    ∃ S S' : List Range, (∀ id, cov.inner.statementMap.get id = S[id]?) ∧ (∀ id, cov'.inner.statementMap.get id = S'[id]?) ∧
      ∀ r, ¬p.UnsureInit cx r → S'.count r = S.count r := by
  have h : (Entry.statements (programOutline cx p')).Perm (Entry.statements (programOutline cx p)) := by
    rw [Entry.statements_eq_filterMap, Entry.statements_eq_filterMap]
    exact (programOutline_perm ho hf hf').filterMap _
  obtain ⟨S, h1, h2⟩ := C72_statements_partial hp hc hr
  obtain ⟨S', h3, h4⟩ := C72_statements_partial (untagged_perm ho hp) (casesInSwitch_perm ho hc) hr'
  refine ⟨S, S', h2, h4, fun r hn => ?_⟩
  have hu : (r, false) ∉ Entry.statements (programOutline cx p) := fun hm => hn (unsure_program hm)
  rw [h1.count hu, h3.count fun hm => hu (h.mem_iff.1 hm), (h.map Prod.fst).count_eq]

/-- C73: each statement of the report with more excluded is one of the other report, or an initialiser with functions but no block in it. -/
theorem C73_nearly_partial {cx' : Ctx} (hp : p.NoTaggedInits) (hc : p.CasesInSwitch) (hx : cx.Stricter cx')
    (hr : instrument cx fuel path sm p = .ok (p1, cov)) (hr' : instrument cx' fuel' path' sm' p = .ok (p2, cov')) (id : Nat) (r : Range)
    (hs : cov'.inner.statementMap.get id = some r) : (∃ id', cov.inner.statementMap.get id' = some r) ∨ p.UnsureInit cx r :=
  (C73_statements_partial hp hc hx hr hr' id r hs).imp _root_.id unsure_program

end

/-- `b; if (a) var f = () => 1; c;` -/
private def unsureSource : Node := Build.script [expr 6 (ident 7 "b"),
  mk .ifStmt (at' 1) [ident 2 "a", decl 3 .var "f" (arrow 4 (num 5 "1")), mk .none Span.dummy []], expr 8 (ident 9 "c")]

/-- With braces the initialiser is not listed any more, and only that. -/
example : ∃ p1 p2 cov cov', run plain unsureSource = .ok (p1, cov) ∧ run plain (brace (fun sp => some ⟨sp.lo + 40, sp.hi + 40⟩) unsureSource) = .ok (p2, cov') ∧
    NearStatements plain unsureSource cov.inner cov'.inner ∧ cov.inner.statementMap.length = 5 ∧ cov'.inner.statementMap.length = 4 := by
  have h1 : yields (run plain unsureSource) (fun _ r => decide (r.statementMap.length = 5)) = true := by decide +kernel
  have h2 : yields (run plain (brace (fun sp => some ⟨sp.lo + 40, sp.hi + 40⟩) unsureSource)) (fun _ r => decide (r.statementMap.length = 4)) = true := by
    decide +kernel
  obtain ⟨p1, cov, e1, h1⟩ := of_yields h1
  obtain ⟨p2, cov', e2, h2⟩ := of_yields h2
  exact ⟨p1, p2, cov, cov', e1, e2, C75_nearly_partial (by unfold NoTaggedInits; decide +kernel) (by unfold CasesInSwitch; decide +kernel)
    (by unfold StmtsInBlocks; decide +kernel) ⟨nofun, fun _ _ _ => nofun⟩ e1 e2, of_decide_eq_true h1, of_decide_eq_true h2⟩

end Verif
