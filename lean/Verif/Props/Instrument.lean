import Verif.Lemmas.Outcome
import Verif.Lemmas.StepsNames
import Verif.Spec.Build
/-
C17, C18, C19, C20, C35, C40: counters of the emitted program and entries of the emitted coverage data.

Throughout, `instrument cx fuel path sm p = .ok (p', cov)` says that instrumenting program `p` ends with
program `p'` and coverage data `cov.inner`; `Clean p` says that `p` contains no injected nodes.
-/
namespace Verif
open Node RegOp Visitor Build

/-- A program with most constructs, for the examples:
```
"use strict";
function f(a = 1) { if (a && b || c) return a ? 1 : 2; else x; }
const g = () => f``;
switch (x) { case 1: f(); break; }
for (;;) y; class { p = 1; m() { z; } }
``` -/
def sample : Node := Build.module [
  expr 1 (mk (.strLit "use strict") (at' 1) []),
  fnDecl 2 "f" [mk .assignPat (at' 3) [ident 3 "a", num 4 "1"]] [
    mk .ifStmt (at' 5) [bin 6 .or (bin 6 .and (ident 6 "a") (ident 7 "b")) (ident 8 "c"),
      mk .returnStmt (at' 9) [cond 10 (ident 10 "a") (num 11 "1") (num 12 "2")],
      expr 13 (ident 13 "x")]],
  decl 14 .const "g" (arrow 15 (tagged 16 (ident 16 "f") [])),
  mk .switchStmt (at' 17) [ident 17 "x", mk .switchCase (at' 18) [num 18 "1",
    expr 19 (call 19 (ident 19 "f") []), mk .breakStmt (at' 20) [absent]]],
  mk (.loop .for) (at' 21) [absent, absent, absent, expr 22 (ident 22 "y")],
  mk .classDecl (at' 23) [ident 23 "C", mk (.other .misc "Class") (at' 23)
    [mk .classProp (at' 24) [mk (.propIdent "p") (at' 24) [], num 25 "1", mk .list Span.dummy []],
     mk .classMethod (at' 26) [mk (.propIdent "m") (at' 26) [], function 27 [] (block 27 [expr 28 (ident 28 "z")])]]]]

/-- The context with truthiness reporting. -/
def logic : Ctx := { plain with reportLogic := true }

/-- The sample meets the hypotheses: it is a clean program, its instrumentation succeeds and places all
four kinds of counters. -/
theorem sample_clean : Clean sample := by unfold Clean; decide +kernel

/-- The counters of the instrumented sample. -/
theorem sample_runs : ∃ p' cov, run plain sample = .ok (p', cov) ∧
    p'.sites = [.b 0 0, .f 0, .s 0, .b 3 0, .b 3 1, .b 3 2, .b 1 0, .s 1, .b 2 0, .b 2 1, .b 1 1, .s 2, .s 3,
      .f 1, .s 4, .s 5, .s 6, .b 4 0, .s 7, .s 8, .s 9, .s 10, .s 11, .f 2, .s 12] := by
  have h : yields (run plain sample) (fun p' _ => decide (p'.sites = [.b 0 0, .f 0, .s 0, .b 3 0, .b 3 1,
      .b 3 2, .b 1 0, .s 1, .b 2 0, .b 2 1, .b 1 1, .s 2, .s 3, .f 1, .s 4, .s 5, .s 6, .b 4 0, .s 7, .s 8,
      .s 9, .s 10, .s 11, .f 2, .s 12])) = true := by decide +kernel
  obtain ⟨p', cov, h1, h2⟩ := of_yields h
  exact ⟨p', cov, h1, of_decide_eq_true h2⟩

section
variable {cx : Ctx} {fuel : Nat} {path : String} {sm : Option SourceMap} {p p' : Node} {cov : SourceCoverage}

/-! ### C17 -/

/-- C17 for statement, function and branch counters: each refers to a cell of the emitted coverage data,
which starts at zero. -/
theorem C17_counters_exist (hp : Clean p) (hr : instrument cx fuel path sm p = .ok (p', cov))
    (c : Counter) (hc : c ∈ p'.sites) (ht : c.isTruth = false) : c.cell cov.inner = some 0 := by
  obtain ⟨n, h, o⟩ := outcome hr
  have h1 := o.count_le hp c ht
  have h2 : 0 < p'.sites.count c := List.count_pos_iff.2 hc
  rw [o.finished.cell c ht]
  have h3 : has h c = true := by
    unfold total at h1
    split at h1
    · assumption
    · omega
  rw [if_pos h3]

/-- C17, partial: no counter dangles, provided the program has no default values (or truthiness is not
reported). Missing: truthiness counters of default values, which do dangle (`C17_refuted`). -/
theorem C17_no_dangling_partial (hp : Clean p) (hr : instrument cx fuel path sm p = .ok (p', cov))
    (hd : cx.reportLogic = false ∨ p.any (· = .assignPat) = false)
    (c : Counter) (hc : c ∈ p'.sites) : c.cell cov.inner = some 0 := by
  cases ht : c.isTruth with
  | false => exact C17_counters_exist hp hr c hc ht
  | true =>
    cases c with
    | bT i a =>
      obtain ⟨n, h, o⟩ := outcome hr
      have h1 := o.count_truth_le hp i a
      have h2 : 0 < p'.sites.count (.bT i a) := List.count_pos_iff.2 hc
      have h3 : has h (.b i a) = true := by
        unfold total at h1
        split at h1
        · assumption
        · omega
      have h4 : .bT i a ∈ n.sites := by rw [← List.count_pos_iff, ← o.sites_eq]; exact h2
      rcases o.steps.truth_mem i a (.inl h4) with h5 | ⟨h5, t, l, g, h6, h7⟩
      · rw [clean_sites hp] at h5
        rcases h5 with h5 | h5 <;> cases h5
      · rcases hd with hd | hd
        · rw [hd] at h5; cases h5
        · rcases h7 with ⟨rfl, rfl⟩ | rfl
          · rw [h5] at h6
            exact o.finished.truthCell i a h6 h3
          · have h8 := o.steps.no_defaultArg hd _ (List.mem_of_getElem? h6)
            rcases h8 with h8 | h8
            · cases h8
            · exact (h8 rfl).elim
    | _ => cases ht

/-- C17, full statement refuted: with truthiness reporting a default value gets a truthiness counter, but
there is no entry for it in the coverage data. The program is `function f(a = 1) { a; }`. -/
theorem C17_refuted : ∃ cx p p' cov, Clean p ∧ instrument cx 60 "/f.js" none p = .ok (p', cov) ∧
    ∃ c ∈ p'.sites, c.cell cov.inner = none := by
  have h : yields (run logic (Build.module [fnDecl 2 "f" [mk .assignPat (at' 3) [ident 3 "a", num 4 "1"]]
      [expr 5 (ident 5 "a")]])) (fun p' r => decide (.bT 0 0 ∈ p'.sites ∧ (Counter.bT 0 0).cell r = none)) = true := by
    decide +kernel
  obtain ⟨p', cov, h1, h2⟩ := of_yields h
  have h2 := of_decide_eq_true h2
  exact ⟨logic, _, p', cov, by unfold Clean; decide +kernel, h1, _, h2.1, h2.2⟩

/-! ### C18 -/

/-- C18: no counter occurs twice in the emitted program. -/
theorem C18_one_site (hp : Clean p) (hr : instrument cx fuel path sm p = .ok (p', cov)) :
    p'.sites.Nodup := by
  obtain ⟨n, h, o⟩ := outcome hr
  rw [List.nodup_iff_count]
  intro c
  cases c with
  | bT i a => exact Nat.le_trans (o.count_truth_le hp i a) (Outcome.total_le_one _ _)
  | _ => exact Nat.le_trans (o.count_le hp _ rfl) (Outcome.total_le_one _ _)

/-! ### C19 -/

/-- C19 for functions and branch arms: every one listed in the coverage data is counted at exactly one place
of the emitted program. -/
theorem C19_functions_and_arms_counted (hp : Clean p) (hr : instrument cx fuel path sm p = .ok (p', cov))
    (c : Counter) (hs : c.isStmt = false) (ht : c.isTruth = false) (hc : (c.cell cov.inner).isSome = true) :
    p'.sites.count c = 1 := by
  obtain ⟨n, h, o⟩ := outcome hr
  have h1 := o.steps.sites_eq c (.inr (by rintro i rfl; cases hs)) (by rintro i a rfl; cases ht)
  rw [clean_sites hp] at h1
  simp only [sitesList_nil, List.count_nil] at h1
  have h2 : total [] c = 0 := by cases c <;> rfl
  rw [o.finished.cell c ht] at hc
  rw [o.sites_eq]
  unfold total at h1
  split at hc
  · next h3 =>
    rw [if_pos h3] at h1
    unfold total at h2
    omega
  · cases hc

/-- C19, partial: every statement, function and arm listed in the coverage data is counted at exactly one
place, provided no switch head (discriminant or case test) asks for a statement counter, i.e. contains a
tagged template or a class field outside of nested statement lists.
Missing: such switch heads, for which the statement fails (`C19_refuted`). -/
theorem C19_all_counted_partial (hp : Clean p) (hq : p.quietSwitches = true)
    (hr : instrument cx fuel path sm p = .ok (p', cov))
    (c : Counter) (ht : c.isTruth = false) (hc : (c.cell cov.inner).isSome = true) :
    p'.sites.count c = 1 := by
  obtain ⟨n, h, o⟩ := outcome hr
  have h1 := o.steps.sites_eq c (.inl hq) (by rintro i a rfl; cases ht)
  rw [clean_sites hp] at h1
  simp only [sitesList_nil, List.count_nil] at h1
  have h2 : total [] c = 0 := by cases c <;> rfl
  rw [o.finished.cell c ht] at hc
  rw [o.sites_eq]
  unfold total at h1
  split at hc
  · next h3 =>
    rw [if_pos h3] at h1
    unfold total at h2
    omega
  · cases hc

/-- The sample has quiet switch heads. -/
example : sample.quietSwitches = true := by decide +kernel

/-- C19, full statement refuted: a tagged template in the head of a switch is listed as a statement but
never counted. The program is ``switch (f``) { }``. -/
theorem C19_refuted : ∃ p p' cov, Clean p ∧ instrument plain 60 "/f.js" none p = .ok (p', cov) ∧
    ∃ c : Counter, c.cell cov.inner = some 0 ∧ c ∉ p'.sites := by
  have h : yields (run plain (Build.module [mk .switchStmt (at' 2) [tagged 3 (ident 3 "f") []]]))
      (fun p' r => decide ((Counter.s 1).cell r = some 0 ∧ .s 1 ∉ p'.sites)) = true := by
    decide +kernel
  obtain ⟨p', cov, h1, h2⟩ := of_yields h
  have h2 := of_decide_eq_true h2
  exact ⟨_, p', cov, by unfold Clean; decide +kernel, h1, _, h2.1, h2.2⟩

/-! ### C20 -/

/-- C20: deleting the counters and the coverage function from the emitted program gives the original
program, up to the normal form of bodies: bodies of `if`, loops and `with` made blocks, a missing `else` made an
empty block, and arrow bodies `e` written `{ return e }`. -/
theorem C20_erase (hp : Clean p) (hr : instrument cx fuel path sm p = .ok (p', cov)) :
    p'.strip = p.norm := by
  obtain ⟨n, h, o⟩ := outcome hr
  rw [o.strip_eq, clean_strip hp]

/-- C20: nothing is added, dropped or duplicated among declarations, functions, classes, loops, `if`, `switch`,
`try` and so on: for each kind of node that occurs neither in counters nor in their wrappers, the emitted program has
as many nodes as the original. -/
theorem C20_counts (hr : instrument cx fuel path sm p = .ok (p', cov)) (k : Kind) (hk : k.added = false)
    (hi : k.injected = false) : p'.countKinds (· = k) = p.countKinds (· = k) := by
  obtain ⟨n, h, o⟩ := outcome hr
  have h1 : p'.countKinds (· = k) = n.countKinds (· = k) := by
    have hd : (Kind.covDecl = k) = False := by
      refine eq_false ?_
      rintro rfl; cases hi
    have hc : (Kind.covCall = k) = False := by
      refine eq_false ?_
      rintro rfl; cases hi
    rcases o.result with ⟨rfl, -⟩ | ⟨ht, -⟩
    · rfl
    · cases ht with
      | module sp items =>
        cases items with
        | nil => simp [insertModuleTemplates, countKinds_mk, countKindsList, hd, hc]
        | cons i items => simp [insertModuleTemplates, countKinds_mk, countKindsList, hd, hc]
      | script sp items => simp [countKinds_mk, countKindsList, hd, hc]
  rw [h1]
  refine o.steps.countKinds_eq fun k' hk' => ?_
  simp only [decide_eq_false_iff_not]
  rintro rfl
  rw [hk] at hk'; cases hk'

/-! ### C35 -/

/-- C35: all locations of the emitted coverage data are locations of the source, of the kind of node that
the entry is about. -/
theorem C35_locations (hr : instrument cx fuel path sm p = .ok (p', cov)) :
    (∀ id r, cov.inner.statementMap.get id = some r → StatementAt cx p r) ∧
    (∀ id f, cov.inner.fnMap.get id = some f → NodeAt cx p f.decl ∧ BodyAt cx p f.loc ∧
      f.line = f.loc.start.line) ∧
    (∀ id br, cov.inner.branchMap.get id = some br → (∃ l, br.loc = some l ∧
        BranchAt cx p br.branchType l ∧ br.line = some l.start.line) ∧
      ∀ a ∈ br.locations, ArmAt cx p br.branchType a) := by
  obtain ⟨n, h, o⟩ := outcome hr
  have hfrom : ∀ op ∈ h, op.From cx p h := fun op hop =>
    (o.steps.regs_from op hop).resolve_left (by simp)
  refine ⟨?_, ?_, ?_⟩
  · intro id r hid
    rw [o.finished.statementMap, get_numbered] at hid
    obtain ⟨l, hl, rfl⟩ := Option.map_eq_some_iff.1 hid
    have := List.mem_of_getElem? hl
    obtain ⟨op, h1, h2⟩ := List.mem_filterMap.1 this
    cases op <;> simp at h2
    subst h2
    exact hfrom _ h1
  · intro id f hid
    rw [o.finished.fnMap, get_numbered] at hid
    obtain ⟨x, hl, rfl⟩ := Option.map_eq_some_iff.1 hid
    have := List.mem_of_getElem? hl
    obtain ⟨op, h1, h2⟩ := List.mem_filterMap.1 this
    cases op <;> simp at h2
    subst h2
    have := hfrom _ h1
    exact ⟨this.1, this.2, rfl⟩
  · intro id br hid
    rw [o.finished.branchMap] at hid
    obtain ⟨x, hl, h0⟩ := Option.bind_eq_some_iff.1 hid
    split at h0
    · cases h0
    · cases h0
      refine ⟨⟨_, rfl, ?_, rfl⟩, ?_⟩
      · have := List.mem_of_getElem? hl
        obtain ⟨op, h1, h2⟩ := List.mem_filterMap.1 this
        cases op <;> simp at h2
        subst h2
        exact hfrom _ h1
      · intro a ha
        obtain ⟨op, h1, h2⟩ := List.mem_filterMap.1 ha
        cases op with
        | path k l =>
          simp at h2
          obtain ⟨rfl, rfl⟩ := h2
          obtain ⟨t, r, g, h3, h4⟩ := hfrom _ h1
          rw [hl] at h3
          cases h3
          exact h4
        | _ => simp at h2

/-! ### C40 -/

/-- C40: every function entry has the name of the function of the source whose body it locates; a function
without a name gets one made from its number. -/
theorem C40_names (hr : instrument cx fuel path sm p = .ok (p', cov)) (id : Nat) (f : Function)
    (hf : cov.inner.fnMap.get id = some f) :
    ∃ name, FunctionAt cx p name f.loc ∧ f.name = name.getD ("(anonymous_" ++ toString id ++ ")") := by
  obtain ⟨n, h, o⟩ := outcome hr
  rw [o.finished.fnMap, get_numbered] at hf
  obtain ⟨x, hl, rfl⟩ := Option.map_eq_some_iff.1 hf
  obtain ⟨op, h1, h2⟩ := List.mem_filterMap.1 (List.mem_of_getElem? hl)
  cases op <;> simp at h2
  subst h2
  exact ⟨_, (o.steps.regs_named _ _ _ h1).resolve_left (by simp), rfl⟩

end

/-- The functions of the sample are called `f`, nothing, and `m`, and so they are in the report. -/
example : sample.fns = [(some "f", at' 2), (none, at' 16), (some "m", at' 27)] ∧
    ∃ p' cov, run plain sample = .ok (p', cov) ∧
      cov.inner.fnMap.values.map (·.name) = ["f", "(anonymous_1)", "m"] := by
  refine ⟨by decide +kernel, ?_⟩
  have h : yields (run plain sample) (fun _ cov => decide (cov.fnMap.values.map (·.name)
      = ["f", "(anonymous_1)", "m"])) = true := by decide +kernel
  obtain ⟨p', cov, h1, h2⟩ := of_yields h
  exact ⟨p', cov, h1, of_decide_eq_true h2⟩

end Verif
