import Verif.Lemmas.Stricter
import Verif.Props.Outline
import Verif.Props.Hint
import Verif.Props.Runs
/-
C73: where more is excluded, less is reported.
-/
namespace Verif
open Visitor Node Build

/-! ### What excludes more -/

theorem findSome_withNext {cc : CharClasses} (hs : cc.Sane) {old new : List (List Char)} (h : WithNext cc old new) :
    new.findSome? (Hint.captureHint cc) = old.findSome? (Hint.captureHint cc) ∨
      new.findSome? (Hint.captureHint cc) = some IgnoreScope.next.word := by
  rcases h with rfl | ⟨a, text, b, rfl, rfl, ht⟩
  · exact .inl rfl
  · rw [List.findSome?_append, List.findSome?_append, List.findSome?_cons, (C27_comment_is_hint_iff cc hs text .next).2 ht]
    cases List.findSome? (Hint.captureHint cc) a with
    | none => exact .inr rfl
    | some x => exact .inl rfl

/-- C73. With more hints to ignore what comes next, more names, and maybe `reportLogic`, more is excluded. -/
theorem C73_stricter {cx cx' : Ctx} (hs : cx.cc.Sane) (hc : cx'.cc = cx.cc) (hp : cx'.pos = cx.pos)
    (hn : Comments.WithNext cx.cc cx.comments cx'.comments) (hm : ∀ m ∈ cx.ignoreMethods, m ∈ cx'.ignoreMethods)
    (hl : cx.reportLogic = true → cx'.reportLogic = true) : cx.Stricter cx' where
  pos := hp
  methods := hm
  logic := hl
  hint sp := by
    unfold Ctx.hint Hint.shouldIgnore Hint.lookup
    rw [hc]
    rcases findSome_withNext hs (hn.1 sp.hi) with h1 | h1
    · rw [h1]
      cases List.findSome? (Hint.captureHint cx.cc) (cx.comments.leading sp.hi) with
      | some x => exact .inl rfl
      | none =>
        rcases findSome_withNext hs (hn.1 sp.lo) with h2 | h2
        · rw [h2]
          exact .inl rfl
        · rw [h2]
          exact .inr rfl
    · rw [h1]
      exact .inr rfl
  file sp h := by
    have hx : ∀ q, (cx.comments.leading q).any (Hint.isFileHint cx.cc) = true → (cx'.comments.leading q).any (Hint.isFileHint cx.cc) = true := by
      intro q hq
      rw [List.any_eq_true] at hq ⊢
      obtain ⟨t, ht, hf⟩ := hq
      refine ⟨t, ?_, hf⟩
      rcases hn.1 q with e | ⟨a, x, b, e, e', -⟩
      · rw [e]; exact ht
      · rw [e'] ; rw [e] at ht
        rcases List.mem_append.1 ht with ht | ht
        · exact List.mem_append_left _ ht
        · exact List.mem_append_right _ (List.mem_cons_of_mem _ ht)
    unfold Hint.shouldIgnoreFile at h ⊢
    rw [hc, hn.2]
    simp only [List.any_cons, List.any_nil, Bool.or_eq_true, Bool.or_false] at h ⊢
    exact h.imp (hx _) fun h => h.imp (hx _) id

section
variable {cx cx' : Ctx} {fuel fuel' : Nat} {path path' : String} {sm sm' : Option SourceMap} {p p1 p2 : Node} {cov cov' : SourceCoverage}

/-! ### What is reported -/

/-- C73 for functions. Each function of the report with more excluded is one of the other report, with the same ranges and the same name, unless it
is called after its number. The order is the same, and no two are the same one. -/
theorem C73_functions_partial (hp : p.NoTaggedInits) (hc : p.CasesInSwitch) (hx : cx.Stricter cx')
    (hr : instrument cx fuel path sm p = .ok (p1, cov)) (hr' : instrument cx' fuel' path' sm' p = .ok (p2, cov')) :
    ∃ f : Nat → Nat, (∀ i j, i < j → f i < f j) ∧ ∀ id fn', cov'.inner.fnMap.get id = some fn' →
      ∃ fn, cov.inner.fnMap.get (f id) = some fn ∧ fn'.decl = fn.decl ∧ fn'.loc = fn.loc ∧ fn'.line = fn.line ∧ SameName (f id) id fn fn' := by
  obtain ⟨f, hf, h⟩ := (heads_less (programOutline_less hx p)).places
  refine ⟨f, hf, fun id fn' hfn => ?_⟩
  rw [C72_functions_partial hp hc hr', functions_heads] at hfn
  obtain ⟨d, hd, rfl⟩ := Option.map_eq_some_iff.1 hfn
  obtain ⟨d', hd', rfl⟩ := h id d hd
  have hg : cov.inner.fnMap.get (f id) = some ⟨d.1.getD ("(anonymous_" ++ toString (f id) ++ ")"), d.2.1, d.2.2, d.2.2.start.line⟩ := by
    rw [C72_functions_partial hp hc hr, functions_heads, hd', Nat.zero_add]
    rfl
  refine ⟨_, hg, rfl, rfl, rfl, ?_⟩
  obtain ⟨name, d⟩ := d
  cases name with
  | some x => exact .inl rfl
  | none => exact .inr ⟨by rw [Nat.zero_add]; rfl, rfl⟩

/-- C73 for branches. Each branch of the report with more excluded is one of the other report, of the same type and range, with some of its arms. -/
theorem C73_branches_partial (hp : p.NoTaggedInits) (hc : p.CasesInSwitch) (hx : cx.Stricter cx')
    (hr : instrument cx fuel path sm p = .ok (p1, cov)) (hr' : instrument cx' fuel' path' sm' p = .ok (p2, cov')) :
    ∃ f : Nat → Nat, (∀ i j, i < j → f i < f j) ∧ ∀ id b', cov'.inner.branchMap.get id = some b' →
      ∃ b, cov.inner.branchMap.get (f id) = some b ∧ b'.loc = b.loc ∧ b'.branchType = b.branchType ∧ b'.line = b.line ∧
        b'.locations.Sublist b.locations := by
  obtain ⟨f, hf, h⟩ := (branches_less (programOutline_less hx p)).places
  refine ⟨f, hf, fun id b' hb => ?_⟩
  rw [C72_branches_partial hp hc hr', Option.filter_eq_some_iff] at hb
  obtain ⟨b, hb', h1, h2, h3, h4⟩ := h id b' hb.1
  refine ⟨b, ?_, h1, h2, h3, h4⟩
  rw [C72_branches_partial hp hc hr, hb', Option.filter_some, if_pos]
  cases hl : b.locations with
  | cons x l => rfl
  | nil =>
    rw [hl] at h4
    have := List.sublist_nil.1 h4
    rw [this] at hb
    exact absurd hb.2 (by decide)

/-- C73 for statements. Each statement of the report with more excluded is one of the other report, or an initialiser with functions but no block in it
(`C73_added_fails`). -/
theorem C73_statements_partial (hp : p.NoTaggedInits) (hc : p.CasesInSwitch) (hx : cx.Stricter cx')
    (hr : instrument cx fuel path sm p = .ok (p1, cov)) (hr' : instrument cx' fuel' path' sm' p = .ok (p2, cov')) (id : Nat) (r : Range)
    (hs : cov'.inner.statementMap.get id = some r) :
    (∃ id', cov.inner.statementMap.get id' = some r) ∨ (r, false) ∈ Entry.statements (programOutline cx p) := by
  obtain ⟨S', hS', h'⟩ := C72_statements_partial hp hc hr'
  obtain ⟨S, hS, h⟩ := C72_statements_partial hp hc hr
  have hmem : ∀ {l : List (Range × Bool)} {l' : List Range}, Picks l l' → r ∈ l' → ∃ b, (r, b) ∈ l := by
    intro l l' hpk hr
    induction hpk with
    | nil => cases hr
    | take _ ih =>
      cases hr with
      | head => exact ⟨_, List.mem_cons_self⟩
      | tail _ hr => obtain ⟨b, hb⟩ := ih hr; exact ⟨b, List.mem_cons_of_mem _ hb⟩
    | drop _ ih => obtain ⟨b, hb⟩ := ih hr; exact ⟨b, List.mem_cons_of_mem _ hb⟩
  have hsure : ∀ {l : List (Range × Bool)} {l' : List Range}, Picks l l' → (r, true) ∈ l → r ∈ l' := by
    intro l l' hpk hr
    induction hpk with
    | nil => cases hr
    | take _ ih =>
      cases hr with
      | head => exact List.mem_cons_self
      | tail _ hr => exact List.mem_cons_of_mem _ (ih hr)
    | drop _ ih =>
      cases hr with
      | tail _ hr => exact ih hr
  rw [h'] at hs
  obtain ⟨b, hb⟩ := hmem hS' (List.mem_of_getElem? hs)
  obtain ⟨_, hy, rfl⟩ := (statements_less (programOutline_less hx p)).mem _ hb
  cases b with
  | false => exact .inr hy
  | true =>
    obtain ⟨i, hi⟩ := List.getElem?_of_mem (hsure hS hy)
    exact .inl ⟨i, (h i).trans hi⟩

/-- C73 for statements, where no initialiser is like this: each statement of the report with more excluded is one of the other report, in the same
order, and no two are the same one. -/
theorem C73_sure_partial (hp : p.NoTaggedInits) (hc : p.CasesInSwitch) (hx : cx.Stricter cx')
    (hu : ∀ e ∈ Entry.statements (programOutline cx p), e.2 = true)
    (hr : instrument cx fuel path sm p = .ok (p1, cov)) (hr' : instrument cx' fuel' path' sm' p = .ok (p2, cov')) :
    ∃ f : Nat → Nat, (∀ i j, i < j → f i < f j) ∧ ∀ id r, cov'.inner.statementMap.get id = some r → cov.inner.statementMap.get (f id) = some r := by
  have hl := statements_less (programOutline_less hx p)
  obtain ⟨f, hf, h⟩ := hl.places
  refine ⟨f, hf, fun id r hs => ?_⟩
  have hu' : ∀ e ∈ Entry.statements (programOutline cx' p), e.2 = true := fun e he => by
    obtain ⟨_, hy, rfl⟩ := hl.mem e he
    exact hu _ hy
  rw [C72_sure_partial hp hc hu' hr'] at hs
  obtain ⟨e, he, rfl⟩ := Option.map_eq_some_iff.1 hs
  obtain ⟨_, hy, rfl⟩ := h id e he
  rw [C72_sure_partial hp hc hu hr, hy]
  rfl

/-! ### How much is reported -/

theorem sum_sublist {l l' : List Nat} (h : l.Sublist l') : l.sum ≤ l'.sum := by
  induction h with
  | slnil => exact Nat.le_refl _
  | cons a _ ih => simp only [List.sum_cons]; omega
  | cons_cons a _ ih => simp only [List.sum_cons]; omega

theorem sum_map_le {α : Type} {g h : α → Nat} : ∀ {l : List α}, (∀ a ∈ l, g a ≤ h a) → (l.map g).sum ≤ (l.map h).sum
  | [], _ => Nat.le_refl _
  | a :: l, hl => by
    simp only [List.map_cons, List.sum_cons]
    exact Nat.add_le_add (hl a List.mem_cons_self) (sum_map_le fun x hx => hl x (List.mem_cons_of_mem _ hx))

/-- Sums over tables one of which is embedded in the other. -/
theorem sum_embedded {V W : Type} {m' : IndexMap Nat V} {m : IndexMap Nat W} (hn' : m'.NodupKeys) (hn : m.NodupKeys) (g' : V → Nat) (g : W → Nat)
    {f : Nat → Nat} (hf : ∀ i j, i < j → f i < f j) (h : ∀ k v, m'.get k = some v → ∃ w, m.get (f k) = some w ∧ g' v ≤ g w) :
    (m'.map fun e => g' e.2).sum ≤ (m.map fun e => g e.2).sum := by
  have inj : ∀ i j, f i = f j → i = j := fun i j e => by
    rcases Nat.lt_trichotomy i j with h1 | h1 | h1
    · have := hf i j h1; omega
    · exact h1
    · have := hf j i h1; omega
  let G : Nat → Nat := fun k => ((m.get k).map g).getD 0
  have h1 : (m'.map fun e => g' e.2).sum ≤ (m'.map fun e => G (f e.1)).sum := by
    refine sum_map_le fun e he => ?_
    obtain ⟨w, hw, hle⟩ := h e.1 e.2 (IndexMap.get_of_mem hn' he)
    simp only [G, hw, Option.map_some, Option.getD_some]
    exact hle
  have h2 : (m.map fun e => g e.2) = (IndexMap.keys m).map G := by
    unfold IndexMap.keys
    rw [List.map_map]
    refine List.map_congr_left fun e he => ?_
    simp only [G, Function.comp, IndexMap.get_of_mem hn he, Option.map_some, Option.getD_some]
  have h3 : ((IndexMap.keys m').map f).Subperm (IndexMap.keys m) := by
    refine List.subperm_of_subset (List.Pairwise.map f (fun a b hab e => hab (inj a b e)) hn') fun k hk => ?_
    obtain ⟨k', hk', rfl⟩ := List.mem_map.1 hk
    obtain ⟨v, hv⟩ := (IndexMap.mem_keys_iff m' k').1 hk'
    obtain ⟨w, hw, -⟩ := h k' v hv
    exact (IndexMap.mem_keys_iff m _).2 ⟨w, hw⟩
  obtain ⟨l, hl, hs⟩ := h3
  have h4 : (m'.map fun e => G (f e.1)) = ((IndexMap.keys m').map f).map G := by
    unfold IndexMap.keys
    rw [List.map_map, List.map_map]
    rfl
  rw [h2]
  refine Nat.le_trans h1 ?_
  rw [h4, ← (hl.map G).sum_nat]
  exact sum_sublist (hs.map G)

/-- C73 for totals: where more is excluded there are at most as many functions, branches and arms, and at most as many statements if no initialiser
has functions but no block in it. -/
theorem C73_totals_partial (hp : p.NoTaggedInits) (hc : p.CasesInSwitch) (hx : cx.Stricter cx')
    (hr : instrument cx fuel path sm p = .ok (p1, cov)) (hr' : instrument cx' fuel' path' sm' p = .ok (p2, cov')) :
    cov'.inner.fnMap.length ≤ cov.inner.fnMap.length ∧ cov'.inner.branchMap.length ≤ cov.inner.branchMap.length ∧
      (cov'.inner.branchMap.map fun e => e.2.locations.length).sum ≤ (cov.inner.branchMap.map fun e => e.2.locations.length).sum ∧
      ((∀ e ∈ Entry.statements (programOutline cx p), e.2 = true) → cov'.inner.statementMap.length ≤ cov.inner.statementMap.length) := by
  obtain ⟨-, hk, -⟩ := tables_of hr
  obtain ⟨-, hk', -⟩ := tables_of hr'
  have one : ∀ {V : Type} (m : IndexMap Nat V), (m.map fun _ => 1).sum = m.length := fun m => by
    rw [List.map_const', List.sum_replicate_nat, Nat.mul_one]
  obtain ⟨f, hf, h⟩ := C73_functions_partial hp hc hx hr hr'
  obtain ⟨g, hg, h'⟩ := C73_branches_partial hp hc hx hr hr'
  refine ⟨?_, ?_, ?_, fun hu => ?_⟩
  · have := sum_embedded hk'.fnMap hk.fnMap (fun _ => 1) (fun _ => 1) hf fun k v hv => by
      obtain ⟨w, hw, -⟩ := h k v hv
      exact ⟨w, hw, Nat.le_refl _⟩
    rwa [one, one] at this
  · have := sum_embedded hk'.branchMap hk.branchMap (fun _ => 1) (fun _ => 1) hg fun k v hv => by
      obtain ⟨w, hw, -⟩ := h' k v hv
      exact ⟨w, hw, Nat.le_refl _⟩
    rwa [one, one] at this
  · exact sum_embedded hk'.branchMap hk.branchMap (fun b => b.locations.length) (fun b => b.locations.length) hg fun k v hv => by
      obtain ⟨w, hw, -, -, -, hs⟩ := h' k v hv
      exact ⟨w, hw, hs.length_le⟩
  · obtain ⟨f, hf, h⟩ := C73_sure_partial hp hc hx hu hr hr'
    have := sum_embedded hk'.statementMap hk.statementMap (fun _ => 1) (fun _ => 1) hf fun k v hv => ⟨v, h k v hv, Nat.le_refl _⟩
    rwa [one, one] at this

end

/-! ### What fails -/

/-- `a || b; const f = () => 1;` -/
private def addedSource : Node := Build.module [expr 3 (bin 4 .or (ident 4 "a") (ident 6 "b")), decl 9 .const "f" (arrow 11 (num 13 "1"))]

theorem plain_sane : plain.cc.Sane := by
  intro c h1 h2
  have ha : 97 ≤ c.toNat := h1
  have hz : c.toNat ≤ 122 := h2
  refine ⟨decide_eq_false fun h => ?_, ?_⟩
  · rw [h] at ha
    exact absurd ha (by decide)
  · show c.isAlphanum = true
    unfold Char.isAlphanum Char.isAlpha Char.isLower
    simp only [Bool.or_eq_true, Bool.and_eq_true, decide_eq_true_eq]
    exact .inl (.inr ⟨h1, h2⟩)

/-- With one hint to ignore what comes next, more is excluded. -/
theorem hinted_stricter (q : Nat) (text : String) (ht : ReadsAs plain.cc IgnoreScope.next.word text.toList) : plain.Stricter (hinted q text) := by
  refine C73_stricter plain_sane rfl rfl ⟨fun k => ?_, rfl⟩ (fun _ h => h) id
  by_cases hk : k = q
  · exact .inr ⟨[], text.toList, [], rfl, if_pos hk, ht⟩
  · exact .inl (if_neg hk)

/-- The hint of the examples. -/
theorem next_reads : ReadsAs plain.cc IgnoreScope.next.word "istanbul ignore next".toList :=
  ⟨[], [' '], [' '], [], by decide, by simp, by simp, by simp [plain], by simp, by simp [plain], .inl rfl⟩

/-- C73 fails in general: with `/* istanbul ignore next */` before `a || b` the initialiser of `const f = () => 1` after it is a statement of the
report, and without the hint it is not. -/
theorem C73_added_fails : ∃ (p : Node) (cx' : Ctx) (r : Range), p.NoTaggedInits ∧ p.CasesInSwitch ∧ plain.Stricter cx' ∧
    (∃ p1 cov, run plain p = .ok (p1, cov) ∧ ∀ id, cov.inner.statementMap.get id ≠ some r) ∧
    ∃ p2 cov' id, run cx' p = .ok (p2, cov') ∧ cov'.inner.statementMap.get id = some r := by
  have h1 : yields (run plain addedSource) (fun _ r => decide (∀ e ∈ r.statementMap, e.2 ≠ plain.range (at' 11))) = true := by
    decide +kernel
  have h2 : yields (run (hinted 3 "istanbul ignore next") addedSource) (fun _ r => decide (r.statementMap.get 0 = some (plain.range (at' 11)))) = true := by
    decide +kernel
  obtain ⟨p1, cov1, r1, g1⟩ := of_yields h1
  obtain ⟨p2, cov2, r2, g2⟩ := of_yields h2
  exact ⟨addedSource, hinted 3 "istanbul ignore next", plain.range (at' 11), by unfold NoTaggedInits; decide +kernel,
    by unfold CasesInSwitch; decide +kernel, hinted_stricter 3 _ next_reads,
    ⟨p1, cov1, r1, fun id h => of_decide_eq_true g1 _ (IndexMap.mem_of_get h) rfl⟩, p2, cov2, 0, r2, of_decide_eq_true g2⟩

/-- `(() => a)(); if (b && c) d; function f() { return e ? g : h }` -/
private def strictSource : Node := Build.module [expr 1 (call 1 (arrow 2 (ident 3 "a")) []),
  mk .ifStmt (at' 5) [bin 6 .and (ident 6 "b") (ident 8 "c"), expr 10 (ident 10 "d"), mk .none Span.dummy []],
  fnDecl 12 "f" [] [mk .returnStmt (at' 14) [cond 15 (ident 15 "e") (ident 17 "g") (ident 19 "h")]]]

/-- With a hint before `g` the conditional expression has one arm instead of two. -/
example : plain.Stricter (hinted 17 "istanbul ignore next") ∧ strictSource.NoTaggedInits ∧ strictSource.CasesInSwitch ∧
    (∀ e ∈ Entry.statements (programOutline plain strictSource), e.2 = true) ∧
    yields (run plain strictSource) (fun _ r => decide (r.branchMap.map (·.2.locations.length) = [2, 2, 2]) && decide (r.fnMap.length = 2)) = true ∧
    yields (run (hinted 17 "istanbul ignore next") strictSource)
      (fun _ r => decide (r.branchMap.map (·.2.locations.length) = [2, 2, 1]) && decide (r.fnMap.length = 2)) = true :=
  ⟨hinted_stricter 17 _ next_reads, by unfold NoTaggedInits; decide +kernel, by unfold CasesInSwitch; decide +kernel, by decide +kernel,
    by decide +kernel, by decide +kernel⟩

/-- With a hint before the first statement there is one function less, and the other one has a smaller number and the same name. -/
example : yields (run (hinted 1 "istanbul ignore next") strictSource)
      (fun _ r => decide (r.branchMap.map (·.2.locations.length) = [2, 2, 2]) && decide (r.fnMap.map (·.2.name) = ["f"])) = true ∧
    yields (run plain strictSource) (fun _ r => decide (r.fnMap.map (·.2.name) = ["(anonymous_0)", "f"])) = true := by
  decide +kernel

/-- Setting `reportLogic` excludes at most more. -/
theorem logic_stricter (cx : Ctx) : cx.Stricter { cx with reportLogic := true } where
  pos := rfl
  hint _ := .inl rfl
  file _ h := h
  methods _ h := h
  logic _ := rfl

/-- C48, for operands that may contain anything: with `reportLogic` each function and branch of the report is one of the report without it, with the
same ranges, and a branch has some of the arms it had. (What is missing: those of operands without logical operators are not listed, `C48_fails`.) -/
theorem C48_fewer_partial {cx : Ctx} {fuel fuel' : Nat} {path path' : String} {sm sm' : Option SourceMap} {p p1 p2 : Node} {cov cov' : SourceCoverage}
    (hp : p.NoTaggedInits) (hc : p.CasesInSwitch) (hr : instrument cx fuel path sm p = .ok (p1, cov))
    (hr' : instrument { cx with reportLogic := true } fuel' path' sm' p = .ok (p2, cov')) :
    (∃ f : Nat → Nat, (∀ i j, i < j → f i < f j) ∧ ∀ id fn', cov'.inner.fnMap.get id = some fn' →
      ∃ fn, cov.inner.fnMap.get (f id) = some fn ∧ fn'.decl = fn.decl ∧ fn'.loc = fn.loc ∧ fn'.line = fn.line ∧ SameName (f id) id fn fn') ∧
    ∃ f : Nat → Nat, (∀ i j, i < j → f i < f j) ∧ ∀ id b', cov'.inner.branchMap.get id = some b' →
      ∃ b, cov.inner.branchMap.get (f id) = some b ∧ b'.loc = b.loc ∧ b'.branchType = b.branchType ∧ b'.line = b.line ∧
        b'.locations.Sublist b.locations :=
  ⟨C73_functions_partial hp hc (logic_stricter cx) hr hr', C73_branches_partial hp hc (logic_stricter cx) hr hr'⟩

/-- `a && (() => { return b ? c : d }); e || f`: with `reportLogic` the function and its branch are gone, and the last branch has number 1. -/
private def logicSource : Node := Build.module [
  expr 1 (bin 2 .and (ident 3 "a") (arrow 4 (block 5 [mk .returnStmt (at' 6) [cond 7 (ident 8 "b") (ident 9 "c") (ident 10 "d")]]))),
  expr 11 (bin 12 .or (ident 13 "e") (ident 14 "f"))]

example : logicSource.NoTaggedInits ∧ logicSource.CasesInSwitch ∧
    yields (run plain logicSource) (fun _ r => decide (r.branchMap.map (·.2.branchType) = [.binaryExpr, .condExpr, .binaryExpr])) = true ∧
    yields (run logic logicSource) (fun _ r => decide (r.branchMap.map (·.2.branchType) = [.binaryExpr, .binaryExpr])) = true :=
  ⟨by unfold NoTaggedInits; decide +kernel, by unfold CasesInSwitch; decide +kernel, by decide +kernel, by decide +kernel⟩

end Verif
