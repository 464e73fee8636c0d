import Verif.Props.Behaviour
import Verif.Props.Complete
import Mathlib.Data.List.Forall2
/-
C28, C29: instrumentation takes directives and names away but never gives any; and what it does to the directives of
functions.
-/
namespace Verif
open Node RegOp Visitor Build
open Sem hiding Outcome

section
variable {cx : Ctx} {fuel : Nat} {path : String} {sm : Option SourceMap} {p p' : Node} {cov : SourceCoverage}

theorem directivesOf_filter (ss : List Node) :
    directivesOf ss <+: directivesOf (ss.filter fun s => !isInjectedItem s) := by
  induction ss with
  | nil => exact List.prefix_refl _
  | cons s ss ih =>
    rw [directivesOf]
    split
    · next v hv =>
      have hi : isInjectedItem s = false := by
        cases h : isInjectedItem s with
        | false => rfl
        | true =>
          exfalso
          unfold directive? at hv
          split at hv
          · cases h
          · cases hv
      rw [List.filter_cons, hi]
      simp only [Bool.not_false, if_true]
      rw [directivesOf, hv]
      exact (List.prefix_cons_inj v).2 ih
    · exact List.nil_prefix

theorem forall₂_flatMap_map {α β γ : Type} {R : β → γ → Prop} (l : List α) (q : α → Bool) (f : α → β) (g : α → γ)
    (h : ∀ a ∈ l, q a = true → R (f a) (g a)) :
    List.Forall₂ R ((l.filter q).map f) (l.flatMap fun x => if q x then [g x] else []) := by
  induction l with
  | nil => exact .nil
  | cons a l ih =>
    have ih := ih fun b hb => h b (List.mem_cons_of_mem _ hb)
    rw [List.filter_cons, List.flatMap_cons]
    cases hq : q a with
    | false => simpa using ih
    | true => exact .cons (h a (List.mem_cons_self ..) hq) ih

/-- C28: no directive appears that was not there. The program and each of its functions have in the emitted program an initial
segment of the directives that they have in the source. -/
theorem C28_never_added (hp : Clean p) (hr : instrument cx fuel path sm p = .ok (p', cov)) :
    List.Forall₂ (fun a b => a.1 = b.1 ∧ a.2.1 = b.2.1 ∧ a.2.2 <+: b.2.2) (prologues p') (prologues p) := by
  obtain ⟨n, h, oc⟩ := outcome hr
  rw [prologues_eq (clean_faithful hp)]
  rw [← oc.collect_eq (f := bareDirectives) ?_ ?_ rfl rfl]
  · refine forall₂_flatMap_map (each p') (fun m => isCode m.kind) _
      (fun m => (m.kind, m.span, directivesOf (codeOf (strip m)))) ?_
    intro m _ _
    refine ⟨rfl, rfl, ?_⟩
    rw [directivesOf_code]
    exact directivesOf_filter _
  · intro a b hs
    unfold bareDirectives
    rw [hs, ← strip_kind a, ← strip_kind b, ← strip_span a, ← strip_span b, hs]
  · intro n hn
    unfold bareDirectives
    rw [isCode_added hn]
    rfl

theorem isFnDef_unwrap {c : Node} (h : isFnDef c = true) : isFnDef (unwrap c) = true := by
  unfold unwrap
  split
  · simp [isFnDef] at h
  · simp [isFnDef] at h
  · exact h

/-- C29: no function gets a name from its place that it does not get in the source: where the emitted program has an anonymous
function or class as part of a declarator, class field or default value, so has the source. -/
theorem C29_never_added (hp : Clean p) (hr : instrument cx fuel path sm p = .ok (p', cov)) (ks : List Kind)
    (hks : ∀ k ∈ ks, k = .varDeclarator ∨ k ∈ fieldKinds) :
    List.Forall₂ (fun a b => a.1 = b.1 ∧ a.2.1 = b.2.1 ∧
      List.Forall₂ (fun x y => x = true → y = true) a.2.2 b.2.2) (namings ks p') (namings ks p) := by
  obtain ⟨n, h, oc⟩ := outcome hr
  have hw : ∀ k ∈ ks, k.wraps = true := by
    intro k hk
    rcases hks k hk with rfl | hk
    · rfl
    · simp only [fieldKinds, List.mem_cons, List.not_mem_nil, or_false] at hk
      rcases hk with rfl | rfl | rfl <;> rfl
  have ha : ∀ k ∈ ks, k.added = false ∧ k ≠ .covDecl ∧ k ≠ .covCall := by
    intro k hk
    rcases hks k hk with rfl | hk
    · exact ⟨rfl, nofun, nofun⟩
    · simp only [fieldKinds, List.mem_cons, List.not_mem_nil, or_false] at hk
      rcases hk with rfl | rfl | rfl <;> exact ⟨rfl, nofun, nofun⟩
  rw [namings_eq hw (fun m hm _ => clean_isFnDef hp m hm)]
  have hno : ∀ n : Node, (n.kind.added = true ∨ n.kind = .covDecl ∨ n.kind = .covCall) → bareNamings ks n = [] := by
    intro n hn
    unfold bareNamings
    rw [if_neg]
    intro hk
    obtain ⟨h3, h4, h5⟩ := ha _ (List.contains_iff_mem.1 hk)
    rcases hn with hn | hn | hn
    · rw [h3] at hn; cases hn
    · exact h4 hn
    · exact h5 hn
  rw [← oc.collect_eq (f := bareNamings ks) ?_ (fun n hn => hno n (.inl hn)) (hno _ (.inr (.inl rfl)))
    (hno _ (.inr (.inr rfl)))]
  · refine forall₂_flatMap_map (each p') (fun m => ks.contains m.kind) _
      (fun m => (m.kind, m.span, (strip m).children.map isFnDef)) ?_
    intro m _ hk
    refine ⟨rfl, rfl, ?_⟩
    rw [fields_strip (hw _ (List.contains_iff_mem.1 hk))]
    rw [List.forall₂_map_left_iff, List.forall₂_map_right_iff, List.forall₂_same]
    exact fun c _ => isFnDef_unwrap
  · intro a b hs
    unfold bareNamings
    rw [hs, ← strip_kind a, ← strip_kind b, ← strip_span a, ← strip_span b, hs]

/-- C28 for functions: every function that is reached and registered has no directives in the emitted program. -/
theorem C28_functions (hf : Hint.shouldIgnoreFile cx.cc cx.comments p.span = false)
    (hk : p.kind = .module ∨ p.kind = .script) (hr : instrument cx fuel path sm p = .ok (p', cov)) (x : Node)
    (hx : InProgram cx p x) (hi : cx.ignores x = false) (hh : (fnHead cx x).isSome = true) {body : Node}
    (hb : bodyOf x = some body) (hbk : body.kind = .block ∨ ∃ a, x.kind = .arrow a) :
    ∃ x' ∈ each p', strip x' = strip x ∧ ∃ sp ss, bodyOf x' = some (mk .block sp ss) ∧ directivesOf ss = [] := by
  obtain ⟨x', h1, h2, h3⟩ := C38_functions_partial hf hk hr x hx
  obtain ⟨⟨name, decl⟩, hh⟩ := Option.isSome_iff_exists.1 hh
  obtain ⟨id, sp, ss, h4, -⟩ := h3 hi name decl body hh hb hbk
  exact ⟨x', h1, h2, sp, _, h4, rfl⟩

/-- C29 for class fields: an anonymous function or class without a block in it that initialises a field that is reached no
longer does so directly. -/
theorem C29_fields_lost (hf : Hint.shouldIgnoreFile cx.cc cx.comments p.span = false)
    (hk : p.kind = .module ∨ p.kind = .script) (hr : instrument cx fuel path sm p = .ok (p', cov)) (x : Node)
    (hx : InProgram cx p x) (hi : cx.ignores x = false) (hxk : x.kind = .classProp ∨ x.kind = .privateProp) {init : Node}
    (hin : initOf x = some init) (hfn : isFnDef init = true) (hb : init.any Kind.isBlock = false) :
    ∃ x' ∈ each p', strip x' = strip x ∧ ∃ c, initOf x' = some c ∧ isFnDef c = false := by
  obtain ⟨x', h1, h2, h3⟩ := C37_initialisers_partial hf hk hr x hx
  have hw : wrappable x init = true := by
    have h4 : decide (x.kind = .varDeclarator) = false := by rcases hxk with h | h <;> rw [h] <;> rfl
    have h5 : init.isNone = false ∧ init.kind ≠ .taggedTpl ∧ init.kind.noExpr = false := by
      unfold isFnDef at hfn
      split at hfn
      · exact ⟨rfl, nofun, rfl⟩
      · exact ⟨rfl, nofun, rfl⟩
      · exact ⟨rfl, nofun, rfl⟩
      · exact ⟨rfl, nofun, rfl⟩
      · cases hfn
    simp [wrappable, hb, h4, h5]
  obtain ⟨id, c, h4, -, -⟩ := h3 hi init hin hw
  exact ⟨x', h1, h2, _, h4, rfl⟩

/-- C29 for default values: an anonymous function or class that is a default value that is reached remains one directly exactly if a
hint excludes it or there is a logical expression in it. -/
theorem C29_defaults_iff (hf : Hint.shouldIgnoreFile cx.cc cx.comments p.span = false)
    (hk : p.kind = .module ∨ p.kind = .script) (hr : instrument cx fuel path sm p = .ok (p', cov)) (sp : Span) (left right : Node)
    (hx : InProgram cx p (mk .assignPat sp [left, right])) (hi : cx.ignores (mk .assignPat sp [left, right]) = false)
    (hfn : isFnDef right = true) :
    ∃ right', mk .assignPat sp [left, right'] ∈ each p' ∧ strip (mk .assignPat sp [left, right']) = strip (mk .assignPat sp [left, right]) ∧
      (isFnDef right' = true ↔ cx.hinted right = true ∨ right.any Kind.isLogical = true) := by
  obtain ⟨x', h1, h2, h3⟩ := C39_branches_partial hf hk hr _ hx
  obtain ⟨b, r, rfl, -, h4, h5, -⟩ := h3 hi
  refine ⟨r, h1, h2, fun h => ?_, fun h => ?_⟩
  · cases hh : cx.hinted right with
    | true => exact .inl rfl
    | false =>
      cases hl : right.any Kind.isLogical with
      | true => exact .inr rfl
      | false =>
        obtain ⟨i, y, rfl, -⟩ := h4 hh hl
        split at h <;> cases h
  · rcases h with h | h
    · rw [h5.1 h]; exact hfn
    · exact h5.2 h hfn

/-- `function f(a = () => {}, b = () => x || y) {}`. -/
def namedDefaults : Node := Build.module [fnDecl 1 "f" [mk .assignPat (at' 2) [ident 2 "a", arrow 3 (block 3 [])],
  mk .assignPat (at' 4) [ident 4 "b", arrow 5 (bin 6 .or (ident 6 "x") (ident 7 "y"))]] []]

/-- The first of its functions loses its name, the second keeps it. -/
example : (∃ x, InProgram plain namedDefaults x ∧ ((!plain.ignores x && x.kind = .assignPat && x.children.any isFnDef &&
      !x.any Kind.isLogical) = true)) ∧
    (∃ x, InProgram plain namedDefaults x ∧ ((!plain.ignores x && x.kind = .assignPat && x.children.any isFnDef &&
      x.any Kind.isLogical) = true)) ∧
    ∃ p' cov, run plain namedDefaults = .ok (p', cov) ∧
      ((each p').filter (·.kind = .assignPat)).map (·.children.map isFnDef) = [[false, false], [false, true]] := by
  refine ⟨inProgram_find (i := 0) (is := [1, 0, 0]) (by decide +kernel), inProgram_find (i := 0) (is := [1, 0, 1]) (by decide +kernel), ?_⟩
  have h : yields (run plain namedDefaults) (fun p' _ => decide (((each p').filter (·.kind = .assignPat)).map
      (·.children.map isFnDef) = [[false, false], [false, true]])) = true := by
    decide +kernel
  obtain ⟨p', cov, h1, h2⟩ := of_yields h
  exact ⟨p', cov, h1, of_decide_eq_true h2⟩

/-- The field of `arrowField`. -/
example : ∃ x, InProgram plain arrowField x ∧ ((!plain.ignores x && x.kind = .classProp &&
    (initOf x).any fun e => isFnDef e && !e.any Kind.isBlock) = true) :=
  inProgram_find (i := 0) (is := [0, 1, 0]) (by decide +kernel)

end

/-- `function f() { "use strict"; x }`: reached, with a directive that is lost. -/
def strictFunction : Node :=
  Build.module [fnDecl 1 "f" [] [expr 2 (mk (.strLit "use strict") (at' 2) []), expr 3 (ident 3 "x")]]

example : (∃ x, InProgram plain strictFunction x ∧ ((!plain.ignores x && (fnHead plain x).isSome &&
    (bodyOf x).any fun b => b.kind = .block && directivesOf b.children = ["use strict"]) = true)) ∧
    (prologues strictFunction).map (·.2.2) = [[], ["use strict"]] ∧
    ∃ p' cov, run plain strictFunction = .ok (p', cov) ∧ (prologues p').map (·.2.2) = [[], []] := by
  refine ⟨inProgram_find (i := 0) (is := []) (by decide +kernel), by decide +kernel, ?_⟩
  have h : yields (run plain strictFunction) (fun p' _ => decide ((prologues p').map (·.2.2) = [[], []])) = true := by
    decide +kernel
  obtain ⟨p', cov, h1, h2⟩ := of_yields h
  exact ⟨p', cov, h1, of_decide_eq_true h2⟩

end Verif
