import Verif.Lemmas.OutlineVisit
/-
Visits of every construct add the entries of its outline.
-/
namespace Verif
open Node Visitor

namespace Outline
variable {cx : Ctx}

theorem outline_ite (p : Prop) [Decidable p] (l : Look) (n : Node) : outline cx (if p then .skip else l) n = if p then [] else outline cx l n := by
  split
  · exact outline_skip n
  · rfl

theorem outline_simple {l : Look} (hl : Plain l) {k : Kind} {sp : Span} {cs : List Node} (hx : excluded cx l (mk k sp cs) = false)
    (hp : looks cx l (mk k sp cs) = childLooks cx l (mk k sp cs))
    (hi : ∀ es : List (List Entry), inOrder (mk k sp cs) es = es) :
    outline cx l (mk k sp cs) = own cx (mk k sp cs) ++ (outlines cx (childLooks cx l (mk k sp cs)) cs).flatten := by
  rw [outline_eq hl hx, parts, hp, hi]
  rfl

theorem outlines_two (l l' : Look) (a b : Node) : (outlines cx [l, l'] [a, b]).flatten = outline cx l a ++ outline cx l' b := by
  simp [outlines]

theorem bodyOf_fn {k : Kind} {sp : Span} {a f : Node} (hk : k = .fnDecl ∨ k = .fnExpr ∨ k = .classMethod ∨ k = .methodProp)
    (h : ∀ a sp x y z, f = mk (.function a) sp [x, y, z] → False) : bodyOf (mk k sp [a, f]) = none := by
  rcases hk with rfl | rfl | rfl | rfl <;>
  · unfold bodyOf
    split <;> first
      | rfl
      | (rename_i e; cases e; exact (h _ _ _ _ _ rfl).elim)
      | (rename_i e; cases e)

namespace Goes
variable {b : Nat} {l l' : List Range} {E E' : List Entry} {α β : Type} {P : α → Prop} {Q : β → Prop}
variable {go : Mode → Node → M Node} (hgo : Rec cx go)
include hgo

theorem visitArrow {a : String} {sp : Span} {params body : Node} (hb : Good cx body) (L : Look) :
    Goes b [] (own cx (mk (.arrow a) sp [params, body]) ++ parts cx L (mk (.arrow a) sp [params, body]))
      (visitArrow cx go a sp params body) fun _ => True := by
  unfold own
  rw [head_function rfl rfl rfl (.inr rfl)]
  unfold Visitor.visitArrow
  have hswap : ∀ {C H R : List Entry} {x : M Node}, Entry.branches C = [] → (∀ k, Entry.functions k C = []) → Entry.statements H = [] →
      Goes b [] (H ++ (C ++ R)) x (fun _ => True) → Goes b [] (C ++ H ++ R) x fun _ => True := by
    intro C H R x h1 h2 h3 hx
    refine same hx ?_ (fun k => ?_) ?_
    · simp [branches_append, h1]
    · simp [functions_append, h2]
    · simp [statements_append, h3]
  have hcount : counted cx (mk (.arrow a) sp [params, body]) =
      if body.kind = .block || cx.hinted body then [] else [.statement (cx.range body.span) true] := rfl
  refine hswap (by rw [hcount]; split <;> rfl) (fun k => by rw [hcount]; split <;> rfl) rfl ?_
  refine bind (l := []) (newFunction _ _ _) fun id _ => ?_
  have hp : parts cx L (mk (.arrow a) sp [params, body]) =
      outline cx (if body.kind = .block then .body else if cx.hinted body then .skip else .inner) body := by
    show (outlines cx [.skip, _] [params, body]).flatten = _
    rw [outlines_two, outline_skip]
    rfl
  rw [hp, hcount]
  by_cases hk : body.kind = .block
  · obtain ⟨k, bsp, ss⟩ := body
    cases hk
    show Goes b [] ([] ++ outline cx .body (mk .block bsp ss)) _ _
    rw [outline_block]
    exact last (insertStmts hgo fun c hc => hb.1.good rfl hc) fun _ _ => pure trivial
  · rw [if_neg hk, outline_ite, show ∀ x : Bool, (decide (body.kind = .block) || x) = x from fun x => by simp [hk]]
    have key := insertStmts (b := b) hgo (Exact.all_cons (.counterStmt (.f id))
      (Exact.all_cons (.mk_of rfl rfl rfl (Exact.all_cons hb Exact.all_nil) : Good cx (mk .returnStmt body.span [body])) Exact.all_nil))
    have he : (outlines cx ([counterStmt (.f id), mk .returnStmt body.span [body]].map (lookStmt cx))
        [counterStmt (.f id), mk .returnStmt body.span [body]]).flatten =
        (if cx.hinted body then [] else [.statement (cx.range body.span) true]) ++ if cx.hinted body then [] else outline cx .inner body := by
      show (outlines cx [_, _] [_, _]).flatten = _
      rw [outlines_two, outline_counterStmt (lookStmt_cases _)]
      have h1 : lookStmt cx (mk .returnStmt body.span [body]) = if cx.hinted body then .skip else .inner := by
        unfold lookStmt
        rw [show isInjectedStmt (mk .returnStmt body.span [body]) = false from rfl, Bool.or_false]
        rfl
      rw [h1, outline_ite]
      by_cases hh : cx.hinted body = true
      · rw [if_pos hh, if_pos hh, if_pos hh]
      · rw [if_neg hh, if_neg hh, if_neg hh, outline_simple (k := .returnStmt) (sp := body.span) (.inr rfl)
          (excluded_of_hint (show cx.hint body.span ≠ some .next by simpa [Ctx.hinted] using hh)) rfl fun _ => rfl]
        show [] ++ ([.statement (cx.range body.span) true] ++ ([outline cx .inner body] : List (List Entry)).flatten) = _
        rw [List.flatten_singleton, List.nil_append]
    rw [he] at key
    generalize ((if cx.hinted body then [] else [.statement (cx.range body.span) true]) ++ if cx.hinted body then [] else outline cx .inner body) = E0 at key ⊢
    split
    · exact (hk rfl).elim
    · exact last key fun _ _ => pure trivial

omit hgo in
theorem createAccessor {name : String} {sp : Span} {body : Node} (hb : Good cx body)
    (h1 : body.kind = .block → E = [.function (some name) (cx.range sp) (cx.range body.span)]) (h2 : body.kind ≠ .block → E = []) :
    Goes b [] E (createAccessor cx name sp body) (Same cx body) := by
  unfold Visitor.createAccessor
  split
  · rw [h1 rfl]
    exact last (newFunction _ _ _) fun id _ => pure (.block hb _)
  · next hn =>
    rw [h2 fun hk => by
      obtain ⟨k, sp', cs⟩ := body
      cases hk
      exact hn _ _ rfl]
    exact pure (.refl hb)

/-- A function and what is beside it. -/
theorem fnParts {m : Mode} (hm : m.emits = .any) {k : Kind} {sp : Span} {a fn : Node} (i : Option (Span × String))
    (hk : ∀ f, childLooks cx (lookOf m) (mk k sp [a, f]) = [lookOf m, lookOf m]) (ha : Good cx a) (hf : Good cx fn)
    (h1 : ∀ x fsp ps ds bsp ss, fn = mk (.function x) fsp [ps, ds, mk .block bsp ss] →
      own cx (mk k sp [a, fn]) = [.function (i.map (·.2)) (cx.range ((i.map (·.1)).getD fsp)) (cx.range bsp)])
    (h2 : (∀ a sp x y z, fn = mk (.function a) sp [x, y, z] → False) → own cx (mk k sp [a, fn]) = []) :
    Goes b [] (own cx (mk k sp [a, fn]) ++ (outline cx (lookOf m) a ++ outline cx (lookOf m) fn)) (do
      let fn ← Visitor.createFn cx i fn
      Visitor.visitChildren cx go m (mk k sp [a, fn])) fun _ => True := by
  refine bind (l := []) (createFn i hf h1 h2) fun f h => ?_
  have := visitChildren (b := b) hgo hm (k := k) (sp := sp) (Exact.all_cons ha (Exact.all_cons h.1 Exact.all_nil))
  rw [hk, outlines_two, h.2 _ (plain_lookOf m)] at this
  exact this

/-- An initialiser and what is beside it. -/
theorem initParts {m : Mode} (hm : m.emits = .any) {t : Tag} {k : Kind} {sp : Span} {a e : Node} {r : List Node}
    (hk : ∀ e, childLooks cx (lookOf m) (mk k sp (a :: e :: r)) = (a :: e :: r).map fun _ => lookOf m) (hc : ∀ c ∈ a :: e :: r, Good cx c)
    (ht : e.kind ≠ .taggedTpl) :
    At t b [] (ofInit cx (decide (t = .varDeclarator)) e ++ (outlines cx ((a :: e :: r).map fun _ => lookOf m) (a :: e :: r)).flatten) (do
      let e ← Visitor.keepIf e.isNone e (Visitor.coverStatement cx go m e)
      Visitor.visitChildren cx go m (mk k sp (a :: e :: r))) fun _ => True := by
  refine At.bind (l := []) (At.coverStatement ht (hc e (by simp))) fun e' h => ?_
  have := visitChildren (b := b) hgo hm (k := k) (sp := sp) (cs := a :: e' :: r)
    (Exact.all_cons (hc a (by simp)) (Exact.all_cons h.1 fun c h => hc c (by simp [h])))
  rw [hk] at this
  simp only [List.map_cons, outlines, List.flatten_cons, h.2 _ (plain_lookOf m)] at this ⊢
  exact this

theorem wrapArm {cur : Option IgnoreScope} (hcur : cur ≠ some .next) {r : Range} {s : Node} (hs : Good cx s) :
    Goes b [r] (outline cx .body s) (wrapArm cx go cur b r s) fun _ => True := by
  unfold Visitor.wrapArm
  refine bind (l' := []) (E := []) (addPath r) fun i _ => ?_
  split
  · rw [outline_block]
    exact last (insertStmts hgo fun c hc => hs.1.good rfl hc) fun _ _ => pure trivial
  · next hn =>
    rw [outline_body fun hk => by
      obtain ⟨k, sp', cs⟩ := s
      cases hk
      exact hn _ _ rfl]
    exact last (fresh hcur (hgo.any b .stmt _ rfl hs)) fun _ _ => pure trivial

theorem visitIf {m : Mode} (hm : m.emits = .any) {sp : Span} {test cons alt : Node} (hh : cx.hint sp ≠ some .next)
    (hn : All cx (mk .ifStmt sp [test, cons, alt])) :
    Goes b [] (own cx (mk .ifStmt sp [test, cons, alt]) ++ parts cx (lookOf m) (mk .ifStmt sp [test, cons, alt]))
      (visitIf cx go m (cx.hint sp) sp test cons alt) fun _ => True := by
  have hg : ∀ c ∈ [test, cons, alt], Good cx c := fun c hc => hn.good rfl hc
  unfold Visitor.visitIf
  rw [own_branch (Exact.branch_if ..)]
  rw [List.append_assoc]
  refine bind (l := []) (mark _ true) fun _ _ => newBranch fun b => ?_
  have hl : List.replicate (ifArms (cx.hint sp)) (cx.range sp) =
      (if cx.hint sp = some .if then [] else [cx.range sp]) ++ (if cx.hint sp = some .else then [] else [cx.range sp]) := by
    cases cx.hint sp with
    | none => rfl
    | some c => cases c <;> rfl
  have hp : parts cx (lookOf m) (mk .ifStmt sp [test, cons, alt]) =
      (if cx.hint sp = some .if then [] else outline cx .body cons) ++
      ((if cx.hint sp = some .else then [] else outline cx .body (if alt.isNone then mk .block Span.dummy [] else alt)) ++
        outline cx (lookOf m) test) := by
    show ([outline cx (if cx.hint sp = some .if then .skip else .body) cons,
      outline cx (if cx.hint sp = some .else || alt.isNone then .skip else .body) alt, outline cx (lookOf m) test] : List (List Entry)).flatten = _
    rw [outline_ite, outline_ite]
    cases ha : alt.isNone with
    | true =>
      simp only [Bool.or_true, if_true, outline_block, List.map_nil, outlines]
      simp
    | false => simp
  show Goes b _ (parts cx (lookOf m) (mk .ifStmt sp [test, cons, alt])) _ _
  rw [hl, hp]
  refine bind (keepIf trivial (wrapArm hgo hh (hg _ (by simp)))) fun c _ => ?_
  have hlast := hgo.any b m test hm (hg _ (by simp))
  have := bind (keepIf (p := cx.hint sp = some .else) (a := alt) (b := b) trivial (wrapArm (r := cx.range sp) hgo hh
    (s := if alt.isNone then mk .block Span.dummy [] else alt) ?_)) fun a _ => last hlast fun t _ =>
      pure (P := fun _ => True) (a := mk .ifStmt sp [t, c, a]) trivial
  · rw [List.append_nil] at this
    exact this
  · split
    · exact .mk_of rfl rfl rfl Exact.all_nil
    · exact hg _ (by simp)

theorem visitCond {m : Mode} (hm : m.emits = .any) {sp : Span} {test cons alt : Node} (hh : cx.hint sp ≠ some .next)
    (hn : All cx (mk .cond sp [test, cons, alt])) :
    Goes b [] (own cx (mk .cond sp [test, cons, alt]) ++ parts cx (lookOf m) (mk .cond sp [test, cons, alt]))
      (visitCond cx go m (cx.hint sp) sp test cons alt) fun _ => True := by
  have hg : ∀ c ∈ [test, cons, alt], Good cx c := fun c hc => hn.good rfl hc
  unfold Visitor.visitCond
  rw [own_branch (Exact.branch_cond ..)]
  refine bind (l := []) (P := fun r => Same cx cons r.1 ∧ Same cx alt r.2) ?_ fun r hr => ?_
  · unfold Visitor.keepIf
    rw [if_neg hh]
    unfold Visitor.wrapCondArms
    refine newBranch fun b => ?_
    have hl : cx.ranges ([cons, alt].filter fun e => !cx.hinted e) =
        (if cx.hint cons.span = some .next then [] else [cx.range cons.span]) ++
        (if cx.hint alt.span = some .next then [] else [cx.range alt.span]) := by
      unfold Ctx.hinted Ctx.ranges
      by_cases h1 : cx.hint cons.span = some .next <;> by_cases h2 : cx.hint alt.span = some .next <;> simp [h1, h2]
    rw [hl]
    have keep : ∀ e : Node, Good cx e → Goes b (if cx.hint e.span = some .next then [] else [cx.range e.span]) []
        (Visitor.keepIf (cx.hint e.span = some .next) e (Visitor.replaceWithBranchCounter cx b e)) (Same cx e) := fun e he => by
      have := keepIf (b := b) (p := cx.hint e.span = some .next) (.refl he) (replaceWithBranchCounter.imp fun _ h => h he)
      rwa [ite_self] at this
    exact bind (E := []) (keep cons (hg _ (by simp))) fun c hc => last (keep alt (hg _ (by simp))) fun a ha => pure ⟨hc, ha⟩
  · have := visitChildren (b := b) hgo hm (k := .cond) (sp := sp) (Exact.all_cons (hg test (by simp)) (Exact.all_cons hr.1.1 (Exact.all_cons hr.2.1 Exact.all_nil)))
    have he : (outlines cx (childLooks cx (lookOf m) (mk .cond sp [test, r.1, r.2])) [test, r.1, r.2]).flatten =
        parts cx (lookOf m) (mk .cond sp [test, cons, alt]) := by
      show ([outline cx (lookOf m) test, outline cx (lookOf m) r.1, outline cx (lookOf m) r.2] : List (List Entry)).flatten =
        ([outline cx (lookOf m) test, outline cx (lookOf m) cons, outline cx (lookOf m) alt] : List (List Entry)).flatten
      rw [hr.1.2 _ (plain_lookOf m), hr.2.2 _ (plain_lookOf m)]
    rw [he] at this
    exact this

theorem visitBin {m : Mode} (hm : m.emits = .any) {op : BinOp} {sp : Span} {left right : Node} (hh : cx.hint sp ≠ some .next)
    (hn : All cx (mk (.bin op) sp [left, right])) :
    Goes b [] (own cx (mk (.bin op) sp [left, right]) ++ parts cx (lookOf m) (mk (.bin op) sp [left, right]))
      (visitBin cx go m none (Visitor.visitChildren cx go m) op sp left right) fun _ => True := by
  have hg : ∀ c ∈ [left, right], Good cx c := fun c hc => hn.good rfl hc
  intro st a s B F U hi h0 hl h
  unfold Visitor.visitBin at h
  obtain ⟨⟨old, cur⟩, s1, h1, h2⟩ := M.bind_ok h
  unfold enterSpan at h1
  rw [if_neg hi] at h1
  cases h1
  dsimp only at h2
  rw [if_neg hh] at h2
  have go' : ∀ {x : M Node} {E : List Entry}, Goes b [] E x (fun _ => True) → x { st with ignore := cx.hint sp } = .ok (a, s) →
      True ∧ s.ignore ≠ some .next ∧ Is s.cov (grow b [] B ++ Entry.branches E) (F ++ Entry.functions F.length E) (U ++ Entry.statements E) :=
    fun hx hs => hx { st with ignore := cx.hint sp } _ _ B F U hh h0 hl hs
  split at h2
  · rename_i hop
    refine go' ?_ h2
    refine first (P := fun _ => True) (neutral fun st a s _ h => by cases h; exact ⟨trivial, rfl, ⟨rfl, rfl⟩, ⟨rfl, rfl⟩, rfl, rfl⟩) fun _ _ => ?_
    rw [own_branch (Exact.branch_bin hop sp left right)]
    refine newBranch fun b => ?_
    have hl : cx.ranges (operands cx [left, right]) = cx.ranges (operands cx [left]) ++ cx.ranges (operands cx [right]) := by
      simp [operands, Ctx.ranges]
    have hp : parts cx (lookOf m) (mk (.bin op) sp [left, right]) = outline cx (if leaf cx left then lookOf m else .skip) left ++
        outline cx (if leaf cx right then lookOf m else .skip) right := by
      unfold parts
      rw [show looks cx (lookOf m) (mk (.bin op) sp [left, right]) = [if leaf cx left then lookOf m else .skip,
        if leaf cx right then lookOf m else .skip] from if_pos hop]
      exact outlines_two ..
    show Goes b _ (parts cx (lookOf m) (mk (.bin op) sp [left, right])) _ _
    rw [hl, hp]
    exact bind (wrapBin hgo hm (hg _ (by simp))) fun _ _ => last (wrapBin hgo hm (hg _ (by simp))) fun _ _ => pure trivial
  · rename_i hop
    refine go' ?_ h2
    refine first (P := fun _ => True) (neutral fun st a s _ h => by cases h; exact ⟨trivial, rfl, ⟨rfl, rfl⟩, ⟨rfl, rfl⟩, rfl, rfl⟩) fun _ _ => ?_
    have ho : own cx (mk (.bin op) sp [left, right]) = [] := by
      refine own_body rfl ?_ rfl
      have : (mk (.bin op) sp [left, right]).branchKind = none := if_neg hop
      unfold branch?
      rw [this]
      rfl
    have hp : parts cx (lookOf m) (mk (.bin op) sp [left, right]) =
        (outlines cx (childLooks cx (lookOf m) (mk (.bin op) sp [left, right])) [left, right]).flatten := by
      unfold parts
      rw [show looks cx (lookOf m) (mk (.bin op) sp [left, right]) = [lookOf m, lookOf m] from if_neg hop]
      rfl
    rw [ho, hp]
    refine last (visitChildren hgo hm hg) fun _ _ => ?_
    intro st a s B F U h' h0 _ h
    cases h
    refine ⟨trivial, hi, ?_⟩
    rw [grow_nil]
    simp only [Entry.branches, Entry.functions, Entry.statements, List.append_nil]
    exact ⟨h0.lastB, h0.branches, h0.lastF, h0.functions, h0.statements⟩

theorem visitCase {sp : Span} {test : Node} {cons : List Node} (hc : ∀ c ∈ test :: cons, Good cx c) :
    Goes b [cx.range sp] (parts cx .inner (mk .switchCase sp (test :: cons))) (visitCase cx go b sp test cons) fun _ => True := by
  unfold Visitor.visitCase
  show Goes b ([cx.range sp] ++ []) ([] ++ (outline cx .inner test ++ (outlines cx (cons.map (lookStmt cx)) cons).flatten)) _ _
  exact bind (addPath _) fun _ _ => bind (l := []) (hgo.any b (.switchCase b) test rfl (hc _ (by simp))) fun _ _ =>
    last (visitStmts hgo fun c h => hc c (by simp [h])) fun _ _ => pure trivial

theorem visitWithBody {cur : Option IgnoreScope} (hcur : cur ≠ some .next) {body : Node} (hb : Good cx body) :
    Goes b [] (outline cx .body body) (visitWithBody cx go cur body) fun _ => True := by
  unfold Visitor.visitWithBody
  split
  · rw [outline_block]
    exact last (insertStmts hgo fun c hc => hb.1.good rfl hc) fun _ _ => pure trivial
  · next hn =>
    rw [outline_body fun hk => by
      obtain ⟨k, sp', cs⟩ := body
      cases hk
      exact hn _ _ rfl]
    exact last (fresh hcur (hgo.any b .stmt _ rfl hb)) fun _ _ => pure trivial

theorem visitSwitch {sp : Span} {cs : List Node} (hc : ∀ c ∈ cs, All cx c) (L : Look) :
    Goes b (cx.ranges (cs.filter fun c => c.isCase && !cx.hinted c)) (parts cx L (mk .switchStmt sp cs))
      (Visitor.visitChildren cx go (.switchCase b) (mk .switchStmt sp cs)) fun _ => True := by
  have : Visitor.visitChildren cx go (.switchCase b) (mk .switchStmt sp cs) = (do
      let cs ← M.mapList (go (.switchCase b)) cs
      Pure.pure (mk .switchStmt sp cs)) := by
    unfold Visitor.visitChildren
    rfl
  rw [this]
  have hl : cx.ranges (cs.filter fun c => c.isCase && !cx.hinted c) =
      cs.flatMap fun c => if c.isCase then (if cx.hinted c then [] else [cx.range c.span]) else [] := by
    clear this hc
    induction cs with
    | nil => rfl
    | cons c cs ih =>
      rw [List.flatMap_cons, ← ih, List.filter_cons]
      cases c.isCase <;> cases cx.hinted c <;> rfl
  have hp : parts cx L (mk .switchStmt sp cs) = cs.flatMap (outline cx .inner) := by
    show (outlines cx (cs.map fun _ => .inner) cs).flatten = _
    rw [outlines_map, ← List.flatMap_def]
  rw [hl, hp]
  refine last (mapList fun c h => ?_) fun _ _ => pure trivial
  by_cases h1 : c.isCase = true
  · rw [if_pos h1]
    exact hgo.case b c (hc c h) h1
  · rw [if_neg h1]
    exact hgo.any b (.switchCase b) c rfl ⟨hc c h, by simpa using h1⟩

end Goes
end Outline
end Verif
