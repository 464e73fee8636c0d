import Verif.Lemmas.Outline
/-
Visits add the entries of the outline.
-/
namespace Verif
open Node Visitor

namespace Outline
variable {cx : Ctx}

/-! ### Constructs without a visit function, and bodies -/

theorem looks_default {k : Kind} {cs : List Node} (h : hasVisit k cs.length = false) (l : Look) (sp : Span) :
    looks cx l (mk k sp cs) = cs.map fun _ => l := by
  unfold looks
  split <;> first
    | (next e => cases e; cases h)
    | (next e => cases e; rfl)

theorem own_default {k : Kind} {cs : List Node} (h : hasVisit k cs.length = false) (sp : Span) : own cx (mk k sp cs) = [] := by
  refine own_body ?_ ?_ ?_
  · unfold counted
    split <;> first
      | rfl
      | (next e => cases e; cases h)
  · have : (mk k sp cs).branchKind = none := by
      unfold branchKind
      split <;> first
        | rfl
        | (next e => cases e; cases h)
    unfold branch?
    rw [this]
    rfl
  · unfold bodyOf
    split <;> first
      | rfl
      | (next e => cases e; cases h)

theorem excluded_default {k : Kind} {cs : List Node} (h : hasVisit k cs.length = false) (l : Look) (sp : Span) : excluded cx l (mk k sp cs) = false := by
  have h1 : (mk k sp cs).hintable = false := by
    unfold hintable
    split <;> first
      | rfl
      | (next e => cases e; cases h)
  have h2 : (mk k sp cs).isCase = false := by
    unfold isCase
    split <;> first
      | rfl
      | (next e => cases e; cases h)
  have h3 : k ≠ .exportDecl ∧ k ≠ .exportDefault ∧ k ≠ .debugger := by
    refine ⟨?_, ?_, ?_⟩ <;>
    · rintro rfl
      cases h
  unfold excluded
  rw [h1, h2]
  simp [Node.kind, h3.1, h3.2.1, h3.2.2]

theorem inOrder_default {k : Kind} {cs : List Node} (h : hasVisit k cs.length = false) (sp : Span) {es : List α} (hl : es.length = cs.length) :
    inOrder (mk k sp cs) es = es := by
  unfold inOrder
  split
  · next e =>
    cases e
    rw [← hl] at h
    cases h
  · rfl

/-- The parts of an `exprStmt`. -/
theorem looks_expr (l : Look) (sp : Span) (a : Node) : looks cx l (mk .exprStmt sp [a]) = [if isDirectiveLit a then .skip else l] := by
  obtain ⟨k, sp', cs⟩ := a
  cases k <;> first
    | rfl
    | simp [looks, isDirectiveLit, directives]

/-- The parts of a loop. -/
theorem loop_parts {l : Look} (hl : Plain l) : ∀ cs : List Node,
    (outlines cx (cs.map fun _ => l) (blockifyLast cs)).flatten = (outlines cx (lookLoop cx l cs) cs).flatten
  | [] => rfl
  | [b] => by
    show ([outline cx l (blockify b)] : List (List Entry)).flatten = ([outline cx _ b] : List (List Entry)).flatten
    unfold Visitor.blockify
    split
    · rfl
    · next hb =>
      have hk : b.kind ≠ .block := by
        obtain ⟨k, sp, cs⟩ := b
        rintro rfl
        exact hb _ _ rfl
      rw [if_neg hk]
      by_cases hh : cx.hint Span.dummy = some .next
      · rw [outline_excluded hl (by simp [excluded, hintable, Ctx.hinted, Node.span, hh]), if_pos hh, outline_skip]
      · rw [outline_eq hl (excluded_of_hint hh), if_neg hh]
        show ([[] ++ ([outline cx (lookStmt cx b) b] : List (List Entry)).flatten] : List (List Entry)).flatten = _
        simp
  | c :: d :: cs => by
    have := loop_parts hl (d :: cs)
    show (outline cx l c :: outlines cx ((d :: cs).map fun _ => l) (blockifyLast (d :: cs))).flatten =
      (outline cx l c :: outlines cx (lookLoop cx l (d :: cs)) (d :: cs)).flatten
    rw [List.flatten_cons, List.flatten_cons, this]

/-- How visitors by default look at parts. -/
def childLooks (cx : Ctx) (l : Look) : Node → List Look
  | mk .block _ ss => ss.map (lookStmt cx)
  | mk .switchCase _ (_ :: ss) => l :: ss.map (lookStmt cx)
  | mk _ _ cs => cs.map fun _ => l

namespace Goes
variable {b : Nat} {l l' : List Range} {E E' : List Entry} {α β : Type} {P : α → Prop} {Q : β → Prop}

theorem mapList {f : Node → M Node} {ls : Node → List Range} {es : Node → List Entry} : ∀ {cs : List Node},
    (∀ c ∈ cs, Goes b (ls c) (es c) (f c) fun _ => True) → Goes b (cs.flatMap ls) (cs.flatMap es) (M.mapList f cs) fun _ => True
  | [], _ => pure trivial
  | c :: cs, h => by
    rw [List.flatMap_cons, List.flatMap_cons]
    exact bind (h c (by simp)) fun _ _ => last (mapList (cs := cs) fun c hc => h c (by simp [hc])) fun _ _ => pure trivial

section
variable {go : Mode → Node → M Node}

/-- What is assumed of recursive visits. -/
structure Rec (cx : Ctx) (go : Mode → Node → M Node) : Prop where
  any : ∀ b m n, m.emits = .any → Good cx n → Goes b [] (outline cx (lookOf m) n) (go m n) fun _ => True
  case : ∀ b n, All cx n → n.isCase = true →
    Goes b (if cx.hinted n then [] else [cx.range n.span]) (outline cx .inner n) (go (.switchCase b) n) fun _ => True
  operand : ∀ b n, cx.hinted n = false → Goes b (cx.ranges (leaves cx n)) [] (go (.logicalInner b) n) fun _ => True
  span : ∀ m n, SpanOf (go m n) n.span

variable (hgo : Rec cx go)
include hgo

theorem insertStmt {s : Node} (hs : Good cx s) : Goes b [] (outline cx (lookStmt cx s) s) (insertStmt cx go s) fun _ => True := by
  unfold Visitor.insertStmt lookStmt
  by_cases h : isInjectedStmt s = true
  · rw [if_pos h, if_pos (by simp [h]), outline_skip]
    exact pure trivial
  · rw [if_neg h]
    by_cases hh : cx.hint s.span = some .next
    · rw [if_pos (by simp [Ctx.hinted, hh]), outline_skip]
      refine neutral fun st a s' hi h => ?_
      obtain ⟨rfl, rfl⟩ := frame_hinted (a := [s]) hh (by rw [if_pos rfl]; exact Still.pure _) h
      exact ⟨trivial, rfl, ⟨rfl, rfl⟩, ⟨rfl, rfl⟩, rfl, rfl⟩
    · rw [if_neg (by simp [Ctx.hinted, hh, h])]
      refine frame hh ?_
      rw [if_neg hh]
      exact last (fresh hh (hgo.any b .stmt s rfl hs)) fun _ _ => pure trivial

theorem insertStmts {ss : List Node} (hs : ∀ c ∈ ss, Good cx c) :
    Goes b [] (outlines cx (ss.map (lookStmt cx)) ss).flatten (insertStmts cx go ss) fun _ => True := by
  induction ss with
  | nil => exact pure trivial
  | cons s ss ih =>
    exact bind (l := []) (insertStmt hgo (hs s (by simp))) fun o _ => last (ih fun c hc => hs c (by simp [hc])) fun _ _ => pure trivial

theorem visitStmts {ss : List Node} (hs : ∀ c ∈ ss, Good cx c) :
    Goes b [] (outlines cx (ss.map (lookStmt cx)) ss).flatten (visitStmts cx go ss) fun _ => True := bracket (insertStmts hgo hs)

theorem children {m : Mode} (hm : m.emits = .any) {cs : List Node} (hc : ∀ c ∈ cs, Good cx c) :
    Goes b [] (outlines cx (cs.map fun _ => lookOf m) cs).flatten (M.mapList (go m) cs) fun _ => True := by
  have := mapList (b := b) (f := go m) (ls := fun _ => []) (es := outline cx (lookOf m)) (cs := cs) fun c h => hgo.any b m c hm (hc c h)
  rw [show cs.flatMap (fun _ => ([] : List Range)) = [] by simp] at this
  rw [outlines_map, ← List.flatMap_def]
  exact this

theorem visitChildren {m : Mode} (hm : m.emits = .any) {k : Kind} {sp : Span} {cs : List Node} (hc : ∀ c ∈ cs, Good cx c) :
    Goes b [] (outlines cx (childLooks cx (lookOf m) (mk k sp cs)) cs).flatten (visitChildren cx go m (mk k sp cs)) fun _ => True := by
  unfold Visitor.visitChildren childLooks
  split
  · rename_i heq
    cases heq
    exact last (visitStmts hgo hc) fun cs _ => pure trivial
  · rename_i heq
    cases heq
    exact bind (l := []) (hgo.any b m _ hm (hc _ (by simp))) fun t _ => last (visitStmts hgo fun c h => hc c (by simp [h])) fun _ _ => pure trivial
  · rename_i h1 h2 heq
    cases heq
    split
    · rename_i e
      cases e
      exact (h1 rfl).elim
    · rename_i e
      cases e
      exact (h2 _ _ rfl rfl).elim
    · rename_i heq
      cases heq
      exact last (children hgo hm hc) fun _ _ => pure trivial

omit hgo in
theorem replaceWithStmtCounter {e : Node} (he : Good cx e) (sure : Bool) :
    Goes b [] [.statement (cx.range e.span) sure] (replaceWithStmtCounter cx e) (Same cx e) :=
  last (newStatement _ sure) fun _ _ => pure (.wrap he _)

omit hgo in
theorem replaceWithBranchCounter {e : Node} : Goes b [cx.range e.span] [] (replaceWithBranchCounter cx b e) fun n => Good cx e → Same cx e n :=
  last (addPath _) fun _ _ => pure fun he => .wrap he _

theorem wrapBin {m : Mode} (hm : m.emits = .any) {e : Node} (he : Good cx e) :
    Goes b (cx.ranges (operands cx [e])) (outline cx (if leaf cx e then lookOf m else .skip) e) (wrapBin cx go m b e) fun _ => True := by
  unfold Visitor.wrapBin
  rw [operands, operands, List.append_nil]
  by_cases hh : cx.hint e.span = some .next
  · rw [if_pos (by simpa [Ctx.hinted] using hh), if_neg (by simp [leaf, Ctx.hinted, hh]), outline_skip]
    simp only [hh, if_true]
    exact pure trivial
  · have hh' : cx.hinted e = false := by simpa [Ctx.hinted] using hh
    simp only [hh, hh', if_false, Bool.false_eq_true]
    by_cases hlog : e.any Kind.isLogical = true
    · rw [if_pos hlog, if_pos hlog, if_neg (by simp [leaf, hlog]), outline_skip]
      exact last (fresh hh (hgo.operand b e hh')) fun _ _ => pure trivial
    · rw [if_neg hlog, if_neg hlog]
      by_cases hrep : cx.reportLogic = true
      · rw [if_pos hrep, if_neg (by simp [leaf, hrep]), outline_skip]
        exact last (addPath _) fun _ _ => pure trivial
      · rw [if_neg hrep, if_pos (by simp [leaf, hrep, hh', hlog])]
        intro st a s B F U hi h0 hl h
        obtain ⟨e', s1, h1, h2⟩ := M.bind_ok h
        have hs := hgo.span m e st e' s1 h1
        obtain ⟨_, i1, g1⟩ := hgo.any b m e hm he st e' s1 B F U hi h0 (.inl rfl) h1
        have h3 := replaceWithBranchCounter (cx := cx) (b := b) (e := e')
        rw [hs] at h3
        have hl' : [cx.range e.span] = [] ∨ b < B.length := hl
        obtain ⟨_, i2, g2⟩ := h3 s1 a s _ _ _ i1 g1 (hl'.imp_right fun h => by rw [List.length_append, length_grow]; omega) h2
        refine ⟨trivial, i2, ?_⟩
        rw [grow_nil, grow_append hl'] at g2
        simp only [Entry.branches, Entry.functions, Entry.statements, List.append_nil] at g2
        exact g2

omit hgo in
theorem createFn (ident : Option (Span × String)) {n : Node} (hn : Good cx n)
    (h1 : ∀ a sp ps ds bsp ss, n = mk (.function a) sp [ps, ds, mk .block bsp ss] →
      E = [.function (ident.map (·.2)) (cx.range ((ident.map (·.1)).getD sp)) (cx.range bsp)])
    (h2 : (∀ a sp x y z, n = mk (.function a) sp [x, y, z] → False) → E = []) : Goes b [] E (createFn cx ident n) (Same cx n) := by
  unfold Visitor.createFn
  split
  · next a sp params decorators body =>
    have hg : ∀ c ∈ [params, decorators, body], Good cx c := fun c hc => hn.1.good rfl hc
    by_cases hb : body.kind = .block
    · obtain ⟨bk, bsp, ss⟩ := body
      cases hb
      rw [h1 _ _ _ _ _ _ rfl]
      exact last (newFunction _ _ _) fun id _ => pure (.function (hg _ (by simp)) (hg _ (by simp)) (.block (hg _ (by simp)) _))
    · intro st a st' B F U _ _ _ h
      obtain ⟨_, _, h1, h2⟩ := M.bind_ok h
      obtain ⟨_, _, h3, _⟩ := M.bind_ok h2
      unfold Visitor.prependFn at h3
      split at h3
      · exact (hb rfl).elim
      · cases h3
  · next h =>
    rw [h2 fun a sp x y z e => h _ _ _ _ _ e]
    exact pure (.refl hn)

omit hgo in
theorem coverHoisted {e : Node} (he : Good cx e) : Goes b [] [.statement (cx.range e.span) false] (coverHoisted cx e) (Same cx e) := by
  unfold Visitor.coverHoisted
  refine first (P := fun _ => True) (neutral fun st a st' _ h => by cases h; exact ⟨trivial, rfl, ⟨rfl, rfl⟩, ⟨rfl, rfl⟩, rfl, rfl⟩) ?_
  intro nodes _
  refine ite (fun _ => last (P := fun _ => True) ?_ fun _ _ => pure (.refl he)) fun _ => replaceWithStmtCounter he false
  unfold Visitor.keepIf
  exact ite (fun _ => unsure (pure trivial)) fun _ => mark _ false

end
end Goes

/-- The same for states in which the top of the stack is known. -/
def At (t : Tag) (b : Nat) (l : List Range) (E : List Entry) (x : M α) (P : α → Prop) : Prop :=
  ∀ st a s B F U, st.nodes.head? = some t → st.ignore ≠ some .next → Is st.cov B F U → (l = [] ∨ b < B.length) → x st = .ok (a, s) →
    P a ∧ s.ignore ≠ some .next ∧ Is s.cov (grow b l B ++ Entry.branches E) (F ++ Entry.functions F.length E) (U ++ Entry.statements E)

namespace At
variable {t : Tag} {b : Nat} {l l' : List Range} {E E' : List Entry} {α β : Type} {P : α → Prop} {Q : β → Prop}

theorem of {x : M α} (hx : Goes b l E x P) : At t b l E x P := fun st a s B F U _ => hx st a s B F U

/-- The computation where it is known. -/
def restrict (t : Tag) (x : M α) : M α := fun st => if st.nodes.head? = some t then x st else .error .emptyNodeStack

theorem iff {x : M α} : At t b l E x P ↔ Goes b l E (restrict t x) P := by
  constructor
  · intro hx st a s B F U hi h0 hl h
    unfold restrict at h
    split at h
    · next ht => exact hx st a s B F U ht hi h0 hl h
    · cases h
  · intro hx st a s B F U ht hi h0 hl h
    refine hx st a s B F U hi h0 hl ?_
    unfold restrict
    rw [if_pos ht]
    exact h

theorem bind {x : M α} {f : α → M β} (hx : At t b l E x P) (hf : ∀ a, P a → Goes b l' E' (f a) Q) : At t b (l ++ l') (E ++ E') (x >>= f) Q := by
  rw [iff] at hx ⊢
  have := Goes.bind hx hf
  have e : restrict t x >>= f = restrict t (x >>= f) := by
    funext st
    simp only [restrict, Bind.bind, M.bind]
    by_cases h : st.nodes.head? = some t
    · rw [if_pos h, if_pos h]
    · rw [if_neg h, if_neg h]
  rwa [e] at this

/-- First something that keeps the stack. -/
theorem after {x : M α} {f : α → M β} (hx : Goes b l E x P) (hk : ∀ st a s, x st = .ok (a, s) → s.nodes = st.nodes)
    (hf : ∀ a, P a → At t b l' E' (f a) Q) : At t b (l ++ l') (E ++ E') (x >>= f) Q := by
  rw [iff]
  have := Goes.bind hx fun a ha => iff.1 (hf a ha)
  intro st a s B F U hi h0 hl h
  unfold restrict at h
  split at h
  · next ht =>
    refine this st a s B F U hi h0 hl ?_
    obtain ⟨c, s1, h1, h2⟩ := M.bind_ok h
    simp only [Bind.bind, M.bind, h1, restrict]
    rw [if_pos (by rw [hk _ _ _ h1]; exact ht)]
    exact h2
  · cases h

theorem top {f : Tag → M β} (hf : Goes b l E (f t) Q) : At t b l E (topNode >>= f) Q := by
  intro st a s B F U ht hi h0 hl h
  refine hf st a s B F U hi h0 hl ?_
  obtain ⟨c, s1, h1, h2⟩ := M.bind_ok h
  unfold topNode at h1
  split at h1
  · cases h1
  · next e =>
    cases h1
    rw [e] at ht
    cases ht
    exact h2

theorem guarded {n : Node} {body : M Node} {P : Node → Prop} (hh : cx.hint n.span ≠ some .next) (hb : At t b l E body P) :
    Goes b l E (Visitor.guarded cx t n body) P := by
  intro st a s B F U hi h0 hl h
  unfold Visitor.guarded Visitor.frame at h
  obtain ⟨⟨old, cur⟩, s1, h1, h2⟩ := M.bind_ok h
  simp only [enter, Visitor.push, enterSpan, Bind.bind, M.bind] at h1
  rw [if_neg hi] at h1
  cases h1
  obtain ⟨r, s2, h3, h4⟩ := M.bind_ok h2
  cases h4
  dsimp only at h3
  rw [if_neg hh] at h3
  obtain ⟨p, _, g⟩ := hb { st with nodes := t :: st.nodes, ignore := cx.hint n.span } _ _ B F U rfl hh h0 hl h3
  exact ⟨p, hi, g⟩

theorem coverStatement {go : Mode → Node → M Node} {m : Mode} {e : Node} (ht : e.kind ≠ .taggedTpl) (he : Good cx e) :
    At t b [] (ofInit cx (decide (t = .varDeclarator)) e) (keepIf e.isNone e (coverStatement cx go m e)) (Same cx e) := by
  unfold ofInit Visitor.keepIf Visitor.coverStatement
  by_cases h0 : e.isNone = true
  · rw [if_pos h0, if_pos h0]
    exact of (.pure (.refl he))
  rw [if_neg h0, if_neg h0, if_neg ht]
  by_cases h1 : e.any Kind.isBlock = true
  · rw [if_pos h1, if_pos h1]
    exact of (.last (.mark _ _) fun _ _ => .pure (.refl he))
  rw [if_neg h1, if_neg h1]
  refine after (l := []) (P := fun _ => True) ?_ ?_ fun _ _ => top ?_
  · unfold Visitor.keepIf
    by_cases h2 : e.any Kind.isStmt = true
    · rw [if_pos h2, if_neg (by simp [h2])]
      exact .mark _ _
    · rw [if_neg h2, if_pos (by simpa using h2)]
      exact .pure trivial
  · intro st a s h
    unfold Visitor.keepIf at h
    split at h <;> cases h <;> rfl
  · by_cases h3 : e.any Kind.isHoisting = true ∧ t = .varDeclarator
    · rw [if_pos (by simpa using h3), if_pos h3]
      exact .coverHoisted he
    · rw [if_neg (by simpa using h3), if_neg h3]
      split
      · exact .replaceWithStmtCounter he true
      · exact .pure (.refl he)

end At
end Outline
end Verif
