import Verif.Lemmas.OutlineNode
import Verif.Lemmas.Frozen
/-
The report of a program is that of its outline.
-/
namespace Verif
open Node Visitor

namespace Outline
variable {cx : Ctx}

theorem length_blockifyLast : ∀ cs : List Node, (blockifyLast cs).length = cs.length
  | [] => rfl
  | [_] => rfl
  | _ :: d :: cs => by
    show (blockifyLast (d :: cs)).length + 1 = _
    rw [length_blockifyLast (d :: cs)]
    rfl

theorem own_init {n : Node} {E : List Entry} (hc : counted cx n = E) (hb : n.branch? cx = none) (hf : bodyOf n = none) : own cx n = E := by
  unfold own
  rw [hc, head_body hb hf, List.append_nil]

/-- An expression statement. -/
theorem counted_expr (sp : Span) (a : Node) : counted cx (mk .exprStmt sp [a]) =
    if isDirectiveLit a || isInjectedExpr a then [] else [.statement (cx.range sp) true] := by
  obtain ⟨k, sp', cs⟩ := a
  cases k with
  | strLit v => simp [counted, isDirectiveLit, directives, isInjectedExpr]
  | counter c => cases c <;> rfl
  | _ => rfl

namespace Goes
variable {b : Nat} {l l' : List Range} {E E' : List Entry} {α β : Type} {P : α → Prop} {Q : β → Prop}
variable {go : Mode → Node → M Node} (hgo : Rec cx go)
include hgo

/-- A method, function declaration or expression whose function gets the given name. -/
theorem fnNode {m : Mode} (hm : m.emits = .any) {k : Kind} {sp : Span} {a fn : Node} (i : Option (Span × String))
    (hkind : k = .fnDecl ∨ k = .fnExpr ∨ k = .classMethod ∨ k = .methodProp)
    (hlook : looks cx (lookOf m) (mk k sp [a, fn]) = [lookOf m, lookOf m])
    (hn : All cx (mk k sp [a, fn]))
    (hhead : ∀ x fsp cs, fn = mk (.function x) fsp cs → fnHead cx (mk k sp [a, fn]) = some (i.map (·.2), (i.map (·.1)).getD fsp)) :
    Goes b [] (own cx (mk k sp [a, fn]) ++ parts cx (lookOf m) (mk k sp [a, fn])) (do
      let fn ← Visitor.createFn cx i fn
      Visitor.visitChildren cx go m (mk k sp [a, fn])) fun _ => True := by
  have hcount : counted cx (mk k sp [a, fn]) = [] := by rcases hkind with rfl | rfl | rfl | rfl <;> rfl
  have hb : (mk k sp [a, fn]).branch? cx = none := by rcases hkind with rfl | rfl | rfl | rfl <;> rfl
  have hk : ∀ f, childLooks cx (lookOf m) (mk k sp [a, f]) = [lookOf m, lookOf m] := by rcases hkind with rfl | rfl | rfl | rfl <;> exact fun _ => rfl
  have hg : ∀ c ∈ [a, fn], Good cx c := by rcases hkind with rfl | rfl | rfl | rfl <;> exact fun c hc => hn.good rfl hc
  have hp : parts cx (lookOf m) (mk k sp [a, fn]) = outline cx (lookOf m) a ++ outline cx (lookOf m) fn := by
    unfold parts
    rw [hlook]
    have : ∀ es : List (List Entry), inOrder (mk k sp [a, fn]) es = es := by rcases hkind with rfl | rfl | rfl | rfl <;> exact fun _ => rfl
    rw [this]
    exact outlines_two ..
  rw [hp]
  refine fnParts hgo hm i hk (hg _ (by simp)) (hg _ (by simp)) ?_ ?_
  · rintro x fsp ps ds bsp ss rfl
    have ho : bodyOf (mk k sp [a, mk (.function x) fsp [ps, ds, mk .block bsp ss]]) = some (mk .block bsp ss) := by
      rcases hkind with rfl | rfl | rfl | rfl <;> rfl
    rw [own_function hcount hb (hhead _ _ _ rfl) ho (.inl rfl)]
    rfl
  · exact fun h => own_body hcount hb (bodyOf_fn hkind h)

theorem visitAccessor {m : Mode} (hm : m.emits = .any) {k : Kind} {sp : Span} {key body : Node} {mid : List Node}
    (hk : k = .getterProp ∧ mid = [] ∨ k = .setterProp ∧ ∃ x y, mid = [x, y]) (hn : All cx (mk k sp (key :: (mid ++ [body])))) :
    Goes b [] (own cx (mk k sp (key :: (mid ++ [body]))) ++ parts cx (lookOf m) (mk k sp (key :: (mid ++ [body]))))
      (visitAccessor cx go m (mk k sp (key :: (mid ++ [body]))) key body fun body => mk k sp (key :: (mid ++ [body]))) fun _ => True := by
  have hg : ∀ c ∈ key :: (mid ++ [body]), Good cx c := by rcases hk with ⟨rfl, _⟩ | ⟨rfl, _⟩ <;> exact fun c hc => hn.good rfl hc
  have hcount : counted cx (mk k sp (key :: (mid ++ [body]))) = [] := by rcases hk with ⟨rfl, _⟩ | ⟨rfl, _⟩ <;> rfl
  have hb : (mk k sp (key :: (mid ++ [body]))).branch? cx = none := by rcases hk with ⟨rfl, _⟩ | ⟨rfl, _⟩ <;> rfl
  have ho : bodyOf (mk k sp (key :: (mid ++ [body]))) = some body := by rcases hk with ⟨rfl, rfl⟩ | ⟨rfl, x, y, rfl⟩ <;> rfl
  have ha : (mk k sp (key :: (mid ++ [body]))).isArrow = false := by rcases hk with ⟨rfl, _⟩ | ⟨rfl, _⟩ <;> rfl
  have hhead : fnHead cx (mk k sp (key :: (mid ++ [body]))) = if cx.excludes key.propName? then none
      else if key.propName?.isSome then some (key.propName?, key.span) else some (some "anonymous", sp) := by
    rcases hk with ⟨rfl, _⟩ | ⟨rfl, _⟩ <;> rfl
  have hlook : looks cx (lookOf m) (mk k sp (key :: (mid ++ [body]))) =
      if cx.excludes key.propName? then (key :: (mid ++ [body])).map fun _ => .skip else (key :: (mid ++ [body])).map fun _ => lookOf m := by
    rcases hk with ⟨rfl, rfl⟩ | ⟨rfl, x, y, rfl⟩ <;> rfl
  have hio : ∀ es : List (List Entry), inOrder (mk k sp (key :: (mid ++ [body]))) es = es := by
    rcases hk with ⟨rfl, _⟩ | ⟨rfl, _⟩ <;> exact fun _ => rfl
  have hch : ∀ b, childLooks cx (lookOf m) (mk k sp (key :: (mid ++ [b]))) = (key :: (mid ++ [b])).map fun _ => lookOf m := by
    rcases hk with ⟨rfl, _⟩ | ⟨rfl, _⟩ <;> exact fun _ => rfl
  have main : ∀ (name : String) (dsp : Span), cx.excludes key.propName? = false → fnHead cx (mk k sp (key :: (mid ++ [body]))) = some (some name, dsp) →
      Goes b [] (own cx (mk k sp (key :: (mid ++ [body]))) ++ parts cx (lookOf m) (mk k sp (key :: (mid ++ [body])))) (do
        let body ← Visitor.createAccessor cx name dsp body
        Visitor.visitChildren cx go m (mk k sp (key :: (mid ++ [body])))) fun _ => True := by
    intro name dsp hx hh
    refine bind (l := []) (createAccessor (hg _ (by simp)) (fun h => own_function hcount hb hh ho (.inl h)) fun h => own_unbodied hcount hb ho h ha) fun body' h => ?_
    have := visitChildren (b := b) hgo hm (k := k) (sp := sp) (cs := key :: (mid ++ [body'])) (fun c hc => by
      simp only [List.mem_cons, List.mem_append, List.not_mem_nil, or_false] at hc
      rcases hc with rfl | hc | rfl
      · exact hg _ (by simp)
      · exact hg _ (by simp [hc])
      · exact h.1)
    have he : parts cx (lookOf m) (mk k sp (key :: (mid ++ [body]))) =
        (outlines cx (childLooks cx (lookOf m) (mk k sp (key :: (mid ++ [body'])))) (key :: (mid ++ [body']))).flatten := by
      unfold parts
      rw [hio, hlook, if_neg (by simp [hx]), hch]
      show (outlines cx _ (key :: (mid ++ [body]))).flatten = _
      rw [outlines_map, outlines_map]
      simp [h.2 _ (plain_lookOf m)]
    rw [he]
    exact this
  unfold Visitor.visitAccessor
  split
  · next name hname =>
    by_cases hc : cx.ignoreMethods.contains name = true
    · have hx : cx.excludes key.propName? = true := by rw [hname]; exact hc
      rw [if_pos hc, own_head hcount hb (by rw [hhead, if_pos hx])]
      have : parts cx (lookOf m) (mk k sp (key :: (mid ++ [body]))) = [] := by
        unfold parts
        rw [hio, hlook, if_pos hx]
        show (outlines cx _ (key :: (mid ++ [body]))).flatten = _
        rw [outlines_map]
        simp [outline_skip]
      rw [this]
      exact pure trivial
    · have hx : cx.excludes key.propName? = false := by rw [hname]; exact Bool.eq_false_iff.2 hc
      rw [if_neg hc]
      exact main name key.span hx (by rw [hhead, if_neg (by simp [hx]), if_pos (by simp [hname]), hname])
  · next hname =>
    have hx : cx.excludes key.propName? = false := by rw [hname]; rfl
    exact main "anonymous" sp hx (by rw [hhead, if_neg (by simp [hx]), if_neg (by simp [hname])])

seal Visitor.visitChildren Visitor.mark Visitor.keepIf Visitor.frame Visitor.guarded in
theorem visitNode {m : Mode} (hm : m.emits = .any) {n : Node} (hn : Good cx n)
    (hh : n.hintable = true → cx.hint n.span ≠ some .next) : Goes b [] (outline cx (lookOf m) n) (visitNode cx go m n) fun _ => True := by
  have hl := plain_lookOf m
  have simple : ∀ {k : Kind} {sp : Span} {cs : List Node}, Good cx (mk k sp cs) → Exact.isSwitch k = false → excluded cx (lookOf m) (mk k sp cs) = false →
      own cx (mk k sp cs) = [] → looks cx (lookOf m) (mk k sp cs) = childLooks cx (lookOf m) (mk k sp cs) →
      (∀ es : List (List Entry), inOrder (mk k sp cs) es = es) →
      Goes b [] (outline cx (lookOf m) (mk k sp cs)) (Visitor.visitChildren cx go m (mk k sp cs)) fun _ => True := by
    intro k sp cs hn hk hx ho hp hi
    rw [outline_simple hl hx hp hi, ho]
    exact visitChildren hgo hm fun c hc => hn.1.good hk hc
  have marked : ∀ {k : Kind} {sp : Span} {cs : List Node}, Good cx (mk k sp cs) → Exact.isSwitch k = false → excluded cx (lookOf m) (mk k sp cs) = false →
      own cx (mk k sp cs) = [.statement (cx.range sp) true] → looks cx (lookOf m) (mk k sp cs) = childLooks cx (lookOf m) (mk k sp cs) →
      (∀ es : List (List Entry), inOrder (mk k sp cs) es = es) →
      Goes b [] (outline cx (lookOf m) (mk k sp cs)) (do Visitor.mark cx sp; Visitor.visitChildren cx go m (mk k sp cs)) fun _ => True := by
    intro k sp cs hn hk hx ho hp hi
    rw [outline_simple hl hx hp hi, ho]
    exact bind (l := []) (mark sp true) fun _ _ => visitChildren hgo hm fun c hc => hn.1.good hk hc
  have marked' : ∀ {k : Kind} {sp : Span} {cs : List Node}, Good cx (mk k sp cs) → Exact.isSwitch k = false → cx.hint sp ≠ some .next →
      own cx (mk k sp cs) = [.statement (cx.range sp) true] → looks cx (lookOf m) (mk k sp cs) = childLooks cx (lookOf m) (mk k sp cs) →
      (∀ es : List (List Entry), inOrder (mk k sp cs) es = es) →
      Goes b [] (outline cx (lookOf m) (mk k sp cs)) (do
        Visitor.keepIf (cx.hint sp = some .next) () (Visitor.mark cx sp)
        Visitor.visitChildren cx go m (mk k sp cs)) fun _ => True := by
    intro k sp cs hn hk hh ho hp hi
    unfold Visitor.keepIf
    rw [if_neg hh]
    exact marked hn hk (excluded_of_hint hh) ho hp hi
  have decl : ∀ (k : Kind) (t : Tag) (sp : Span) (cs : List Node), k = .exportDecl ∨ k = .exportDefault ∨ k = .debugger → Good cx (mk k sp cs) →
      Goes b [] (outline cx (lookOf m) (mk k sp cs)) (match m with
        | .coverage => Visitor.guarded cx t (mk k sp cs) (Visitor.visitChildren cx go m (mk k sp cs))
        | _ => Visitor.visitChildren cx go m (mk k sp cs)) fun _ => True := by
    intro k t sp cs hk hn
    have key : excluded cx (lookOf m) (mk k sp cs) = false →
        Goes b [] (outline cx (lookOf m) (mk k sp cs)) (Visitor.visitChildren cx go m (mk k sp cs)) fun _ => True := fun hx => by
      rcases hk with rfl | rfl | rfl <;> exact simple hn rfl hx rfl rfl fun _ => rfl
    have hsp : excluded cx .inner (mk k sp cs) = false := by
      rcases hk with rfl | rfl | rfl <;> exact Bool.and_false _
    split
    · by_cases hh : cx.hint sp = some .next
      · rw [outline_excluded hl (by rcases hk with rfl | rfl | rfl <;> simp [excluded, lookOf, Ctx.hinted, Node.span, Node.kind, hh])]
        exact hinted hh trivial
      · exact guarded hh (key (excluded_of_hint hh))
    · next hne =>
      refine key ?_
      rw [show lookOf m = .inner by cases m <;> first | rfl | exact (hne rfl).elim]
      exact hsp
  revert hn hh
  refine visitCases (p := fun n => Good cx n → (n.hintable = true → cx.hint n.span ≠ some .next) →
      Goes b [] (outline cx (lookOf m) n) (Visitor.visitNode cx go m n) fun _ => True)
    ?_ ?_ ?_ ?_ ?_ ?_ ?_ ?_ ?_ ?_ ?_ ?_ ?_ ?_ ?_ ?_ ?_ ?_ ?_ ?_ ?_ ?_ ?_ ?_ ?_ ?_ ?_ ?_ ?_ ?_ ?_ ?_ ?_ n
  -- block
  · exact fun sp cs hn hh => guarded (hh rfl) (simple hn rfl (excluded_of_hint (hh rfl)) rfl rfl fun _ => rfl)
  -- function declaration
  · intro sp a f hn hh
    rw [outline_eq hl (excluded_of_hint (hh rfl))]
    refine guarded (hh rfl) (fnNode hgo hm _ (.inl rfl) rfl hn.1 ?_)
    rintro x fsp cs rfl
    show some (a.identName?, if a.identName?.isSome then a.span else fsp) = _
    cases a.identName? <;> rfl
  -- arrow
  · intro x sp a f hn hh
    rw [outline_eq hl (excluded_of_hint (hh rfl))]
    exact guarded (hh rfl) (visitArrow hgo (hn.1.good rfl (by simp)) _)
  -- function expression
  · intro sp a f hn hh
    rw [outline_eq hl (excluded_of_hint (hh rfl))]
    refine guarded (hh rfl) ?_
    show Goes b [] _ (if cx.excludes a.identName? = true then _ else _) _
    refine ite (fun hx => ?_) fun hx => fnNode hgo hm _ (.inr (.inl rfl)) (if_neg hx) hn.1 ?_
    · have h1 : own cx (mk .fnExpr sp [a, f]) = [] := by
        refine own_head rfl rfl ?_
        unfold fnHead
        split <;> first | rfl | (next e => cases e) | skip
        next e =>
          cases e
          exact if_pos hx
      have h2 : parts cx (lookOf m) (mk .fnExpr sp [a, f]) = [] := by
        unfold parts
        rw [show looks cx (lookOf m) (mk .fnExpr sp [a, f]) = [.skip, .skip] from if_pos hx]
        exact (outlines_two ..).trans (by rw [outline_skip, outline_skip]; rfl)
      rw [h1, h2]
      exact pure trivial
    · rintro x fsp cs rfl
      refine (if_neg hx).trans ?_
      cases a.identName? <;> rfl
  -- expression statement
  · intro sp a hn hh
    rw [outline_eq hl (excluded_of_hint (hh rfl))]
    refine frame (hh rfl) ?_
    have hp : own cx (mk .exprStmt sp [a]) ++ parts cx (lookOf m) (mk .exprStmt sp [a]) =
        if isDirectiveLit a then [] else (if isInjectedExpr a then [] else [.statement (cx.range sp) true]) ++ (outlines cx [lookOf m] [a]).flatten := by
      unfold parts
      rw [looks_expr, own_init (counted_expr sp a) rfl rfl]
      show _ ++ ([outline cx _ a] : List (List Entry)).flatten = _
      rw [outline_ite]
      by_cases hd : isDirectiveLit a = true
      · simp [hd]
      · simp [hd, outlines]
    rw [hp]
    by_cases hd : isDirectiveLit a = true
    · rw [if_pos hd, if_pos hd]
      exact pure trivial
    · rw [if_neg hd, if_neg hd]
      refine bind (l := []) (P := fun _ => True) ?_ fun _ _ => visitChildren hgo hm fun c hc => hn.1.good rfl hc
      unfold Visitor.keepIf
      by_cases hj : isInjectedExpr a = true
      · rw [if_pos hj, if_pos (.inr hj)]
        exact pure trivial
      · rw [if_neg hj, if_neg (show ¬ (cx.hint sp = some .next ∨ isInjectedExpr a = true) from not_or.2 ⟨hh rfl, hj⟩)]
        exact mark _ _
  -- break
  · exact fun sp cs hn hh => frame (hh rfl) (marked' hn rfl (hh rfl) rfl rfl fun _ => rfl)
  -- conditional
  · intro sp a c d hn hh
    rw [outline_eq hl (excluded_of_hint (hh rfl))]
    exact frame (hh rfl) (visitCond hgo hm (hh rfl) hn.1)
  -- tagged template
  · exact fun sp cs hn hh => guarded (hh rfl) (marked hn rfl (excluded_of_hint (hh rfl)) rfl rfl fun _ => rfl)
  -- return
  · exact fun sp cs hn hh => frame (hh rfl) (marked' hn rfl (hh rfl) rfl rfl fun _ => rfl)
  -- variables
  · exact fun x sp cs hn hh => frame (hh rfl) (simple hn rfl (excluded_of_hint (hh rfl)) rfl rfl fun _ => rfl)
  -- class
  · exact fun sp cs hn hh => guarded (hh rfl) (simple hn rfl (excluded_of_hint (hh rfl)) rfl rfl fun _ => rfl)
  -- class properties
  · intro sp a c d hn hh
    rw [outline_simple hl (excluded_of_hint (hh rfl)) rfl fun _ => rfl, own_init rfl rfl rfl]
    exact At.guarded (hh rfl) (initParts hgo hm (fun _ => rfl) (fun x hx => hn.1.good rfl hx) ((hn.1 _ (each_self _)).2.1 _ rfl))
  · intro sp a c d hn hh
    rw [outline_simple hl (excluded_of_hint (hh rfl)) rfl fun _ => rfl, own_init rfl rfl rfl]
    exact At.guarded (hh rfl) (initParts hgo hm (fun _ => rfl) (fun x hx => hn.1.good rfl hx) ((hn.1 _ (each_self _)).2.1 _ rfl))
  -- methods
  · intro sp a f hn hh
    rw [outline_eq hl (excluded_of_hint (hh rfl))]
    refine guarded (hh rfl) ?_
    have skipped : (a.propName? = none || cx.excludes a.propName?) = true →
        own cx (mk .classMethod sp [a, f]) ++ parts cx (lookOf m) (mk .classMethod sp [a, f]) = [] := by
      intro hx
      rw [own_head (n := mk .classMethod sp [a, f]) rfl rfl (if_pos hx)]
      unfold parts
      rw [show looks cx (lookOf m) (mk .classMethod sp [a, f]) = [.skip, .skip] from if_pos hx]
      exact (outlines_two ..).trans (by rw [outline_skip, outline_skip]; rfl)
    split
    · next name hname =>
      by_cases hc : cx.ignoreMethods.contains name = true
      · rw [if_pos hc, skipped (by rw [hname]; simpa [Ctx.excludes] using hc)]
        exact pure trivial
      · have hx : ¬ (decide (a.propName? = none) || cx.excludes a.propName?) = true := by
          rw [hname]
          simpa [Ctx.excludes] using hc
        rw [if_neg hc]
        refine fnNode hgo hm _ (.inr (.inr (.inl rfl))) (if_neg hx) hn.1 ?_
        rintro x fsp cs rfl
        refine (if_neg hx).trans ?_
        rw [hname]
        rfl
    · next hname =>
      rw [skipped (by rw [hname]; rfl)]
      exact pure trivial
  · intro sp a f hn hh
    rw [outline_eq hl (excluded_of_hint (hh rfl))]
    refine guarded (hh rfl) ?_
    split
    · next name hname =>
      by_cases hc : cx.ignoreMethods.contains name = true
      · have hx : cx.excludes a.propName? = true := by rw [hname]; exact hc
        rw [if_pos hc, own_head (n := mk .methodProp sp [a, f]) rfl rfl (if_pos hx)]
        have : parts cx (lookOf m) (mk .methodProp sp [a, f]) = [] := by
          unfold parts
          rw [show looks cx (lookOf m) (mk .methodProp sp [a, f]) = [.skip, .skip] from if_pos hx]
          exact (outlines_two ..).trans (by rw [outline_skip, outline_skip]; rfl)
        rw [this]
        exact pure trivial
      · have hx : ¬ cx.excludes a.propName? = true := by rw [hname]; exact hc
        rw [if_neg hc]
        refine fnNode hgo hm _ (.inr (.inr (.inr rfl))) (if_neg hx) hn.1 ?_
        rintro x fsp cs rfl
        refine (if_neg hx).trans ?_
        rw [hname]
        rfl
    · next hname =>
      have hx : ¬ cx.excludes a.propName? = true := by rw [hname]; nofun
      refine fnNode hgo hm _ (.inr (.inr (.inr rfl))) (if_neg hx) hn.1 ?_
      rintro x fsp cs rfl
      refine (if_neg hx).trans ?_
      rw [hname]
      rfl
  -- accessors
  · intro sp a f hn hh
    rw [outline_eq hl (excluded_of_hint (hh rfl))]
    exact guarded (hh rfl) (visitAccessor (mid := []) hgo hm (.inl ⟨rfl, rfl⟩) hn.1)
  · intro sp a c d f hn hh
    rw [outline_eq hl (excluded_of_hint (hh rfl))]
    exact guarded (hh rfl) (visitAccessor (mid := [c, d]) hgo hm (.inr ⟨rfl, c, d, rfl⟩) hn.1)
  -- declarator
  · intro sp a c hn hh
    rw [outline_simple hl (excluded_of_hint (hh rfl)) rfl fun _ => rfl, own_init rfl rfl rfl]
    exact At.guarded (hh rfl) (initParts hgo hm (fun _ => rfl) (fun x hx => hn.1.good rfl hx) ((hn.1 _ (each_self _)).2.1 _ rfl))
  -- loop
  · intro x sp cs hn hh
    rw [outline_eq hl (excluded_of_hint (hh rfl))]
    refine guarded (hh rfl) (bind (l := []) (mark _ true) fun _ _ => ?_)
    have hp : parts cx (lookOf m) (mk (.loop x) sp cs) =
        (outlines cx ((blockifyLast cs).map fun _ => lookOf m) (blockifyLast cs)).flatten := by
      show (outlines cx (lookLoop cx (lookOf m) cs) cs).flatten = _
      rw [← loop_parts hl]
      congr 2
      rw [List.map_const', List.map_const']
      rw [length_blockifyLast]
    rw [hp]
    exact visitChildren hgo hm (Exact.Goes.blockifyLast fun c hc => hn.1.good rfl hc)
  -- labelled, continue
  · exact fun sp cs hn hh => frame (hh rfl) (marked' hn rfl (hh rfl) rfl rfl fun _ => rfl)
  · exact fun sp cs hn hh => frame (hh rfl) (marked' hn rfl (hh rfl) rfl rfl fun _ => rfl)
  -- switch
  · intro sp cs hn hh
    have h0 := hh rfl
    dsimp only [Node.span] at h0
    rw [outline_eq hl (excluded_of_hint (hh rfl)), own_branch (Exact.branch_switch ..), List.append_assoc]
    refine frame h0 ?_
    rw [if_neg h0]
    exact bind (l := []) (mark _ true) fun _ _ => newBranch fun b => last (fresh h0 (visitSwitch hgo (fun c hc => hn.1.child hc) _)) fun _ _ => pure trivial
  -- if
  · intro sp a c d hn hh
    have h0 := hh rfl
    dsimp only [Node.span] at h0
    rw [outline_eq hl (excluded_of_hint (hh rfl))]
    refine frame h0 ?_
    rw [if_neg h0]
    exact visitIf hgo hm h0 hn.1
  -- binary
  · intro x sp a c hn hh
    rw [outline_eq hl (excluded_of_hint (hh rfl))]
    exact visitBin hgo hm (hh rfl) hn.1
  -- default value
  · intro sp a c hn hh
    rw [outline_eq hl (excluded_of_hint (hh rfl)), own_branch (Exact.branch_default ..)]
    refine guarded (hh rfl) (newBranch fun b => ?_)
    have hp : parts cx (lookOf m) (mk .assignPat sp [a, c]) = outline cx (if leaf cx c then lookOf m else .skip) c :=
      (outlines_two ..).trans (by rw [outline_skip]; rfl)
    show Goes b _ (parts cx (lookOf m) (mk .assignPat sp [a, c])) _ _
    rw [hp]
    exact last (wrapBin hgo hm (hn.1.good rfl (by simp))) fun _ _ => pure trivial
  -- try, throw
  · exact fun sp cs hn hh => guarded (hh rfl) (marked hn rfl (excluded_of_hint (hh rfl)) rfl rfl fun _ => rfl)
  · exact fun sp cs hn hh => guarded (hh rfl) (marked hn rfl (excluded_of_hint (hh rfl)) rfl rfl fun _ => rfl)
  -- with
  · intro sp a c hn hh
    have h0 := hh rfl
    dsimp only [Node.span] at h0
    have hp : parts cx (lookOf m) (mk .withStmt sp [a, c]) = outline cx .body c :=
      (outlines_two ..).trans (by rw [outline_skip]; rfl)
    rw [outline_eq hl (excluded_of_hint (hh rfl)), hp]
    refine frame h0 ?_
    rw [if_neg h0]
    exact bind (l := []) (mark _ true) fun _ _ => last (visitWithBody hgo h0 (hn.1.good rfl (by simp))) fun _ _ => pure trivial
  -- switch case
  · intro sp a cs hn hh
    cases hn.2
  -- module declarations, debugger
  · exact fun sp cs hn _ => decl _ _ _ _ (.inl rfl) hn
  · exact fun sp cs hn _ => decl _ _ _ _ (.inr (.inl rfl)) hn
  · exact fun sp cs hn _ => decl _ _ _ _ (.inr (.inr rfl)) hn
  -- others
  · intro k sp cs hk hn hh
    rw [visitNode_default hk]
    have : outline cx (lookOf m) (mk k sp cs) = (outlines cx (cs.map fun _ => lookOf m) cs).flatten := by
      rw [outline_eq hl (excluded_default hk _ _), own_default hk, parts, looks_default hk, inOrder_default hk]
      · rfl
      · show (outlines cx _ cs).length = _
        rw [outlines_map]
        simp
    have hs : Exact.isSwitch k = false := Bool.eq_false_iff.2 fun h => by
      have : k = .switchStmt := by cases k <;> first | rfl | cases h
      subst this
      cases hk
    have hc : childLooks cx (lookOf m) (mk k sp cs) = cs.map fun _ => lookOf m := by
      unfold childLooks
      split
      · next e => cases e; cases hk
      · next e => cases e; cases hk
      · next e => cases e; rfl
    rw [this, ← hc]
    exact visitChildren hgo hm fun c h => hn.1.good hs h

end Goes

namespace Goes
variable {b : Nat} {l l' : List Range} {E E' : List Entry} {α β : Type} {P : α → Prop} {Q : β → Prop}

/-- Visits add the entries of the outline. -/
theorem visit (cx : Ctx) (fuel : Nat) : Rec cx (visit cx fuel) := by
  induction fuel with
  | zero =>
    exact ⟨fun b m n _ _ st a s _ _ _ _ _ _ (h : Except.error _ = _) => (nomatch h),
      fun b n _ _ st a s _ _ _ _ _ _ (h : Except.error _ = _) => (nomatch h),
      fun b n _ st a s _ _ _ _ _ _ (h : Except.error _ = _) => (nomatch h), visit_span cx 0⟩
  | succ fuel ih =>
    refine ⟨fun b m n hm hn => ?_, fun b n hn hc => ?_, fun b n hn => operand ((Operand.Adds.visit cx b (fuel + 1)).2 n hn), visit_span cx _⟩
    · by_cases hh : n.hintable = true ∧ cx.hint n.span = some .next
      · rw [outline_excluded (plain_lookOf m) (by simp [excluded, Ctx.hinted, hh.1, hh.2])]
        refine neutral fun st a s hi h => ?_
        obtain ⟨rfl, rfl⟩ := visit_hinted hh.1 hm hh.2 h
        exact ⟨trivial, rfl, ⟨rfl, rfl⟩, ⟨rfl, rfl⟩, rfl, rfl⟩
      · have key : Goes b [] (outline cx (lookOf m) n) (Visitor.visitNode cx (Visitor.visit cx fuel) m n) fun _ => True :=
          visitNode ih hm hn fun h1 h2 => hh ⟨h1, h2⟩
        cases m <;> first | exact key | cases hm
    · unfold isCase at hc
      split at hc
      · next sp test cons =>
        by_cases hh : cx.hint sp = some .next
        · have hx : cx.hinted (mk .switchCase sp (test :: cons)) = true := decide_eq_true hh
          rw [if_pos hx, outline_excluded (.inr rfl) (by simp [excluded, hx, isCase])]
          exact hinted hh trivial
        · rw [if_neg (by simp [Ctx.hinted, Node.span, hh]), outline_eq (.inr rfl) (excluded_of_hint hh)]
          exact guarded hh (visitCase ih fun c h => hn.good rfl h)
      · cases hc

/-! ### Programs -/

theorem withBefore {x : M Node} (hx : Goes b [] E x fun _ => True) : Goes b [] E (withBefore x) fun _ => True :=
  last hx fun n _ => neutral fun st a st' _ h => by cases h; exact ⟨trivial, rfl, ⟨rfl, rfl⟩, ⟨rfl, rfl⟩, rfl, rfl⟩

theorem visitItem {fuel : Nat} {item : Node} (hi : Good cx item) : Goes b [] (itemOutline cx item) (visitItem cx fuel item) fun _ => True := by
  unfold Visitor.visitItem itemOutline
  have hs : isDirectiveStmt item = isString item := rfl
  have hc : isExportConst item = isConst item := rfl
  rw [hs]
  by_cases h1 : isString item = true
  · rw [if_pos h1, if_pos h1]
    exact pure trivial
  rw [if_neg h1, if_neg h1]
  by_cases hh : cx.hint item.span = some .next
  · rw [if_pos (show cx.hinted item = true by simp [Ctx.hinted, hh]), outline_skip, List.append_nil]
    intro st a s B F U h0 hIs hl h
    obtain ⟨⟨old, cur⟩, s1, e1, e2⟩ := M.bind_ok h
    simp only [enter, push, enterSpan, Bind.bind, M.bind, hh] at e1
    rw [if_neg h0] at e1
    cases e1
    obtain ⟨r, s2, e3, e4⟩ := M.bind_ok e2
    cases e4
    obtain ⟨r1, s3, e5, e6⟩ := M.bind_ok e3
    cases e6
    obtain ⟨_, s4, e7, e8⟩ := M.bind_ok e5
    rw [hc] at e7
    have e9 : s4.ignore = some .next ∧ Is s4.cov (grow b [] B ++ Entry.branches (if isConst item then [.statement (cx.range item.span) true] else []))
        (F ++ Entry.functions F.length (if isConst item then [.statement (cx.range item.span) true] else []))
        (U ++ Entry.statements (if isConst item then [.statement (cx.range item.span) true] else [])) := by
      unfold Visitor.keepIf at e7
      cases hb : isConst item
      · rw [if_pos hb] at e7
        cases e7
        exact ⟨rfl, (pure (b := b) (P := fun _ => True) (a := ()) trivial st () st B F U h0 hIs hl rfl).2.2⟩
      · rw [if_neg (by simp [hb])] at e7
        cases e7
        exact ⟨rfl, (newStatement (b := b) (cx.range item.span) true st _ _ B F U h0 hIs hl rfl).2.2⟩
    obtain ⟨rfl, rfl⟩ := Still.visit cx fuel .coverage item _ _ _ e9.1 e8
    exact ⟨trivial, h0, e9.2⟩
  · rw [if_neg (show ¬ cx.hinted item = true by simp [Ctx.hinted, hh])]
    refine frame hh (withBefore ?_)
    refine bind (l := []) (P := fun _ => True) ?_ fun _ _ => (visit cx fuel).any b .coverage item rfl hi
    unfold Visitor.keepIf
    rw [hc]
    cases hb : isConst item
    · exact pure trivial
    · exact mark _ true

theorem visitItems {fuel : Nat} {items : List Node} (hi : ∀ c ∈ items, Good cx c) :
    Goes b [] (items.flatMap (itemOutline cx)) (visitItems cx fuel items) fun _ => True := by
  induction items with
  | nil => exact pure trivial
  | cons i items ih =>
    exact bind (l := []) (visitItem (hi i (by simp))) fun o _ => last (ih fun c hc => hi c (by simp [hc])) fun _ _ => pure trivial

theorem visitScriptItems {fuel : Nat} {items : List Node} (hi : ∀ c ∈ items, Good cx c) :
    Goes b [] (items.flatMap (outline cx .outer)) (visitScriptItems cx fuel items) fun _ => True := by
  induction items with
  | nil => exact pure trivial
  | cons i items ih =>
    exact bind (l := []) (withBefore ((visit cx fuel).any b .coverage i rfl (hi i (by simp)))) fun o _ =>
      last (ih fun c hc => hi c (by simp [hc])) fun _ _ => pure trivial

end Goes

/-- Only branches without arms are left out of the finished report. -/
theorem frozen {fi : File} {h0 : List RegOp} {st : St} {B : List Branch} {F : List Function} {U : List (Range × Bool)} (hg : File.good fi h0 st) (h : Is st.cov B F U) :
    (∀ k, st.cov.freeze.inner.fnMap.get k = F[k]? ∧ st.cov.freeze.inner.branchMap.get k = B[k]?.filter fun b => !b.locations.isEmpty) ∧
    ∃ S, Picks U S ∧ ∀ k, st.cov.freeze.inner.statementMap.get k = S[k]? := by
  obtain ⟨S, hS, -, hS'⟩ := h.statements
  refine ⟨fun k => ⟨h.functions k, ?_⟩, S, hS, hS'⟩
  have h1 := (hg.1.finished hg.2).branchMap k
  have h2 : st.cov.inner.branchMap.get k = (RegOp.branches h0)[k]?.map fun x => ⟨some x.2.1, x.1, RegOp.arms h0 k, some x.2.1.start.line⟩ := by
    rw [hg.1.inner]
    simp only [RegOp.report, RegOp.get_numbered]
  rw [← h.branches k, h1, h2]
  cases (RegOp.branches h0)[k]? with
  | none => rfl
  | some x => cases RegOp.arms h0 k <;> simp [Option.filter]

/-- The report of a finished program. -/
theorem instrument {cx : Ctx} {fuel : Nat} {path : String} {sm : Option SourceMap} {p p' : Node}
    {cov : SourceCoverage} (h : instrument cx fuel path sm p = .ok (p', cov)) (hp : p.NoTaggedInits) (hc : p.CasesInSwitch) :
    (∀ k, cov.inner.fnMap.get k = (Entry.functions 0 (programOutline cx p))[k]? ∧
      cov.inner.branchMap.get k = (Entry.branches (programOutline cx p))[k]?.filter fun b => !b.locations.isEmpty) ∧
    ∃ S, Picks (Entry.statements (programOutline cx p)) S ∧ ∀ k, cov.inner.statementMap.get k = S[k]? := by
  have hgood : File.good ⟨path, cx.reportLogic, sm⟩ [] (start cx path sm) :=
    ⟨RegOp.inv_setInputSourceMap RegOp.inv_new sm, RegOp.legal_nil⟩
  have hnew : Is (start cx path sm).cov [] [] [] := ⟨hgood.1.lastB, fun k => by rw [hgood.1.inner]; rfl, hgood.1.lastF,
    fun k => by rw [hgood.1.inner]; rfl, [], .nil, hgood.1.lastS, fun k => by rw [hgood.1.inner]; rfl⟩
  have hall : All cx p := fun x hx => ⟨fun _ => trivial, fun init hi => hp x hx init hi, hc x hx⟩
  rcases Sound.instrument h with ⟨-, rfl, h1⟩ | ⟨hf, n, h0, cov0, hst, ht, -⟩
  · have h2 : programOutline cx p = [] := by
      obtain ⟨kk, sp, cs⟩ := p
      unfold programOutline
      split
      · next e =>
        cases e
        exact if_pos (h1.resolve_right fun h => h.1 rfl)
      · next e =>
        cases e
        exact if_pos (h1.resolve_right fun h => h.2 rfl)
      · rfl
    rw [h2]
    exact ⟨fun k => ⟨hnew.functions k, hnew.branches k⟩, [], .nil, fun k => by rw [show (initial cx path sm).cov = (start cx path sm).cov from rfl, hgood.1.inner]; rfl⟩
  · obtain ⟨kk, sp, cs⟩ := p
    have hk : kk = .module ∨ kk = .script := by
      have h1 := hst.root.1
      cases ht <;> simp_all [Node.kind]
    have hf' : Hint.shouldIgnoreFile cx.cc cx.comments sp = false := hf
    rcases hk with rfl | rfl
    · rw [instrument_module _ _ _ _ sp cs hf] at h
      cases hv : visitItems cx fuel cs (start cx path sm) with
      | error e => rw [hv] at h; cases h
      | ok r =>
        obtain ⟨out, st⟩ := r
        rw [hv] at h
        cases h
        obtain ⟨h', -, g, -⟩ := Sound.visitItems (sp := sp) (l := []) hgood rfl hv
        obtain ⟨-, -, h3⟩ := Goes.visitItems (b := 0) (fun c hc => hall.good rfl hc) _ _ _ [] [] [] (fun h => by cases h) hnew (.inl rfl) hv
        have := frozen g h3
        simp only [programOutline, hf']
        exact this
    · rw [instrument_script _ _ _ _ sp cs hf] at h
      cases hv : visitScriptItems cx fuel cs (start cx path sm) with
      | error e => rw [hv] at h; cases h
      | ok r =>
        obtain ⟨out, st⟩ := r
        rw [hv] at h
        cases h
        obtain ⟨h', -, g, -⟩ := Sound.visitScriptItems (sp := sp) (l := []) hgood rfl hv
        obtain ⟨-, -, h3⟩ := Goes.visitScriptItems (b := 0) (fun c hc => hall.good rfl hc) _ _ _ [] [] [] (fun h => by cases h) hnew (.inl rfl) hv
        have := frozen g h3
        simp only [programOutline, hf']
        exact this

end Outline
end Verif
