import Verif.Spec.Wrapper
import Verif.Lemmas.Thin
import Verif.Lemmas.Stricter
/-
The outline of a script put into a function that is called at once.
-/
namespace Verif
namespace Node
variable {cx : Ctx}

/-- How each part is looked at is fixed, or is how the construct is looked at. -/
theorem looks_uniform (n : Node) : ∃ ls : List (Option Look), ∀ l, looks cx l n = ls.map fun o => o.getD l := by
  obtain ⟨k, sp, cs⟩ := n
  have hd : ∃ ls : List (Option Look), ∀ l, (cs.map fun _ => l) = ls.map fun o => o.getD l :=
    ⟨cs.map fun _ => none, fun l => by rw [List.map_map]; rfl⟩
  have hf : ∀ ls : List Look, ls = (ls.map some).map fun o => o.getD .outer := fun ls => by
    rw [List.map_map]
    exact (List.map_id ls).symm
  have hg : ∀ (ls : List Look) (l : Look), ls = (ls.map some).map fun o => o.getD l := fun ls l => by
    rw [List.map_map]
    exact (List.map_id ls).symm
  cases k with
  | block => exact ⟨_, fun l => hg (cs.map (lookStmt cx)) l⟩
  | switchCase =>
    match cs with
    | [] => exact ⟨[], fun _ => rfl⟩
    | c :: ss => exact ⟨none :: (ss.map (lookStmt cx)).map some, fun l => congrArg (l :: ·) (hg _ l)⟩
  | switchStmt => exact ⟨_, fun l => hg (cs.map fun _ => .inner) l⟩
  | arrow =>
    match cs, hd with
    | [], hd | [_], hd => exact hd
    | _ :: _ :: _ :: _, hd => exact hd
    | [a, b], _ => exact ⟨_, fun l => hg [.skip, if b.kind = .block then .body else if cx.hinted b then .skip else .inner] l⟩
  | ifStmt =>
    match cs, hd with
    | [], hd | [_], hd | [_, _], hd => exact hd
    | _ :: _ :: _ :: _ :: _, hd => exact hd
    | [_, _, alt], _ =>
      exact ⟨none :: [if cx.hint sp = some .if then Look.skip else .body, if cx.hint sp = some .else || alt.isNone then .skip else .body].map some,
        fun l => congrArg (l :: ·) (hg _ l)⟩
  | withStmt =>
    match cs, hd with
    | [], hd | [_], hd => exact hd
    | _ :: _ :: _ :: _, hd => exact hd
    | [_, _], _ => exact ⟨_, fun l => hg [.skip, .body] l⟩
  | loop =>
    show ∃ ls : List (Option Look), ∀ l, lookLoop cx l cs = ls.map fun o => o.getD l
    clear hd
    induction cs with
    | nil => exact ⟨[], fun _ => rfl⟩
    | cons c cs ih =>
      match cs, ih with
      | [], _ =>
        refine ⟨[if c.kind = .block then none else some (if cx.hint Span.dummy = some .next then .skip else lookStmt cx c)], fun l => ?_⟩
        show [if c.kind = .block then l else _] = [Option.getD (if c.kind = .block then none else _) l]
        split <;> rfl
      | d :: cs, ⟨ls, h⟩ => exact ⟨none :: ls, fun l => congrArg (l :: ·) (h l)⟩
  | exprStmt =>
    match cs, hd with
    | [], hd => exact hd
    | mk k' _ _ :: _ :: _, hd => cases k' <;> exact hd
    | [mk k' _ _], hd =>
      cases k' with
      | strLit v =>
        refine ⟨[if v ∈ ["use strict", "use asm", "use strong"] then some .skip else none], fun l => ?_⟩
        show [if v ∈ ["use strict", "use asm", "use strong"] then Look.skip else l] =
          [Option.getD (if v ∈ ["use strict", "use asm", "use strong"] then some .skip else none) l]
        split <;> rfl
      | _ => exact hd
  | fnExpr =>
    match cs, hd with
    | [], hd | [_], hd => exact hd
    | _ :: _ :: _ :: _, hd => exact hd
    | [a, _], _ =>
      refine ⟨if cx.excludes a.identName? then [some .skip, some .skip] else [none, none], fun l => ?_⟩
      show (if cx.excludes a.identName? then [Look.skip, .skip] else [l, l]) = _
      split <;> rfl
  | classMethod =>
    match cs, hd with
    | [], hd | [_], hd => exact hd
    | _ :: _ :: _ :: _, hd => exact hd
    | [a, _], _ =>
      refine ⟨if a.propName? = none || cx.excludes a.propName? then [some .skip, some .skip] else [none, none], fun l => ?_⟩
      show (if a.propName? = none || cx.excludes a.propName? then [Look.skip, .skip] else [l, l]) = _
      split <;> rfl
  | methodProp =>
    match cs, hd with
    | [], hd | [_], hd => exact hd
    | _ :: _ :: _ :: _, hd => exact hd
    | [a, _], _ =>
      refine ⟨if cx.excludes a.propName? then [some .skip, some .skip] else [none, none], fun l => ?_⟩
      show (if cx.excludes a.propName? then [Look.skip, .skip] else [l, l]) = _
      split <;> rfl
  | getterProp =>
    match cs, hd with
    | [], hd | [_], hd => exact hd
    | _ :: _ :: _ :: _, hd => exact hd
    | [a, _], _ =>
      refine ⟨if cx.excludes a.propName? then [some .skip, some .skip] else [none, none], fun l => ?_⟩
      show (if cx.excludes a.propName? then [Look.skip, .skip] else [l, l]) = _
      split <;> rfl
  | setterProp =>
    match cs, hd with
    | [], hd | [_], hd | [_, _], hd | [_, _, _], hd => exact hd
    | _ :: _ :: _ :: _ :: _ :: _, hd => exact hd
    | [a, _, _, _], _ =>
      refine ⟨if cx.excludes a.propName? then [some .skip, some .skip, some .skip, some .skip] else [none, none, none, none], fun l => ?_⟩
      show (if cx.excludes a.propName? then [Look.skip, .skip, .skip, .skip] else [l, l, l, l]) = _
      split <;> rfl
  | bin op =>
    match cs, hd with
    | [], hd | [_], hd => exact hd
    | _ :: _ :: _ :: _, hd => exact hd
    | [a, b], _ =>
      refine ⟨if op.isLogical then [if leaf cx a then none else some .skip, if leaf cx b then none else some .skip] else [none, none], fun l => ?_⟩
      show (if op.isLogical then [if leaf cx a then l else .skip, if leaf cx b then l else .skip] else [l, l]) = _
      split
      · show _ = [Option.getD (if leaf cx a then none else some .skip) l, Option.getD (if leaf cx b then none else some .skip) l]
        cases leaf cx a <;> cases leaf cx b <;> rfl
      · rfl
  | assignPat =>
    match cs, hd with
    | [], hd | [_], hd => exact hd
    | _ :: _ :: _ :: _, hd => exact hd
    | [_, b], _ =>
      refine ⟨[some .skip, if leaf cx b then none else some .skip], fun l => ?_⟩
      show [Look.skip, if leaf cx b then l else .skip] = [_, Option.getD (if leaf cx b then none else some .skip) l]
      cases leaf cx b <;> rfl
  | _ => exact hd

theorem outlines_look {ls : List (Option Look)} {cs : List Node} {l l' : Look} (h : ∀ c ∈ cs, outline cx l c = outline cx l' c) :
    outlines cx (ls.map fun o => o.getD l) cs = outlines cx (ls.map fun o => o.getD l') cs := by
  induction ls generalizing cs with
  | nil => rfl
  | cons o ls ih =>
    cases cs with
    | nil => rfl
    | cons c cs =>
      show outline cx (o.getD l) c :: outlines cx _ cs = outline cx (o.getD l') c :: outlines cx _ cs
      rw [ih fun c hc => h c (.tail _ hc)]
      cases o with
      | none => exact congrArg (· :: _) (h c (.head _))
      | some => rfl

theorem outline_step {l : Look} (hl : l = .outer ∨ l = .inner) (k : Kind) (sp : Span) (cs : List Node) : outline cx l (mk k sp cs) =
    if excluded cx l (mk k sp cs) then [] else
      own cx (mk k sp cs) ++ (inOrder (mk k sp cs) (outlines cx (looks cx l (mk k sp cs)) cs)).flatten := by
  rcases hl with rfl | rfl <;> rfl

theorem isScript_mk {k : Kind} {sp : Span} {cs : List Node} (h : (mk k sp cs).IsScript) {c : Node} (hc : c ∈ cs) : c.IsScript :=
  fun m hm => h m (mem_each_mk.2 (.inr ⟨c, hc, hm⟩))

/-- Without exports it makes no difference whether a construct is inside of a list of statements. -/
theorem outline_outer {n : Node} (h : n.IsScript) : outline cx .outer n = outline cx .inner n := by
  induction n using ind with
  | h k sp cs ih =>
    obtain ⟨h1, h2, h3⟩ := h (mk k sp cs) (mem_each_mk.2 (.inl rfl))
    replace h1 : k ≠ .exportDecl := h1
    replace h2 : k ≠ .exportDefault := h2
    by_cases hk : k = .debugger
    · obtain rfl : cs = [] := h3 hk
      subst hk
      rw [traceless_outline rfl, traceless_outline rfl]
    · have he : excluded cx .outer (mk k sp cs) = excluded cx .inner (mk k sp cs) := by
        unfold excluded
        rw [show (mk k sp cs).kind = k from rfl, decide_eq_false h1, decide_eq_false h2, decide_eq_false hk]
        simp
      obtain ⟨ls, hl⟩ := looks_uniform (cx := cx) (mk k sp cs)
      rw [outline_step (.inl rfl), outline_step (.inr rfl), he, hl, hl, outlines_look fun c hc => ih c hc (isScript_mk h hc)]

/-- A statement of a script is looked at as it is inside of a list of statements. -/
theorem outline_item {n : Node} (h : n.IsScript) (hi : isInjectedStmt n = false) (hh : cx.hinted n = true → n.hintable = true ∨ n.traceless = true) :
    outline cx .outer n = outline cx (lookStmt cx n) n := by
  unfold lookStmt
  rw [hi, Bool.or_false]
  split
  · next hx =>
    rcases hh hx with hh | hh
    · obtain ⟨k, sp, cs⟩ := n
      have he : excluded cx .outer (mk k sp cs) = true := by
        unfold excluded
        rw [hx, hh]
        rfl
      rw [outline_step (.inl rfl), he, if_pos rfl, outline, if_pos rfl]
    · rw [traceless_outline hh, traceless_outline hh]
  · exact outline_outer h

theorem outlines_flat (f : Node → Look) (ss : List Node) : (outlines cx (ss.map f) ss).flatten = ss.flatMap fun s => outline cx (f s) s := by
  induction ss with
  | nil => rfl
  | cons s ss ih =>
    show outline cx (f s) s ++ (outlines cx (ss.map f) ss).flatten = outline cx (f s) s ++ ss.flatMap _
    rw [ih]

theorem traceless_list {sp : Span} {cs : List Node} (h : ∀ c ∈ cs, c.traceless = true) : (mk .list sp cs).traceless = true := by
  unfold traceless
  show (!(false || anyList (fun k => !k.traceless) cs)) = true
  rw [Bool.false_or, Bool.not_eq_true', anyList_eq, List.any_eq_false]
  intro c hc
  have := h c hc
  unfold traceless at this
  simpa using this

/-- The entries of a wrapper: the statement, the function, and those of its body. -/
theorem wrapper_outline {w : Places} (hw : cx.Spares w) {params args items : List Node} (hp : ∀ c ∈ params, c.traceless = true)
    (ha : ∀ c ∈ args, c.traceless = true) :
    outline cx .outer (wrapper w params args items) = Entry.statement (cx.range w.stmt) true :: Entry.function none (cx.range w.function) (cx.range w.body) ::
      items.flatMap fun s => outline cx (lookStmt cx s) s := by
  have he : ∀ (k : Kind) (sp : Span) (cs : List Node), cx.hint sp ≠ some .next → excluded cx .outer (mk k sp cs) = false := by
    intro k sp cs h
    unfold excluded Ctx.hinted
    rw [show (mk k sp cs).span = sp from rfl, decide_eq_false h]
    rfl
  have hn : ∀ (k : Kind) (sp : Span) (cs : List Node), (mk k sp cs).hintable = false → (mk k sp cs).isCase = false → k ≠ .exportDecl →
      k ≠ .exportDefault → k ≠ .debugger → excluded cx .outer (mk k sp cs) = false := by
    intro k sp cs h1 h2 h3 h4 h5
    unfold excluded
    rw [h1, h2, show (mk k sp cs).kind = k from rfl, decide_eq_false h3, decide_eq_false h4, decide_eq_false h5]
    simp
  have step : ∀ (k : Kind) (sp : Span) (cs : List Node), excluded cx .outer (mk k sp cs) = false → outline cx .outer (mk k sp cs) =
      own cx (mk k sp cs) ++ (inOrder (mk k sp cs) (outlines cx (looks cx .outer (mk k sp cs)) cs)).flatten := by
    intro k sp cs h
    rw [outline_step (.inl rfl), h, if_neg (by simp)]
  have hb : outline cx .outer (mk .block w.body items) = items.flatMap fun s => outline cx (lookStmt cx s) s := by
    rw [step _ _ _ (he _ _ _ hw.2.2)]
    exact outlines_flat (lookStmt cx) items
  have hf : outline cx .outer (mk (.function "") w.function [mk .list Span.dummy params, mk .list Span.dummy [], mk .block w.body items]) =
      items.flatMap fun s => outline cx (lookStmt cx s) s := by
    rw [step _ _ _ (hn _ _ _ rfl rfl (by simp) (by simp) (by simp))]
    show outline cx .outer (mk .list Span.dummy params) ++ (outline cx .outer (mk .list Span.dummy []) ++ (outline cx .outer (mk .block w.body items) ++ [])) = _
    rw [traceless_outline (traceless_list hp), traceless_outline rfl, hb, List.append_nil]
    rfl
  have hx : outline cx .outer (mk .fnExpr w.fn [mk .none Span.dummy [],
      mk (.function "") w.function [mk .list Span.dummy params, mk .list Span.dummy [], mk .block w.body items]]) =
      Entry.function none (cx.range w.function) (cx.range w.body) :: items.flatMap fun s => outline cx (lookStmt cx s) s := by
    rw [step _ _ _ (he _ _ _ hw.2.1)]
    show Entry.function none (cx.range w.function) (cx.range w.body) :: (outline cx .outer (mk .none Span.dummy []) ++ (outline cx .outer
      (mk (.function "") w.function [mk .list Span.dummy params, mk .list Span.dummy [], mk .block w.body items]) ++ [])) = _
    rw [traceless_outline rfl, hf, List.append_nil]
    rfl
  unfold wrapper
  rw [step _ _ _ (he _ _ _ hw.1)]
  show Entry.statement (cx.range w.stmt) true :: (outline cx .outer (mk (.other .expr "Call") w.call _) ++ []) = _
  rw [List.append_nil, step _ _ _ (hn _ _ _ rfl rfl (by simp) (by simp) (by simp))]
  show _ :: (outline cx .outer (mk .paren w.paren _) ++ (outline cx .outer (mk .list Span.dummy args) ++ [])) = _
  rw [traceless_outline (traceless_list ha), step _ _ _ (hn _ _ _ rfl rfl (by simp) (by simp) (by simp))]
  show _ :: ((outline cx .outer (mk .fnExpr w.fn _) ++ []) ++ []) = _
  rw [hx, List.append_nil, List.append_nil]

/-- The entries of a script in a wrapper: the statement and the function of the wrapper, and those of the script. -/
theorem programOutline_wrapper {w : Places} (hw : cx.Spares w) {params args items : List Node} {sp : Span} (hp : ∀ c ∈ params, c.traceless = true)
    (ha : ∀ c ∈ args, c.traceless = true) (hs : (mk .script sp items).IsScript) (hc : Clean (mk .script sp items)) (hh : cx.HintsApply items)
    (hi : Hint.shouldIgnoreFile cx.cc cx.comments sp = false) :
    programOutline cx (mk .script sp [wrapper w params args items]) = Entry.statement (cx.range w.stmt) true ::
      Entry.function none (cx.range w.function) (cx.range w.body) :: programOutline cx (mk .script sp items) := by
  have hx : ∀ ss, programOutline cx (mk .script sp ss) = ss.flatMap (outline cx .outer) := fun ss => by
    show (if Hint.shouldIgnoreFile cx.cc cx.comments sp then [] else _) = _
    rw [hi, if_neg Bool.false_ne_true]
  rw [hx, hx]
  show outline cx .outer (wrapper w params args items) ++ [] = _
  rw [List.append_nil, wrapper_outline hw hp ha]
  congr 2
  refine List.flatMap_congr fun s h => (outline_item (isScript_mk hs h) ?_ (hh s h)).symm
  replace hc : (false || anyList Kind.injected items) = false := hc
  rw [Bool.false_or, anyList_eq, List.any_eq_false] at hc
  replace hc : s.any Kind.injected = false := by simpa using hc s h
  obtain ⟨k, sp', cs⟩ := s
  cases k with
  | exprStmt =>
    match cs, hc with
    | [], _ | _ :: _ :: _, _ => rfl
    | [mk k' _ _], hc =>
      cases k' with
      | counter c => exact absurd hc (by simp [Node.any, anyList, Kind.injected])
      | _ => rfl
  | _ => rfl

/-! ### Conditions -/

theorem traceless_each {n m : Node} (h : n.traceless = true) (hm : m ∈ n.each) : m.kind.traceless = true := by
  induction n using ind with
  | h k sp cs ih =>
    obtain ⟨hk, hc⟩ := traceless_mk h
    rcases mem_each_mk.1 hm with rfl | ⟨c, h, hm⟩
    · exact hk
    · exact ih c h (hc c h) hm

theorem initOf_kind {m i : Node} (h : i ∈ initOf m) : m.kind.traceless = false := by
  obtain ⟨k, sp, cs⟩ := m
  cases k <;> first | rfl | exact absurd h (by simp [initOf])

theorem each_children {n m c : Node} (hm : m ∈ n.each) (hc : c ∈ m.children) : c ∈ n.each := by
  induction n using ind with
  | h k sp cs ih =>
    rcases mem_each_mk.1 hm with rfl | ⟨d, hd, hm⟩
    · exact mem_each_mk.2 (.inr ⟨c, hc, each_self c⟩)
    · exact mem_each_mk.2 (.inr ⟨d, hd, ih d hd hm⟩)

theorem traceless_isCase {n : Node} (h : n.kind.traceless = true) : n.isCase = false := by
  obtain ⟨k, sp, cs⟩ := n
  cases k <;> first | rfl | exact absurd h Bool.noConfusion

/-- The constructs of a script in a wrapper: those of the script, of the parameters and of the arguments, and those of the wrapper. -/
theorem mem_each_wrapper {w : Places} {params args items : List Node} {sp : Span} {m : Node} (h : m ∈ (mk .script sp [wrapper w params args items]).each) :
    (∃ s ∈ items, m ∈ s.each) ∨ (∃ c ∈ params ++ args, m ∈ c.each) ∨
      initOf m = none ∧ ∀ c ∈ m.children, c.isCase = true → c ∈ items ∨ c ∈ params ++ args := by
  have one {k : Kind} {sp : Span} {cs : List Node} (hm : m = mk k sp cs) (hi : initOf (mk k sp cs) = none)
      (hc : ∀ c ∈ cs, c.isCase = true → c ∈ items ∨ c ∈ params ++ args) :
      initOf m = none ∧ ∀ c ∈ m.children, c.isCase = true → c ∈ items ∨ c ∈ params ++ args := hm ▸ ⟨hi, hc⟩
  have down {k : Kind} {sp : Span} {a : Node} (h : m ∈ (mk k sp [a]).each) : m = mk k sp [a] ∨ m ∈ a.each := by
    rcases mem_each_mk.1 h with h | ⟨c, hc, h⟩
    · exact .inl h
    · exact .inr (List.mem_singleton.1 hc ▸ h)
  have down2 {k : Kind} {sp : Span} {a b : Node} (h : m ∈ (mk k sp [a, b]).each) : m = mk k sp [a, b] ∨ m ∈ a.each ∨ m ∈ b.each := by
    rcases mem_each_mk.1 h with h | ⟨c, hc, hm⟩
    · exact .inl h
    · simp only [List.mem_cons, List.not_mem_nil, or_false] at hc
      rcases hc with rfl | rfl
      · exact .inr (.inl hm)
      · exact .inr (.inr hm)
  have one' {a : Node} (h : a.isCase = false) : ∀ c ∈ [a], c.isCase = true → c ∈ items ∨ c ∈ params ++ args := by
    intro c hc hx
    rw [List.mem_singleton.1 hc, h] at hx
    exact absurd hx Bool.noConfusion
  have two' {a b : Node} (h : a.isCase = false) (h' : b.isCase = false) : ∀ c ∈ [a, b], c.isCase = true → c ∈ items ∨ c ∈ params ++ args := by
    intro c hc hx
    rcases List.mem_cons.1 hc with rfl | hc
    · rw [h] at hx
      exact absurd hx Bool.noConfusion
    · exact one' h' c hc hx
  rcases down h with h | h
  · exact .inr (.inr (one h rfl (one' rfl)))
  rcases down h with h | h
  · exact .inr (.inr (one h rfl (one' rfl)))
  rcases down2 h with h | h | h
  · exact .inr (.inr (one h rfl (two' rfl rfl)))
  · rcases down h with h | h
    · exact .inr (.inr (one h rfl (one' rfl)))
    rcases down2 h with h | h | h
    · exact .inr (.inr (one h rfl (two' rfl rfl)))
    · rcases mem_each_mk.1 h with h | ⟨c, hc, _⟩
      · exact .inr (.inr (one h rfl nofun))
      · exact absurd hc (by simp)
    · rcases mem_each_mk.1 h with h | ⟨c, hc, h⟩
      · exact .inr (.inr (one h rfl fun c hc => by
          rcases List.mem_cons.1 hc with rfl | hc
          · exact fun hx => absurd hx Bool.noConfusion
          · exact two' rfl rfl c hc))
      · simp only [List.mem_cons, List.not_mem_nil, or_false] at hc
        rcases hc with rfl | rfl | rfl
        · rcases mem_each_mk.1 h with h | ⟨c, hc, h⟩
          · exact .inr (.inr (one h rfl fun c hc _ => .inr (List.mem_append_left _ hc)))
          · exact .inr (.inl ⟨c, List.mem_append_left _ hc, h⟩)
        · rcases mem_each_mk.1 h with h | ⟨c, hc, _⟩
          · exact .inr (.inr (one h rfl nofun))
          · exact absurd hc (by simp)
        · rcases mem_each_mk.1 h with h | ⟨c, hc, h⟩
          · exact .inr (.inr (one h rfl fun c hc _ => .inl hc))
          · exact .inl ⟨c, hc, h⟩
  · rcases mem_each_mk.1 h with h | ⟨c, hc, h⟩
    · exact .inr (.inr (one h rfl fun c hc _ => .inr (List.mem_append_right _ hc)))
    · exact .inr (.inl ⟨c, List.mem_append_right _ hc, h⟩)

theorem wrapper_untagged {w : Places} {params args items : List Node} {sp : Span} (hp : ∀ c ∈ params ++ args, c.traceless = true)
    (h : (mk .script sp items).NoTaggedInits) : (mk .script sp [wrapper w params args items]).NoTaggedInits := by
  intro m hm i hi
  rcases mem_each_wrapper hm with ⟨s, hs, hm⟩ | ⟨c, hc, hm⟩ | ⟨hn, _⟩
  · exact h m (mem_each_mk.2 (.inr ⟨s, hs, hm⟩)) i hi
  · exact absurd (traceless_each (hp c hc) hm) (by rw [initOf_kind hi]; exact Bool.noConfusion)
  · rw [hn] at hi
    exact absurd hi (by simp)

theorem wrapper_casesInSwitch {w : Places} {params args items : List Node} {sp : Span} (hp : ∀ c ∈ params ++ args, c.traceless = true)
    (h : (mk .script sp items).CasesInSwitch) : (mk .script sp [wrapper w params args items]).CasesInSwitch := by
  intro m hm hs c hc
  have inside : ∀ c ∈ params ++ args, c.isCase = false := fun c hc => by
    have := hp c hc
    obtain ⟨k, sp, cs⟩ := c
    exact traceless_isCase (traceless_mk this).1
  rcases mem_each_wrapper hm with ⟨s, hs', hm⟩ | ⟨d, hd, hm⟩ | ⟨_, hn⟩
  · exact h m (mem_each_mk.2 (.inr ⟨s, hs', hm⟩)) hs c hc
  · refine traceless_isCase (traceless_each (hp d hd) ?_)
    exact each_children hm hc
  · cases hx : c.isCase with
    | false => rfl
    | true =>
      rcases hn c hc hx with h' | h'
      · exact hx.symm.trans (h _ (mem_each_mk.2 (.inl rfl)) (by simp [kind]) c h')
      · exact hx.symm.trans (inside c h')

end Node
end Verif
