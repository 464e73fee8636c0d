import Verif.Spec.Exchange
import Verif.Lemmas.Alike
/-
Expressions that are exchanged for each other are alike.
-/
namespace Verif
namespace Node
variable {cx : Ctx} {f : Node → Node}

theorem ordinary_mk {k : Kind} {sp : Span} {cs : List Node} (h : (mk k sp cs).ordinary = true) :
    k.ordinary = true ∧ ∀ c ∈ cs, c.ordinary = true := by
  replace h : (!(!k.ordinary || anyList (fun k => !k.ordinary) cs)) = true := h
  rw [Bool.not_eq_true', Bool.or_eq_false_iff, Bool.not_eq_false', anyList_eq, List.any_eq_false] at h
  refine ⟨h.1, fun c hc => ?_⟩
  unfold ordinary
  rw [Bool.not_eq_true']
  simpa using h.2 c hc

theorem ordinary_any {p : Kind → Bool} (hp : ∀ k : Kind, k.ordinary = true → p k = false) {n : Node} (h : n.ordinary = true) : n.any p = false := by
  induction n using ind with
  | h k sp cs ih =>
    obtain ⟨hk, hc⟩ := ordinary_mk h
    show (p k || anyList p cs) = false
    rw [hp k hk, Bool.false_or, anyList_eq, List.any_eq_false]
    intro c h
    rw [ih c h (hc c h)]
    exact Bool.false_ne_true

theorem ordinary_each {n m : Node} (h : n.ordinary = true) (hm : m ∈ n.each) : m.ordinary = true := by
  induction n using ind with
  | h k sp cs ih =>
    rcases mem_each_mk.1 hm with rfl | ⟨c, hc, hm⟩
    · exact h
    · exact ih c hc ((ordinary_mk h).2 c hc) hm

theorem ordinary_kind {n : Node} (h : n.ordinary = true) : n.kind.ordinary = true := by
  obtain ⟨k, sp, cs⟩ := n
  exact (ordinary_mk h).1

theorem ordinary_child {n c : Node} (h : n.ordinary = true) (hc : c ∈ n.children) : c.ordinary = true := by
  obtain ⟨k, sp, cs⟩ := n
  exact (ordinary_mk h).2 c hc

theorem bin_leaves {op : BinOp} (ho : op.isLogical = false) (sp : Span) (cs : List Node) :
    leaves cx (mk (.bin op) sp cs) = if cx.hint sp = some .next then [] else leavesList cx cs := by
  unfold leaves
  by_cases hs : cx.hint sp = some .next
  · rw [if_pos (by simp [hs, Kind.noExpr]), if_pos hs]
  · rw [if_neg (by simp [hs]), if_neg hs]
    match cs with
    | [] | [_] | _ :: _ :: _ :: _ => rfl
    | [a, b] =>
      show (if op.isLogical then operands cx [a, b] else leavesList cx [a, b]) = _
      rw [ho]
      rfl

theorem inner_leaves {k : Kind} (hk : k.inner = true) (sp : Span) (cs : List Node) :
    leaves cx (mk k sp cs) = if cx.hint sp = some .next then [] else leavesList cx cs := by
  cases k with
  | bin op => exact bin_leaves (by simpa [Kind.inner] using hk) sp cs
  | other c n =>
    cases c <;> first
      | exact absurd hk Bool.noConfusion
      | (unfold leaves
         by_cases hs : cx.hint sp = some .next
         · rw [if_pos (by simp [hs, Kind.noExpr]), if_pos hs]
         · rw [if_neg (by simp [hs]), if_neg hs])
  | paren | seq | assign =>
    unfold leaves
    by_cases hs : cx.hint sp = some .next
    · rw [if_pos (by simp [hs, Kind.noExpr]), if_pos hs]
    · rw [if_neg (by simp [hs]), if_neg hs]
  | _ => exact absurd hk Bool.noConfusion

/-- There are no operands in an expression that nothing is counted in. -/
theorem ordinary_leaves {n : Node} (h : n.ordinary = true) : leaves cx n = [] := by
  induction n using ind with
  | h k sp cs ih =>
    obtain ⟨hk, hc⟩ := ordinary_mk h
    have hl : leavesList cx cs = [] := by
      clear h
      induction cs with
      | nil => rfl
      | cons c cs ihc =>
        show leaves cx c ++ leavesList cx cs = []
        rw [ih c (.head _) (hc c (.head _)), ihc (fun c h => ih c (.tail _ h)) fun c h => hc c (.tail _ h)]
        rfl
    cases k with
    | bin op =>
      rw [bin_leaves (by simpa [Kind.ordinary] using hk), hl]
      split <;> rfl
    | _ =>
      unfold leaves
      split
      · rfl
      · exact hl

theorem inner_own {k : Kind} (hk : k.inner = true ∨ k.ordinary = true) (sp : Span) (cs : List Node) : own cx (mk k sp cs) = [] := by
  have hb : ∀ op : BinOp, op.isLogical = false → own cx (mk (.bin op) sp cs) = [] := by
    intro op ho
    have hn : (mk (.bin op) sp cs).branch? cx = none := by
      have hk : branchKind (mk (.bin op) sp cs) = Option.none := by
        match cs with
        | [] | [_] | _ :: _ :: _ :: _ => rfl
        | [a, b] =>
          show (if op.isLogical = true then some BranchType.binaryExpr else Option.none) = Option.none
          rw [ho]
          rfl
      unfold branch?
      rw [hk]
      rfl
    unfold own head
    rw [hn]
    rfl
  cases k with
  | bin op => exact hb op (by simpa [Kind.inner, Kind.ordinary] using hk)
  | _ => first | rfl | exact absurd hk (by simp [Kind.inner, Kind.ordinary])

/-- There are no entries in an expression that nothing is counted in. -/
theorem ordinary_outline {n : Node} (h : n.ordinary = true) (l : Look) : outline cx l n = [] := by
  induction n using ind generalizing l with
  | h k sp cs ih =>
    obtain ⟨hk, hc⟩ := ordinary_mk h
    have hl : ∀ ls, (outlines cx ls cs).flatten = [] := by
      clear h
      induction cs with
      | nil => intro ls; cases ls <;> rfl
      | cons c cs ihc =>
        intro ls
        cases ls with
        | nil => rfl
        | cons l ls =>
          show outline cx l c ++ (outlines cx ls cs).flatten = []
          rw [ih c (.head _) (hc c (.head _)), ihc (fun c h => ih c (.tail _ h)) fun c h => hc c (.tail _ h)]
          rfl
    have hi : ∀ es : List (List Entry), inOrder (mk k sp cs) es = es := by cases k <;> first | exact fun _ => rfl | exact absurd hk Bool.noConfusion
    unfold outline
    rw [inner_own (.inr hk), hi, hl, hl]
    split
    · rfl
    · split
      · rfl
      · split <;> rfl

theorem inner_looks {k : Kind} (hk : k.inner = true) (l : Look) (sp : Span) (cs : List Node) : looks cx l (mk k sp cs) = cs.map fun _ => l := by
  cases k with
  | bin op =>
    match cs with
    | [] | [_] | _ :: _ :: _ :: _ => rfl
    | [a, b] =>
      show (if op.isLogical then _ else [l, l]) = [l, l]
      rw [if_neg (by simpa [Kind.inner] using hk)]
  | _ => first | rfl | exact absurd hk Bool.noConfusion

theorem inner_outline {k k' : Kind} (hk : k.inner = true) (hk' : k'.inner = true) (hb : k'.isBin = k.isBin) (sp : Span) (cs : List Node) (l : Look) :
    outline cx l (mk k' sp cs) = outline cx l (mk k sp cs) := by
  have hi : ∀ {k : Kind}, k.inner = true → ∀ es : List (List Entry), inOrder (mk k sp cs) es = es := by
    intro k hk
    cases k <;> first | exact fun _ => rfl | exact absurd hk Bool.noConfusion
  have hn : ∀ {k : Kind}, k.inner = true → ¬(decide (l = .body) && decide (k = .block)) = true := by
    intro k hk
    cases k <;> first | exact absurd hk Bool.noConfusion | simp
  have hx : ∀ {k : Kind}, k.inner = true → excluded cx l (mk k sp cs) = (cx.hinted (mk k sp cs) && (k.isBin && decide (cs.length = 2))) := by
    intro k hk
    unfold excluded
    congr 1
    cases k <;> first
      | exact absurd hk Bool.noConfusion
      | (match cs with
        | [] | [_] | [_, _] => simp [hintable, isCase, kind, Kind.isBin]
        | _ :: _ :: _ :: _ => simp [hintable, isCase, kind, Kind.isBin])
  have hh : cx.hinted (mk k' sp cs) = cx.hinted (mk k sp cs) := rfl
  unfold outline
  rw [if_neg (hn hk), if_neg (hn hk'), hx hk, hx hk', hh, hb, hi hk, hi hk', inner_looks hk, inner_looks hk', inner_own (.inl hk), inner_own (.inl hk')]

theorem Plain.traits {n : Node} (h : n.Plain) : n.traits = (false, false, false, false, false) := by
  have hk := h.inner
  obtain ⟨k, sp, cs⟩ := n
  cases k <;> first | rfl | exact absurd hk Bool.noConfusion

theorem loose_traits {k : Kind} (h : k.loose = true) (sp : Span) (cs : List Node) : (mk k sp cs).traits = (false, false, false, false, false) := by
  cases k <;> first | rfl | exact absurd h Bool.noConfusion

theorem inner_traits {k : Kind} (h : k.inner = true) (sp : Span) (cs : List Node) : (mk k sp cs).traits = (false, false, false, false, false) := by
  cases k <;> first | rfl | exact absurd h Bool.noConfusion

theorem inner_fnParts {n : Node} (h : n.kind.inner = true) : n.fnParts = [] := by
  obtain ⟨k, sp, cs⟩ := n
  cases k <;> first | rfl | exact absurd h Bool.noConfusion

theorem inner_isExpr {n : Node} (h : n.kind.inner = true) : n.any Kind.isExpr = true := by
  obtain ⟨k, sp, cs⟩ := n
  show (k.isExpr || anyList Kind.isExpr cs) = true
  have : k.isExpr = true := by
    cases k with
    | other c _ => cases c <;> first | rfl | exact absurd h Bool.noConfusion
    | _ => first | rfl | exact absurd h Bool.noConfusion
  rw [this]
  rfl

theorem alike_exchange {a b : Node} (h : Exchange a b) : Alike cx a b := by
  cases h with
  | same => exact Alike.refl a
  | plain ha hb hs =>
    have none {p : Kind → Bool} (hp : ∀ k : Kind, k.ordinary = true → p k = false) : b.any p = a.any p := by
      rw [ordinary_any hp ha.ordinary, ordinary_any hp hb.ordinary]
    refine ⟨.inr ⟨Kind.loose_of_inner ha.inner, Kind.loose_of_inner hb.inner⟩, hs, hb.traits.trans ha.traits.symm, (inner_fnParts hb.inner).trans (inner_fnParts ha.inner).symm,
      none ?_, none ?_, fun _ => ⟨none ?_, none ?_, (inner_isExpr hb.inner).trans (inner_isExpr ha.inner).symm⟩, fun hx => ?_, ?_, fun l => ?_⟩
    · intro k hk
      cases k <;> first | rfl | exact absurd hk Bool.noConfusion | (simpa [Kind.ordinary, Kind.isLogical] using hk)
    · intro k hk
      cases k <;> first | rfl | exact absurd hk Bool.noConfusion
    · intro k hk
      cases k with
      | other c _ => cases c <;> first | rfl | exact absurd hk Bool.noConfusion
      | _ => first | rfl | exact absurd hk Bool.noConfusion
    · intro k hk
      cases k <;> first | rfl | exact absurd hk Bool.noConfusion
    · exact absurd (ordinary_any (p := Kind.isBlock) (fun k hk => by cases k <;> first | rfl | exact absurd hk Bool.noConfusion) ha.ordinary)
        (by rw [hx]; exact Bool.noConfusion)
    · rw [ordinary_leaves ha.ordinary, ordinary_leaves hb.ordinary]
    · rw [ordinary_outline ha.ordinary, ordinary_outline hb.ordinary]
  | operator sp cs hk hk' hb =>
    rename_i k k'
    have every {p : Kind → Bool} (hp : ∀ k : Kind, k.inner = true → p k = false) : (mk k' sp cs).any p = (mk k sp cs).any p := by
      show (p k' || anyList p cs) = (p k || anyList p cs)
      rw [hp k hk, hp k' hk']
    refine ⟨.inr ⟨Kind.loose_of_inner hk, Kind.loose_of_inner hk'⟩, rfl, (inner_traits hk' sp cs).trans (inner_traits hk sp cs).symm,
      (inner_fnParts (n := mk k' sp cs) hk').trans (inner_fnParts (n := mk k sp cs) hk).symm,
      every ?_, every ?_, fun _ => ⟨every ?_, every ?_, (inner_isExpr (n := mk k' sp cs) hk').trans (inner_isExpr (n := mk k sp cs) hk).symm⟩,
      fun hx => (every ?_).trans hx, ?_, inner_outline hk hk' hb sp cs⟩
    · intro k hk
      cases k <;> first | rfl | exact absurd hk Bool.noConfusion | (simpa [Kind.inner, Kind.isLogical] using hk)
    · intro k hk
      cases k <;> first | rfl | exact absurd hk Bool.noConfusion
    · intro k hk
      cases k with
      | other c _ => cases c <;> first | rfl | exact absurd hk Bool.noConfusion
      | _ => first | rfl | exact absurd hk Bool.noConfusion
    · intro k hk
      cases k <;> first | rfl | exact absurd hk Bool.noConfusion
    · intro k hk
      cases k <;> first | rfl | exact absurd hk Bool.noConfusion
    · rw [inner_leaves hk, inner_leaves hk']

theorem exchange_other {a b : Node} (h : Exchange a b) (hk : a.kind.inner = false) : b = a := by
  cases h with
  | same => rfl
  | plain ha _ _ => exact absurd (ha.inner.symm.trans hk) Bool.noConfusion
  | operator sp cs h1 _ _ => exact absurd (h1.symm.trans hk) Bool.noConfusion

/-! ### Conditions -/

/-- The constructs of the program after the exchange are those of the program, and parts of expressions that nothing is counted in. -/
theorem mem_each_exchange (hf : ∀ n, Exchange n (f n)) {n m : Node} (h : m ∈ (rewrite f n).each) :
    (∃ m0 ∈ n.each, m = rewrite f m0) ∨ m.ordinary = true := by
  induction n using ind generalizing m with
  | h k sp cs ih =>
    have parts : ∀ c ∈ cs.map (rewrite f), ∀ m ∈ c.each, (∃ m0 ∈ (mk k sp cs).each, m = rewrite f m0) ∨ m.ordinary = true := by
      intro c hc m hm
      obtain ⟨d, hd, rfl⟩ := List.mem_map.1 hc
      rcases ih d hd hm with ⟨m0, hm0, e⟩ | h
      · exact .inl ⟨m0, mem_each_mk.2 (.inr ⟨d, hd, hm0⟩), e⟩
      · exact .inr h
    have self : ∀ m, m = f (mk k sp (cs.map (rewrite f))) → (∃ m0 ∈ (mk k sp cs).each, m = rewrite f m0) ∨ m.ordinary = true := fun m hm =>
      .inl ⟨_, mem_each_mk.2 (.inl rfl), hm.trans (by
        show _ = f (mk k sp (rewrites f cs))
        rw [rewrites_eq])⟩
    replace h : m ∈ (f (mk k sp (rewrites f cs))).each := h
    rw [rewrites_eq] at h
    generalize cs.map (rewrite f) = cs' at parts self h
    have he := hf (mk k sp cs')
    generalize f (mk k sp cs') = b at he self h
    cases he with
    | same =>
      rcases mem_each_mk.1 h with rfl | ⟨x, hx, hm⟩
      · exact self _ rfl
      · exact parts x hx m hm
    | plain _ hb _ => exact .inr (ordinary_each hb.ordinary h)
    | operator =>
      rcases mem_each_mk.1 h with rfl | ⟨x, hx, hm⟩
      · exact self _ rfl
      · exact parts x hx m hm

theorem rewrite_kind (hf : ∀ n, Exchange n (f n)) (n : Node) :
    (rewrite f n).kind = n.kind ∨ n.kind.inner = true ∧ (rewrite f n).kind.inner = true := by
  obtain ⟨k, sp, cs⟩ := n
  have he := hf (mk k sp (rewrites f cs))
  show (f (mk k sp (rewrites f cs))).kind = k ∨ k.inner = true ∧ (f (mk k sp (rewrites f cs))).kind.inner = true
  generalize f (mk k sp (rewrites f cs)) = b at he
  cases he with
  | same => exact .inl rfl
  | plain ha hb _ => exact .inr ⟨ha.inner, hb.inner⟩
  | operator _ _ h1 h2 _ => exact .inr ⟨h1, h2⟩

theorem programOutline_exchange (hf : ∀ n, Exchange n (f n)) {p : Node} (h : p.StmtsInBlocks) :
    programOutline cx (rewrite f p) = programOutline cx p := by
  refine programOutline_rewrite (fun n => alike_exchange (hf n))
    (fun n hn => exchange_other (hf n) (by rcases hn with hn | hn <;> rw [hn] <;> rfl)) h fun m _ c _ => ?_
  rcases rewrite_kind hf c with hk | ⟨h1, h2⟩
  · exact mark_kind hk _
  · rw [inner_mark h1, inner_mark h2]

theorem rewrite_other (hf : ∀ n, Exchange n (f n)) {k : Kind} (hk : k.inner = false) (sp : Span) (cs : List Node) :
    rewrite f (mk k sp cs) = mk k sp (cs.map (rewrite f)) := by
  show f (mk k sp (rewrites f cs)) = _
  rw [rewrites_eq]
  exact exchange_other (hf _) hk

theorem inner_initOf {n : Node} (h : n.kind.inner = true) : initOf n = Option.none := by
  obtain ⟨k, sp, cs⟩ := n
  cases k <;> first | rfl | exact absurd h Bool.noConfusion

theorem exchange_untagged (hf : ∀ n, Exchange n (f n)) {p : Node} (h : p.NoTaggedInits) : (rewrite f p).NoTaggedInits := by
  intro m hm i hi
  rcases mem_each_exchange hf hm with ⟨m0, hm0, rfl⟩ | ho
  · obtain ⟨k, sp, cs⟩ := m0
    have hk : k.inner = false := by
      cases hx : k.inner with
      | false => rfl
      | true =>
        have : (rewrite f (mk k sp cs)).kind.inner = true := by
          rcases rewrite_kind hf (mk k sp cs) with h | h
          · rw [h]
            exact hx
          · exact h.2
        rw [inner_initOf this] at hi
        exact absurd hi (by simp)
    rw [rewrite_other hf hk] at hi
    have hm : initOf (mk k sp (cs.map (rewrite f))) = (initOf (mk k sp cs)).map (rewrite f) := by
      cases k with
      | varDeclarator =>
        match cs with
        | [] | [_] | [_, _] | _ :: _ :: _ :: _ => rfl
      | classProp =>
        match cs with
        | [] | [_] | [_, _] | [_, _, _] | _ :: _ :: _ :: _ :: _ => rfl
      | privateProp =>
        match cs with
        | [] | [_] | [_, _] | [_, _, _] | _ :: _ :: _ :: _ :: _ => rfl
      | _ => rfl
    rw [hm] at hi
    cases hx : initOf (mk k sp cs) with
    | none => rw [hx] at hi; exact absurd hi (by simp)
    | some e =>
      rw [hx] at hi
      obtain rfl : rewrite f e = i := by simpa using hi
      rcases rewrite_kind hf e with hk | ⟨_, hk⟩
      · rw [hk]
        exact h _ hm0 e hx
      · intro ht
        rw [ht] at hk
        exact absurd hk Bool.noConfusion
  · replace ho := ordinary_kind ho
    obtain ⟨k, sp, cs⟩ := m
    cases k <;> first | exact absurd ho Bool.noConfusion | exact absurd hi (by simp [initOf])

theorem isCase_kind {n : Node} (h : n.kind ≠ .switchCase) : n.isCase = false := by
  obtain ⟨k, sp, cs⟩ := n
  cases k <;> first | rfl | exact absurd rfl h

theorem ordinary_isCase {n : Node} (h : n.ordinary = true) : n.isCase = false := by
  refine isCase_kind fun hk => ?_
  have := ordinary_kind h
  rw [hk] at this
  exact absurd this Bool.noConfusion

theorem rewrite_isCase (hf : ∀ n, Exchange n (f n)) (n : Node) : (rewrite f n).isCase = n.isCase := by
  by_cases h : n.kind = .switchCase
  · obtain ⟨k, sp, cs⟩ := n
    obtain rfl : k = .switchCase := h
    rw [rewrite_other hf rfl]
    cases cs <;> rfl
  · rw [isCase_kind h, isCase_kind]
    rcases rewrite_kind hf n with hk | ⟨_, hk⟩
    · rw [hk]
      exact h
    · intro hs
      rw [hs] at hk
      exact absurd hk Bool.noConfusion

theorem exchange_casesInSwitch (hf : ∀ n, Exchange n (f n)) {p : Node} (h : p.CasesInSwitch) : (rewrite f p).CasesInSwitch := by
  intro m hm hs c hc
  rcases mem_each_exchange hf hm with ⟨m0, hm0, rfl⟩ | ho
  · obtain ⟨k, sp, cs⟩ := m0
    have hk : k ≠ .switchStmt := by
      rintro rfl
      rw [rewrite_other hf rfl] at hs
      exact hs rfl
    have parts : ∀ c ∈ rewrites f cs, c.isCase = false := by
      intro c hc
      rw [rewrites_eq] at hc
      obtain ⟨e, he, rfl⟩ := List.mem_map.1 hc
      rw [rewrite_isCase hf]
      exact h _ hm0 hk e he
    replace hc : c ∈ (f (mk k sp (rewrites f cs))).children := hc
    generalize rewrites f cs = cs' at parts hc
    have he := hf (mk k sp cs')
    generalize f (mk k sp cs') = b at he hc
    cases he with
    | same => exact parts c hc
    | plain _ hb _ => exact ordinary_isCase (ordinary_child hb.ordinary hc)
    | operator => exact parts c hc
  · exact ordinary_isCase (ordinary_child ho hc)

end Node
end Verif
