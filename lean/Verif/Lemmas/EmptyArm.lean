import Verif.Lemmas.Alike
/-
An `if` or `try` with an empty block for what is missing is alike to the one without it.
-/
namespace Verif
namespace Node
variable {cx : Ctx} {w : Span → Option Span}

/-- Either there is something to be done, or nothing happens. -/
theorem emptyArm_cases (n : Node) :
    (∃ sp t c s, n = mk .ifStmt sp [t, c, mk .none s []] ∧ emptyArm w n = mk .ifStmt sp [t, c, emptyBlock (w sp) s]) ∨
    (∃ sp b ss h s, n = mk .tryStmt sp [mk .block b ss, h, mk .none s []] ∧ emptyArm w n = mk .tryStmt sp [mk .block b ss, h, emptyBlock (w sp) s]) ∨
    emptyArm w n = n := by
  unfold emptyArm
  split
  · exact .inl ⟨_, _, _, _, rfl, rfl⟩
  · exact .inr (.inl ⟨_, _, _, _, _, rfl, rfl⟩)
  · exact .inr (.inr rfl)

theorem emptyBlock_leaves (o : Option Span) (s : Span) : leaves cx (emptyBlock o s) = [] := by
  cases o with
  | none => unfold emptyBlock leaves; split <;> rfl
  | some b => unfold emptyBlock leaves; split <;> rfl

theorem emptyBlock_outline (o : Option Span) (s : Span) (l : Look) : outline cx l (emptyBlock o s) = [] := by
  cases o with
  | none =>
    show outline cx l (mk .none s []) = []
    unfold outline
    cases l <;> (repeat' split) <;> rfl
  | some b =>
    show outline cx l (mk .block b []) = []
    unfold outline
    cases l <;> (repeat' split) <;> rfl

theorem none_outline (s : Span) (l : Look) : outline cx l (mk .none s []) = [] := emptyBlock_outline none s l

theorem alike_emptyArm (n : Node) : Alike cx n (emptyArm w n) := by
  rcases emptyArm_cases (w := w) n with ⟨sp, t, c, s, rfl, he⟩ | ⟨sp, b, ss, h, s, rfl, he⟩ | he
  · rw [he]
    have hl : (emptyBlock (w sp) s).any Kind.isLogical = false := by cases w sp <;> rfl
    refine ⟨.inl rfl, rfl, rfl, rfl, ?_, rfl, fun hn => absurd hn Bool.noConfusion, fun hb => ?_, ?_, fun l => ?_⟩
    · show (false || (t.any _ || (c.any _ || ((emptyBlock (w sp) s).any Kind.isLogical || false)))) = _
      rw [hl]
      rfl
    · replace hb : (false || (t.any Kind.isBlock || (c.any Kind.isBlock || (false || false)))) = true := hb
      show (false || (t.any Kind.isBlock || (c.any Kind.isBlock || ((emptyBlock (w sp) s).any Kind.isBlock || false)))) = true
      rw [Bool.or_false, Bool.or_false] at hb
      rw [Bool.false_or] at hb ⊢
      rcases Bool.or_eq_true _ _ ▸ hb with hb | hb <;> rw [hb] <;> simp
    · have hs : leavesList cx [t, c, emptyBlock (w sp) s] = leavesList cx [t, c, mk .none s []] := by
        show leaves cx t ++ (leaves cx c ++ (leaves cx (emptyBlock (w sp) s) ++ [])) = leaves cx t ++ (leaves cx c ++ (leaves cx (emptyBlock none s) ++ []))
        rw [emptyBlock_leaves, emptyBlock_leaves]
      have hk : ∀ x : Node, leaves cx (mk .ifStmt sp [t, c, x]) = leavesList cx [t, c, x] := fun x => by
        unfold leaves
        exact if_neg (by exact Bool.noConfusion)
      rw [hk, hk, hs]
    · unfold outline
      by_cases hs : l = .skip
      · rw [if_pos hs, if_pos hs]
      have hb : ¬(decide (l = .body) && decide (Kind.ifStmt = .block)) = true := by simp
      rw [if_neg hs, if_neg hs, if_neg hb, if_neg hb]
      generalize (if l = .outer then Look.outer else Look.inner) = l'
      have ho : ∀ (l3 l4 : Look) (x : Node), (∀ l, outline cx l x = []) →
          (inOrder (mk .ifStmt sp [t, c, x]) (outlines cx [l', l3, l4] [t, c, x])).flatten = outline cx l3 c ++ outline cx l' t := by
        intro l3 l4 x hx
        show (outline cx l3 c ++ (outline cx l4 x ++ (outline cx l' t ++ []))) = _
        rw [hx, List.nil_append, List.append_nil]
      show (if excluded cx l (mk .ifStmt sp [t, c, mk .none s []]) = true then [] else own cx (mk .ifStmt sp [t, c, mk .none s []]) ++
        (inOrder (mk .ifStmt sp [t, c, emptyBlock (w sp) s]) (outlines cx [l', _, _] [t, c, emptyBlock (w sp) s])).flatten) = 
        (if excluded cx l (mk .ifStmt sp [t, c, mk .none s []]) = true then [] else own cx (mk .ifStmt sp [t, c, mk .none s []]) ++
        (inOrder (mk .ifStmt sp [t, c, mk .none s []]) (outlines cx [l', _, _] [t, c, mk .none s []])).flatten)
      rw [ho _ _ _ (emptyBlock_outline _ s), ho _ _ _ (none_outline s)]
  · rw [he]
    have hl : (emptyBlock (w sp) s).any Kind.isLogical = false := by cases w sp <;> rfl
    have hb : ∀ x : Node, (mk .tryStmt sp [mk .block b ss, h, x]).any Kind.hasBody = true := fun x => rfl
    refine ⟨.inl rfl, rfl, rfl, rfl, ?_, (hb _).trans (hb _).symm, fun hn => absurd ((hb _).symm.trans hn) Bool.noConfusion, fun _ => rfl, ?_, fun l => ?_⟩
    · show (false || ((mk .block b ss).any _ || (h.any _ || ((emptyBlock (w sp) s).any Kind.isLogical || false)))) = _
      rw [hl]
      rfl
    · have hk : ∀ a x : Node, leaves cx (mk .tryStmt sp [a, h, x]) = leavesList cx [a, h, x] := fun a x => by
        unfold leaves
        exact if_neg Bool.noConfusion
      rw [hk, hk]
      show cx.ranges (leaves cx (mk .block b ss) ++ (leaves cx h ++ (leaves cx (emptyBlock (w sp) s) ++ []))) =
        cx.ranges (leaves cx (mk .block b ss) ++ (leaves cx h ++ (leaves cx (emptyBlock none s) ++ [])))
      rw [emptyBlock_leaves, emptyBlock_leaves]
    · rw [outline, outline]
      by_cases hs : l = .skip
      · rw [if_pos hs, if_pos hs]
      have hb : ¬(decide (l = .body) && decide (Kind.tryStmt = .block)) = true := by simp
      rw [if_neg hs, if_neg hs, if_neg hb, if_neg hb]
      generalize (if l = .outer then Look.outer else Look.inner) = l'
      have ho : ∀ x : Node, (∀ l, outline cx l x = []) →
          (inOrder (mk .tryStmt sp [mk .block b ss, h, x]) (outlines cx [l', l', l'] [mk .block b ss, h, x])).flatten =
            outline cx l' (mk .block b ss) ++ outline cx l' h := by
        intro x hx
        show (outline cx l' (mk .block b ss) ++ (outline cx l' h ++ (outline cx l' x ++ []))) = _
        rw [hx, List.nil_append, List.append_nil]
      show (if excluded cx l (mk .tryStmt sp [mk .block b ss, h, mk .none s []]) = true then [] else own cx (mk .tryStmt sp [mk .block b ss, h, mk .none s []]) ++
        (inOrder (mk .tryStmt sp [mk .block b ss, h, emptyBlock (w sp) s]) (outlines cx [l', l', l'] [mk .block b ss, h, emptyBlock (w sp) s])).flatten) =
        (if excluded cx l (mk .tryStmt sp [mk .block b ss, h, mk .none s []]) = true then [] else own cx (mk .tryStmt sp [mk .block b ss, h, mk .none s []]) ++
        (inOrder (mk .tryStmt sp [mk .block b ss, h, mk .none s []]) (outlines cx [l', l', l'] [mk .block b ss, h, mk .none s []])).flatten)
      rw [ho _ (emptyBlock_outline _ s), ho _ (none_outline s)]
  · rw [he]
    exact Alike.refl n

theorem emptyArm_other {k : Kind} (h1 : k ≠ .ifStmt) (h2 : k ≠ .tryStmt) (sp : Span) (cs : List Node) : emptyArm w (mk k sp cs) = mk k sp cs := by
  rcases emptyArm_cases (w := w) (mk k sp cs) with ⟨_, _, _, _, he, _⟩ | ⟨_, _, _, _, _, he, _⟩ | he
  · exact absurd (Node.mk.inj he).1 h1
  · exact absurd (Node.mk.inj he).1 h2
  · exact he

/-! ### Conditions -/

/-- The constructs of the program with the empty blocks are those of the program, and the empty blocks. -/
theorem mem_each_emptyArm {n m : Node} (h : m ∈ (rewrite (emptyArm w) n).each) :
    (∃ m0 ∈ n.each, m = rewrite (emptyArm w) m0) ∨ ∃ o s, m = emptyBlock o s := by
  have block : ∀ (o : Option Span) (s : Span), ∀ m ∈ (emptyBlock o s).each, m = emptyBlock o s := by
    intro o s m hm
    cases o with
    | none =>
      rcases mem_each_mk.1 (show m ∈ (mk .none s []).each from hm) with rfl | ⟨c, hc, _⟩
      · rfl
      · exact absurd hc List.not_mem_nil
    | some b =>
      rcases mem_each_mk.1 (show m ∈ (mk .block b []).each from hm) with rfl | ⟨c, hc, _⟩
      · rfl
      · exact absurd hc List.not_mem_nil
  induction n using ind generalizing m with
  | h k sp cs ih =>
    have parts : ∀ c ∈ cs.map (rewrite (emptyArm w)), ∀ m ∈ c.each,
        (∃ m0 ∈ (mk k sp cs).each, m = rewrite (emptyArm w) m0) ∨ ∃ o s, m = emptyBlock o s := by
      intro c hc m hm
      obtain ⟨d, hd, rfl⟩ := List.mem_map.1 hc
      rcases ih d hd hm with ⟨m0, hm0, e⟩ | h
      · exact .inl ⟨m0, mem_each_mk.2 (.inr ⟨d, hd, hm0⟩), e⟩
      · exact .inr h
    have self : ∀ m, m = emptyArm w (mk k sp (cs.map (rewrite (emptyArm w)))) →
        (∃ m0 ∈ (mk k sp cs).each, m = rewrite (emptyArm w) m0) ∨ ∃ o s, m = emptyBlock o s := fun m hm =>
      .inl ⟨_, mem_each_mk.2 (.inl rfl), hm.trans (by
        show _ = emptyArm w (mk k sp (rewrites (emptyArm w) cs))
        rw [rewrites_eq])⟩
    replace h : m ∈ (emptyArm w (mk k sp (rewrites (emptyArm w) cs))).each := h
    rw [rewrites_eq] at h
    generalize cs.map (rewrite (emptyArm w)) = cs' at parts self h
    rcases emptyArm_cases (w := w) (mk k sp cs') with ⟨sp', t, c, s, e, he⟩ | ⟨sp', b, ss, d, s, e, he⟩ | he
    · rw [he] at h self
      obtain ⟨rfl, rfl, rfl⟩ := Node.mk.inj e
      rcases mem_each_mk.1 h with rfl | ⟨x, hx, hm⟩
      · exact self _ rfl
      · rcases List.mem_cons.1 hx with rfl | hx
        · exact parts _ (.head _) _ hm
        rcases List.mem_cons.1 hx with rfl | hx
        · exact parts _ (.tail _ (.head _)) _ hm
        rcases List.mem_cons.1 hx with rfl | hx
        · exact .inr ⟨_, _, block _ _ _ hm⟩
        exact absurd hx List.not_mem_nil
    · rw [he] at h self
      obtain ⟨rfl, rfl, rfl⟩ := Node.mk.inj e
      rcases mem_each_mk.1 h with rfl | ⟨x, hx, hm⟩
      · exact self _ rfl
      · rcases List.mem_cons.1 hx with rfl | hx
        · exact parts _ (.head _) _ hm
        rcases List.mem_cons.1 hx with rfl | hx
        · exact parts _ (.tail _ (.head _)) _ hm
        rcases List.mem_cons.1 hx with rfl | hx
        · exact .inr ⟨_, _, block _ _ _ hm⟩
        exact absurd hx List.not_mem_nil
    · rw [he] at h self
      rcases mem_each_mk.1 h with rfl | ⟨x, hx, hm⟩
      · exact self _ rfl
      · exact parts x hx m hm

theorem emptyArm_kind (n : Node) : (rewrite (emptyArm w) n).kind = n.kind := by
  obtain ⟨k, sp, cs⟩ := n
  show (emptyArm w (mk k sp (rewrites (emptyArm w) cs))).kind = k
  rcases emptyArm_cases (w := w) (mk k sp (rewrites (emptyArm w) cs)) with ⟨_, _, _, _, e, he⟩ | ⟨_, _, _, _, _, e, he⟩ | he
  · rw [he]
    exact (Node.mk.inj e).1.symm
  · rw [he]
    exact (Node.mk.inj e).1.symm
  · rw [he]
    rfl

theorem programOutline_emptyArm {p : Node} (h : p.StmtsInBlocks) : programOutline cx (rewrite (emptyArm w) p) = programOutline cx p := by
  refine programOutline_rewrite alike_emptyArm (fun n hn => ?_) h fun m _ c _ => mark_kind (emptyArm_kind _) _
  obtain ⟨k, sp, cs⟩ := n
  rcases hn with hn | hn
  · obtain rfl : k = .module := hn
    exact emptyArm_other Kind.noConfusion Kind.noConfusion sp cs
  · obtain rfl : k = .script := hn
    exact emptyArm_other Kind.noConfusion Kind.noConfusion sp cs

theorem emptyArm_initOf (n : Node) : initOf (rewrite (emptyArm w) n) = (initOf n).map (rewrite (emptyArm w)) := by
  obtain ⟨k, sp, cs⟩ := n
  by_cases h1 : k = .ifStmt
  · subst h1
    have hn : ∀ m : Node, m.kind = .ifStmt → initOf m = none := by
      intro m hm
      obtain ⟨k', sp', cs'⟩ := m
      obtain rfl : k' = .ifStmt := hm
      rfl
    rw [hn _ (emptyArm_kind _)]
    rfl
  by_cases h2 : k = .tryStmt
  · subst h2
    have hn : ∀ m : Node, m.kind = .tryStmt → initOf m = none := by
      intro m hm
      obtain ⟨k', sp', cs'⟩ := m
      obtain rfl : k' = .tryStmt := hm
      rfl
    rw [hn _ (emptyArm_kind _)]
    rfl
  show initOf (emptyArm w (mk k sp (rewrites (emptyArm w) cs))) = _
  rw [emptyArm_other h1 h2, rewrites_eq]
  cases k with
  | varDeclarator =>
    match cs with
    | [] | [_] | [_, _] | _ :: _ :: _ :: _ => rfl
  | classProp =>
    match cs with
    | [] | [_] | [_, _] | [_, _, _] | _ :: _ :: _ :: _ :: _ => rfl
  | privateProp =>
    match cs with
    | [] | [_] | [_, _] | [_, _, _] | _ :: _ :: _ :: _ :: _ => rfl
  | _ => rfl

theorem emptyArm_untagged {p : Node} (h : p.NoTaggedInits) : (rewrite (emptyArm w) p).NoTaggedInits := by
  intro m hm i hi
  rcases mem_each_emptyArm hm with ⟨m0, hm0, rfl⟩ | ⟨o, s, rfl⟩
  · rw [emptyArm_initOf] at hi
    cases hx : initOf m0 with
    | none => rw [hx] at hi; exact absurd hi (by simp)
    | some e =>
      rw [hx] at hi
      obtain rfl : rewrite (emptyArm w) e = i := by simpa using hi
      rw [emptyArm_kind]
      exact h m0 hm0 e hx
  · cases o <;> exact absurd hi (by simp [emptyBlock, initOf])

theorem emptyArm_isCase (n : Node) : (rewrite (emptyArm w) n).isCase = n.isCase := by
  obtain ⟨k, sp, cs⟩ := n
  by_cases h : k = .switchCase
  · subst h
    show (emptyArm w (mk .switchCase sp (rewrites (emptyArm w) cs))).isCase = _
    rw [emptyArm_other Kind.noConfusion Kind.noConfusion, rewrites_eq]
    cases cs <;> rfl
  · have hn : ∀ m : Node, m.kind ≠ .switchCase → m.isCase = false := by
      intro m hm
      obtain ⟨k', sp', cs'⟩ := m
      cases k' <;> first | rfl | exact absurd rfl hm
    rw [hn (mk k sp cs) h, hn _ (by rw [emptyArm_kind]; exact h)]

theorem emptyArm_casesInSwitch {p : Node} (h : p.CasesInSwitch) : (rewrite (emptyArm w) p).CasesInSwitch := by
  intro m hm hs c hc
  rcases mem_each_emptyArm hm with ⟨m0, hm0, rfl⟩ | ⟨o, s, rfl⟩
  · rw [emptyArm_kind] at hs
    obtain ⟨k, sp, cs⟩ := m0
    have parts : ∀ c ∈ rewrites (emptyArm w) cs, c.isCase = false := by
      intro c hc
      rw [rewrites_eq] at hc
      obtain ⟨e, he, rfl⟩ := List.mem_map.1 hc
      rw [emptyArm_isCase]
      exact h _ hm0 hs e he
    have block : ∀ (o : Option Span) (s : Span), (emptyBlock o s).isCase = false := fun o s => by cases o <;> rfl
    replace hc : c ∈ (emptyArm w (mk k sp (rewrites (emptyArm w) cs))).children := hc
    generalize rewrites (emptyArm w) cs = cs' at parts hc
    rcases emptyArm_cases (w := w) (mk k sp cs') with ⟨sp', t, d, s, e, he⟩ | ⟨sp', b, ss, d, s, e, he⟩ | he
    · rw [he] at hc
      obtain ⟨rfl, rfl, rfl⟩ := Node.mk.inj e
      rcases List.mem_cons.1 hc with rfl | hx
      · exact parts _ (.head _)
      rcases List.mem_cons.1 hx with rfl | hx
      · exact parts _ (.tail _ (.head _))
      rcases List.mem_cons.1 hx with rfl | hx
      · exact block _ _
      exact absurd hx List.not_mem_nil
    · rw [he] at hc
      obtain ⟨rfl, rfl, rfl⟩ := Node.mk.inj e
      rcases List.mem_cons.1 hc with rfl | hx
      · exact parts _ (.head _)
      rcases List.mem_cons.1 hx with rfl | hx
      · exact parts _ (.tail _ (.head _))
      rcases List.mem_cons.1 hx with rfl | hx
      · exact block _ _
      exact absurd hx List.not_mem_nil
    · rw [he] at hc
      exact parts c hc
  · cases o <;> exact absurd hc List.not_mem_nil

end Node
end Verif
