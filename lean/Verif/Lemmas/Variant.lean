import Verif.Spec.Exchange
import Verif.Lemmas.Alike
/-
Loops, declarations and functions that only differ in their words are alike.
-/
namespace Verif
namespace Node
variable {cx : Ctx} {f : Node → Node}

theorem blur_any {p : Kind → Bool} (hp : ∀ k : Kind, p k.blur = p k) {k k' : Kind} (h : k'.blur = k.blur) (sp : Span) (cs : List Node) :
    (mk k' sp cs).any p = (mk k sp cs).any p := by
  show (p k' || anyList p cs) = (p k || anyList p cs)
  rw [← hp k', ← hp k, h]

theorem blur_traits (k : Kind) (sp : Span) (cs : List Node) : (mk k.blur sp cs).traits = (mk k sp cs).traits := by
  cases k <;> rfl

theorem blur_fnParts (k : Kind) (sp : Span) (cs : List Node) : (mk k.blur sp cs).fnParts = (mk k sp cs).fnParts := by
  cases k <;> rfl

theorem blur_leaves (k : Kind) (sp : Span) (cs : List Node) : leaves cx (mk k.blur sp cs) = leaves cx (mk k sp cs) := by
  cases k <;> rfl

theorem blur_looks (k : Kind) (l : Look) (sp : Span) (cs : List Node) : looks cx l (mk k.blur sp cs) = looks cx l (mk k sp cs) := by
  cases k with
  | arrow =>
    match cs with
    | [] | [_] | [_, _] | _ :: _ :: _ :: _ => rfl
  | _ => rfl

theorem blur_own (k : Kind) (sp : Span) (cs : List Node) : own cx (mk k.blur sp cs) = own cx (mk k sp cs) := by
  cases k with
  | arrow =>
    match cs with
    | [] | [_] | [_, _] | _ :: _ :: _ :: _ => rfl
  | _ => rfl

theorem blur_excluded (k : Kind) (l : Look) (sp : Span) (cs : List Node) : excluded cx l (mk k.blur sp cs) = excluded cx l (mk k sp cs) := by
  cases k with
  | arrow =>
    match cs with
    | [] | [_] | [_, _] | _ :: _ :: _ :: _ => rfl
  | _ => rfl

theorem blur_inOrder (k : Kind) (sp : Span) (cs : List Node) (es : List (List Entry)) : inOrder (mk k.blur sp cs) es = inOrder (mk k sp cs) es := by
  cases k <;> rfl

theorem blur_outline (k : Kind) (sp : Span) (cs : List Node) (l : Look) : outline cx l (mk k.blur sp cs) = outline cx l (mk k sp cs) := by
  have hb : decide (k.blur = .block) = decide (k = .block) := by cases k <;> rfl
  unfold outline
  rw [hb, blur_excluded, blur_own, blur_looks, blur_inOrder]

theorem alike_variant {a b : Node} (h : Variant a b) : Alike cx a b := by
  cases h with
  | @mk k k' sp cs h =>
    refine ⟨.inl h, rfl, ?_, ?_, blur_any ?_ h sp cs, blur_any ?_ h sp cs, fun _ => ⟨blur_any ?_ h sp cs, blur_any ?_ h sp cs, blur_any ?_ h sp cs⟩,
      fun hx => (blur_any ?_ h sp cs).trans hx, ?_, fun l => ?_⟩
    · rw [← blur_traits k', h, blur_traits]
    · rw [← blur_fnParts k', h, blur_fnParts]
    · intro k; cases k <;> rfl
    · intro k; cases k <;> rfl
    · intro k; cases k <;> rfl
    · intro k; cases k <;> rfl
    · intro k; cases k <;> rfl
    · intro k; cases k <;> rfl
    · rw [← blur_leaves k', h, blur_leaves]
    · rw [← blur_outline k', h, blur_outline]

theorem variant_eq {k : Kind} {sp : Span} {cs : List Node} {b : Node} (h : Variant (mk k sp cs) b) : ∃ k', b = mk k' sp cs ∧ k'.blur = k.blur := by
  cases h with
  | @mk _ k' _ _ h => exact ⟨k', rfl, h⟩

/-- The construct after all exchanges. -/
theorem rewrite_variant (hf : ∀ n, Variant n (f n)) (k : Kind) (sp : Span) (cs : List Node) :
    ∃ k', rewrite f (mk k sp cs) = mk k' sp (cs.map (rewrite f)) ∧ k'.blur = k.blur := by
  have h := variant_eq (hf (mk k sp (rewrites f cs)))
  rw [rewrites_eq] at h
  obtain ⟨k', e, hk⟩ := h
  refine ⟨k', ?_, hk⟩
  show f (mk k sp (rewrites f cs)) = _
  rw [rewrites_eq]
  exact e

theorem programOutline_variant (hf : ∀ n, Variant n (f n)) {p : Node} (h : p.StmtsInBlocks) (hx : p.SparesExports f) :
    programOutline cx (rewrite f p) = programOutline cx p := by
  refine programOutline_rewrite (fun n => alike_variant (hf n)) (fun n hn => ?_) h fun m hm c hc => ?_
  · obtain ⟨k, sp, cs⟩ := n
    obtain ⟨k', e, hb⟩ := variant_eq (hf (mk k sp cs))
    rw [e]
    have : k' = k := by
      rcases hn with hn | hn
      · obtain rfl : k = .module := hn
        cases k' <;> first | rfl | exact Kind.noConfusion hb
      · obtain rfl : k = .script := hn
        cases k' <;> first | rfl | exact Kind.noConfusion hb
    rw [this]
  · have h1 := hx m hm
    have h2 : (rewrite f c).identName? = c.identName? := by
      obtain ⟨k, sp, cs⟩ := c
      obtain ⟨k', e, hb⟩ := rewrite_variant hf k sp cs
      rw [e]
      have hn : ∀ (k : Kind) (cs : List Node), (mk k sp cs).identName? = (mk k.blur sp []).identName? := fun k cs => by cases k <;> rfl
      rw [hn k', hb, ← hn k]
    have h3 : ∀ k : Kind, (k = .exportDecl → (rewrite f c).constDecl = c.constDecl) → (rewrite f c).mark k = c.mark k := by
      intro k h
      cases k with
      | exportDecl => exact Prod.ext (h rfl) rfl
      | fnDecl | fnExpr => exact Prod.ext rfl h2
      | _ => rfl
    refine h3 _ fun hk => ?_
    have := h1 hk c hc
    obtain ⟨k, sp, cs⟩ := c
    exact this (rewrites f cs)

/-! ### Conditions -/

theorem mem_each_variant (hf : ∀ n, Variant n (f n)) {n m : Node} (h : m ∈ (rewrite f n).each) : ∃ m0 ∈ n.each, m = rewrite f m0 := by
  induction n using ind generalizing m with
  | h k sp cs ih =>
    obtain ⟨k', e, hk⟩ := rewrite_variant hf k sp cs
    rw [e] at h
    rcases mem_each_mk.1 h with rfl | ⟨x, hx, hm⟩
    · exact ⟨_, mem_each_mk.2 (.inl rfl), e.symm⟩
    · obtain ⟨d, hd, rfl⟩ := List.mem_map.1 hx
      obtain ⟨m0, hm0, e⟩ := ih d hd hm
      exact ⟨m0, mem_each_mk.2 (.inr ⟨d, hd, hm0⟩), e⟩

theorem variant_blur (hf : ∀ n, Variant n (f n)) (n : Node) : (rewrite f n).kind.blur = n.kind.blur := by
  obtain ⟨k, sp, cs⟩ := n
  obtain ⟨k', e, hk⟩ := rewrite_variant hf k sp cs
  rw [e]
  exact hk

theorem blur_initOf (k : Kind) (sp : Span) (cs : List Node) : initOf (mk k.blur sp cs) = initOf (mk k sp cs) := by
  cases k <;> rfl

theorem variant_initOf (hf : ∀ n, Variant n (f n)) (n : Node) : initOf (rewrite f n) = (initOf n).map (rewrite f) := by
  obtain ⟨k, sp, cs⟩ := n
  obtain ⟨k', e, hk⟩ := rewrite_variant hf k sp cs
  rw [e, ← blur_initOf, hk, blur_initOf]
  cases k with
  | varDeclarator =>
    match cs with
    | [] | [_] | [_, _] | _ :: _ :: _ :: _ => rfl
  | classProp =>
    match cs with
    | [] | [_] | [_, _] | [_, _, _] | _ :: _ :: _ :: _ :: _ => rfl
  | privateProp =>
    match cs with
    | [] | [_] | [_, _] | [_, _, _] | _ :: _ :: _ :: _ :: _ => rfl
  | _ => rfl

theorem variant_untagged (hf : ∀ n, Variant n (f n)) {p : Node} (h : p.NoTaggedInits) : (rewrite f p).NoTaggedInits := by
  intro m hm i hi ht
  obtain ⟨m0, hm0, rfl⟩ := mem_each_variant hf hm
  rw [variant_initOf hf] at hi
  cases hx : initOf m0 with
  | none => rw [hx] at hi; exact absurd hi (by simp)
  | some e =>
    rw [hx] at hi
    obtain rfl : rewrite f e = i := by simpa using hi
    have hb := variant_blur hf e
    rw [ht] at hb
    refine h m0 hm0 e hx ?_
    generalize e.kind = k at hb
    cases k <;> first | rfl | exact Kind.noConfusion hb

theorem variant_isCase (hf : ∀ n, Variant n (f n)) (n : Node) : (rewrite f n).isCase = n.isCase := by
  obtain ⟨k, sp, cs⟩ := n
  obtain ⟨k', e, hk⟩ := rewrite_variant hf k sp cs
  have hb : ∀ (k : Kind) (cs : List Node), (mk k.blur sp cs).isCase = (mk k sp cs).isCase := fun k cs => by cases k <;> rfl
  rw [e, ← hb k', hk, hb]
  cases k <;> first | rfl | (cases cs <;> rfl)

theorem variant_casesInSwitch (hf : ∀ n, Variant n (f n)) {p : Node} (h : p.CasesInSwitch) : (rewrite f p).CasesInSwitch := by
  intro m hm hs c hc
  obtain ⟨m0, hm0, rfl⟩ := mem_each_variant hf hm
  obtain ⟨k, sp, cs⟩ := m0
  obtain ⟨k', e, hk⟩ := rewrite_variant hf k sp cs
  rw [e] at hs hc
  obtain ⟨d, hd, rfl⟩ := List.mem_map.1 hc
  rw [variant_isCase hf]
  refine h _ hm0 ?_ d hd
  rintro rfl
  refine hs ?_
  show k' = .switchStmt
  cases k' <;> first | rfl | exact Kind.noConfusion hk

end Node
end Verif
