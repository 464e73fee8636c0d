import Verif.Spec.Core
import Verif.Lemmas.Exchange
/-
Expressions with the same counted constructs in them are alike.
-/
namespace Verif
namespace Node
variable {cx : Ctx} {f : Node → Node}

theorem cores_eq (cs : List Node) : cores cx cs = cs.flatMap (core cx) := by
  induction cs with
  | nil => rfl
  | cons c cs ih =>
    show core cx c ++ cores cx cs = _
    rw [ih, List.flatMap_cons]

theorem loose_ordinary {k : Kind} (h : k.loose = true) : k.ordinary = true := by
  cases k with
  | other c _ => cases c <;> first | rfl | exact absurd h Bool.noConfusion
  | bin => exact h
  | _ => first | rfl | exact absurd h Bool.noConfusion

theorem loose_fnParts {n : Node} (h : n.kind.loose = true) : n.fnParts = [] := by
  obtain ⟨k, sp, cs⟩ := n
  cases k <;> first | rfl | exact absurd h Bool.noConfusion

theorem core_open {k : Kind} {sp : Span} (cs : List Node) (hk : k.ordinary = true) (hs : cx.hint sp ≠ some .next) :
    core cx (mk k sp cs) = cs.flatMap (core cx) := by
  unfold core
  rw [hk, decide_eq_false hs, cores_eq]
  rfl

theorem core_cases (k : Kind) (sp : Span) (cs : List Node) :
    core cx (mk k sp cs) = [mk k sp cs] ∨ k.ordinary = true ∧ cx.hint sp ≠ some .next ∧ core cx (mk k sp cs) = cs.flatMap (core cx) := by
  by_cases hk : k.ordinary = true
  · by_cases hs : cx.hint sp = some .next
    · left
      unfold core
      rw [hk, decide_eq_true hs]
      rfl
    · exact .inr ⟨hk, hs, core_open cs hk hs⟩
  · left
    unfold core
    rw [Bool.eq_false_iff.2 hk]
    rfl

/-- What goes through uncounted expressions holds if it holds of the counted constructs in them. -/
theorem core_iff {P : Node → Prop} (hP : ∀ k sp cs, Kind.ordinary k = true → (P (mk k sp cs) ↔ ∀ c ∈ cs, P c)) (n : Node) :
    P n ↔ ∀ x ∈ core cx n, P x := by
  induction n using ind with
  | h k sp cs ih =>
    rcases core_cases (cx := cx) k sp cs with h | ⟨hk, -, h⟩
    · rw [h]
      simp
    · rw [h, hP k sp cs hk]
      constructor
      · intro hc x hx
        obtain ⟨c, h1, h2⟩ := List.mem_flatMap.1 hx
        exact (ih c h1).1 (hc c h1) x h2
      · intro hx c hc
        exact (ih c hc).2 fun x h => hx x (List.mem_flatMap.2 ⟨c, hc, h⟩)

/-- What is put together from the parts of an uncounted expression is put together from the counted constructs in it. -/
theorem core_flat {α : Type} {φ : Node → List α} (hφ : ∀ k sp cs, Kind.ordinary k = true → cx.hint sp ≠ some .next → φ (mk k sp cs) = cs.flatMap φ)
    (n : Node) : φ n = (core cx n).flatMap φ := by
  induction n using ind with
  | h k sp cs ih =>
    rcases core_cases (cx := cx) k sp cs with h | ⟨hk, hs, h⟩
    · rw [h]
      simp
    · rw [h, hφ k sp cs hk hs]
      clear h
      induction cs with
      | nil => rfl
      | cons c cs ihc => rw [List.flatMap_cons, List.flatMap_cons, List.flatMap_append, ← ih c (.head _), ihc fun c h => ih c (.tail _ h)]

theorem core_any {p : Kind → Bool} (hp : ∀ k : Kind, k.ordinary = true → p k = false) (n : Node) : n.any p = (core cx n).any (any p) := by
  have h := core_iff (cx := cx) (P := fun n => n.any p = false) (fun k sp cs hk => by
    show (p k || anyList p cs) = false ↔ _
    rw [hp k hk, Bool.false_or, anyList_eq, List.any_eq_false]
    simp) n
  rw [Bool.eq_iff_iff, ← not_iff_not, Bool.not_eq_true, h, Bool.not_eq_true, List.any_eq_false]
  simp

theorem leavesList_flat (cs : List Node) : leavesList cx cs = cs.flatMap (leaves cx) := by
  induction cs with
  | nil => rfl
  | cons c cs ih =>
    show leaves cx c ++ leavesList cx cs = _
    rw [ih, List.flatMap_cons]

theorem core_leaves (n : Node) : leaves cx n = (core cx n).flatMap (leaves cx) := by
  refine core_flat (fun k sp cs hk hs => ?_) n
  rw [← leavesList_flat]
  cases k with
  | bin op => rw [bin_leaves (by simpa [Kind.ordinary] using hk), if_neg hs]
  | _ =>
    first
      | exact absurd hk Bool.noConfusion
      | (unfold leaves
         rw [if_neg (by simp [hs])])

theorem ordinary_looks {k : Kind} (hk : k.ordinary = true) (l : Look) (sp : Span) (cs : List Node) : looks cx l (mk k sp cs) = cs.map fun _ => l := by
  cases k with
  | bin op => exact inner_looks (k := .bin op) hk l sp cs
  | _ => first | exact absurd hk Bool.noConfusion | rfl

theorem core_outlines (l : Look) (cs : List Node) : (outlines cx (cs.map fun _ => l) cs).flatten = cs.flatMap (outline cx l) := by
  induction cs with
  | nil => rfl
  | cons c cs ih =>
    show outline cx l c ++ (outlines cx (cs.map fun _ => l) cs).flatten = _
    rw [ih, List.flatMap_cons]

theorem open_outline {k : Kind} {sp : Span} (cs : List Node) (hk : k.ordinary = true) (hs : cx.hint sp ≠ some .next) (l : Look) :
    outline cx l (mk k sp cs) = if l = .skip then [] else cs.flatMap (outline cx (if l = .outer then .outer else .inner)) := by
  have hi : ∀ es : List (List Entry), inOrder (mk k sp cs) es = es := by cases k <;> first | exact fun _ => rfl | exact absurd hk Bool.noConfusion
  have hn : ¬(decide (l = .body) && decide (k = .block)) = true := by
    cases k <;> first | exact absurd hk Bool.noConfusion | simp
  have hx : excluded cx l (mk k sp cs) = false := by
    unfold excluded Ctx.hinted
    rw [show (mk k sp cs).span = sp from rfl, decide_eq_false hs]
    rfl
  unfold outline
  rw [if_neg hn, hx, hi, ordinary_looks hk, core_outlines, inner_own (.inr hk)]
  rfl

theorem core_outline {l : Look} (hl : l = .outer ∨ l = .inner) (n : Node) : outline cx l n = (core cx n).flatMap (outline cx l) := by
  refine core_flat (fun k sp cs hk hs => ?_) n
  rw [open_outline cs hk hs]
  rcases hl with rfl | rfl <;> rfl

theorem alike_regroup {a b : Node} (h : Regroup cx a b) : Alike cx a b := by
  cases h with
  | same => exact Alike.refl a
  | core ha hb hs hh he hx =>
    have every {p : Kind → Bool} (hp : ∀ k : Kind, k.ordinary = true → p k = false) : b.any p = a.any p := by
      rw [core_any (cx := cx) hp, core_any (cx := cx) hp a, he]
    have hl : ∀ l, outline cx l b = outline cx l a := by
      intro l
      by_cases h1 : l = .outer ∨ l = .inner
      · rw [core_outline h1, core_outline h1 a, he]
      · have h2 : ∀ {n : Node}, n.kind.loose = true → cx.hint n.span ≠ some .next → outline cx l n = if l = .skip then [] else outline cx .inner n := by
          intro n hn hs
          obtain ⟨k, sp, cs⟩ := n
          have hk : k.ordinary = true := loose_ordinary hn
          replace hs : cx.hint sp ≠ some .next := hs
          rw [open_outline cs hk hs, open_outline cs hk hs, if_neg fun h => h1 (.inl h)]
          rfl
        rw [h2 ha hh, h2 hb (by rw [hs]; exact hh), core_outline (.inr rfl), core_outline (.inr rfl) a, he]
    refine ⟨.inr ⟨ha, hb⟩, hs, ?_, (loose_fnParts hb).trans (loose_fnParts ha).symm,
      every ?_, every ?_, fun _ => ⟨every ?_, every ?_, hx⟩, fun hx => (every ?_).trans hx, ?_, hl⟩
    · obtain ⟨k, sp, cs⟩ := a
      obtain ⟨k', sp', cs'⟩ := b
      exact (loose_traits hb sp' cs').trans (loose_traits ha sp cs).symm
    · intro k hk
      cases k <;> first | rfl | exact absurd hk Bool.noConfusion | (simpa [Kind.ordinary, Kind.isLogical] using hk)
    · intro k hk
      cases k <;> first | rfl | exact absurd hk Bool.noConfusion
    · intro k hk
      cases k with
      | other c _ => cases c <;> first | rfl | exact absurd hk Bool.noConfusion
      | _ => first | rfl | exact absurd hk Bool.noConfusion
    · intro k hk
      cases k <;> first | rfl | exact absurd hk Bool.noConfusion
    · intro k hk
      cases k <;> first | rfl | exact absurd hk Bool.noConfusion
    · rw [core_leaves, core_leaves a, he]

theorem regroup_other {a b : Node} (h : Regroup cx a b) (hk : a.kind.loose = false) : b = a := by
  cases h with
  | same => rfl
  | core ha => exact absurd (ha.symm.trans hk) Bool.noConfusion

theorem regroup_kind (hf : ∀ n, Regroup cx n (f n)) (n : Node) :
    (rewrite f n).kind = n.kind ∨ n.kind.loose = true ∧ (rewrite f n).kind.loose = true := by
  obtain ⟨k, sp, cs⟩ := n
  have he := hf (mk k sp (rewrites f cs))
  show (f (mk k sp (rewrites f cs))).kind = k ∨ k.loose = true ∧ (f (mk k sp (rewrites f cs))).kind.loose = true
  generalize f (mk k sp (rewrites f cs)) = b at he
  cases he with
  | same => exact .inl rfl
  | core ha hb => exact .inr ⟨ha, hb⟩

theorem programOutline_regroup (hf : ∀ n, Regroup cx n (f n)) {p : Node} (h : p.StmtsInBlocks) (hx : p.SparesNames f) :
    programOutline cx (rewrite f p) = programOutline cx p := by
  refine programOutline_rewrite (fun n => alike_regroup (hf n))
    (fun n hn => regroup_other (hf n) (by rcases hn with hn | hn <;> rw [hn] <;> rfl)) h fun m hm c hc => ?_
  rcases regroup_kind hf c with hk | ⟨h1, h2⟩
  · exact mark_kind hk _
  · have hn : ∀ n : Node, n.kind.loose = true → n.constDecl = false := fun n h => decide_eq_false fun e => by
      rw [e] at h
      exact absurd h Bool.noConfusion
    have h3 : ∀ k : Kind, (k = .fnDecl ∨ k = .fnExpr → (rewrite f c).identName? = c.identName?) → (rewrite f c).mark k = c.mark k := by
      intro k h
      cases k with
      | exportDecl => exact Prod.ext ((hn _ h2).trans (hn _ h1).symm) rfl
      | fnDecl => exact Prod.ext rfl (h (.inl rfl))
      | fnExpr => exact Prod.ext rfl (h (.inr rfl))
      | _ => rfl
    exact h3 _ fun hk => hx m hm hk c hc

/-! ### Conditions -/

/-- What goes through uncounted expressions is kept. -/
theorem regroup_keeps {P : Node → Prop} (hf : ∀ n, Regroup cx n (f n)) (hP : ∀ k sp cs, Kind.ordinary k = true → (P (mk k sp cs) ↔ ∀ c ∈ cs, P c))
    (h1 : ∀ k sp cs, P (mk k sp cs) → ∀ c ∈ cs, P c)
    (h2 : ∀ k sp cs, P (mk k sp cs) → (∀ c ∈ cs, P (rewrite f c)) → P (mk k sp (cs.map (rewrite f)))) (n : Node) : P n → P (rewrite f n) := by
  induction n using ind with
  | h k sp cs ih =>
    intro h
    have h3 := h2 k sp cs h fun c hc => ih c hc (h1 k sp cs h c hc)
    show P (f (mk k sp (rewrites f cs)))
    rw [rewrites_eq]
    generalize mk k sp (cs.map (rewrite f)) = a at h3
    have he := hf a
    generalize f a = b at he
    cases he with
    | same => exact h3
    | core _ _ _ _ he =>
      rw [core_iff (cx := cx) hP, he]
      exact (core_iff (cx := cx) hP a).1 h3

theorem regroup_untagged (hf : ∀ n, Regroup cx n (f n)) {p : Node} (h : p.NoTaggedInits) : (rewrite f p).NoTaggedInits := by
  have hm : ∀ k sp cs, (mk k sp cs).NoTaggedInits ↔ (∀ i, initOf (mk k sp cs) = some i → i.kind ≠ .taggedTpl) ∧ ∀ c ∈ cs, c.NoTaggedInits := by
    intro k sp cs
    constructor
    · exact fun h => ⟨h _ (mem_each_mk.2 (.inl rfl)), fun c hc m hm => h m (mem_each_mk.2 (.inr ⟨c, hc, hm⟩))⟩
    · rintro ⟨h1, h2⟩ m hm
      rcases mem_each_mk.1 hm with rfl | ⟨c, hc, hm⟩
      · exact h1
      · exact h2 c hc m hm
  refine regroup_keeps (P := NoTaggedInits) hf (fun k sp cs hk => ?_) (fun k sp cs h => ((hm k sp cs).1 h).2) (fun k sp cs h hc => ?_) p h
  · rw [hm]
    refine and_iff_right fun i hi => ?_
    cases k <;> first | exact absurd hk Bool.noConfusion | exact absurd hi (by simp [initOf])
  · refine (hm _ _ _).2 ⟨fun i hi => ?_, fun c hx => ?_⟩
    · have he : initOf (mk k sp (cs.map (rewrite f))) = (initOf (mk k sp cs)).map (rewrite f) := by
        cases k with
        | varDeclarator =>
          match cs with
          | [] | [_] | [_, _] | _ :: _ :: _ :: _ => rfl
        | classProp =>
          match cs with
          | [] | [_] | [_, _] | [_, _, _] | _ :: _ :: _ :: _ :: _ => rfl
        | privateProp =>
          match cs with
          | [] | [_] | [_, _] | [_, _, _] | _ :: _ :: _ :: _ :: _ => rfl
        | _ => rfl
      rw [he] at hi
      obtain ⟨e, hx, rfl⟩ := Option.map_eq_some_iff.1 hi
      rcases regroup_kind hf e with hk | ⟨_, hk⟩
      · rw [hk]
        exact ((hm _ _ _).1 h).1 e hx
      · intro ht
        rw [ht] at hk
        exact absurd hk Bool.noConfusion
    · obtain ⟨d, hd, rfl⟩ := List.mem_map.1 hx
      exact hc d hd

theorem regroup_isCase (hf : ∀ n, Regroup cx n (f n)) (n : Node) : (rewrite f n).isCase = n.isCase := by
  by_cases h : n.kind = .switchCase
  · obtain ⟨k, sp, cs⟩ := n
    obtain rfl : k = .switchCase := h
    show (f (mk .switchCase sp (rewrites f cs))).isCase = _
    rw [regroup_other (hf _) rfl]
    cases cs <;> rfl
  · rw [isCase_kind h, isCase_kind]
    rcases regroup_kind hf n with hk | ⟨_, hk⟩
    · rw [hk]
      exact h
    · intro hs
      rw [hs] at hk
      exact absurd hk Bool.noConfusion

theorem regroup_casesInSwitch (hf : ∀ n, Regroup cx n (f n)) {p : Node} (h : p.CasesInSwitch) : (rewrite f p).CasesInSwitch := by
  have hm : ∀ k sp cs, (mk k sp cs).CasesInSwitch ↔ (k ≠ .switchStmt → ∀ c ∈ cs, c.isCase = false) ∧ ∀ c ∈ cs, c.CasesInSwitch := by
    intro k sp cs
    constructor
    · exact fun h => ⟨h _ (mem_each_mk.2 (.inl rfl)), fun c hc m hm => h m (mem_each_mk.2 (.inr ⟨c, hc, hm⟩))⟩
    · rintro ⟨h1, h2⟩ m hm
      rcases mem_each_mk.1 hm with rfl | ⟨c, hc, hm⟩
      · exact h1
      · exact h2 c hc m hm
  have hP : ∀ k sp cs, Kind.ordinary k = true →
      ((mk k sp cs).CasesInSwitch ∧ (mk k sp cs).isCase = false ↔ ∀ c ∈ cs, c.CasesInSwitch ∧ c.isCase = false) := by
    intro k sp cs hk
    have h1 : k ≠ .switchStmt := by rintro rfl; exact absurd hk Bool.noConfusion
    have h2 : (mk k sp cs).isCase = false := isCase_kind (by rintro h; obtain rfl : k = .switchCase := h; exact absurd hk Bool.noConfusion)
    rw [hm, and_iff_left h2]
    exact ⟨fun h c hc => ⟨h.2 c hc, h.1 h1 c hc⟩, fun h => ⟨fun _ c hc => (h c hc).2, fun c hc => (h c hc).1⟩⟩
  induction p using ind with
  | h k sp cs ih =>
    have h3 : (mk k sp (cs.map (rewrite f))).CasesInSwitch := by
      refine (hm _ _ _).2 ⟨fun hk c hc => ?_, fun c hc => ?_⟩
      · obtain ⟨d, hd, rfl⟩ := List.mem_map.1 hc
        rw [regroup_isCase hf]
        exact ((hm _ _ _).1 h).1 hk d hd
      · obtain ⟨d, hd, rfl⟩ := List.mem_map.1 hc
        exact ih d hd (((hm _ _ _).1 h).2 d hd)
    show (f (mk k sp (rewrites f cs))).CasesInSwitch
    rw [rewrites_eq]
    generalize mk k sp (cs.map (rewrite f)) = a at h3
    have he := hf a
    generalize f a = b at he
    cases he with
    | same => exact h3
    | core ha _ _ _ he =>
      have h4 : a.isCase = false := isCase_kind fun h => by rw [h] at ha; exact absurd ha Bool.noConfusion
      have h5 := (core_iff (cx := cx) (P := fun n => n.CasesInSwitch ∧ n.isCase = false) hP a).1 ⟨h3, h4⟩
      rw [← he] at h5
      exact ((core_iff (cx := cx) (P := fun n => n.CasesInSwitch ∧ n.isCase = false) hP b).2 h5).1

end Node
end Verif
