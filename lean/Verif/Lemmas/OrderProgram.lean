import Verif.Lemmas.Order
import Verif.Lemmas.CoversProgram
/-
Where the counters of the statements of one list stand in the instrumented program.
-/
namespace Verif
open Node

namespace Sem

theorem own_append (u v : List Node) : own (u ++ v) = own u ++ own v := by
  simp [own]

theorem tag_strip (n : Node) : tag (strip n) = tag n := by
  unfold tag
  rw [strip_kind, strip_span]

theorem own_clean {l : List Node} (h : ∀ s ∈ l, isInjectedItem s = false) : (own l).map tag = l.map tag := by
  induction l with
  | nil => rfl
  | cons s l ih =>
    rw [own_cons (h s List.mem_cons_self), List.map_cons, List.map_cons, tag_strip, ih fun x hx => h x (List.mem_cons_of_mem _ hx)]

theorem split_nodup {α β : Type} (f : α → β) {u v u' v' : List α} {x y : α} (h : u ++ x :: v = u' ++ y :: v') (hf : f x = f y)
    (hn : ((u ++ x :: v).map f).Nodup) : u = u' := by
  induction u generalizing u' with
  | nil =>
    cases u' with
    | nil => rfl
    | cons z u' =>
      injection h with h1 h2
      rw [List.nil_append, List.map_cons, List.nodup_cons, h2] at hn
      exact (hn.1 (by rw [hf]; exact List.mem_map_of_mem (by simp))).elim
  | cons z u ih =>
    cases u' with
    | nil =>
      injection h with h1 h2
      rw [List.cons_append, List.map_cons, List.nodup_cons] at hn
      exact (hn.1 (by rw [h1, ← hf]; exact List.mem_map_of_mem (by simp))).elim
    | cons z' u' =>
      injection h with h1 h2
      rw [List.cons_append, List.map_cons, List.nodup_cons] at hn
      rw [h1, ih h2 hn.2]

/-- A statement of the source stands at its place among the own statements of the result. -/
theorem own_before {l l' A C pre post : List Node} {s s' : Node} (hl : l = A ++ s :: C) (hc : ∀ x ∈ l, isInjectedItem x = false)
    (hn : (l.map tag).Nodup) (ho : own l' = own l) (hl' : l' = pre ++ s' :: post) (hs : strip s' = strip s) :
    own pre = own A ∧ isInjectedItem s' = false := by
  have hi : isInjectedItem s' = false := by
    rw [← item_strip, hs, item_strip]
    exact hc s (by rw [hl]; simp)
  have hi' : isInjectedItem s = false := hc s (by rw [hl]; simp)
  refine ⟨?_, hi⟩
  have h1 : own pre ++ strip s' :: own post = own A ++ strip s :: own C := by
    rw [← own_cons hi, ← own_append, ← hl', ho, hl, own_append, own_cons hi']
  refine split_nodup tag h1 (by rw [hs]) ?_
  rw [← own_cons hi, ← own_append, ← hl', ho, own_clean hc]
  exact hn

theorem own_nil {l : List Node} (h : own l = []) : ∀ x ∈ l, isInjectedItem x = true := by
  induction l with
  | nil => intro x hx; cases hx
  | cons s l ih =>
    intro x hx
    cases hi : isInjectedItem s with
    | false => rw [own_cons hi] at h; cases h
    | true =>
      rw [own_cons_injected hi] at h
      rcases List.mem_cons.1 hx with rfl | hx
      · exact hi
      · exact ih h x hx

/-- The counters of an earlier and of a later statement. -/
theorem two_before {l l' A B C pre pre' post post' : List Node} {s t s' t' : Node} {a b : Counter}
    (hl : l = A ++ s :: (B ++ t :: C)) (hc : ∀ x ∈ l, isInjectedItem x = false)
    (hn : (l.map tag).Nodup) (ho : own l' = own l) (hl1 : l' = pre ++ s' :: post) (hs : strip s' = strip s)
    (hl2 : l' = pre' ++ t' :: post') (ht : strip t' = strip t) (ha : Before pre a) (hb : Before pre' b) :
    ∃ u v w, l' = u ++ counterStmt a :: (v ++ counterStmt b :: w) := by
  obtain ⟨h1, h2⟩ := own_before hl hc hn ho hl1 hs
  obtain ⟨h3, h4⟩ := own_before (A := A ++ s :: B) (C := C) (by rw [hl]; simp) hc hn ho hl2 ht
  rw [own_append, own_cons (hc s (by rw [hl]; simp)), ← h1] at h3
  obtain ⟨a1, b1, rfl, h5, h6⟩ := ha
  obtain ⟨a2, b2, rfl, h7, h8⟩ := hb
  have h9 : (a1 ++ b1) ++ s' :: post = (a2 ++ b2) ++ t' :: post' := hl1.symm.trans hl2
  have h10 : ∃ r, a2 ++ b2 = (a1 ++ b1) ++ s' :: r := by
    rcases List.append_eq_append_iff.1 h9 with ⟨r, h11, h12⟩ | ⟨r, h11, h12⟩
    · cases r with
      | nil =>
        rw [h11, List.append_nil] at h3
        have := congrArg List.length h3
        simp at this
      | cons y r =>
        injection h12 with h13 h14
        subst h13
        exact ⟨r, h11⟩
    · rw [h11, own_append (a2 ++ b2)] at h3
      have := congrArg List.length h3
      simp only [List.length_append, List.length_cons] at this
      omega
  obtain ⟨r, h10⟩ := h10
  have h11 : counterStmt b ∈ r := by
    rcases List.append_eq_append_iff.1 h10 with ⟨q, h12, h13⟩ | ⟨q, h12, h13⟩
    · exact absurd (h7 s' (by rw [h13]; simp)) (by rw [h2]; simp)
    · cases q with
      | nil =>
        rw [List.nil_append] at h13
        exact absurd (h7 s' (by rw [← h13]; simp)) (by rw [h2]; simp)
      | cons y q =>
        injection h13 with h14 h15
        rw [h15]
        exact List.mem_append_right _ h8
  obtain ⟨u, v, h12⟩ := List.append_of_mem (List.mem_append_right a1 h6)
  obtain ⟨v', w, h13⟩ := List.append_of_mem h11
  exact ⟨u, v ++ s' :: v', w ++ t' :: post', by rw [hl2, h10, h12, h13]; simp⟩

/-- The counter of a statement after a counter at the start. -/
theorem head_before {l l' pre post : List Node} {s' : Node} {a b : Counter} (hl : l' = counterStmt a :: l)
    (hl1 : l' = pre ++ s' :: post) (hab : a ≠ b) (hb : Before pre b) :
    ∃ v w, l' = counterStmt a :: (v ++ counterStmt b :: w) ∧ (own pre = [] → ∀ x ∈ v, isInjectedItem x = true) := by
  obtain ⟨a1, b1, rfl, h5, h6⟩ := hb
  have h7 := List.mem_append_right a1 h6
  generalize hq : a1 ++ b1 = q at *
  cases q with
  | nil => cases h7
  | cons y q =>
    rw [hl1] at hl
    injection hl with h8 h9
    subst h8
    rcases List.mem_cons.1 h7 with h10 | h10
    · cases h10
      exact (hab rfl).elim
    · obtain ⟨v, w, h11⟩ := List.append_of_mem h10
      refine ⟨v, w ++ s' :: post, by rw [hl1, h11]; simp, fun ho x hx => ?_⟩
      exact own_nil ho x (List.mem_cons_of_mem _ (by rw [h11]; simp [hx]))

/-! ### Lists of a node -/

theorem bodyStmts_own (b : Node) (hn : b.kind ≠ .none) : bodyStmts (asBlock (strip b)) = own (bodyStmts b) := by
  obtain ⟨k, sp, cs⟩ := b
  by_cases h : k = .block
  · subst h
    rw [strip_block]
    rfl
  · have h1 : bodyStmts (mk k sp cs) = [mk k sp cs] := by
      unfold bodyStmts
      split
      · next h2 => cases h2; exact (h rfl).elim
      · next h2 => cases h2; exact (hn rfl).elim
      · rfl
    rw [h1, asBlock_of_ne (by rw [strip_kind]; exact h)]
    cases hi : isInjectedItem (mk k sp cs) with
    | true => rw [own_cons_injected hi, item_strip, hi]; rfl
    | false => rw [own_cons hi, item_strip, hi]; rfl

theorem bodyStmts_none {b : Node} (h : b.kind = .none) : bodyStmts b = [] := by
  obtain ⟨k, sp, cs⟩ := b
  cases h
  rfl

/-- The lists of a program without counters are the own statements of the lists. -/
theorem lists_own (cx : Ctx) (m : Node) :
    List.Forall₂ (fun l L => l = [] ∨ L = own l) (lists cx m) (lists cx (strip m)) := by
  have hbody : ∀ b : Node, bodyStmts b = [] ∨ bodyStmts (asBlock (strip b)) = own (bodyStmts b) := by
    intro b
    by_cases hn : b.kind = .none
    · exact .inl (bodyStmts_none hn)
    · exact .inr (bodyStmts_own b hn)
  have helse : ∀ b : Node, bodyStmts b = [] ∨ bodyStmts (asElse (strip b)) = own (bodyStmts b) := by
    intro b
    by_cases hn : b.kind = .none
    · exact .inl (bodyStmts_none hn)
    · right
      have h1 : (strip b).isNone = false := by
        rw [strip_isNone]
        obtain ⟨k, sp, cs⟩ := b
        unfold Node.isNone
        split
        · next h => cases h; exact (hn rfl).elim
        · rfl
      rw [asElse, h1]
      exact bodyStmts_own b hn
  obtain ⟨k, sp, cs⟩ := m
  rw [strip_mk]
  cases k
  case block => exact .cons (.inr rfl) .nil
  case switchCase =>
    cases cs with
    | nil => exact .nil
    | cons t ss => exact .cons (.inr rfl) .nil
  case arrow a =>
    match cs with
    | [ps, body] =>
      refine .cons (.inr ?_) .nil
      show (asArrowBody (asArrowBody (strip body))).children = own (asArrowBody body).children
      have hidem : ∀ e, asArrowBody (asArrowBody e) = asArrowBody e := by
        intro e
        by_cases h : e.kind = .block
        · obtain ⟨k, bsp, bcs⟩ := e
          cases h
          rfl
        · rw [asArrowBody_of_ne h]
          rfl
      rw [hidem]
      by_cases h : body.kind = .block
      · obtain ⟨k, bsp, bcs⟩ := body
        cases h
        rw [strip_block]
        rfl
      · rw [asArrowBody_of_ne h, asArrowBody_of_ne (by rw [strip_kind]; exact h)]
        rw [strip_span]
        rfl
    | [] | [_] | _ :: _ :: _ :: _ => exact .nil
  case ifStmt =>
    match cs with
    | [test, cons, alt] =>
      show List.Forall₂ _ ((if cx.hint sp = some .if then [] else [bodyStmts cons]) ++
        if cx.hint sp = some .else then [] else [bodyStmts alt])
        ((if cx.hint sp = some .if then [] else [bodyStmts (asBlock (strip cons))]) ++
        if cx.hint sp = some .else then [] else [bodyStmts (asElse (strip alt))])
      by_cases h1 : cx.hint sp = some .if
      · rw [h1]
        exact .cons (helse alt) .nil
      · rw [if_neg h1, if_neg h1]
        by_cases h2 : cx.hint sp = some .else
        · rw [if_pos h2, if_pos h2]
          exact .cons (hbody cons) .nil
        · rw [if_neg h2, if_neg h2]
          exact .cons (hbody cons) (.cons (helse alt) .nil)
    | [] | [_] | [_, _] | _ :: _ :: _ :: _ :: _ => exact .nil
  case withStmt =>
    match cs with
    | [obj, body] => exact .cons (hbody body) .nil
    | [] | [_] | _ :: _ :: _ :: _ => exact .nil
  all_goals exact .nil

/-- The lists of the result that belong to the lists of a node. -/
theorem lists_both {cx : Ctx} {T : Tables} {x x' : Node} (hs : strip x' = strip x)
    (h : List.Forall₂ (Leads cx T) (lists cx x) (lists cx x')) :
    List.Forall₂ (fun l l' => Leads cx T l l' ∧ (l = [] ∨ l' = [] ∨ own l' = own l)) (lists cx x) (lists cx x') := by
  have h1 := lists_own cx x
  have h2 := lists_own cx x'
  rw [hs] at h2
  generalize lists cx x = a at *
  generalize lists cx x' = b at *
  generalize lists cx (strip x) = d at *
  induction h generalizing d with
  | nil => exact .nil
  | cons h _ ih =>
    cases h1 with
    | cons g1 h1 =>
      cases h2 with
      | cons g2 h2 =>
        refine .cons ⟨h, ?_⟩ (ih _ h1 h2)
        rcases g1 with g1 | g1
        · exact .inl g1
        · rcases g2 with g2 | g2
          · exact .inr (.inl g2)
          · exact .inr (.inr (g2.symm.trans g1))

theorem lists_at {cx : Ctx} {T : Tables} {x x' : Node} (hs : strip x' = strip x)
    (h : List.Forall₂ (Leads cx T) (lists cx x) (lists cx x')) {l : List Node} (hl : l ∈ lists cx x) :
    ∃ l' ∈ lists cx x', Leads cx T l l' ∧ (l = [] ∨ l' = [] ∨ own l' = own l) := by
  have h1 := lists_both hs h
  generalize lists cx x = a at *
  generalize lists cx x' = b at *
  clear h
  induction h1 with
  | nil => cases hl
  | cons h _ ih =>
    rcases List.mem_cons.1 hl with rfl | hl
    · exact ⟨_, List.mem_cons_self, h⟩
    · obtain ⟨l', h3, h4⟩ := ih hl
      exact ⟨l', List.mem_cons_of_mem _ h3, h4⟩

theorem two_lists {α : Type} {R : α → α → Prop} {c d : Prop} [Decidable c] [Decidable d] {x y x' y' : α}
    (h : List.Forall₂ R ((if c then [] else [x]) ++ if d then [] else [y]) ((if c then [] else [x']) ++ if d then [] else [y'])) :
    (¬c → R x x') ∧ (¬d → R y y') := by
  by_cases hc : c
  · rw [if_pos hc, if_pos hc] at h
    refine ⟨fun h => (h hc).elim, fun hd => ?_⟩
    rw [if_neg hd, if_neg hd] at h
    cases h
    assumption
  · rw [if_neg hc, if_neg hc] at h
    cases h with
    | cons h1 h2 =>
      refine ⟨fun _ => h1, fun hd => ?_⟩
      rw [if_neg hd, if_neg hd] at h2
      cases h2
      assumption

/-! ### Nodes that exist once -/

theorem same_of_weight {t : Tag} (ht : t.2 ≠ Span.dummy) {n m m' : Node} (h : Sub n m) (h' : Sub n m') (hl : (look m).opens)
    (hl' : (look m').opens) (hm : tag m = t) (hm' : tag m' = t) (hw : weight t n ≤ 1) : m = m' := by
  have one : ∀ {y : Node}, (look y).opens → tag y = t → 1 ≤ weight t y := by
    intro y hy hty
    have := weight_opens ht hy
    rw [if_pos hty] at this
    omega
  induction h with
  | here n =>
    cases h' with
    | here => rfl
    | @step _ x _ hx h' =>
      have h1 := weight_opens ht hl
      rw [if_pos hm] at h1
      have h2 := sumOf_le_of_mem (μ := weight t) hx
      have h3 := h'.weight_le ht
      have h4 := one hl' hm'
      omega
  | @step n x m hx h ih =>
    have h5 := h.weight_le ht
    have h6 := one hl hm
    cases h' with
    | here =>
      have h1 := weight_opens ht hl'
      rw [if_pos hm'] at h1
      have h2 := sumOf_le_of_mem (μ := weight t) hx
      omega
    | @step _ y _ hy h' =>
      have h3 := h'.weight_le ht
      have h4 := one hl' hm'
      by_cases hxy : x = y
      · subst hxy
        exact ih h' hl hm (by have := comp_weight ht hx; omega)
      · have := comp_weight_two ht hx hy hxy
        omega

theorem bodyOf_strip {x b : Node} (h : bodyOf x = some b) (ha : ∀ a, x.kind ≠ .arrow a) : bodyOf (strip x) = some (strip b) := by
  unfold bodyOf at h
  split at h <;> cases h
  case h_5 => exact (ha _ rfl).elim
  all_goals rfl

theorem bodyOf_each {x b : Node} (h : bodyOf x = some b) : b ∈ each x := by
  unfold bodyOf at h
  split at h <;> cases h
  case h_1 | h_2 | h_3 | h_4 =>
    exact mem_each_mk.2 (.inr ⟨_, List.mem_cons_of_mem _ List.mem_cons_self, mem_each_mk.2 (.inr ⟨_, by simp, each_self _⟩)⟩)
  all_goals exact mem_each_mk.2 (.inr ⟨_, by simp, each_self _⟩)

namespace Followed
variable {p p' : Node}

/-- A list of a node of an instrumented program is executed somewhere. -/
theorem site (f : Followed p p') {cx : Ctx} {m s : Node} {l : List Node} (hm : m ∈ each p') (hl : l ∈ lists cx m) (hs : s ∈ l)
    (hd : s.span ≠ Span.dummy) : ∃ y, Sub p' y ∧ look y = .list l := by
  obtain ⟨h1, h2, h3, h4⟩ := lists_mem hl hs hd
  have hsub := f.comes hm h1 h2 h3 (.inl h4)
  rcases lists_look hl (by rintro rfl; cases hs) with h5 | ⟨h5, y, h6, h7⟩
  · exact ⟨m, hsub, h5⟩
  · exact ⟨y, hsub.comp (by rw [comps_plain h5]; exact h6), h7⟩

/-- Two nodes of the instrumented program with a tag that exists once. -/
theorem same (f : Followed p p') {m m' : Node} (ht : Only p (tag m)) (hm : m ∈ each p') (hm' : m' ∈ each p') (h : tag m' = tag m)
    (hl : (look m).opens) (hl' : (look m').opens) (hi : m.kind.injected = false) (hh : Steps.hull m.kind = false) : m = m' := by
  have hk : m'.kind = m.kind := congrArg Prod.fst h
  have hs : m'.span = m.span := congrArg Prod.snd h
  refine same_of_weight ht.2.1 (f.comes hm ⟨m, each_self m, ht.2.1⟩ ht.2.2 hi (.inl hh))
    (f.comes hm' ⟨m', each_self m', by rw [hs]; exact ht.2.1⟩ (by rw [hk]; exact ht.2.2) (by rw [hk]; exact hi)
      (.inl (by rw [hk]; exact hh))) hl hl' rfl h (Nat.le_of_eq (f.weight _ ht))

end Followed

end Sem
end Verif
