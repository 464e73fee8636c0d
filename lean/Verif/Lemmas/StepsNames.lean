import Verif.Lemmas.StepsFrom
/-
Where the names of functions come from.
-/
namespace Verif
open Node RegOp

namespace Node

theorem mem_fnsList (cs : List Node) (x : Option String × Span) : x ∈ fnsList cs ↔ ∃ c ∈ cs, x ∈ c.fns := by
  induction cs with
  | nil => simp [fnsList]
  | cons c cs ih => simp [fnsList, ih]

theorem mem_fns (k : Kind) (sp : Span) (cs : List Node) (x : Option String × Span) :
    x ∈ (mk k sp cs).fns ↔ x ∈ (mk k sp cs).fn ∨ ∃ c ∈ cs, x ∈ c.fns := by
  rw [fns, List.mem_append, mem_fnsList]

theorem mem_fn (n : Node) (name : Option String) (sp : Span) :
    (name, sp) ∈ n.fn ↔ name = n.called ∧ ∃ b, n.fnBody? = some b ∧ sp = b.span := by
  unfold fn
  cases n.fnBody? with
  | none => simp
  | some b => simp

/-- Every function of the first tree is one of the second, up to the position of its body. -/
def FnsIn (a b : List (Option String × Span)) : Prop :=
  ∀ name sp, (name, sp) ∈ a → ∃ sp0, (name, sp0) ∈ b ∧ (sp = sp0 ∨ sp = Span.dummy)

theorem FnsIn.refl (a : List (Option String × Span)) : FnsIn a a := fun _ sp h => ⟨sp, h, .inl rfl⟩

theorem FnsIn.trans {a b c : List (Option String × Span)} (h1 : FnsIn a b) (h2 : FnsIn b c) : FnsIn a c := by
  intro name sp h
  obtain ⟨sp1, g1, e1⟩ := h1 name sp h
  obtain ⟨sp2, g2, e2⟩ := h2 name sp1 g1
  refine ⟨sp2, g2, ?_⟩
  rcases e1 with rfl | rfl
  · exact e2
  · exact .inr rfl

/-- Kinds whose name or body is looked up: functions of all kinds. -/
def heady (k : Kind) : Bool :=
  k.isFn || k.hasFn || match k with | .function _ => true | _ => false

theorem fn_plain {k : Kind} (hk : heady k = false) (sp : Span) (cs : List Node) : (mk k sp cs).fn = [] := by
  simp only [heady, Bool.or_eq_false_iff] at hk
  simp [fn, fnBody?, kind, hk.1.1, hk.1.2]

theorem body_plain {k : Kind} (hk : heady k = false) (sp : Span) (cs : List Node) : (mk k sp cs).fnBody? = none := by
  simp only [heady, Bool.or_eq_false_iff] at hk
  simp [fnBody?, kind, hk.1.1, hk.1.2]

theorem called_plain {k : Kind} (hk : heady k = false) (sp : Span) (cs : List Node) : (mk k sp cs).called = none := by
  cases k <;> first | rfl | cases hk

theorem heady_list {k : Kind} {l : List Node} (hk : k.listPos l = true) : heady k = false := by
  cases k <;> first | rfl | cases hk

theorem heady_wraps {k : Kind} (hk : k.wraps = true) : heady k = false := by
  cases k <;> first | rfl | cases hk

theorem heady_body {k : Kind} {l r : List Node} (hk : k.bodyPos l r = true) : heady k = false := by
  cases k <;> first | rfl | (simp [Kind.bodyPos] at hk; done)

/-- The last child is the same, up to its position. -/
def LastIn (a b : Node) : Prop := ∀ x, a.children.getLast? = some x → ∃ y, b.children.getLast? = some y ∧
  (x.span = y.span ∨ x.span = Span.dummy)

/-- `LastIn`, and one level deeper. -/
def BodyIn (a b : Node) : Prop := ∀ x, a.fnBody? = some x → ∃ y, b.fnBody? = some y ∧
  (x.span = y.span ∨ x.span = Span.dummy)

theorem called_kind (k : Kind) (sp sp' : Span) (c c' : Node) (l l' : List Node) (h : c.kind = c'.kind) :
    (mk k sp (c :: l)).called = (mk k sp' (c' :: l')).called := by
  cases k <;> simp [called, h]

theorem fn_in {a b : Node} (hc : a.called = b.called) (hb : BodyIn a b) : FnsIn a.fn b.fn := by
  intro name sp h
  obtain ⟨rfl, x, hx, rfl⟩ := (mem_fn ..).1 h
  obtain ⟨y, hy, e⟩ := hb x hx
  exact ⟨y.span, (mem_fn ..).2 ⟨hc, y, hy, rfl⟩, e⟩

theorem fns_replace {k : Kind} {sp : Span} {l r : List Node} {c c' : Node}
    (hh : FnsIn (mk k sp (l ++ c' :: r)).fn (mk k sp (l ++ c :: r)).fn) (hc : FnsIn c'.fns c.fns) :
    FnsIn (mk k sp (l ++ c' :: r)).fns (mk k sp (l ++ c :: r)).fns := by
  intro name p hx
  simp only [mem_fns, List.mem_append, List.mem_cons] at hx ⊢
  rcases hx with hx | ⟨d, hd | rfl | hd, hx⟩
  · obtain ⟨sp0, h1, h2⟩ := hh _ _ hx
    exact ⟨sp0, .inl h1, h2⟩
  · exact ⟨p, .inr ⟨d, .inl hd, hx⟩, .inl rfl⟩
  · obtain ⟨sp0, h1, h2⟩ := hc _ _ hx
    exact ⟨sp0, .inr ⟨c, .inr (.inl rfl), h1⟩, h2⟩
  · exact ⟨p, .inr ⟨d, .inr (.inr hd), hx⟩, .inl rfl⟩

theorem fns_plain {k : Kind} (hk : heady k = false) {sp : Span} {l r : List Node} {c c' : Node}
    (hc : FnsIn c'.fns c.fns) :
    FnsIn (mk k sp (l ++ c' :: r)).fns (mk k sp (l ++ c :: r)).fns :=
  fns_replace (by rw [fn_plain hk]; exact fun _ _ h => by cases h) hc

theorem fns_counterStmt (c : Counter) : (counterStmt c).fns = [] := rfl

theorem fns_unfold {k : Kind} (hk : heady k = false) (sp : Span) (cs : List Node) :
    (mk k sp cs).fns = fnsList cs := by
  rw [fns, fn_plain hk, List.nil_append]

theorem fns_wrapCounter (c : Counter) (e : Node) : (wrapCounter c e).fns = e.fns := by
  simp [wrapCounter, counterExpr, fns_unfold, heady, Kind.isFn, Kind.hasFn, fnsList]

theorem fns_validateTrue : validateTrue.fns = [] := by decide +kernel

theorem fns_wrapTruth (b i : Nat) (e : Node) : (wrapTruth b i e).fns = e.fns := by
  simp [wrapTruth, increaseTrue, truthCond, tempTarget, tempExpr, fns_validateTrue, counterExpr, fnsList,
    fns_unfold, heady, Kind.isFn, Kind.hasFn]

end Node

namespace Steps
variable {cx : Ctx}

/-- Steps keep the last child of functions, up to its position. -/
theorem last_in {n q h n' q' h' o} (s : Steps cx n q h n' q' h' o) (hn : heady n.kind = true) : LastIn n' n := by
  have hrefl : ∀ n, LastIn n n := fun n x h => ⟨x, h, .inl rfl⟩
  induction s with
  | trans s1 s2 ih1 ih2 =>
    intro x hx
    obtain ⟨y, hy, e1⟩ := ih2 (by rw [s1.root.1]; exact hn) x hx
    obtain ⟨z, hz, e2⟩ := ih1 hn y hy
    refine ⟨z, hz, ?_⟩
    rcases e1 with e1 | e1
    · rw [e1]; exact e2
    · exact .inr e1
  | child k sp l r _ s ih =>
    intro x hx
    simp only [Node.children] at hx ⊢
    rcases List.eq_nil_or_concat r with rfl | ⟨r', z, rfl⟩
    · rw [List.getLast?_concat] at hx ⊢
      cases hx
      exact ⟨_, rfl, .inl s.root.2⟩
    · rw [List.concat_eq_append, ← List.cons_append, ← List.append_assoc, List.getLast?_concat] at hx ⊢
      exact ⟨x, hx, .inl rfl⟩
  | insert k sp l r hk s ih => simp [Node.kind, heady_list hk] at hn
  | lose => cases hn
  | headBlock => cases hn
  | headCase => cases hn
  | wrap k sp l e r q1 c q2 h hk _ => simp [Node.kind, heady_wraps hk] at hn
  | truth k sp l e r q1 b arm q2 h hk _ _ _ => simp [Node.kind, heady_wraps hk] at hn
  | body k sp l s r q h hk _ _ => simp [Node.kind, heady_body hk] at hn
  | addElse => cases hn
  | arrow a sp params e q h _ =>
    intro x hx
    cases hx
    exact ⟨e, rfl, .inr rfl⟩
  | _ => exact hrefl _

/-- Steps keep the names of functions. -/
theorem called_eq {n q h n' q' h' o} (s : Steps cx n q h n' q' h' o) : n'.called = n.called := by
  induction s with
  | trans _ _ ih1 ih2 => exact ih2.trans ih1
  | child k sp l r _ s ih =>
    cases l with
    | nil => exact called_kind k sp sp _ _ r r s.root.1
    | cons c l => exact called_kind k sp sp c c _ _ rfl
  | insert k sp l r hk s ih => rw [called_plain (heady_list hk), called_plain (heady_list hk)]
  | wrap k sp l e r q1 c q2 h hk _ => rw [called_plain (heady_wraps hk), called_plain (heady_wraps hk)]
  | truth k sp l e r q1 b arm q2 h hk _ _ _ => rw [called_plain (heady_wraps hk), called_plain (heady_wraps hk)]
  | body k sp l s r q h hk _ _ => rw [called_plain (heady_body hk), called_plain (heady_body hk)]
  | _ => rfl

theorem body_in {n q h n' q' h' o} (s : Steps cx n q h n' q' h' o) : BodyIn n' n := by
  induction s with
  | trans s1 s2 ih1 ih2 =>
    intro x hx
    obtain ⟨y, hy, e1⟩ := ih2 x hx
    obtain ⟨z, hz, e2⟩ := ih1 y hy
    refine ⟨z, hz, ?_⟩
    rcases e1 with e1 | e1
    · rw [e1]; exact e2
    · exact .inr e1
  | @child c q h c' q' h' o k sp l r ho s ih =>
    intro x hx
    by_cases hf : k.isFn = true
    · have := (Steps.child k sp l r ho s).last_in (by simp [heady, Node.kind, hf]) x
      simp only [fnBody?, Node.kind, hf, if_true] at hx ⊢
      exact this hx
    · by_cases hg : k.hasFn = true
      · simp only [fnBody?, Node.kind, hf, hg, if_true, Bool.false_eq_true, if_false, Node.children] at hx ⊢
        rcases List.eq_nil_or_concat r with rfl | ⟨r', z, rfl⟩
        · rw [List.getLast?_concat] at hx ⊢
          simp only [Option.bind_some] at hx ⊢
          have hk := s.root.1
          change (match c'.kind with | .function _ => c'.children.getLast? | _ => none) = some x at hx
          change ∃ y, (match c.kind with | .function _ => c.children.getLast? | _ => none) = some y ∧ _
          rw [hk] at hx
          split at hx
          · next a ha =>
            simpa only [ha] using s.last_in (by simp [heady, ha]) x hx
          · cases hx
        · rw [List.concat_eq_append, ← List.cons_append, ← List.append_assoc, List.getLast?_concat] at hx ⊢
          exact ⟨x, hx, .inl rfl⟩
      · simp [fnBody?, Node.kind, hf, hg] at hx
  | insert k sp l r hk s ih => intro x hx; rw [body_plain (heady_list hk)] at hx; cases hx
  | lose => intro x hx; rw [body_plain rfl] at hx; cases hx
  | headBlock => intro x hx; rw [body_plain rfl] at hx; cases hx
  | headCase => intro x hx; rw [body_plain rfl] at hx; cases hx
  | wrap k sp l e r q1 c q2 h hk _ => intro x hx; rw [body_plain (heady_wraps hk)] at hx; cases hx
  | truth k sp l e r q1 b arm q2 h hk _ _ _ => intro x hx; rw [body_plain (heady_wraps hk)] at hx; cases hx
  | body k sp l s r q h hk _ _ => intro x hx; rw [body_plain (heady_body hk)] at hx; cases hx
  | addElse => intro x hx; simp [fnBody?, Node.kind, Kind.isFn, Kind.hasFn] at hx
  | arrow a sp params e q h _ =>
    intro x hx
    cases hx
    exact ⟨e, rfl, .inr rfl⟩
  | _ => exact fun x h => ⟨x, h, .inl rfl⟩

/-- Instrumentation adds and renames no functions. -/
theorem fns_in {n q h n' q' h' o} (s : Steps cx n q h n' q' h' o) : FnsIn n'.fns n.fns := by
  induction s with
  | refl => exact .refl _
  | trans _ _ ih1 ih2 => exact ih2.trans ih1
  | child k sp l r ho s ih =>
    have hs := Steps.child k sp l r ho s
    exact fns_replace (fn_in hs.called_eq hs.body_in) ih
  | insert k sp l r hk s ih =>
    have hp := heady_list hk
    intro name p hx
    simp only [mem_fns, fn_plain hp, List.not_mem_nil, false_or, List.mem_append, List.mem_cons] at hx ⊢
    rcases hx with ⟨d, hd, hx⟩
    rcases hd with (hd | hd) | rfl | hd
    · exact ⟨p, ⟨d, .inl hd, hx⟩, .inl rfl⟩
    · obtain ⟨c, rfl⟩ := s.out_counters d hd
      cases hx
    · obtain ⟨sp0, h1, h2⟩ := ih _ _ hx
      exact ⟨sp0, ⟨_, .inr (.inl rfl), h1⟩, h2⟩
    · exact ⟨p, ⟨d, .inr (.inr hd), hx⟩, .inl rfl⟩
  | lose sp l r s ih => exact fns_plain rfl ih
  | register => exact .refl _
  | emit => exact .refl _
  | headBlock sp ss q1 c q2 h =>
    rw [fns_unfold rfl, fns_unfold rfl, fnsList, fns_counterStmt]
    exact .refl _
  | headCase sp test ss q1 c q2 h =>
    rw [fns_unfold rfl, fns_unfold rfl, fnsList, fnsList, fns_counterStmt]
    exact .refl _
  | wrap k sp l e r q1 c q2 h hk _ =>
    have hp := heady_wraps hk
    exact fns_plain hp (by rw [fns_wrapCounter]; exact .refl _)
  | truth k sp l e r q1 b arm q2 h hk _ _ _ =>
    have hp := heady_wraps hk
    exact fns_plain hp (by rw [fns_wrapTruth]; exact .refl _)
  | body k sp l s r q h hk _ _ =>
    have hp := heady_body hk
    refine fns_plain hp ?_
    rw [fns_unfold rfl, fnsList, fnsList, List.append_nil]
    exact .refl _
  | addElse sp test cons alt q h _ =>
    refine fns_plain (l := [test, cons]) (r := []) rfl ?_
    rw [fns_unfold rfl, fnsList]
    exact fun _ _ h => by cases h
  | arrow a sp params e q h hk =>
    have hs := Steps.arrow (cx := cx) a sp params e q h hk
    refine fns_replace (l := [params]) (r := []) (fn_in hs.called_eq hs.body_in) ?_
    rw [fns_unfold rfl, fnsList, fnsList, fns_unfold rfl, fnsList, fnsList, List.append_nil, List.append_nil]
    exact .refl _

/-- Every registered function is in the tree. -/
theorem regs_named {n q h n' q' h' o} (s : Steps cx n q h n' q' h' o) :
    ∀ name d l, RegOp.function name d l ∈ h' → RegOp.function name d l ∈ h ∨ FunctionAt cx n name l := by
  have hsub : ∀ (k : Kind) (sp : Span) (l r : List Node) (c : Node) {name : Option String} {rg : Range},
      FunctionAt cx c name rg → FunctionAt cx (mk k sp (l ++ c :: r)) name rg :=
    fun k sp l r c name rg ⟨p, h1, h2⟩ => ⟨p, (mem_fns ..).2 (.inr ⟨c, by simp, h1⟩), h2⟩
  induction s with
  | trans s1 s2 ih1 ih2 =>
    intro name d l hop
    rcases ih2 name d l hop with h1 | ⟨p, h1, h2⟩
    · exact ih1 name d l h1
    · obtain ⟨p0, g1, g2⟩ := s1.fns_in _ _ h1
      refine .inr ⟨p0, g1, ?_⟩
      rcases g2 with rfl | rfl
      · exact h2
      · exact .inr (h2.elim id id)
  | child k sp l r _ _ ih => exact fun name d rg hop => (ih name d rg hop).imp id (hsub _ _ _ _ _)
  | insert k sp l r _ _ ih => exact fun name d rg hop => (ih name d rg hop).imp id (hsub _ _ _ _ _)
  | lose sp l r _ ih => exact fun name d rg hop => (ih name d rg hop).imp id (hsub _ _ _ _ _)
  | register n q h op hs =>
    intro name d l hop
    rcases List.mem_append.1 hop with h1 | h1
    · exact .inl h1
    · cases List.mem_singleton.1 h1
      obtain ⟨_, b, h2, h3, h4⟩ := hs
      refine .inr ⟨b.span, ?_, .inl h3⟩
      obtain ⟨k, sp, cs⟩ := n
      exact (mem_fns ..).2 (.inl ((mem_fn ..).2 ⟨h4, b, h2, rfl⟩))
  | _ => exact fun name d l hop => .inl hop

end Steps
end Verif
