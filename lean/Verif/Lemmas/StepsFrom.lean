import Verif.Lemmas.StepsInv
/-
Where registered locations come from.
-/
namespace Verif
open Node RegOp

namespace Node

theorem mem_tagsList (cs : List Node) (x : Kind × Span) : x ∈ tagsList cs ↔ ∃ c ∈ cs, x ∈ tags c := by
  induction cs with
  | nil => simp [tagsList]
  | cons c cs ih => simp [tagsList, ih]

theorem mem_tags (k : Kind) (sp : Span) (cs : List Node) (x : Kind × Span) :
    x ∈ tags (mk k sp cs) ↔ x = (k, sp) ∨ ∃ c ∈ cs, x ∈ tags c := by
  rw [tags, List.mem_cons, mem_tagsList]

theorem mem_edgesList (k : Kind) (cs : List Node) (x : Kind × Span) :
    x ∈ edgesList k cs ↔ ∃ c ∈ cs, x = (k, c.span) ∨ x ∈ edges c := by
  induction cs with
  | nil => simp [edgesList]
  | cons c cs ih => simp [edgesList, ih, or_assoc]

theorem mem_edges (k : Kind) (sp : Span) (cs : List Node) (x : Kind × Span) :
    x ∈ edges (mk k sp cs) ↔ ∃ c ∈ cs, x = (k, c.span) ∨ x ∈ edges c := by
  rw [edges, mem_edgesList]

theorem tag_self (n : Node) : (n.kind, n.span) ∈ tags n := by
  obtain ⟨k, sp, cs⟩ := n
  rw [mem_tags]
  exact .inl rfl

end Node

/-- Tags of `n'` come from `n`. -/
def TagsFrom (n n' : Node) : Prop :=
  ∀ k sp, (k, sp) ∈ n'.tags → sp = Span.dummy ∨ (k, sp) ∈ n.tags ∨
    (k = .returnStmt ∧ ∃ a, (.arrow a, sp) ∈ n.edges)

/-- Edges of `n'` come from `n`, except those of the kinds that instrumentation adds. -/
def EdgesFrom (n n' : Node) : Prop :=
  ∀ k sp, k.rewritten = false → (k, sp) ∈ n'.edges → sp = Span.dummy ∨ (k, sp) ∈ n.edges

/-- Both. -/
def Kept (n n' : Node) : Prop := TagsFrom n n' ∧ EdgesFrom n n'

namespace Kept

theorem refl (n : Node) : Kept n n := ⟨fun _ _ h => .inr (.inl h), fun _ _ _ h => .inr h⟩

theorem trans {a b c : Node} (h1 : Kept a b) (h2 : Kept b c) : Kept a c := by
  constructor
  · intro k sp h
    rcases h2.1 k sp h with h | h | ⟨rfl, x, h⟩
    · exact .inl h
    · exact h1.1 k sp h
    · rcases h1.2 _ _ rfl h with h | h
      · exact .inl h
      · exact .inr (.inr ⟨rfl, x, h⟩)
  · intro k sp hk h
    rcases h2.2 k sp hk h with h | h
    · exact .inl h
    · exact h1.2 k sp hk h

/-- Nothing but nodes without position. -/
def Bare (n : Node) : Prop := (∀ x ∈ n.tags, x.2 = Span.dummy) ∧ (∀ x ∈ n.edges, x.2 = Span.dummy)

theorem Bare.kept {n : Node} (h : Bare n) (m : Node) : Kept m n :=
  ⟨fun k sp hx => .inl (h.1 (k, sp) hx), fun k sp _ hx => .inl (h.2 (k, sp) hx)⟩

theorem Bare.span {n : Node} (h : Bare n) : n.span = Span.dummy := h.1 (n.kind, n.span) (tag_self n)

theorem bare_counterStmt (c : Counter) : Bare (counterStmt c) := by
  constructor <;> intro x hx <;>
    simp [counterStmt, counterExpr, tags, tagsList, edges, edgesList, Node.span] at hx
  · rcases hx with rfl | rfl <;> rfl
  · rw [hx]

theorem bare_counterExpr (c : Counter) : Bare (counterExpr c) := by
  constructor <;> intro x hx <;> simp [counterExpr, tags, tagsList, edges, edgesList] at hx
  rw [hx]

theorem bare_truthCond (b a : Nat) : Bare (mk .paren Span.dummy [truthCond b a]) := by
  constructor
  · intro x hx
    have h : ((mk .paren Span.dummy [truthCond b a]).tags).all (fun x => x.2 = Span.dummy) = true := rfl
    simpa using List.all_eq_true.1 h x hx
  · intro x hx
    have h : ((mk .paren Span.dummy [truthCond b a]).edges).all (fun x => x.2 = Span.dummy) = true := rfl
    simpa using List.all_eq_true.1 h x hx

/-- A child replaced by several. -/
theorem replace (k : Kind) (sp : Span) (l r : List Node) {x : Node} {ys : List Node}
    (hy : ∀ y ∈ ys, Kept x y ∧ (y.span = Span.dummy ∨ y.span = x.span)) :
    Kept (mk k sp (l ++ x :: r)) (mk k sp (l ++ ys ++ r)) := by
  have hx : x ∈ l ++ x :: r := by simp
  constructor
  · intro k' sp' h
    rw [mem_tags] at h
    rcases h with h | ⟨c, hc, h⟩
    · exact .inr (.inl ((mem_tags ..).2 (.inl h)))
    · simp only [List.mem_append] at hc
      rcases hc with (hc | hc) | hc
      · exact .inr (.inl ((mem_tags ..).2 (.inr ⟨c, by simp [hc], h⟩)))
      · rcases (hy c hc).1.1 k' sp' h with h | h | ⟨rfl, a, h⟩
        · exact .inl h
        · exact .inr (.inl ((mem_tags ..).2 (.inr ⟨x, hx, h⟩)))
        · exact .inr (.inr ⟨rfl, a, (mem_edges ..).2 ⟨x, hx, .inr h⟩⟩)
      · exact .inr (.inl ((mem_tags ..).2 (.inr ⟨c, by simp [hc], h⟩)))
  · intro k' sp' hk h
    rw [mem_edges] at h
    obtain ⟨c, hc, h⟩ := h
    simp only [List.mem_append] at hc
    rcases hc with (hc | hc) | hc
    · exact .inr ((mem_edges ..).2 ⟨c, by simp [hc], h⟩)
    · rcases h with h | h
      · cases h
        rcases (hy c hc).2 with h | h
        · exact .inl h
        · exact .inr ((mem_edges ..).2 ⟨x, hx, .inl (by rw [h])⟩)
      · rcases (hy c hc).1.2 k' sp' hk h with h | h
        · exact .inl h
        · exact .inr ((mem_edges ..).2 ⟨x, hx, .inr h⟩)
    · exact .inr ((mem_edges ..).2 ⟨c, by simp [hc], h⟩)

/-- A tree below a node that instrumentation adds, beside nodes without position. -/
theorem below {k : Kind} (hk : k.rewritten = true) (l r : List Node) (x : Node)
    (hl : ∀ y ∈ l, Bare y) (hr : ∀ y ∈ r, Bare y) : Kept x (mk k Span.dummy (l ++ x :: r)) := by
  constructor
  · intro k' sp' h
    rw [mem_tags] at h
    rcases h with h | ⟨c, hc, h⟩
    · cases h; exact .inl rfl
    · simp only [List.mem_append, List.mem_cons] at hc
      rcases hc with hc | rfl | hc
      · exact .inl ((hl c hc).1 _ h)
      · exact .inr (.inl h)
      · exact .inl ((hr c hc).1 _ h)
  · intro k' sp' hk' h
    rw [mem_edges] at h
    obtain ⟨c, hc, h⟩ := h
    rcases h with h | h
    · cases h
      rw [hk] at hk'; cases hk'
    · simp only [List.mem_append, List.mem_cons] at hc
      rcases hc with hc | rfl | hc
      · exact .inl ((hl c hc).2 _ h)
      · exact .inr h
      · exact .inl ((hr c hc).2 _ h)

theorem wrapCounter (c : Counter) (e : Node) : Kept e (wrapCounter c e) := by
  refine (below (k := .seq) rfl [counterExpr c] [] e ?_ (by simp)).trans
    (below (k := .paren) rfl [] [] _ (by simp) (by simp))
  intro y hy
  cases List.mem_singleton.1 hy
  exact bare_counterExpr c

theorem wrapTruth (b a : Nat) (e : Node) : Kept e (wrapTruth b a e) := by
  refine (below (k := .assign "=") rfl [tempTarget] [] e ?_ (by simp)).trans
    ((below (k := .seq) rfl [] [mk .paren Span.dummy [truthCond b a], tempExpr] _ (by simp) ?_).trans
    (below (k := .seq) rfl [counterExpr (.b b a)] [] _ ?_ (by simp)))
  · intro y hy
    cases List.mem_singleton.1 hy
    constructor <;> intro x hx <;> simp [tempTarget, tags, tagsList, edges, edgesList] at hx
    rw [hx]
  · intro y hy
    simp only [List.mem_cons, List.not_mem_nil, or_false] at hy
    rcases hy with rfl | rfl
    · exact bare_truthCond b a
    · constructor <;> intro x hx <;> simp [tempExpr, tags, tagsList, edges, edgesList] at hx
      rw [hx]
  · intro y hy
    cases List.mem_singleton.1 hy
    exact bare_counterExpr _

/-- Tags of children. -/
theorem tags_child {k : Kind} {sp : Span} {l r : List Node} {c : Node} {x : Kind × Span}
    (h : x ∈ c.tags) : x ∈ (mk k sp (l ++ c :: r)).tags :=
  (mem_tags ..).2 (.inr ⟨c, by simp, h⟩)

theorem edges_child {k : Kind} {sp : Span} {l r : List Node} {c : Node} {x : Kind × Span}
    (h : x ∈ c.edges) : x ∈ (mk k sp (l ++ c :: r)).edges :=
  (mem_edges ..).2 ⟨c, by simp, .inr h⟩

end Kept

namespace Steps
variable {cx : Ctx}

/-- Steps keep where things are. -/
theorem kept {n q h n' q' h' o} (s : Steps cx n q h n' q' h' o) : Kept n n' := by
  induction s with
  | refl => exact .refl _
  | trans _ _ ih1 ih2 => exact ih1.trans ih2
  | child k sp l r _ s ih =>
    have := Kept.replace k sp l r (ys := [_]) (fun y hy => by
      cases List.mem_singleton.1 hy
      exact ⟨ih, .inr s.root.2⟩)
    simpa using this
  | @insert a q h s' q' h' o k sp l r hk s ih =>
    have := Kept.replace k sp l r (x := a) (ys := o ++ [s']) (fun y hy => by
      rcases List.mem_append.1 hy with hy | hy
      · obtain ⟨c, rfl⟩ := s.out_counters y hy
        exact ⟨(Kept.bare_counterStmt c).kept _, .inl rfl⟩
      · cases List.mem_singleton.1 hy
        exact ⟨ih, .inr s.root.2⟩)
    simpa using this
  | lose sp l r s ih =>
    have := Kept.replace .switchStmt sp l r (ys := [_]) (fun y hy => by
      cases List.mem_singleton.1 hy
      exact ⟨ih, .inr s.root.2⟩)
    simpa using this
  | register => exact .refl _
  | emit => exact .refl _
  | headBlock sp ss q1 c q2 h =>
    cases ss with
    | nil =>
      constructor
      · intro k' sp' h
        rw [mem_tags] at h
        rcases h with h | ⟨d, hd, h⟩
        · exact .inr (.inl ((mem_tags ..).2 (.inl h)))
        · cases List.mem_singleton.1 hd
          exact .inl ((Kept.bare_counterStmt c).1 _ h)
      · intro k' sp' hk h
        rw [mem_edges] at h
        obtain ⟨d, hd, h⟩ := h
        cases List.mem_singleton.1 hd
        rcases h with h | h
        · cases h; exact .inl rfl
        · exact .inl ((Kept.bare_counterStmt c).2 _ h)
    | cons s ss =>
      refine Kept.replace .block sp [] ss (x := s) (ys := [counterStmt c, s]) fun y hy => ?_
      simp only [List.mem_cons, List.not_mem_nil, or_false] at hy
      rcases hy with rfl | rfl
      · exact ⟨(Kept.bare_counterStmt c).kept _, .inl rfl⟩
      · exact ⟨.refl _, .inr rfl⟩
  | headCase sp test ss q1 c q2 h =>
    refine Kept.replace .switchCase sp [] ss (x := test) (ys := [test, counterStmt c]) fun y hy => ?_
    simp only [List.mem_cons, List.not_mem_nil, or_false] at hy
    rcases hy with rfl | rfl
    · exact ⟨.refl _, .inr rfl⟩
    · exact ⟨(Kept.bare_counterStmt c).kept _, .inl rfl⟩
  | wrap k sp l e r q1 c q2 h _ _ =>
    have := Kept.replace k sp l r (x := e) (ys := [wrapCounter c e]) (fun y hy => by
      cases List.mem_singleton.1 hy
      exact ⟨Kept.wrapCounter c e, .inl rfl⟩)
    simpa using this
  | truth k sp l e r q1 b a q2 h _ _ _ _ =>
    have := Kept.replace k sp l r (x := e) (ys := [wrapTruth b a e]) (fun y hy => by
      cases List.mem_singleton.1 hy
      exact ⟨Kept.wrapTruth b a e, .inl rfl⟩)
    simpa using this
  | body k sp l s r q h _ _ _ =>
    have := Kept.replace k sp l r (x := s) (ys := [mk .block Span.dummy [s]]) (fun y hy => by
      cases List.mem_singleton.1 hy
      exact ⟨Kept.below rfl [] [] s (by simp) (by simp), .inl rfl⟩)
    simpa using this
  | addElse sp test cons alt q h _ =>
    refine Kept.replace .ifStmt sp [test, cons] [] (x := alt) (ys := [mk .block Span.dummy []]) fun y hy => ?_
    cases List.mem_singleton.1 hy
    refine ⟨Kept.Bare.kept ?_ _, .inl rfl⟩
    constructor <;> intro x hx <;> simp [tags, tagsList, edges, edgesList] at hx
    rw [hx]
  | arrow a sp params e q h _ =>
    constructor
    · intro k' sp' h
      simp only [mem_tags, List.mem_cons, List.not_mem_nil, or_false, exists_eq_left, exists_eq_or_imp] at h
      rcases h with h | h | h | h | h
      · exact .inr (.inl ((mem_tags ..).2 (.inl h)))
      · exact .inr (.inl ((mem_tags ..).2 (.inr ⟨params, by simp, h⟩)))
      · cases h; exact .inl rfl
      · cases h
        exact .inr (.inr ⟨rfl, a, (mem_edges ..).2 ⟨e, by simp, .inl rfl⟩⟩)
      · exact .inr (.inl ((mem_tags ..).2 (.inr ⟨e, by simp, h⟩)))
    · intro k' sp' hk h
      simp only [mem_edges, List.mem_cons, List.not_mem_nil, or_false, exists_eq_left, exists_eq_or_imp] at h
      rcases h with (h | h) | h | h | h | h
      · exact .inr ((mem_edges ..).2 ⟨params, by simp, .inl h⟩)
      · exact .inr ((mem_edges ..).2 ⟨params, by simp, .inr h⟩)
      · cases h; exact .inl rfl
      · cases h; cases hk
      · cases h; cases hk
      · exact .inr ((mem_edges ..).2 ⟨e, by simp, .inr h⟩)

end Steps

/-- A registration on behalf of a node has its locations from that node. -/
theorem Sourced.from {cx : Ctx} {h : List RegOp} {n : Node} {op : RegOp} (hs : Sourced cx h n op) :
    op.From cx n h := by
  have hedge : ∀ e ∈ n.children, (n.kind, e.span) ∈ n.edges := by
    obtain ⟨k, sp, cs⟩ := n
    intro e he
    exact (mem_edges ..).2 ⟨e, he, .inl rfl⟩
  cases op with
  | statement r =>
    rcases hs with ⟨h1, h2⟩ | ⟨h1, e, he, h2⟩
    · exact ⟨n.span, h2, .inr (.inl ⟨n.kind, h1, tag_self n⟩)⟩
    · exact ⟨e.span, h2, .inr (.inr ⟨n.kind, .inl h1, hedge e he⟩)⟩
  | function name d l =>
    obtain ⟨⟨sp, h1, h2⟩, b, h3, h4, _⟩ := hs
    refine ⟨⟨sp, h2, ?_⟩, b.span, h4, .inr ?_⟩
    · rcases h1 with h1 | h1 | ⟨e, he, h1⟩
      · rw [h1]; exact .inr ⟨n.kind, tag_self n⟩
      · exact .inl h1
      · rw [h1]
        refine .inr ⟨e.kind, ?_⟩
        obtain ⟨k, sp, cs⟩ := n
        exact (mem_tags ..).2 (.inr ⟨e, he, tag_self e⟩)
    · unfold Node.fnBody? at h3
      split at h3
      · next hf =>
        exact ⟨n.kind, .inl hf, hedge b (List.mem_of_getLast? h3)⟩
      · split at h3
        · rw [Option.bind_eq_some_iff] at h3
          obtain ⟨f, h5, h6⟩ := h3
          have hf := List.mem_of_getLast? h5
          obtain ⟨fk, fsp, fcs⟩ := f
          split at h6
          · next a hk =>
            simp only [Node.kind] at hk
            subst hk
            refine ⟨.function a, .inr ⟨a, rfl⟩, ?_⟩
            obtain ⟨k, sp, cs⟩ := n
            exact (mem_edges ..).2 ⟨_, hf, .inr ((mem_edges ..).2 ⟨b, List.mem_of_getLast? h6, .inl rfl⟩)⟩
          · cases h6
        · cases h3
  | branch t l g =>
    obtain ⟨h1, h2, _⟩ := hs
    exact ⟨n.span, h2, .inr ⟨n.kind, h1, tag_self n⟩⟩
  | path k l =>
    obtain ⟨⟨t, r, g, h0, h1⟩, h2⟩ := hs
    refine ⟨t, r, g, h0, ?_⟩
    rcases h2 with h2 | ⟨e, he, h2⟩
    · exact ⟨n.span, h2, .inr ⟨n.kind, h1, .inl (tag_self n)⟩⟩
    · exact ⟨e.span, h2, .inr ⟨n.kind, h1, .inr (hedge e he)⟩⟩

/-- Later registrations do not matter. -/
theorem RegOp.From.mono {cx : Ctx} {n : Node} {h h' : List RegOp} {op : RegOp} (hp : h <+: h')
    (hf : op.From cx n h) : op.From cx n h' := by
  cases op with
  | path b l =>
    obtain ⟨t, r, g, h0, hf⟩ := hf
    exact ⟨t, r, g, getElem?_prefix hp h0, hf⟩
  | _ => exact hf

/-- Locations of a subtree. -/
theorem RegOp.From.sub {cx : Ctx} {c n : Node} {g : List RegOp} {op : RegOp} (ht : ∀ x ∈ c.tags, x ∈ n.tags)
    (he : ∀ x ∈ c.edges, x ∈ n.edges) (h : op.From cx c g) : op.From cx n g := by
  cases op with
  | statement r =>
    obtain ⟨sp, h1, h2 | ⟨k, h2, h3⟩ | ⟨k, h2, h3⟩⟩ := h
    · exact ⟨sp, h1, .inl h2⟩
    · exact ⟨sp, h1, .inr (.inl ⟨k, h2, ht _ h3⟩)⟩
    · exact ⟨sp, h1, .inr (.inr ⟨k, h2, he _ h3⟩)⟩
  | function name d l =>
    obtain ⟨⟨sp, h1, h2⟩, sp', h3, h4⟩ := h
    exact ⟨⟨sp, h1, h2.imp id fun ⟨k, h⟩ => ⟨k, ht _ h⟩⟩, sp', h3,
      h4.imp id fun ⟨k, hk, h⟩ => ⟨k, hk, he _ h⟩⟩
  | branch t l g =>
    obtain ⟨sp, h1, h2⟩ := h
    exact ⟨sp, h1, h2.imp id fun ⟨k, hk, h⟩ => ⟨k, hk, ht _ h⟩⟩
  | path k l =>
    obtain ⟨t, r, g, h0, sp, h1, h2⟩ := h
    exact ⟨t, r, g, h0, sp, h1, h2.imp id fun ⟨k, hk, h⟩ => ⟨k, hk, h.imp (ht _) (he _)⟩⟩

/-- Locations of an instrumented tree are locations of the tree before. -/
theorem RegOp.From.kept {cx : Ctx} {m n : Node} {g : List RegOp} {op : RegOp} (hk : Kept n m)
    (h : op.From cx m g) : op.From cx n g := by
  cases op with
  | statement r =>
    obtain ⟨sp, h1, h2 | ⟨k, h2, h3⟩ | ⟨k, h2, h3⟩⟩ := h
    · exact ⟨sp, h1, .inl h2⟩
    · rcases hk.1 k sp h3 with h4 | h4 | ⟨rfl, a, h4⟩
      · exact ⟨sp, h1, .inl h4⟩
      · exact ⟨sp, h1, .inr (.inl ⟨k, h2, h4⟩)⟩
      · exact ⟨sp, h1, .inr (.inr ⟨_, .inr ⟨a, rfl⟩, h4⟩)⟩
    · have hr : k.rewritten = false := by
        rcases h2 with h2 | ⟨a, rfl⟩
        · cases k <;> simp_all [Kind.inits, Kind.rewritten]
        · rfl
      rcases hk.2 k sp hr h3 with h4 | h4
      · exact ⟨sp, h1, .inl h4⟩
      · exact ⟨sp, h1, .inr (.inr ⟨k, h2, h4⟩)⟩
  | function name d l =>
    obtain ⟨⟨sp, h1, h2⟩, sp', h3, h4⟩ := h
    refine ⟨⟨sp, h1, ?_⟩, sp', h3, ?_⟩
    · rcases h2 with h2 | ⟨k, h2⟩
      · exact .inl h2
      · rcases hk.1 k sp h2 with h5 | h5 | ⟨rfl, a, h5⟩
        · exact .inl h5
        · exact .inr ⟨k, h5⟩
        · refine .inr ?_
          exact edge_tag n _ _ h5
    · rcases h4 with h4 | ⟨k, h5, h4⟩
      · exact .inl h4
      · have hr : k.rewritten = false := by
          rcases h5 with h5 | ⟨a, rfl⟩
          · cases k <;> simp_all [Kind.isFn, Kind.rewritten]
          · rfl
        rcases hk.2 k sp' hr h4 with h6 | h6
        · exact .inl h6
        · exact .inr ⟨k, h5, h6⟩
  | branch t l g =>
    obtain ⟨sp, h1, h2⟩ := h
    refine ⟨sp, h1, ?_⟩
    rcases h2 with h2 | ⟨k, h3, h2⟩
    · exact .inl h2
    · rcases hk.1 k sp h2 with h5 | h5 | ⟨rfl, a, h5⟩
      · exact .inl h5
      · exact .inr ⟨k, h3, h5⟩
      · cases h3
  | path k l =>
    obtain ⟨t, r, g, h0, sp, h1, h2⟩ := h
    refine ⟨t, r, g, h0, sp, h1, ?_⟩
    rcases h2 with h2 | ⟨k, h3, h2⟩
    · exact .inl h2
    · have hr : k.rewritten = false := by
        cases k <;> simp_all [Kind.armOf, Kind.rewritten]
      rcases h2 with h2 | h2
      · rcases hk.1 k sp h2 with h5 | h5 | ⟨rfl, a, h5⟩
        · exact .inl h5
        · exact .inr ⟨k, h3, .inl h5⟩
        · cases hr
      · rcases hk.2 k sp hr h2 with h5 | h5
        · exact .inl h5
        · exact .inr ⟨k, h3, .inr h5⟩
where
  edge_tag (n : Node) (k : Kind) (sp : Span) (h : (k, sp) ∈ n.edges) : ∃ k', (k', sp) ∈ n.tags := by
    induction n using Node.ind with
    | h k' sp' cs ih =>
      rw [mem_edges] at h
      obtain ⟨c, hc, h | h⟩ := h
      · cases h
        exact ⟨c.kind, (mem_tags ..).2 (.inr ⟨c, hc, tag_self c⟩)⟩
      · obtain ⟨k'', h'⟩ := ih c hc h
        exact ⟨k'', (mem_tags ..).2 (.inr ⟨c, hc, h'⟩)⟩

namespace Steps
variable {cx : Ctx}

/-- Every registration has its locations from the tree. -/
theorem regs_from {n q h n' q' h' o} (s : Steps cx n q h n' q' h' o) :
    ∀ op ∈ h', op ∈ h ∨ op.From cx n h' := by
  induction s with
  | trans s1 s2 ih1 ih2 =>
    intro op hop
    rcases ih2 op hop with h1 | h1
    · exact (ih1 op h1).imp id (.mono s2.pre)
    · exact .inr (h1.kept s1.kept)
  | child k sp l r _ _ ih =>
    intro op hop
    exact (ih op hop).imp id (.sub (fun _ => Kept.tags_child) (fun _ => Kept.edges_child))
  | insert k sp l r _ _ ih =>
    intro op hop
    exact (ih op hop).imp id (.sub (fun _ => Kept.tags_child) (fun _ => Kept.edges_child))
  | lose sp l r _ ih =>
    intro op hop
    exact (ih op hop).imp id (.sub (fun _ => Kept.tags_child) (fun _ => Kept.edges_child))
  | register n q h op hs =>
    intro op' hop
    rcases List.mem_append.1 hop with h1 | h1
    · exact .inl h1
    · cases List.mem_singleton.1 h1
      exact .inr (hs.from.mono (List.prefix_append ..))
  | _ => exact fun op hop => .inl hop

end Steps
end Verif
