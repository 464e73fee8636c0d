import Verif.Lemmas.Inside
import Verif.Props.Instrument
import Verif.Spec.Build
/-
C70: the regions of a report are nested like the source.
-/
namespace Verif
open Visitor Node Build

variable {cx : Ctx} {fuel : Nat} {path : String} {sm : Option SourceMap} {p p' : Node} {cov : SourceCoverage}

/-- C70. The arms of a branch lie in the branch. -/
theorem C70_arms (hpos : ∀ a b, a ≤ b → (cx.pos a).NotAfter (cx.pos b)) (hn : p.Nested)
    (hr : instrument cx fuel path sm p = .ok (p', cov)) {id : Nat} {b : Branch} {l a : Range} (hb : cov.inner.branchMap.get id = some b)
    (hl : b.loc = some l) (ha : a ∈ b.locations) (ha0 : a ≠ Range.zero) (hl0 : l ≠ Range.zero) : a.Within l := by
  obtain ⟨l', h1, h2⟩ := Inside.instrument_arms hpos hn hr _ (IndexMap.mem_of_get hb)
  cases hl.symm.trans h1
  exact h2 a ha ha0 hl0

private theorem span_of_tag : ∀ (n : Node) (t : Kind × Span), t ∈ n.tags → ∃ x ∈ n.each, x.span = t.2
  | mk k sp cs, t, h => by
    rw [tags] at h
    rcases List.mem_cons.1 h with rfl | h
    · exact ⟨mk k sp cs, by rw [each]; exact List.mem_cons_self, rfl⟩
    · obtain ⟨x, h1, h2⟩ := listTags cs t h
      exact ⟨x, by rw [each]; exact List.mem_cons_of_mem _ h1, h2⟩
where
  listTags : ∀ (cs : List Node) (t : Kind × Span), t ∈ tagsList cs → ∃ x ∈ eachList cs, x.span = t.2
  | c :: cs, t, h => by
    rw [tagsList] at h
    rcases List.mem_append.1 h with h | h
    · obtain ⟨x, h1, h2⟩ := span_of_tag c t h
      exact ⟨x, by rw [eachList]; exact List.mem_append_left _ h1, h2⟩
    · obtain ⟨x, h1, h2⟩ := listTags cs t h
      exact ⟨x, by rw [eachList]; exact List.mem_append_right _ h1, h2⟩

private theorem mem_self (n : Node) : n ∈ n.each := by
  cases n
  rw [each]
  exact List.mem_cons_self

private theorem span_of_edge : ∀ (n : Node) (t : Kind × Span), t ∈ n.edges → ∃ x ∈ n.each, x.span = t.2
  | mk k sp cs, t, h => by
    rw [edges] at h
    obtain ⟨x, h1, h2⟩ := listEdges k cs t h
    exact ⟨x, by rw [each]; exact List.mem_cons_of_mem _ h1, h2⟩
where
  listEdges (k : Kind) : ∀ (cs : List Node) (t : Kind × Span), t ∈ edgesList k cs → ∃ x ∈ eachList cs, x.span = t.2
  | c :: cs, t, h => by
    rw [edgesList] at h
    rcases List.mem_cons.1 h with rfl | h
    · exact ⟨c, by rw [eachList]; exact List.mem_append_left _ (mem_self c), rfl⟩
    · rcases List.mem_append.1 h with h | h
      · obtain ⟨x, h1, h2⟩ := span_of_edge c t h
        exact ⟨x, by rw [eachList]; exact List.mem_append_left _ h1, h2⟩
      · obtain ⟨x, h1, h2⟩ := listEdges k cs t h
        exact ⟨x, by rw [eachList]; exact List.mem_append_right _ h1, h2⟩

/-- The regions of a report are those of nodes. -/
private theorem region_node (hr : instrument cx fuel path sm p = .ok (p', cov)) {r : Range} (h : cov.inner.Region r) (h0 : r ≠ Range.zero) :
    ∃ x ∈ p.each, x.span.Placed ∧ r = ⟨cx.pos x.span.lo, cx.pos x.span.hi⟩ := by
  have key : ∃ sp, r = cx.range sp ∧ (sp = Span.dummy ∨ ∃ k, (k, sp) ∈ p.tags ∨ (k, sp) ∈ p.edges) := by
    obtain ⟨h1, h2, h3⟩ := C35_locations hr
    rcases h with ⟨id, h⟩ | ⟨id, f, h, h'⟩ | ⟨id, b, h, h'⟩
    · obtain ⟨sp, e, rfl | ⟨k, -, h⟩ | ⟨k, -, h⟩⟩ := h1 id r h
      · exact ⟨_, e, .inl rfl⟩
      · exact ⟨_, e, .inr ⟨k, .inl h⟩⟩
      · exact ⟨_, e, .inr ⟨k, .inr h⟩⟩
    · obtain ⟨g1, g2, -⟩ := h2 id f h
      rcases h' with rfl | rfl
      · obtain ⟨sp, e, rfl | ⟨k, h⟩⟩ := g1
        · exact ⟨_, e, .inl rfl⟩
        · exact ⟨_, e, .inr ⟨k, .inl h⟩⟩
      · obtain ⟨sp, e, rfl | ⟨k, -, h⟩⟩ := g2
        · exact ⟨_, e, .inl rfl⟩
        · exact ⟨_, e, .inr ⟨k, .inr h⟩⟩
    · obtain ⟨⟨l, hl, g1, -⟩, g2⟩ := h3 id b h
      rcases h' with h' | h'
      · cases hl.symm.trans h'
        obtain ⟨sp, e, rfl | ⟨k, -, h⟩⟩ := g1
        · exact ⟨_, e, .inl rfl⟩
        · exact ⟨_, e, .inr ⟨k, .inl h⟩⟩
      · obtain ⟨sp, e, rfl | ⟨k, -, h⟩⟩ := g2 r h'
        · exact ⟨_, e, .inl rfl⟩
        · exact ⟨_, e, .inr ⟨k, h⟩⟩
  obtain ⟨sp, rfl, hsp⟩ := key
  unfold Ctx.range at h0 ⊢
  split at h0
  · exact absurd rfl h0
  · rename_i hp
    rw [if_neg hp]
    have hpl : sp.Placed := ⟨fun h => hp (.inr h), fun h => hp (.inl h)⟩
    rcases hsp with rfl | ⟨k, h | h⟩
    · exact absurd rfl hpl.1
    · obtain ⟨x, h1, rfl⟩ := span_of_tag p _ h
      exact ⟨x, h1, hpl, rfl⟩
    · obtain ⟨x, h1, rfl⟩ := span_of_edge p _ h
      exact ⟨x, h1, hpl, rfl⟩

/-- C70. All regions lie in the region of the program. -/
theorem C70_inside (hpos : ∀ a b, a ≤ b → (cx.pos a).NotAfter (cx.pos b)) (hn : p.Nested) (hp : p.span.Placed)
    (hr : instrument cx fuel path sm p = .ok (p', cov)) {r : Range} (h : cov.inner.Region r) (h0 : r ≠ Range.zero) :
    r.Within (cx.range p.span) := by
  obtain ⟨x, hx, hxp, rfl⟩ := region_node hr h h0
  obtain ⟨h1, h2⟩ := hn p (mem_self p) x hx hxp hp
  unfold Ctx.range
  rw [if_neg (by simp only [not_or]; exact ⟨hp.2, hp.1⟩)]
  exact ⟨hpos _ _ h1, hpos _ _ h2⟩

/-- C70. Of any two regions one lies in the other or they are apart. -/
theorem C70_nested (hpos : ∀ a b, a ≤ b → (cx.pos a).NotAfter (cx.pos b)) (hn : p.Laminar)
    (hr : instrument cx fuel path sm p = .ok (p', cov)) {r r' : Range} (h : cov.inner.Region r) (h' : cov.inner.Region r')
    (h0 : r ≠ Range.zero) (h0' : r' ≠ Range.zero) : r.Within r' ∨ r'.Within r ∨ r.Apart r' := by
  obtain ⟨x, hx, hxp, rfl⟩ := region_node hr h h0
  obtain ⟨y, hy, hyp, rfl⟩ := region_node hr h' h0'
  rcases hn x hx y hy hxp hyp with h | h | h | h
  · exact .inl ⟨hpos _ _ (h hxp hyp).1, hpos _ _ (h hxp hyp).2⟩
  · exact .inr (.inl ⟨hpos _ _ (h hyp hxp).1, hpos _ _ (h hyp hxp).2⟩)
  · exact .inr (.inr (.inl (hpos _ _ h)))
  · exact .inr (.inr (.inr (hpos _ _ h)))

private theorem plain_mono : ∀ a b, a ≤ b → (plain.pos a).NotAfter (plain.pos b) := fun a b h => by
  rcases Nat.lt_or_eq_of_le h with h | rfl
  · exact .inl h
  · exact .inr ⟨rfl, Nat.le_refl _⟩

/-- A node from `a` to `b`. -/
private def wide (a b : Nat) (k : Kind) (cs : List Node) : Node := mk k ⟨a, b⟩ cs

/-- `function f() { a && (b ? c : d); } switch (f()) { case x: g(); }` -/
private def source : Node := wide 1 40 .module
  [wide 2 20 .fnDecl [ident 3 "f", wide 2 20 (.function "") [mk .list Span.dummy [], mk .list Span.dummy [], wide 4 20 .block
    [wide 5 15 .exprStmt [wide 5 15 (.bin .and) [ident 5 "a", wide 7 14 .paren [wide 8 13 .cond [ident 8 "b", ident 10 "c", ident 12 "d"]]]]]]],
  wide 21 39 .switchStmt [call 22 (ident 22 "f") [], wide 25 38 .switchCase [ident 26 "x", wide 28 37 .exprStmt [call 29 (ident 29 "g") []]]]]

/-- The conditions hold for it; its report has statements, a function and three branches with five arms that have positions. -/
example : (∀ a b, a ≤ b → (plain.pos a).NotAfter (plain.pos b)) ∧ source.Nested ∧ source.Laminar ∧ source.span.Placed ∧ yields (run plain source) (fun _ r =>
    decide (r.statementMap.length = 3 ∧ r.fnMap.length = 1 ∧
      r.branchMap.map (fun e => (e.2.loc, e.2.locations)) =
        [(some (plain.range ⟨5, 15⟩), [plain.range ⟨5, 6⟩, plain.range ⟨7, 14⟩]),
         (some (plain.range ⟨8, 13⟩), [plain.range ⟨10, 11⟩, plain.range ⟨12, 13⟩]),
         (some (plain.range ⟨21, 39⟩), [plain.range ⟨25, 38⟩])])) = true := by
  refine ⟨plain_mono, by unfold Nested Under Span.In Span.Placed; decide +kernel, by unfold Laminar Span.In Span.Placed; decide +kernel,
    by unfold Span.Placed; decide +kernel, by decide +kernel⟩

end Verif
