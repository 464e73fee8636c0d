import Verif.Props.Layout
/-
C52: which positions are looked up in the source map.
-/
namespace Verif
open Node Build Visitor

namespace Node

/-- A position of the program: an end of a part that has positions at both ends. -/
def Position (p : Node) (x : BytePos) : Prop :=
  ∃ m ∈ p.each, m.span.lo ≠ 0 ∧ m.span.hi ≠ 0 ∧ (x = m.span.lo ∨ x = m.span.hi)

end Node

theorem range_congr {cx : Ctx} {pos : BytePos → Location} {sp : Span}
    (h : sp.lo ≠ 0 → sp.hi ≠ 0 → cx.pos sp.lo = pos sp.lo ∧ cx.pos sp.hi = pos sp.hi) :
    cx.range sp = ({ cx with pos := pos } : Ctx).range sp := by
  unfold Ctx.range
  split
  · rfl
  next hz =>
    obtain ⟨h1, h2⟩ := h (fun h => hz (.inr h)) (fun h => hz (.inl h))
    rw [h1, h2]

/-- C52: the source map is asked for nothing but the positions of the program. Whatever it says about other positions, the output
and the report are the same, and if there are none with one source map, there are none with the other. In particular nothing is asked about code without a position, for which the
source map has no answer. -/
theorem C52_lookups {cx : Ctx} {pos : BytePos → Location} {fuel : Nat} {path : String} {sm : Option SourceMap} {p : Node}
    (h : ∀ x, p.Position x → cx.pos x = pos x) (r : Node × SourceCoverage) :
    instrument cx fuel path sm p = .ok r ↔ instrument { cx with pos := pos } fuel path sm p = .ok r := by
  have go : ∀ {cx : Ctx} {pos : BytePos → Location}, (∀ x, p.Position x → cx.pos x = pos x) →
      ∀ r, instrument cx fuel path sm p = .ok r → instrument { cx with pos := pos } fuel path sm p = .ok r := by
    rintro cx pos h ⟨q, c⟩ hr
    have hin : (Lock.make (Change.moved id p) false cx { cx with pos := pos } ⟨rfl, .inl rfl⟩
        (fun {a b} (h : b = id a ∧ _) => by cases h.1; rfl)
        (fun h => by rcases h with rfl | h; exacts [rfl, h.elim]) (fun _ => rfl) (fun h => by cases h)).In p p :=
      ⟨.refl fun m hm => ⟨rfl, .inr ⟨m, hm, rfl⟩⟩, fun h => by cases h⟩
    obtain ⟨q', c', h1, h2, h3⟩ := Lock.instrument hin rfl hr
    have hq : q = q' := Akin.eq (d := Change.moved id p) (fun _ _ h => h.1.symm) (fun _ _ h => h) id h2
    have hc := h3.inner.eq (fun _ _ h => h) (by
      rintro r r' ⟨a, b, ⟨rfl, hb⟩, rfl, rfl⟩
      refine range_congr fun h1 h2 => ?_
      rcases hb with rfl | ⟨m, hm, rfl⟩
      · exact (h1 rfl).elim
      · exact ⟨h _ ⟨m, hm, h1, h2, .inl rfl⟩, h _ ⟨m, hm, h1, h2, .inr rfl⟩⟩)
    rw [← h3.inner.bT rfl] at hc
    have : c = c' := by
      obtain ⟨i, a, b, d⟩ := c
      obtain ⟨i', a', b', d'⟩ := c'
      cases h3.lastS
      cases h3.lastF
      cases h3.lastB
      dsimp only at hc
      rw [hc]
    rw [h1, hq, this]
  exact ⟨go h r, go (cx := { cx with pos := pos }) (pos := cx.pos) (fun x hx => (h x hx).symm) r⟩

/-- `x; y`, where `y` was generated and has no position. -/
def generated : Node := Build.module [expr 3 (ident 4 "x"), mk .exprStmt Span.dummy [mk (.ident "y") Span.dummy []]]

/-- Two source maps that agree on the position of `x` only: output and report are the same, and `y` has the zero range. -/
example : ∃ q c, run plain generated = .ok (q, c) ∧
    c.inner.statementMap = [(0, ⟨⟨3, 0⟩, ⟨4, 0⟩⟩), (1, ⟨⟨0, 0⟩, ⟨0, 0⟩⟩)] ∧
    run { plain with pos := fun x => if x = 0 then ⟨77, 77⟩ else ⟨x, 0⟩ } generated = .ok (q, c) := by
  have h : yields (run plain generated) (fun _ c => decide (c.statementMap = [(0, ⟨⟨3, 0⟩, ⟨4, 0⟩⟩), (1, ⟨⟨0, 0⟩, ⟨0, 0⟩⟩)])) = true := by
    decide +kernel
  obtain ⟨q, c, h1, h2⟩ := of_yields h
  refine ⟨q, c, h1, of_decide_eq_true h2, ?_⟩
  refine (C52_lookups (cx := plain) (fun x hx => ?_) (q, c)).1 h1
  have : x ≠ 0 := by
    rintro rfl
    obtain ⟨m, hm, h1, h2, h3 | h3⟩ := hx
    exacts [h1 h3.symm, h2 h3.symm]
  rw [if_neg this]
  rfl

end Verif
