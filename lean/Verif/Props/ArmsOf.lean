import Verif.Lemmas.ArmsOf
import Verif.Props.Arms
/-
C71: a branch of the report has exactly the arms of its construct, in the order of the source.
-/
namespace Verif
open Visitor Node Build

variable {cx : Ctx} {fuel : Nat} {path : String} {sm : Option SourceMap} {p p' : Node} {cov : SourceCoverage}

/-- C71. Every branch of the report is that of a construct of the source: it has its type and range, and its arms are those of the construct, no
more, no fewer, and in their order. Missing are programs in which an initialiser is a tagged template (`C71_tagged_fails`). -/
theorem C71_arms_partial (hp : p.NoTaggedInits) (hc : p.CasesInSwitch) (hr : instrument cx fuel path sm p = .ok (p', cov)) {id : Nat} {b : Branch}
    (hb : cov.inner.branchMap.get id = some b) : ∃ n ∈ p.each, b.Of cx n :=
  Exact.instrument hr hp hc (IndexMap.mem_of_get hb)

/-- C71. If the parts between which each construct chooses come one after the other in the source, the arms of every branch other than that of an
`if` come one after the other as well: none begins before the one listed before it ends. -/
theorem C71_order_partial (hp : p.NoTaggedInits) (hc : p.CasesInSwitch) (hf : p.ChoicesFollow cx)
    (hpos : ∀ a b, a ≤ b → (cx.pos a).NotAfter (cx.pos b)) (hr : instrument cx fuel path sm p = .ok (p', cov)) {id : Nat} {b : Branch}
    (hb : cov.inner.branchMap.get id = some b) (hif : b.branchType ≠ .if) :
    b.locations.Pairwise fun r r' => r ≠ Range.zero → r' ≠ Range.zero → r.end.NotAfter r'.start := by
  obtain ⟨n, hn, h1, -⟩ := C71_arms_partial hp hc hr hb
  obtain ⟨t, -, h2⟩ := Option.map_eq_some_iff.1 h1
  obtain ⟨h3, h4⟩ := Prod.mk.inj h2
  rw [← h4, if_neg (h3 ▸ hif)]
  unfold Ctx.ranges
  refine List.pairwise_map.2 ((hf n hn).imp fun {x y} h hx hy => ?_)
  unfold Ctx.range at hx hy ⊢
  split at hx
  · exact absurd rfl hx
  split at hy
  · exact absurd rfl hy
  rw [if_neg (by assumption), if_neg (by assumption)]
  exact hpos _ _ h

/-- `const x = f`${a || b}`` -/
private def taggedSource : Node := Build.module [decl 2 .const "x" (tagged 3 (ident 3 "f") [bin 4 .or (ident 4 "a") (ident 6 "b")])]

/-- C71 fails in general: the tagged template of ``const x = f`${a || b}` `` is visited twice, and the report has a second branch for `a || b` whose
arms are at no place of the source. -/
theorem C71_tagged_fails : ∃ p p' cov, Clean p ∧ p.CasesInSwitch ∧ run plain p = .ok (p', cov) ∧
    ∃ id b, cov.inner.branchMap.get id = some b ∧ b.branchType = .binaryExpr ∧ b.locations = [Range.zero, Range.zero] ∧ ∀ n ∈ p.each, ¬ b.Of plain n := by
  have h : yields (run plain taggedSource) (fun _ r => match r.branchMap.get 1 with
    | some b => decide (b.branchType = .binaryExpr) && decide (b.locations = [Range.zero, Range.zero]) &&
        taggedSource.each.all fun n => !decide (n.branch? plain = some (.binaryExpr, [Range.zero, Range.zero]))
    | none => false) = true := by decide +kernel
  obtain ⟨p', cov, h1, h2⟩ := of_yields h
  refine ⟨taggedSource, p', cov, by unfold Clean; decide +kernel, by unfold CasesInSwitch; decide +kernel, h1, 1, ?_⟩
  split at h2
  · rename_i b hb
    simp only [Bool.and_eq_true, decide_eq_true_eq, List.all_eq_true, Bool.not_eq_true', decide_eq_false_iff_not] at h2
    obtain ⟨⟨h3, h4⟩, h5⟩ := h2
    refine ⟨b, hb, h3, h4, fun n hn h6 => h5 n hn ?_⟩
    rw [h6.1, h3, h4]
  · cases h2

private theorem plain_mono : ∀ a b, a ≤ b → (plain.pos a).NotAfter (plain.pos b) := fun a b h => by
  rcases Nat.lt_or_eq_of_le h with h | rfl
  · exact .inl h
  · exact .inr ⟨rfl, Nat.le_refl _⟩

/-- `function f(p = a) { if (b && c || d) return e ? g : h; switch (i) { case j: k(); default: l(); } }` -/
private def armsSource : Node := Build.module [fnDecl 1 "f" [mk .assignPat (at' 2) [ident 2 "p", ident 3 "a"]]
  [mk .ifStmt (at' 4) [bin 5 .or (bin 5 .and (ident 5 "b") (ident 7 "c")) (ident 9 "d"),
      mk .returnStmt (at' 11) [cond 12 (ident 12 "e") (ident 14 "g") (ident 16 "h")], mk .none Span.dummy []],
   mk .switchStmt (at' 20) [ident 21 "i", mk .switchCase (at' 23) [ident 24 "j", expr 25 (ident 25 "k")],
      mk .switchCase (at' 27) [mk .none Span.dummy [], expr 28 (ident 28 "l")]]]]

/-- The conditions hold for it, and it has a branch of each type. -/
example : armsSource.NoTaggedInits ∧ armsSource.CasesInSwitch ∧ armsSource.ChoicesFollow plain ∧
    (∀ a b, a ≤ b → (plain.pos a).NotAfter (plain.pos b)) ∧ yields (run plain armsSource) (fun _ r => decide (r.branchMap.map (fun e =>
      (e.2.branchType, e.2.locations)) = [(.defaultArg, [plain.range (at' 3)]), (.if, [plain.range (at' 4), plain.range (at' 4)]),
        (.condExpr, [plain.range (at' 14), plain.range (at' 16)]),
        (.binaryExpr, [plain.range (at' 5), plain.range (at' 7), plain.range (at' 9)]), (.switch, [plain.range (at' 23), plain.range (at' 27)])])) = true := by
  refine ⟨by unfold NoTaggedInits; decide +kernel, by unfold CasesInSwitch; decide +kernel, by unfold ChoicesFollow; decide +kernel, plain_mono,
    by decide +kernel⟩

end Verif
