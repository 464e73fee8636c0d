import Verif.Props.Size
import Verif.Props.Distinct
/-
C57: numbers stay below 2^32.
-/
namespace Verif
open Node Visitor Sem Build Runtime Js Template RegOp

theorem maybeAddBranchTrue_lasts (c : SourceCoverage) (k : Nat) : (c.maybeAddBranchTrue k).lastS = c.lastS ∧
    (c.maybeAddBranchTrue k).lastF = c.lastF ∧ (c.maybeAddBranchTrue k).lastB = c.lastB := by
  unfold SourceCoverage.maybeAddBranchTrue
  split
  · exact ⟨rfl, rfl, rfl⟩
  · split <;> exact ⟨rfl, rfl, rfl⟩

theorem addBranchPath_lasts {c c' : SourceCoverage} {k i : Nat} {r : Range} (h : c.addBranchPath k r = .ok (c', i)) :
    c'.lastS + c'.lastF + c'.lastB = c.lastS + c.lastF + c.lastB := by
  unfold SourceCoverage.addBranchPath at h
  split at h
  · cases h
  · split at h
    · cases h
    · dsimp only at h
      split at h
      · cases h
      · cases h
        obtain ⟨h1, h2, h3⟩ := maybeAddBranchTrue_lasts
          { c with inner := { c.inner with
              branchMap := IndexMap.modify c.inner.branchMap k fun br => { br with locations := br.locations ++ [r] }
              b := IndexMap.modify c.inner.b k fun _ => _ ++ [0] } } k
        rw [h1, h2, h3]

/-- The number of ids handed out. -/
def Meter.ids : Meter where
  size c := c.lastS + c.lastF + c.lastB
  stmt _ := 1
  fn _ _ := 1
  br _ _ := 1
  arm _ := 0
  newStatement c r := by simp only [SourceCoverage.newStatement]; omega
  newFunction c n d l := by simp only [SourceCoverage.newFunction]; omega
  newBranch c t r g := by
    simp only [SourceCoverage.newBranch, SourceCoverage.maybeNewBranchTrue]
    split
    · simp only; omega
    · split <;> simp only <;> omega
  addPath c k r c' i h := Nat.le_of_eq (addBranchPath_lasts h)
  addOwn c k r c' i h hk := Nat.le_of_eq (addBranchPath_lasts h)
  freeze c := Nat.le_refl _
  new path g sm := rfl

theorem Meter.own_le {a b : Meter} (h1 : ∀ r, a.stmt r ≤ b.stmt r) (h2 : ∀ d l, a.fn d l ≤ b.fn d l)
    (h3 : ∀ t r, a.br t r ≤ b.br t r) (h4 : ∀ r, a.arm r ≤ b.arm r) (cx : Ctx) (n : Node) : a.own cx n ≤ b.own cx n := by
  have go : ∀ {X : Type} (f g : X → Nat), (∀ x, f x ≤ g x) → ∀ l : List X, (l.map f).sum ≤ (l.map g).sum := by
    intro X f g h l
    induction l with
    | nil => exact Nat.le_refl _
    | cons x l ih => simp only [List.map_cons, List.sum_cons]; exact Nat.add_le_add (h x) ih
  unfold Meter.own
  exact Nat.add_le_add (Nat.add_le_add (Nat.add_le_add (go _ _ (fun _ => h1 _) _) (go _ _ (fun _ => h2 _ _) _))
    (go _ _ (fun _ => h3 _ _) _)) (go _ _ (fun _ => h4 _) _)

theorem Meter.weight_ids (cx : Ctx) (n : Node) : Meter.ids.weight cx n ≤ 4 * n.size := by
  refine Nat.le_trans ?_ (Meter.weight_entries cx n)
  unfold Meter.weight
  induction n.each with
  | nil => exact Nat.le_refl _
  | cons a l ih =>
    have : Meter.ids.own cx a ≤ Meter.entries.own cx a := Meter.own_le (a := .ids) (b := .entries) (fun _ => Nat.le_refl _) (fun _ _ => Nat.le_refl _)
      (fun t _ => by simp only [Meter.ids, Meter.entries]; split <;> omega) (fun _ => Nat.zero_le _) cx a
    simp only [List.map_cons, List.sum_cons]
    exact Nat.add_le_add this ih

/-- The ranges of a registration are ranges of the source map. -/
def RegOp.Looked (cx : Ctx) : RegOp → Prop
  | .statement r => ∃ sp, r = cx.range sp
  | .function _ d l => (∃ sp, d = cx.range sp) ∧ ∃ sp, l = cx.range sp
  | .branch _ l _ => ∃ sp, l = cx.range sp
  | .path _ l => ∃ sp, l = cx.range sp

theorem Sourced.looked {cx : Ctx} {h : List RegOp} {n : Node} {op : RegOp} (s : Sourced cx h n op) : op.Looked cx := by
  cases op with
  | statement r => rcases s with ⟨-, h⟩ | ⟨-, e, -, h⟩ <;> exact ⟨_, h⟩
  | function name d l =>
    obtain ⟨⟨sp, -, h1⟩, b, -, h2, -⟩ := s
    exact ⟨⟨_, h1⟩, _, h2⟩
  | branch t l g => exact ⟨_, s.2.1⟩
  | path k l => rcases s.2 with h | ⟨e, -, h⟩ <;> exact ⟨_, h⟩

theorem Steps.looked {cx : Ctx} {n q h n' q' h' o} (s : Steps cx n q h n' q' h' o) (hh : ∀ op ∈ h, op.Looked cx) :
    ∀ op ∈ h', op.Looked cx := by
  induction s with
  | trans _ _ ih1 ih2 => exact ih2 (ih1 hh)
  | child _ _ _ _ _ _ ih => exact ih hh
  | insert _ _ _ _ _ _ ih => exact ih hh
  | lose _ _ _ _ ih => exact ih hh
  | register n q h op hs =>
    intro x hx
    rcases List.mem_append.1 hx with hx | hx
    · exact hh x hx
    · cases List.mem_singleton.1 hx
      exact hs.looked
  | _ => exact hh

theorem mem_statements {h : List RegOp} {r : Range} (hm : r ∈ statements h) : .statement r ∈ h := by
  obtain ⟨op, h1, h2⟩ := List.mem_filterMap.1 hm
  cases op <;> simp_all

theorem mem_functions {h : List RegOp} {x} (hm : x ∈ functions h) : .function x.1 x.2.1 x.2.2 ∈ h := by
  obtain ⟨op, h1, h2⟩ := List.mem_filterMap.1 hm
  cases op <;> cases h2
  exact h1

theorem mem_branches {h : List RegOp} {x} (hm : x ∈ branches h) : .branch x.1 x.2.1 x.2.2 ∈ h := by
  obtain ⟨op, h1, h2⟩ := List.mem_filterMap.1 hm
  cases op <;> cases h2
  exact h1

theorem mem_arms {h : List RegOp} {k : Nat} {r : Range} (hm : r ∈ arms h k) : .path k r ∈ h := by
  obtain ⟨op, h1, h2⟩ := List.mem_filterMap.1 hm
  cases op <;> simp_all

theorem Ctx.range_fits {cx : Ctx} (hp : ∀ x, (cx.pos x).Fits) (sp : Span) : (cx.range sp).Fits := by
  unfold Ctx.range
  split
  · simp [Range.zero, Range.Fits, Location.Fits]
  · exact ⟨hp _, hp _⟩

theorem mem_numbered {A B : Type} {g : Nat → A → B} {l : List A} {e : Nat × B} (h : e ∈ numbered g l) :
    e.1 < l.length ∧ ∃ a ∈ l, e.2 = g e.1 a := by
  obtain ⟨x, hx, rfl⟩ := List.mem_map.1 h
  obtain ⟨h1, h2, h3⟩ := List.mem_zipIdx hx
  refine ⟨by simpa using h2, x.1, ?_, rfl⟩
  rw [h3]
  exact List.getElem_mem _

section
variable {cx : Ctx} {fuel : Nat} {path : String} {sm : Option SourceMap} {p p' : Node} {cov : SourceCoverage}

/-- C57 for ids: at most four are handed out for each node of the program. -/
theorem C57_ids_partial (hp : PlainInits p) (hr : instrument cx fuel path sm p = .ok (p', cov)) :
    cov.lastS + cov.lastF + cov.lastB ≤ 4 * p.size :=
  Nat.le_trans (Costs.instrument (mt := .ids) hp hr) (Meter.weight_ids cx p)

/-- C57: the report has 32 bit numbers only, as have those of the positions. -/
theorem C57_partial (hs : FitsInSource cx sm p) (hr : instrument cx fuel path sm p = .ok (p', cov)) : cov.inner.Fits := by
  have hids := Nat.lt_of_le_of_lt (C57_ids_partial hs.plain hr) hs.size
  obtain ⟨n, h, hl, hleg, hfin, h1, h2, h3⟩ : ∃ n h, Steps cx p [] [] n [] h [] ∧ Legal h ∧ Finished path sm cx.reportLogic h cov.inner ∧
      (statements h).length ≤ cov.lastS ∧ (functions h).length ≤ cov.lastF ∧ (branches h).length ≤ cov.lastB := by
    rcases Sound.instrument hr with ⟨rfl, rfl, h3⟩ | ⟨h1, n, h, cov0, h2, h3, h4, h5, rfl⟩
    · have hi : Inv path cx.reportLogic sm [] (initial cx path sm).cov := inv_setInputSourceMap inv_new sm
      exact ⟨p', [], .refl _ _ _, legal_nil, hi.finished legal_nil, Nat.zero_le _, Nat.zero_le _, Nat.zero_le _⟩
    · exact ⟨n, h, h2, h5, h4.finished h5, Nat.le_of_eq h4.lastS.symm, Nat.le_of_eq h4.lastF.symm, Nat.le_of_eq h4.lastB.symm⟩
  have hl := hl.looked (by intro op h; cases h)
  have hr : ∀ {r}, (∃ sp, r = cx.range sp) → r.Fits := by
    rintro r ⟨sp, rfl⟩
    exact Ctx.range_fits hs.pos sp
  have hb : ∀ {k : Nat}, k < (branches h).length → k < 2 ^ 32 := by omega
  constructor
  · intro e he
    rw [hfin.statementMap] at he
    obtain ⟨k1, a, k2, k3⟩ := mem_numbered he
    exact ⟨by omega, k3 ▸ hr (hl _ (mem_statements k2))⟩
  · intro e he
    rw [hfin.fnMap] at he
    obtain ⟨k1, a, k2, k3⟩ := mem_numbered he
    obtain ⟨k4, k5⟩ := hl _ (mem_functions k2)
    refine ⟨by omega, ?_⟩
    rw [k3]
    exact ⟨hr k4, hr k5, (hr k5).1.1⟩
  · rintro ⟨k, br⟩ he
    have hg := IndexMap.get_of_mem hfin.keyed.branchMap he
    rw [hfin.branchMap] at hg
    obtain ⟨x, k1, k2⟩ := Option.bind_eq_some_iff.1 hg
    split at k2
    · cases k2
    · cases k2
      have k3 := hr (hl _ (mem_branches (List.mem_of_getElem? k1)))
      refine ⟨hb (List.getElem?_eq_some_iff.1 k1).1, ?_, fun r h => hr (hl _ (mem_arms h)), ?_⟩
      · rintro r ⟨⟩; exact k3
      · rintro r ⟨⟩; exact k3.1.1
  · intro e he
    rw [hfin.s] at he
    obtain ⟨k1, a, k2, k3⟩ := mem_numbered he
    exact ⟨by omega, by rw [k3]; omega⟩
  · intro e he
    rw [hfin.f] at he
    obtain ⟨k1, a, k2, k3⟩ := mem_numbered he
    exact ⟨by omega, by rw [k3]; omega⟩
  · rintro ⟨k, ns⟩ he
    have hg := IndexMap.get_of_mem hfin.keyed.b he
    rw [hfin.b] at hg
    split at hg
    · cases hg
    · next hne =>
      cases hg
      refine ⟨?_, by intro n hn; obtain ⟨_, -, rfl⟩ := List.mem_map.1 hn; omega⟩
      refine hb (Nat.lt_of_not_le fun hk => hne (arms_eq_nil hleg hk))
  · rintro m hm ⟨k, ns⟩ he
    have hg := IndexMap.get_of_mem (hfin.keyed.bT m hm) he
    have hbT := hfin.bT k
    rw [Option.mem_def.1 hm, Option.getD_some, hg] at hbT
    obtain ⟨x, k1, k2⟩ := Option.bind_eq_some_iff.1 hbT.symm
    split at k2
    · cases k2
      exact ⟨hb (List.getElem?_eq_some_iff.1 k1).1, by intro n hn; obtain ⟨_, -, rfl⟩ := List.mem_map.1 hn; omega⟩
    · cases k2
  · rw [hfin.sm]; exact hs.version

/-! ### Reports of runs, with conditions on the program only -/

/-- C45 for programs that fit. -/
theorem C45_fits_partial (w : World) (hs : FitsInSource cx sm p) (hr : instrument cx fuel path sm p = .ok (p', cov)) :
    Reported w path p' cov.inner fun _ _ solid trs => Tells solid p' cov.inner trs :=
  C45_partial w hr (C57_partial hs hr)

/-- C50 for programs that fit and whose constructs are at different places. -/
theorem C50_fits_partial (hs : FitsInSource cx sm p) (ha : ApartInSource cx p) (hl : cx.reportLogic = false)
    (hr : instrument cx fuel path sm p = .ok (p', cov)) : Merged path p' cov.inner fun _ _ _ trs => TellsAll p' cov.inner trs :=
  C50_partial hr (C57_partial hs hr) (inRange_of_plain hr hl) (C34_locations_partial ha hr)

/-- C51 for programs that fit and whose constructs are at different places. -/
theorem C51_fits_partial (hs : FitsInSource cx sm p) (ha : ApartInSource cx p) (hl : cx.reportLogic = false)
    (hr : instrument cx fuel path sm p = .ok (p', cov)) : Merged path p' cov.inner fun _ _ _ trs m =>
      ∃ sum n, m.toSummary = .ok sum ∧ Executed p' cov.inner trs n ∧ sum.Sums cov.inner n :=
  C51_partial hr (C57_partial hs hr) (inRange_of_plain hr hl) (C34_locations_partial ha hr)

/-- C53 for programs that fit and whose constructs are at different places. -/
theorem C53_fits_partial (hs : FitsInSource cx sm p) (ha : ApartInSource cx p) (hl : cx.reportLogic = false)
    (hr : instrument cx fuel path sm p = .ok (p', cov)) : Merged path p' cov.inner fun _ _ _ trs m =>
      ∃ n, Executed p' cov.inner trs n ∧ m.LinesOf cov.inner n :=
  C53_partial hr (C57_partial hs hr) (inRange_of_plain hr hl) (C34_locations_partial ha hr)

/-- C54 for programs that fit and whose constructs are at different places. -/
theorem C54_fits_partial (hs : FitsInSource cx sm p) (ha : ApartInSource cx p) (hl : cx.reportLogic = true)
    (hr : instrument cx fuel path sm p = .ok (p', cov)) (hT : cov.inner.TruthFirst) : Merged path p' cov.inner fun _ _ solid trs m =>
      ∃ n, cov.inner.Retruths n m ∧ Executed p' cov.inner trs n ∧ Gave solid p' cov.inner trs n :=
  C54_partial hr (C57_partial hs hr) hl hT (C34_locations_partial ha hr)

end

/-- Positions as the source map of /repo gives them, 32 bit numbers. -/
def narrow : Ctx := { plain with pos := fun n => ⟨n % 2 ^ 32, 0⟩ }

/-- `handful` fits, and its constructs are at different places; its report has 32 bit numbers only. -/
example : FitsInSource narrow none handful ∧ ApartInSource narrow handful ∧ ∃ q c, run narrow handful = .ok (q, c) ∧
    c.inner.entries = 15 ∧ c.inner.Fits := by
  have hf : FitsInSource narrow none handful :=
    ⟨by unfold PlainInits; decide +kernel, by decide +kernel, fun x => ⟨Nat.mod_lt _ (by decide), Nat.zero_lt_succ _⟩, nofun⟩
  refine ⟨hf, ⟨by unfold PlainInits; decide +kernel, by decide +kernel, by decide +kernel, by decide +kernel⟩, ?_⟩
  have h : yields (run narrow handful) (fun _ c => decide (c.entries = 15)) = true := by decide +kernel
  obtain ⟨q, c, h1, h2⟩ := of_yields h
  exact ⟨q, c, h1, of_decide_eq_true h2, C57_partial hf h1⟩

/-- C57 fails: a program of 295 nodes for which statements are given ids that do not fit. (/repo panics or begins again with 0, if there
is memory for that many entries.) -/
theorem C57_fails : ∃ p p' cov, Clean p ∧ p.size = 295 ∧ (∃ fuel, instrument plain fuel "/f.js" none p = .ok (p', cov)) ∧
    2 ^ 32 < cov.lastS ∧ ¬ cov.inner.Fits := by
  obtain ⟨st, before, h1, h2, -⟩ := Nest.instrument_nested 32
  have h4 := Nest.spans_length 32
  have h5 : 2 ^ 32 < st.cov.freeze.lastS := by
    have : st.cov.freeze.lastS = st.cov.lastS := rfl
    omega
  refine ⟨_, _, _, Nest.clean_nested 32, Nest.size_nested 32, ⟨_, h1⟩, h5, fun hf => ?_⟩
  rcases Sound.instrument h1 with ⟨-, h8, -⟩ | ⟨-, -, h, cov0, -, -, hi, hl, h8⟩
  · rw [h8] at h5
    exact absurd h5 (by decide)
  · have h6 : st.cov.freeze.lastS = (statements h).length := by rw [h8]; exact hi.lastS
    have h7 := (hi.finished hl).s
    rw [← h8] at h7
    rw [h6] at h5
    have h9 : (2 ^ 32, 0) ∈ st.cov.freeze.inner.s := by
      rw [h7]
      refine List.mem_map.2 ⟨((statements h)[2 ^ 32], 2 ^ 32), ?_, rfl⟩
      rw [List.mem_zipIdx_iff_getElem?]
      exact List.getElem?_eq_getElem h5
    exact absurd (hf.s _ h9).1 (Nat.lt_irrefl _)

end Verif
