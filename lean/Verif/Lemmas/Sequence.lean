import Verif.Spec.Sequence
import Verif.Lemmas.LockstepStep
import Verif.Lemmas.IndexMap
import Verif.Model.Program
/-
Entries are made in the order of the source.
-/
namespace Verif
open Node

namespace Sequence

/-! ### Lists of positions -/

/-- `R` keeps the order of `L`, perhaps with repetitions. -/
def Follows (R L : List Nat) : Prop := (∀ x ∈ R, x ∈ L) ∧ (L.Pairwise (· ≤ ·) → R.Pairwise (· ≤ ·))

theorem Follows.nil (L : List Nat) : Follows [] L := ⟨nofun, fun _ => .nil⟩

theorem Follows.refl (L : List Nat) : Follows L L := ⟨fun _ h => h, id⟩

theorem Follows.trans {R L M : List Nat} (h : Follows R L) (h' : Follows L M) : Follows R M := ⟨fun x hx => h'.1 x (h.1 x hx), fun hs => h.2 (h'.2 hs)⟩

theorem Follows.sub {L M : List Nat} (h : L.Sublist M) : Follows L M := ⟨fun _ hx => h.subset hx, fun hs => hs.sublist h⟩

theorem Follows.append {R R' L L' : List Nat} (h : Follows R L) (h' : Follows R' L') : Follows (R ++ R') (L ++ L') := by
  refine ⟨fun x hx => ?_, fun hs => ?_⟩
  · rcases List.mem_append.1 hx with hx | hx
    · exact List.mem_append_left _ (h.1 x hx)
    · exact List.mem_append_right _ (h'.1 x hx)
  · obtain ⟨h1, h2, h3⟩ := List.pairwise_append.1 hs
    exact List.pairwise_append.2 ⟨h.2 h1, h'.2 h2, fun a ha b hb => h3 a (h.1 a ha) b (h'.1 b hb)⟩

/-- The position at which a span starts, if it has one. -/
def own (sp : Span) : List Nat := if sp.lo = 0 then [] else [sp.lo]

theorem own_dummy : own Span.dummy = [] := rfl

/-- What starts at the same position may be repeated. -/
theorem Follows.again (sp : Span) (L : List Nat) : Follows (own sp ++ (own sp ++ L)) (own sp ++ L) := by
  unfold own
  split
  · exact .refl _
  · refine ⟨fun x hx => by simpa using hx, fun hs => ?_⟩
    simp only [List.cons_append, List.nil_append] at hs ⊢
    refine List.pairwise_cons.2 ⟨fun b hb => ?_, hs⟩
    rcases List.mem_cons.1 hb with rfl | hb
    · exact Nat.le_refl _
    · exact (List.pairwise_cons.1 hs).1 b hb

theorem Follows.again' {sp : Span} {R L : List Nat} (h : R.Sublist (own sp ++ L)) : Follows (own sp ++ R) (own sp ++ L) :=
  (Follows.append (.refl _) (.sub h)).trans (.again sp L)

/-! ### Positions of trees -/

theorem eachList_eq (cs : List Node) : eachList cs = cs.flatMap each := by
  induction cs with
  | nil => rfl
  | cons c cs ih => rw [eachList, ih, List.flatMap_cons]

/-- The places of the entries of a tree. -/
abbrev places (t : Table) (n : Node) : List Nat := n.starts t

/-- Those of a list of trees. -/
def placesList (t : Table) (cs : List Node) : List Nat := cs.flatMap (places t)

variable {t : Table}

theorem placesList_cons (c : Node) (cs : List Node) : placesList t (c :: cs) = places t c ++ placesList t cs := rfl
theorem placesList_nil : placesList t [] = [] := rfl

/-- The places of the entries of a node itself. -/
def here (t : Table) (n : Node) : List Nat := ((n.entries t).map fun sp => sp.lo).filter (· ≠ 0)

theorem places_mk (k : Kind) (sp : Span) (cs : List Node) : places t (mk k sp cs) = here t (mk k sp cs) ++ placesList t cs := by
  have h : ∀ cs : List Node, (((eachList cs).flatMap (entries t)).map fun sp => sp.lo).filter (· ≠ 0) = placesList t cs := by
    intro cs
    induction cs with
    | nil => rfl
    | cons c cs ih =>
      rw [eachList, List.flatMap_append, List.map_append, List.filter_append, ih]
      rfl
  unfold places starts
  rw [each, List.flatMap_cons, List.map_append, List.filter_append, h]
  rfl

theorem places_inert {n : Node} (h : n.inert t = true) : places t n = [] := by
  have : n.each.flatMap (entries t) = [] := by
    rw [List.flatMap_eq_nil_iff]
    intro x hx
    exact List.isEmpty_iff.1 (List.all_eq_true.1 h x hx)
  unfold places starts
  rw [this]
  rfl

/-- The places of the parts are places of the whole. -/
theorem places_children (k : Kind) (sp : Span) (cs : List Node) : (placesList t cs).Sublist (places t (mk k sp cs)) := by
  rw [places_mk]
  exact List.sublist_append_right _ _

/-- The place of an entry of table `t'`. -/
def at_ (t t' : Table) (sp : Span) : List Nat := if t = t' then own sp else []

theorem at_self (sp : Span) : at_ t t sp = own sp := if_pos rfl
theorem at_ne {t' : Table} (h : t ≠ t') (sp : Span) : at_ t t' sp = [] := if_neg h

theorem here_one {n : Node} {sp : Span} (h : n.entries t = [sp]) : here t n = own sp := by
  unfold here own
  rw [h]
  by_cases hlo : sp.lo = 0 <;> simp [hlo]

/-- The place of the entry of the node, then those of its parts. -/
theorem places_self {t' : Table} {k : Kind} {sp sp' : Span} {cs : List Node} (hk : t = t' → (mk k sp cs).entries t = [sp']) :
    (at_ t t' sp' ++ placesList t cs).Sublist (places t (mk k sp cs)) := by
  by_cases h : t = t'
  · rw [places_mk, here_one (hk h)]
    unfold at_
    rw [if_pos h]
  · rw [at_ne h]
    exact places_children k sp cs

theorem entries_bare {k : Kind} {cs : List Node} (hs : k.marks = false) (he : k ≠ .exportDecl) (hi : k.inits = false) (hf : k.isFn = false)
    (hh : k.hasFn = false) (hb : k.branchType = none) (sp : Span) : (mk k sp cs).entries t = [] := by
  cases t <;> unfold entries <;> split <;> simp_all [Kind.inits, Kind.isFn, Kind.hasFn]

theorem places_bare {k : Kind} {cs : List Node} (hs : k.marks = false) (he : k ≠ .exportDecl) (hi : k.inits = false) (hf : k.isFn = false)
    (hh : k.hasFn = false) (hb : k.branchType = none) (sp : Span) : places t (mk k sp cs) = placesList t cs := by
  rw [places_mk]
  unfold here
  rw [entries_bare hs he hi hf hh hb]
  rfl

theorem places_block (sp : Span) (cs : List Node) : places t (mk .block sp cs) = placesList t cs :=
  places_bare (k := .block) rfl nofun rfl rfl rfl rfl sp

theorem places_function (a : String) (sp : Span) (cs : List Node) : places t (mk (.function a) sp cs) = placesList t cs :=
  places_bare (k := .function a) rfl nofun rfl rfl rfl rfl sp

theorem places_counterStmt (c : Counter) : places t (counterStmt c) = [] := by
  cases t <;> rfl

theorem places_wrapCounter (c : Counter) (e : Node) : places t (wrapCounter c e) = places t e := by
  have h : places t (counterExpr c) = [] := by cases t <;> rfl
  unfold wrapCounter
  rw [places_bare (k := .paren) rfl nofun rfl rfl rfl rfl, placesList_cons, placesList_nil, List.append_nil,
    places_bare (k := .seq) rfl nofun rfl rfl rfl rfl,
    placesList_cons, placesList_cons, placesList_nil, List.append_nil, h]
  rfl

theorem places_blockOf (s : Node) : places t (mk .block Span.dummy [s]) = places t s := by
  rw [places_block, placesList_cons, placesList_nil, List.append_nil]

/-! ### Order of parts -/

theorem orderly_mk {k : Kind} {sp : Span} {cs : List Node} :
    Orderly t (mk k sp cs) ↔ (mk k sp cs).orderly t = true ∧ ∀ c ∈ cs, Orderly t c := by
  unfold Orderly
  rw [each, eachList_eq]
  constructor
  · intro h
    exact ⟨h _ (by simp), fun c hc x hx => h x (List.mem_cons_of_mem _ (List.mem_flatMap.2 ⟨c, hc, hx⟩))⟩
  · rintro ⟨h1, h2⟩ x hx
    rcases List.mem_cons.1 hx with rfl | hx
    · exact h1
    · obtain ⟨c, hc, hx⟩ := List.mem_flatMap.1 hx
      exact h2 c hc x hx

/-- Lists of such trees. -/
abbrev Orderlies (t : Table) (l : List Node) : Prop := ∀ n ∈ l, Orderly t n

theorem Orderlies.cons {a : Node} {b : List Node} (ha : Orderly t a) (hb : Orderlies t b) : Orderlies t (a :: b) := fun n hn => by
  rcases List.mem_cons.1 hn with rfl | hn
  · exact ha
  · exact hb n hn

theorem Orderlies.one {a : Node} (ha : Orderly t a) : Orderlies t [a] := fun n hn => by
  rw [List.mem_singleton.1 hn]
  exact ha

theorem orderly_counterStmt (c : Counter) : Orderly t (counterStmt c) := by
  intro x hx
  have : x = counterStmt c ∨ x = counterExpr c := by simpa [counterStmt, counterExpr, each, eachList] using hx
  rcases this with rfl | rfl <;> rfl

theorem orderly_wrapCounter {c : Counter} {e : Node} (h : Orderly t e) : Orderly t (wrapCounter c e) :=
  orderly_mk.2 ⟨rfl, Orderlies.one (orderly_mk.2 ⟨rfl, Orderlies.cons (orderly_mk.2 ⟨rfl, nofun⟩) (Orderlies.one h)⟩)⟩

/-! ### Entries -/

/-- The number of the next entry. -/
def next (c : SourceCoverage) : Table → Nat
  | .s => c.lastS
  | .f => c.lastF
  | .b => c.lastB

/-- The ids ascend and are below that of the next entry. -/
def Climbs (t : Table) (c : SourceCoverage) : Prop :=
  (c.inner.shown t).Pairwise (fun a b => a.1 < b.1) ∧ ∀ e ∈ c.inner.shown t, e.1 < next c t

/-- The ranges of a table. -/
def rows (t : Table) (c : SourceCoverage) : List Range := (c.inner.shown t).map (·.2)

/-- Insertion of a new entry. -/
theorem insert_next {V : Type} {m : IndexMap Nat V} {k : Nat} (g : V → Range) (v : V)
    (h1 : (m.map fun e => (e.1, g e.2)).Pairwise (fun a b => a.1 < b.1)) (h2 : ∀ e ∈ m.map fun e => (e.1, g e.2), e.1 < k) :
    ((m.insert k v).map fun e => (e.1, g e.2)).Pairwise (fun a b => a.1 < b.1) ∧
    (∀ e ∈ (m.insert k v).map fun e => (e.1, g e.2), e.1 < k + 1) ∧
    ((m.insert k v).map fun e => (e.1, g e.2)).map (·.2) = (m.map fun e => (e.1, g e.2)).map (·.2) ++ [g v] := by
  have hk : k ∉ IndexMap.keys m := by
    intro h
    obtain ⟨e, he, rfl⟩ := List.mem_map.1 h
    exact Nat.lt_irrefl _ (h2 _ (List.mem_map.2 ⟨e, he, rfl⟩))
  rw [IndexMap.insert_of_not_mem hk, List.map_append]
  refine ⟨List.pairwise_append.2 ⟨h1, by simp, ?_⟩, ?_, by simp⟩
  · intro a ha b hb
    obtain rfl : b = (k, g v) := by simpa using hb
    exact h2 a ha
  · intro e he
    rcases List.mem_append.1 he with he | he
    · exact Nat.lt_succ_of_lt (h2 e he)
    · obtain rfl : e = (k, g v) := by simpa using he
      exact Nat.lt_succ_self _

/-- The computation makes entries in table `t` at places that follow `L`; its result has the property. -/
def Reg (t : Table) (cx : Ctx) (L : List Nat) (x : M α) (P : α → Prop) : Prop :=
  ∀ st a s, x st = .ok (a, s) → P a ∧ (Climbs t st.cov → Climbs t s.cov ∧
    ∃ R : List Span, rows t s.cov = rows t st.cov ++ R.map cx.range ∧ Follows ((R.map (·.lo)).filter (· ≠ 0)) L)

namespace Reg
open Visitor
variable {cx : Ctx} {α β : Type} {P : α → Prop} {Q : β → Prop} {L L' : List Nat}

theorem weak {x : M α} (hx : Reg t cx L x P) (h : Follows L L') : Reg t cx L' x P := by
  intro st a s hs
  obtain ⟨h1, h2⟩ := hx st a s hs
  refine ⟨h1, fun hc => ?_⟩
  obtain ⟨h3, R, h4, h5⟩ := h2 hc
  exact ⟨h3, R, h4, h5.trans h⟩

theorem sub {x : M α} (hx : Reg t cx L x P) (h : L.Sublist L') : Reg t cx L' x P := hx.weak (.sub h)

/-- Computations that leave the tables alone. -/
theorem quiet {x : M α} (h : ∀ st a s, x st = .ok (a, s) → s.cov = st.cov ∧ P a) : Reg t cx L x P := by
  intro st a s hs
  obtain ⟨h1, h2⟩ := h st a s hs
  exact ⟨h2, fun hc => ⟨h1 ▸ hc, [], by rw [h1]; simp, .nil _⟩⟩

theorem pure {a : α} (h : P a) : Reg t cx L (Pure.pure a) P := quiet fun _ _ _ hs => by cases hs; exact ⟨rfl, h⟩

theorem bind {x : M α} {f : α → M β} (hx : Reg t cx L x P) (hf : ∀ a, P a → Reg t cx L' (f a) Q) : Reg t cx (L ++ L') (x >>= f) Q := by
  intro st b s h
  obtain ⟨a, s1, h1, h2⟩ := M.bind_ok h
  obtain ⟨h3, h4⟩ := hx st a s1 h1
  obtain ⟨h5, h6⟩ := hf a h3 s1 b s h2
  refine ⟨h5, fun hc => ?_⟩
  obtain ⟨hc1, R1, e1, f1⟩ := h4 hc
  obtain ⟨hc2, R2, e2, f2⟩ := h6 hc1
  refine ⟨hc2, R1 ++ R2, by rw [e2, e1, List.map_append, List.append_assoc], ?_⟩
  rw [List.map_append, List.filter_append]
  exact f1.append f2

/-- The first computation makes no entries. -/
theorem pass {x : M α} {f : α → M β} (hx : Reg t cx [] x P) (hf : ∀ a, P a → Reg t cx L (f a) Q) : Reg t cx L (x >>= f) Q := bind hx hf

/-- The second computation makes no entries. -/
theorem last {x : M α} {f : α → M β} (hx : Reg t cx L x P) (hf : ∀ a, P a → Reg t cx [] (f a) Q) : Reg t cx L (x >>= f) Q :=
  (bind hx hf).sub (by rw [List.append_nil])

theorem ite {p : Prop} [Decidable p] {x x' : M α} (hx : p → Reg t cx L x P) (hy : ¬p → Reg t cx L x' P) : Reg t cx L (if p then x else x') P := by
  split
  · exact hx ‹_›
  · exact hy ‹_›

theorem keepIf {p : Prop} [Decidable p] {a : α} {x : M α} (ha : P a) (hx : Reg t cx L x P) : Reg t cx L (keepIf p a x) P :=
  ite (fun _ => pure ha) fun _ => hx

theorem push (g : Tag) : Reg t cx L (push g) fun _ => True := quiet fun _ _ _ h => by cases h; exact ⟨rfl, trivial⟩
theorem pop : Reg t cx L pop fun _ => True := quiet fun _ _ _ h => by cases h; exact ⟨rfl, trivial⟩
theorem exit (old : Option IgnoreScope) : Reg t cx L (exit old) fun _ => True := quiet fun _ _ _ h => by cases h; exact ⟨rfl, trivial⟩
theorem enterSpan (sp : Span) : Reg t cx L (enterSpan cx sp) fun _ => True :=
  quiet fun st a s h => by
    unfold Visitor.enterSpan at h
    split at h <;> (cases h; exact ⟨rfl, trivial⟩)
theorem topNode : Reg t cx L topNode fun _ => True :=
  quiet fun _ _ _ h => by
    unfold Visitor.topNode at h
    split at h <;> cases h
    exact ⟨rfl, trivial⟩
theorem allNodes : Reg t cx L allNodes fun _ => True := quiet fun _ _ _ h => by cases h; exact ⟨rfl, trivial⟩
theorem panic (e : Panic) : Reg t cx L (M.panic e : M α) P := fun _ _ _ h => by cases h
theorem pushBefore (n : Node) : Reg t cx L (pushBefore n) fun _ => True := quiet fun _ _ _ h => by cases h; exact ⟨rfl, trivial⟩

theorem follows_own (sp : Span) : Follows (([sp].map (·.lo)).filter (· ≠ 0)) (own sp) := by
  unfold own
  by_cases h : sp.lo = 0
  · simp [h, Follows.nil]
  · simp [h, Follows.refl]

theorem newStatement (sp : Span) : Reg t cx (at_ t .s sp) (newStatement (cx.range sp)) fun _ => True := by
  intro st a s h
  refine ⟨trivial, fun hc => ?_⟩
  cases h
  cases t with
  | s =>
    obtain ⟨h1, h2, h3⟩ := insert_next id (cx.range sp) (m := st.cov.inner.statementMap) (k := st.cov.lastS)
      (by simpa [FileCoverage.shown] using hc.1) (by simpa [FileCoverage.shown, next] using hc.2)
    refine ⟨⟨?_, ?_⟩, [sp], ?_, follows_own sp⟩
    · simpa [FileCoverage.shown, SourceCoverage.newStatement] using h1
    · intro e he
      have := h2 e (by simpa [FileCoverage.shown, SourceCoverage.newStatement] using he)
      exact this
    · simpa [rows, FileCoverage.shown, SourceCoverage.newStatement] using h3
  | f => exact ⟨hc, [], by simp [rows, FileCoverage.shown, SourceCoverage.newStatement], .nil _⟩
  | b => exact ⟨hc, [], by simp [rows, FileCoverage.shown, SourceCoverage.newStatement], .nil _⟩

theorem newFunction (name : Option String) (sp : Span) (l : Range) :
    Reg t cx (at_ t .f sp) (newFunction name (cx.range sp) l) fun _ => True := by
  intro st a s h
  refine ⟨trivial, fun hc => ?_⟩
  cases h
  cases t with
  | f =>
    obtain ⟨h1, h2, h3⟩ := insert_next Function.decl
      ⟨match name with | some n => n | none => "(anonymous_" ++ toString st.cov.lastF ++ ")", cx.range sp, l, l.start.line⟩
      (m := st.cov.inner.fnMap) (k := st.cov.lastF) hc.1 hc.2
    exact ⟨⟨h1, h2⟩, [sp], h3, follows_own sp⟩
  | s => exact ⟨hc, [], by simp [rows, FileCoverage.shown, SourceCoverage.newFunction], .nil _⟩
  | b => exact ⟨hc, [], by simp [rows, FileCoverage.shown, SourceCoverage.newFunction], .nil _⟩

theorem truth_shown (c : SourceCoverage) (bt : BranchType) (k : Nat) (l : Bool) (t : Table) :
    (c.maybeNewBranchTrue bt k l).inner.shown t = c.inner.shown t ∧ next (c.maybeNewBranchTrue bt k l) t = next c t := by
  unfold SourceCoverage.maybeNewBranchTrue
  split
  · exact ⟨rfl, rfl⟩
  · split
    · cases t <;> exact ⟨rfl, rfl⟩
    · exact ⟨rfl, rfl⟩

theorem newBranch (bt : BranchType) (sp : Span) (l : Bool) : Reg t cx (at_ t .b sp) (newBranch bt (cx.range sp) l) fun _ => True := by
  intro st a s h
  refine ⟨trivial, fun hc => ?_⟩
  cases h
  unfold SourceCoverage.newBranch
  dsimp only
  unfold Climbs rows
  rw [(truth_shown _ _ _ _ _).1, (truth_shown _ _ _ _ _).2]
  cases t with
  | b =>
    obtain ⟨h1, h2, h3⟩ := insert_next (fun br : Branch => br.loc.getD Range.zero) ⟨some (cx.range sp), bt, [], some (cx.range sp).start.line⟩
      (m := st.cov.inner.branchMap) (k := st.cov.lastB) hc.1 hc.2
    exact ⟨⟨h1, h2⟩, [sp], h3, follows_own sp⟩
  | s => exact ⟨hc, [], by simp [FileCoverage.shown], .nil _⟩
  | f => exact ⟨hc, [], by simp [FileCoverage.shown], .nil _⟩

theorem modify_loc (m : BranchMap) (k : Nat) (r : Range) :
    ((IndexMap.modify m k fun br => { br with locations := br.locations ++ [r] }).map fun e => (e.1, e.2.loc.getD Range.zero)) =
      m.map fun e => (e.1, e.2.loc.getD Range.zero) := by
  induction m with
  | nil => rfl
  | cons e m ih =>
    obtain ⟨k', v⟩ := e
    simp only [IndexMap.modify]
    split
    · rfl
    · simp [ih]

theorem addPath (b : Nat) (r : Range) : Reg t cx L (addPath b r) fun _ => True := by
  intro st a s h
  refine ⟨trivial, fun hc => ?_⟩
  have key : (s.cov.inner.shown t) = st.cov.inner.shown t ∧ next s.cov t = next st.cov t := by
    unfold Visitor.addPath at h
    split at h
    · cases h
    · rename_i cov idx hp
      cases h
      unfold SourceCoverage.addBranchPath at hp
      split at hp
      · cases hp
      · split at hp
        · cases hp
        · dsimp only at hp
          split at hp
          · cases hp
          · cases hp
            unfold SourceCoverage.maybeAddBranchTrue
            split
            · cases t <;> first | exact ⟨rfl, rfl⟩ | exact ⟨modify_loc _ _ _, rfl⟩
            · split
              · cases t <;> first | exact ⟨rfl, rfl⟩ | exact ⟨modify_loc _ _ _, rfl⟩
              · cases t <;> first | exact ⟨rfl, rfl⟩ | exact ⟨modify_loc _ _ _, rfl⟩
  unfold Climbs rows
  rw [key.1, key.2]
  exact ⟨hc, [], by simp, .nil _⟩

theorem frame {g : Tag} {sp : Span} {b : Option IgnoreScope → M α} (hb : ∀ cur, Reg t cx L (b cur) P) : Reg t cx L (frame cx g sp b) P :=
  pass (pass (push g) fun _ _ => enterSpan sp) fun r _ => last (hb r.2) fun _ h => pass (exit r.1) fun _ _ => pure h

theorem guarded {g : Tag} {n : Node} {b : M Node} (hb : Reg t cx L b fun _ => True) : Reg t cx L (guarded cx g n b) fun _ => True :=
  frame fun _ => ite (fun _ => pure trivial) fun _ => hb

theorem fresh {ig : Option IgnoreScope} {x : M α} (hx : Reg t cx L x P) : Reg t cx L (fresh ig x) fun _ => True := by
  intro st r s h
  unfold Visitor.fresh at h
  cases hxs : x { st with before := [], ignore := ig } with
  | error e => rw [hxs] at h; cases h
  | ok r =>
    obtain ⟨a1, st1⟩ := r
    rw [hxs] at h
    cases h
    exact ⟨trivial, (hx _ _ _ hxs).2⟩

theorem mark (sp : Span) : Reg t cx (at_ t .s sp) (mark cx sp) fun _ => True := last (newStatement sp) fun _ _ => pushBefore _

theorem mapList {f : Node → M Node} : ∀ {l : List Node}, (∀ c ∈ l, Reg t cx (places t c) (f c) fun _ => True) →
    Reg t cx (placesList t l) (M.mapList f l) fun _ => True
  | [], _ => pure trivial
  | a :: l, h => bind (h a (by simp)) fun _ _ => last (mapList fun c hc => h c (by simp [hc])) fun _ _ => pure trivial

theorem replaceWithStmtCounter (e : Node) : Reg t cx (at_ t .s e.span) (replaceWithStmtCounter cx e) fun r => ∃ c, r = wrapCounter c e :=
  last (newStatement e.span) fun _ _ => pure ⟨_, rfl⟩

theorem replaceWithBranchCounter (b : Nat) (e : Node) : Reg t cx L (replaceWithBranchCounter cx b e) fun r => ∃ c, r = wrapCounter c e :=
  pass (addPath b _) fun _ _ => pure ⟨_, rfl⟩

section
variable {go : Mode → Node → M Node} (hgo : ∀ m n, Orderly t n → Reg t cx (places t n) (go m n) fun _ => True)
include hgo

theorem insertStmt {s : Node} (hs : Orderly t s) : Reg t cx (places t s) (insertStmt cx go s) fun _ => True :=
  ite (fun _ => pure trivial) fun _ => frame fun _ => ite (fun _ => pure trivial) fun _ => last (fresh (hgo _ _ hs)) fun _ _ => pure trivial

theorem insertStmts : ∀ {ss : List Node}, Orderlies t ss → Reg t cx (placesList t ss) (insertStmts cx go ss) fun _ => True
  | [], _ => pure trivial
  | s :: ss, h => bind (insertStmt hgo (h s (by simp))) fun _ _ =>
    last (insertStmts fun n hn => h n (by simp [hn])) fun _ _ => pure trivial

theorem visitStmts {ss : List Node} (h : Orderlies t ss) : Reg t cx (placesList t ss) (visitStmts cx go ss) fun _ => True :=
  pass (push _) fun _ _ => last (insertStmts hgo h) fun _ _ => pass pop fun _ _ => pure trivial

theorem visitChildren (m : Mode) {n : Node} (hn : Orderlies t n.children) :
    Reg t cx (placesList t n.children) (visitChildren cx go m n) fun _ => True := by
  unfold Visitor.visitChildren
  split
  · exact last (visitStmts hgo hn) fun _ _ => pure trivial
  · exact bind (hgo _ _ (hn _ (by simp [children]))) fun _ _ => last (visitStmts hgo fun c hc => hn c (by simp [children, hc])) fun _ _ => pure trivial
  · exact last (mapList fun c hc => hgo _ _ (hn c hc)) fun _ _ => pure trivial

theorem logicalChildren (b : Nat) {n : Node} (hn : Orderlies t n.children) :
    Reg t cx (placesList t n.children) (logicalChildren go b n) fun _ => True := by
  cases n
  exact last (mapList fun c hc => hgo _ _ (hn c hc)) fun _ _ => pure trivial

theorem wrapBin (m : Mode) (b : Nat) {e : Node} (he : Orderly t e) : Reg t cx (places t e) (wrapBin cx go m b e) fun _ => True :=
  ite (fun _ => pure trivial) fun _ => ite (fun _ => last (fresh (hgo _ _ he)) fun _ _ => pure trivial) fun _ =>
    ite (fun _ => pass (addPath _ _) fun _ _ => pure trivial) fun _ =>
      last (hgo _ _ he) fun _ _ => last (P := fun _ => True) (addPath _ _) fun _ _ => pure trivial

/-- What becomes of a function. -/
def FnLike (t : Table) (fn fn' : Node) : Prop := places t fn' = places t fn ∧ Orderly t fn'

omit hgo in
theorem createFn (i : Option (Span × String)) {fn : Node} (h : Orderly t fn) :
    Reg t cx (at_ t .f ((i.map (·.1)).getD fn.span)) (createFn cx i fn) (FnLike t fn) := by
  unfold Visitor.createFn
  split
  · rename_i a sp params decorators body
    refine last (newFunction _ _ _) fun id _ => ?_
    have hb : Reg t cx [] (prependFn id body) fun b' => ∃ bsp ss, body = mk .block bsp ss ∧ b' = mk .block bsp (counterStmt (.f id) :: ss) := by
      unfold prependFn
      split
      · exact pure ⟨_, _, rfl, rfl⟩
      · exact panic _
    refine pass hb fun b' h' => pure ?_
    obtain ⟨bsp, ss, rfl, rfl⟩ := h'
    refine ⟨?_, ?_⟩
    · simp [places_function, places_block, placesList_cons, places_counterStmt]
    · have hc := (orderly_mk.1 h).2
      refine orderly_mk.2 ⟨rfl, Orderlies.cons (hc _ (by simp)) (Orderlies.cons (hc _ (by simp)) (Orderlies.one ?_))⟩
      exact orderly_mk.2 ⟨rfl, Orderlies.cons (orderly_counterStmt _) (orderly_mk.1 (hc (mk .block bsp ss) (by simp))).2⟩
  · exact pure ⟨rfl, h⟩

/-- What becomes of an initialiser. -/
def InitLike (t : Table) (e e' : Node) : Prop := places t e' = places t e ∧ Orderly t e'

omit hgo in
theorem InitLike.refl {e : Node} (h : Orderly t e) : InitLike t e e := ⟨rfl, h⟩

omit hgo in
theorem InitLike.wrapped {e e' : Node} (h : Orderly t e) (h' : ∃ c, e' = wrapCounter c e) : InitLike t e e' := by
  obtain ⟨c, rfl⟩ := h'
  exact ⟨places_wrapCounter c e, orderly_wrapCounter h⟩

omit hgo in
theorem imp {x : M α} {P' : α → Prop} (hx : Reg t cx L x P) (h : ∀ a, P a → P' a) : Reg t cx L x P' := fun st a s hs =>
  ⟨h a (hx st a s hs).1, (hx st a s hs).2⟩

omit hgo in
theorem coverHoisted {e : Node} (h : Orderly t e) : Reg t cx (at_ t .s e.span) (coverHoisted cx e) (InitLike t e) :=
  pass allNodes fun _ _ => ite (fun _ => last (keepIf trivial (mark _)) fun _ _ => pure (.refl h)) fun _ =>
    (replaceWithStmtCounter e).imp fun _ => .wrapped h

omit hgo in
theorem at_again (sp : Span) (t' : Table) : Follows (at_ t t' sp ++ at_ t t' sp) (at_ t t' sp) := by
  unfold at_
  split
  · simpa using Follows.again sp []
  · exact .nil _

omit hgo in
theorem coverStatement (m : Mode) {e : Node} (h : Orderly t e) (hk : e.kind ≠ .taggedTpl) :
    Reg t cx (at_ t .s e.span) (coverStatement cx go m e) (InitLike t e) := by
  refine ite (fun ht => absurd ht hk) fun _ => ite (fun _ => last (mark _) fun _ _ => pure (.refl h)) fun _ =>
    (bind (keepIf trivial (mark _)) fun _ _ => pass topNode fun _ _ => ite (fun _ => coverHoisted h) fun _ =>
      ite (fun _ => (replaceWithStmtCounter e).imp fun _ => .wrapped h) fun _ => pure (.refl h)).weak (at_again _ _)

theorem wrapArm (cur : Option IgnoreScope) (b : Nat) (r : Range) {s : Node} (h : Orderly t s) :
    Reg t cx (places t s) (wrapArm cx go cur b r s) fun _ => True := by
  unfold Visitor.wrapArm
  refine pass (addPath _ _) fun idx _ => ?_
  split
  · exact (last (insertStmts hgo (orderly_mk.1 h).2) fun _ _ => pure trivial).sub (places_children _ _ _)
  · exact last (fresh (hgo _ _ h)) fun _ _ => pure trivial

theorem visitArrow (a : String) (sp : Span) {params body : Node} (h : Orderly t body) :
    Reg t cx (places t (mk (.arrow a) sp [params, body])) (visitArrow cx go a sp params body) fun _ => True := by
  have hp : (places t body).Sublist (placesList t [params, body]) := by
    rw [placesList_cons, placesList_cons, placesList_nil, List.append_nil]
    exact List.sublist_append_right _ _
  unfold Visitor.visitArrow
  split
  · exact (bind (newFunction _ sp _) fun idx _ => last (insertStmts hgo (orderly_mk.1 h).2) fun _ _ => pure trivial).sub
      (List.Sublist.trans ((List.Sublist.refl _).append ((places_children _ _ _).trans hp)) (places_self fun h => by subst h; rfl))
  · rename_i hne
    have hret : ∀ idx, Reg t cx (places t (mk .returnStmt body.span [body]))
        (Visitor.insertStmts cx go [counterStmt (.f idx), mk .returnStmt body.span [body]]) fun _ => True := by
      intro idx
      refine (insertStmts hgo (Orderlies.cons (orderly_counterStmt (.f idx))
        (Orderlies.one ((orderly_mk (k := .returnStmt) (sp := body.span)).2 ⟨rfl, Orderlies.one h⟩)))).sub ?_
      rw [placesList_cons, placesList_cons, placesList_nil, places_counterStmt, List.append_nil, List.nil_append]
    have hk : body.kind ≠ .block := by
      intro hk
      obtain ⟨k, bsp, ss⟩ := body
      obtain rfl : k = .block := hk
      exact hne _ _ rfl
    refine (bind (Q := fun _ => True) (newFunction _ sp _) fun idx _ => last (hret idx) fun _ _ => pure trivial).sub ?_
    by_cases ht : t = .s
    · subst ht
      rw [at_ne (t := .s) (t' := .f) nofun, List.nil_append, places_mk, here_one (sp := body.span) rfl, places_mk,
        here_one (sp := body.span) (by simp [entries, hk]), placesList_cons, placesList_nil, List.append_nil]
      exact (List.Sublist.refl _).append hp
    · have h0 : places t (mk .returnStmt body.span [body]) = places t body := by
        rw [places_mk, placesList_cons, placesList_nil, List.append_nil]
        cases t
        · exact absurd rfl ht
        · rfl
        · rfl
      rw [h0]
      exact ((List.Sublist.refl _).append hp).trans (places_self fun h => by subst h; rfl)

omit hgo in
theorem places_blockify (s : Node) : places t (blockify s) = places t s := by
  unfold Visitor.blockify
  split
  · rfl
  · exact places_blockOf s

omit hgo in
theorem orderly_blockify {s : Node} (h : Orderly t s) : Orderly t (blockify s) := by
  unfold Visitor.blockify
  split
  · exact h
  · exact orderly_mk.2 ⟨rfl, Orderlies.one h⟩

omit hgo in
theorem places_blockifyLast : ∀ cs : List Node, placesList t (blockifyLast cs) = placesList t cs
  | [] => rfl
  | [a] => by rw [blockifyLast, placesList_cons, placesList_cons, places_blockify]
  | a :: b :: cs => by
    rw [blockifyLast, placesList_cons, placesList_cons, places_blockifyLast (b :: cs)]
    exact nofun

omit hgo in
theorem orderly_blockifyLast : ∀ {cs : List Node}, Orderlies t cs → Orderlies t (blockifyLast cs)
  | [], h => h
  | [a], h => Orderlies.one (orderly_blockify (h a (by simp)))
  | a :: b :: cs, h => Orderlies.cons (h a (by simp)) (orderly_blockifyLast fun n hn => h n (List.mem_cons_of_mem _ hn))

/-- What becomes of the body of an accessor. -/
def BodyLike (t : Table) (b b' : Node) : Prop := places t b' = places t b ∧ Orderly t b'

omit hgo in
theorem createAccessor (name : String) (sp : Span) {body : Node} (h : Orderly t body) :
    Reg t cx (at_ t .f sp) (createAccessor cx name sp body) (BodyLike t body) := by
  unfold Visitor.createAccessor
  split
  · rename_i bsp ss
    refine last (newFunction _ _ _) fun id _ => pure ⟨?_, ?_⟩
    · simp [places_block, placesList_cons, places_counterStmt]
    · exact orderly_mk.2 ⟨rfl, Orderlies.cons (orderly_counterStmt _) (orderly_mk.1 h).2⟩
  · exact pure ⟨rfl, h⟩

theorem visitAccessor (m : Mode) {k : Kind} {sp : Span} {key body : Node} {mid : List Node}
    (he : (mk k sp (key :: mid ++ [body])).entries .f = [if key.kind.prop?.isSome then key.span else sp])
    (hk : Orderly t key) (hm : Orderlies t mid) (hb : Orderly t body) :
    Reg t cx (places t (mk k sp (key :: mid ++ [body])))
      (visitAccessor cx go m (mk k sp (key :: mid ++ [body])) key body fun b => mk k sp (key :: mid ++ [b])) fun _ => True := by
  have hch : ∀ b', BodyLike t body b' → Reg t cx (placesList t (key :: mid ++ [body])) (Visitor.visitChildren cx go m (mk k sp (key :: mid ++ [b'])))
      fun _ => True := by
    intro b' h'
    have h1 : placesList t (key :: mid ++ [body]) = placesList t (key :: mid ++ [b']) := by
      unfold placesList
      rw [List.flatMap_append, List.flatMap_append]
      simp [h'.1]
    rw [h1]
    refine visitChildren hgo m (n := mk k sp (key :: mid ++ [b'])) ?_
    intro x hx
    rcases List.mem_append.1 hx with hx | hx
    · exact Orderlies.cons hk hm x hx
    · rw [List.mem_singleton.1 hx]
      exact h'.2
  have hn : key.kind.prop? = key.propName? := by
    obtain ⟨k, _, _⟩ := key
    cases k <;> rfl
  rw [hn] at he
  unfold Visitor.visitAccessor
  split
  · rename_i h1
    rw [h1] at he
    exact ite (fun _ => pure trivial) fun _ => (bind (createAccessor _ _ hb) hch).sub (places_self fun h => by subst h; exact he)
  · rename_i h1
    rw [h1] at he
    exact (bind (createAccessor _ _ hb) hch).sub (places_self fun h => by subst h; exact he)

theorem visitIf (m : Mode) (cur : Option IgnoreScope) (sp : Span) {test cons alt : Node} (h : Orderly t (mk .ifStmt sp [test, cons, alt])) :
    Reg t cx (places t (mk .ifStmt sp [test, cons, alt])) (visitIf cx go m cur sp test cons alt) fun _ => True := by
  obtain ⟨h1, h2⟩ := orderly_mk.1 h
  have ht : places t test = [] := places_inert h1
  refine (bind (mark sp) fun _ _ => bind (newBranch _ sp _) fun _ _ => bind (keepIf trivial (wrapArm hgo _ _ _ (h2 cons (by simp)))) fun _ _ =>
    bind (P := fun _ => True) (L' := places t test) (L := places t alt) (keepIf trivial ?_) fun _ _ => last (hgo _ _ (h2 test (by simp))) fun _ _ => pure trivial).sub ?_
  · split
    · exact (wrapArm hgo _ _ _ ((orderly_mk (k := .block) (sp := Span.dummy) (cs := [])).2 ⟨rfl, nofun⟩)).sub (by
        rw [places_inert (n := mk .block Span.dummy []) (by cases t <;> rfl)]
        exact List.nil_sublist _)
    · exact wrapArm hgo _ _ _ (h2 alt (by simp))
  · have h3 : ∀ t', (t = t' → (mk .ifStmt sp [test, cons, alt]).entries t = [sp]) →
        (at_ t t' sp ++ (places t cons ++ (places t alt ++ []))).Sublist (places t (mk .ifStmt sp [test, cons, alt])) := by
      intro t' hk
      have := places_self hk
      rw [placesList_cons, ht, placesList_cons, placesList_cons] at this
      exact this
    rw [ht]
    by_cases hs : t = .s
    · rw [at_ne (t' := .b) (by subst hs; nofun)]
      exact h3 .s (fun _ => by subst hs; rfl)
    · rw [at_ne (t' := .s) hs]
      exact h3 .b (fun h => by subst h; rfl)

theorem visitCond (m : Mode) (cur : Option IgnoreScope) (sp : Span) {test cons alt : Node} (h : Orderly t (mk .cond sp [test, cons, alt])) :
    Reg t cx (places t (mk .cond sp [test, cons, alt])) (visitCond cx go m cur sp test cons alt) fun _ => True := by
  obtain ⟨-, h2⟩ := orderly_mk.1 h
  have hc := h2 cons (by simp)
  have ha := h2 alt (by simp)
  refine (bind (P := fun r => InitLike t cons r.1 ∧ InitLike t alt r.2) (L := at_ t .b sp) (L' := placesList t [test, cons, alt])
    (keepIf ⟨.refl hc, .refl ha⟩ ?_) fun r hr => ?_).sub (places_self fun h => by subst h; rfl)
  · exact last (newBranch _ _ _) fun _ _ => pass (keepIf (.refl hc) ((replaceWithBranchCounter _ _).imp fun _ => .wrapped hc)) fun _ h1 =>
      pass (keepIf (.refl ha) ((replaceWithBranchCounter _ _).imp fun _ => .wrapped ha)) fun _ h2 => pure ⟨h1, h2⟩
  · refine (visitChildren hgo m (n := mk .cond sp [test, r.1, r.2])
      (Orderlies.cons (h2 test (by simp)) (Orderlies.cons hr.1.2 (Orderlies.one hr.2.2)))).sub ?_
    simp only [children, placesList_cons, hr.1.1, hr.2.1]
    exact .refl _

theorem visitBin (m : Mode) (branch? : Option Nat) {ch : Node → M Node}
    (hch : ∀ n, Orderlies t n.children → Reg t cx (placesList t n.children) (ch n) fun _ => True) (op : BinOp)
    (sp : Span) {l r : Node} (hl : Orderly t l) (hr : Orderly t r) :
    Reg t cx (places t (mk (.bin op) sp [l, r])) (visitBin cx go m branch? ch op sp l r) fun _ => True := by
  have hw : ∀ old : Option IgnoreScope, Reg t cx (places t (mk (.bin op) sp [l, r])) (do
      Visitor.push .binExpr
      let n ← ch (mk (.bin op) sp [l, r])
      Visitor.exit old
      Pure.pure n) fun _ => True := fun old =>
    pass (push _) fun _ _ => (last (hch (mk (.bin op) sp [l, r]) (Orderlies.cons hl (Orderlies.one hr))) fun _ _ =>
      pass (exit _) fun _ _ => pure trivial).sub (places_children _ _ _)
  refine pass (enterSpan _) fun x _ => ite (fun _ => hw _) fun _ => ite (fun ho => pass (push _) fun _ _ => ?_) fun _ => hw _
  refine (bind (P := fun _ => True) (L := at_ t .b sp) ?_ fun b _ => bind (wrapBin hgo _ _ hl) fun _ _ =>
    last (wrapBin hgo _ _ hr) fun _ _ => pure trivial).sub ?_
  · unfold logicalBranch
    split
    · exact pure trivial
    · exact newBranch _ _ _
  · have := places_self (t := t) (t' := .b) (k := .bin op) (sp := sp) (sp' := sp) (cs := [l, r]) (fun h => by subst h; simp [entries, Kind.branchType, ho])
    rw [placesList_cons, placesList_cons, placesList_nil, List.append_nil] at this
    exact this

theorem visitCase (b : Nat) (sp : Span) {test : Node} {cons : List Node} (h : Orderly t (mk .switchCase sp (test :: cons))) :
    Reg t cx (places t (mk .switchCase sp (test :: cons))) (visitCase cx go b sp test cons) fun _ => True :=
  (pass (addPath _ _) fun _ _ => bind (hgo _ _ ((orderly_mk.1 h).2 _ (by simp))) fun _ _ =>
    last (visitStmts hgo fun c hc => (orderly_mk.1 h).2 c (by simp [hc])) fun _ _ => pure trivial).sub (places_children _ _ (test :: cons))

theorem visitWithBody (cur : Option IgnoreScope) {body : Node} (h : Orderly t body) :
    Reg t cx (places t body) (visitWithBody cx go cur body) fun _ => True := by
  unfold Visitor.visitWithBody
  split
  · exact (last (insertStmts hgo (orderly_mk.1 h).2) fun _ _ => pure trivial).sub (places_children _ _ _)
  · exact last (fresh (hgo _ _ h)) fun _ _ => pure trivial

/-- Functions: first the entry of the function, then its parts. -/
theorem fnParts (m : Mode) {k : Kind} {sp : Span} {a fn : Node} {i : Option (Span × String)} 
    (hk : (mk k sp [a, fn]).entries .f = [(i.map (·.1)).getD fn.span] ∨ ∃ x, i = some (Span.dummy, x)) (ha : Orderly t a) (hf : Orderly t fn) :
    Reg t cx (places t (mk k sp [a, fn])) (do
      let fn ← Visitor.createFn cx i fn
      Visitor.visitChildren cx go m (mk k sp [a, fn])) fun _ => True := by
  refine (bind (L' := placesList t [a, fn]) (createFn i hf) fun fn' h' => (visitChildren hgo m (n := mk k sp [a, fn'])
    (Orderlies.cons ha (Orderlies.one h'.2))).sub (by simp only [children, placesList_cons, h'.1]; exact .refl _)).sub ?_
  rcases hk with hk | ⟨x, rfl⟩
  · exact places_self fun h => by subst h; exact hk
  · have : at_ t .f ((Option.map (·.1) (some (Span.dummy, x))).getD fn.span) = [] := by cases t <;> rfl
    rw [this]
    exact places_children _ _ _

/-- Initialisers. -/
theorem initParts {k : Kind} {sp : Span} {a e : Node} {r : List Node} (m : Mode) (hk : (mk k sp (a :: e :: r)).entries .s = [e.span])
    (ha : Orderly t a) (he : Orderly t e) (hr : Orderlies t r) (hd : e.kind ≠ .taggedTpl) :
    Reg t cx (places t (mk k sp (a :: e :: r))) (do
      let e ← Visitor.keepIf e.isNone e (Visitor.coverStatement cx go m e)
      Visitor.visitChildren cx go m (mk k sp (a :: e :: r))) fun _ => True :=
  (bind (L' := placesList t (a :: e :: r)) (L := at_ t .s e.span) (keepIf (.refl he) (coverStatement m he hd)) fun e' h' =>
    (visitChildren hgo m (n := mk k sp (a :: e' :: r)) (Orderlies.cons ha (Orderlies.cons h'.2 hr))).sub (by
      simp only [children, placesList_cons, h'.1]
      exact .refl _)).sub (places_self fun h => by subst h; exact hk)

omit hgo in
/-- A statement, then its parts. -/
theorem markParts {k : Kind} {x : M Node} {sp : Span} {cs : List Node} (hk : (mk k sp cs).entries .s = [sp])
    (hx : Reg t cx (placesList t cs) x fun _ => True) :
    Reg t cx (places t (mk k sp cs)) (Visitor.mark cx sp >>= fun _ => x) fun _ => True :=
  (bind (mark sp) fun _ _ => hx).sub (places_self fun h => by subst h; exact hk)

omit hgo in
theorem keepMarkParts {k : Kind} {x : M Node} {p : Prop} [Decidable p] {sp : Span} {cs : List Node} (hk : (mk k sp cs).entries .s = [sp])
    (hx : Reg t cx (placesList t cs) x fun _ => True) :
    Reg t cx (places t (mk k sp cs)) (Visitor.keepIf p () (Visitor.mark cx sp) >>= fun _ => x) fun _ => True :=
  (bind (keepIf trivial (mark sp)) fun _ _ => hx).sub (places_self fun h => by subst h; exact hk)

omit hgo in
theorem identName (a : Node) : a.kind.ident? = a.identName? := by
  obtain ⟨k, _, _⟩ := a
  cases k <;> rfl

theorem visitNode (m : Mode) {n : Node} (hn : Orderly t n) : Reg t cx (places t n) (visitNode cx go m n) fun _ => True := by
  have hcs : ∀ {k : Kind} {sp : Span} {cs : List Node}, Orderly t (mk k sp cs) → Orderlies t cs := fun h => (orderly_mk.1 h).2
  have hch : ∀ {m : Mode} {k : Kind} {sp : Span} {cs : List Node}, Orderly t (mk k sp cs) →
      Reg t cx (placesList t cs) (Visitor.visitChildren cx go m (mk k sp cs)) fun _ => True := fun {m k sp cs} h =>
    visitChildren hgo m (n := mk k sp cs) (hcs h)
  have hv : ∀ {m : Mode} {k : Kind} {sp : Span} {cs : List Node}, Orderly t (mk k sp cs) →
      Reg t cx (places t (mk k sp cs)) (Visitor.visitChildren cx go m (mk k sp cs)) fun _ => True := fun h => (hch h).sub (places_children _ _ _)
  have ho : ∀ {k : Kind} {sp : Span} {cs : List Node}, Orderly t (mk k sp cs) → (mk k sp cs).orderly t = true := fun h => (orderly_mk.1 h).1
  revert hn
  refine visitCases (p := fun n => Orderly t n → Reg t cx (places t n) (Visitor.visitNode cx go m n) fun _ => True)
    ?_ ?_ ?_ ?_ ?_ ?_ ?_ ?_ ?_ ?_ ?_ ?_ ?_ ?_ ?_ ?_ ?_ ?_ ?_ ?_ ?_ ?_ ?_ ?_ ?_ ?_ ?_ ?_ ?_ ?_ ?_ ?_ ?_ n
  · exact fun sp cs hn => guarded (hv hn)
  · intro sp a b hn
    refine guarded (fnParts hgo m (.inl ?_) (hcs hn a (by simp)) (hcs hn b (by simp)))
    show [if a.kind.ident?.isSome then a.span else b.span] = _
    rw [identName]
    cases a.identName? <;> rfl
  · exact fun x sp a b hn => guarded (visitArrow hgo x sp (hcs hn b (by simp)))
  · intro sp a b hn
    refine guarded (ite (fun _ => pure trivial) fun _ => fnParts hgo m (.inl ?_) (hcs hn a (by simp)) (hcs hn b (by simp)))
    show [if a.kind.ident?.isSome then a.span else b.span] = _
    rw [identName]
    cases a.identName? <;> rfl
  · intro sp a hn
    unfold Visitor.visitNode
    dsimp only
    refine frame fun cur => ?_
    exact ite (fun _ => pure trivial) fun _ => keepMarkParts rfl (hch hn)
  · intro sp cs hn
    unfold Visitor.visitNode
    dsimp only
    refine frame fun cur => ?_
    exact keepMarkParts rfl (hch hn)
  · intro sp a b c hn
    unfold Visitor.visitNode
    dsimp only
    refine frame fun cur => ?_
    exact visitCond hgo m cur sp hn
  · exact fun sp cs hn => guarded (markParts rfl (hch hn))
  · intro sp cs hn
    unfold Visitor.visitNode
    dsimp only
    refine frame fun cur => ?_
    exact keepMarkParts rfl (hch hn)
  · intro x sp cs hn
    unfold Visitor.visitNode
    dsimp only
    refine frame fun cur => ?_
    exact hv hn
  · exact fun sp cs hn => guarded (hv hn)
  · intro sp a b c hn
    exact guarded (initParts hgo m rfl (hcs hn a (by simp)) (hcs hn b (by simp)) (Orderlies.one (hcs hn c (by simp)))
      (by simpa [orderly] using ho hn))
  · intro sp a b c hn
    exact guarded (initParts hgo m rfl (hcs hn a (by simp)) (hcs hn b (by simp)) (Orderlies.one (hcs hn c (by simp)))
      (by simpa [orderly] using ho hn))
  · intro sp a b hn
    refine guarded ?_
    split
    · exact ite (fun _ => pure trivial) fun _ => fnParts hgo m (.inl rfl) (hcs hn a (by simp)) (hcs hn b (by simp))
    · exact pure trivial
  · intro sp a b hn
    refine guarded ?_
    split
    · exact ite (fun _ => pure trivial) fun _ => fnParts hgo m (.inl rfl) (hcs hn a (by simp)) (hcs hn b (by simp))
    · exact fnParts hgo m (.inr ⟨_, rfl⟩) (hcs hn a (by simp)) (hcs hn b (by simp))
  · exact fun sp a b hn => guarded (visitAccessor (mid := []) hgo m rfl (hcs hn a (by simp)) nofun (hcs hn b (by simp)))
  · exact fun sp a b c d hn => guarded (visitAccessor (mid := [b, c]) hgo m rfl (hcs hn a (by simp))
      (Orderlies.cons (hcs hn b (by simp)) (Orderlies.one (hcs hn c (by simp)))) (hcs hn d (by simp)))
  · intro sp a b hn
    exact guarded (initParts (r := []) hgo m rfl (hcs hn a (by simp)) (hcs hn b (by simp)) nofun
      (by simpa [orderly] using ho hn))
  · intro x sp cs hn
    refine guarded (markParts (k := .loop x) (sp := sp) rfl ?_)
    exact (visitChildren hgo m (n := mk (.loop x) sp (blockifyLast cs)) (orderly_blockifyLast (hcs hn))).sub (by
      rw [children, places_blockifyLast])
  · intro sp cs hn
    unfold Visitor.visitNode
    dsimp only
    refine frame fun cur => ?_
    exact keepMarkParts rfl (hch hn)
  · intro sp cs hn
    unfold Visitor.visitNode
    dsimp only
    refine frame fun cur => ?_
    exact keepMarkParts rfl (hch hn)
  · intro sp cs hn
    unfold Visitor.visitNode
    dsimp only
    refine frame fun cur => ?_
    refine ite (fun _ => pure trivial) fun _ => (bind (mark _) fun _ _ => bind (newBranch _ sp _) fun b _ =>
      last (fresh (hch hn)) fun _ _ => pure trivial).sub ?_
    by_cases hs : t = .s
    · rw [at_ne (t' := .b) (by subst hs; nofun)]
      exact places_self fun _ => by subst hs; rfl
    · rw [at_ne (t' := .s) hs]
      exact places_self fun h => by subst h; rfl
  · intro sp a b c hn
    unfold Visitor.visitNode
    dsimp only
    refine frame fun cur => ?_
    exact ite (fun _ => pure trivial) fun _ => visitIf hgo m cur sp hn
  · exact fun x sp a b hn => visitBin hgo m none (fun _ h => visitChildren hgo m h) x sp (hcs hn a (by simp)) (hcs hn b (by simp))
  · intro sp a b hn
    refine guarded ((bind (newBranch _ sp _) fun _ _ => last (wrapBin hgo _ _ (hcs hn b (by simp))) fun _ _ => pure trivial).sub ?_)
    refine List.Sublist.trans ((List.Sublist.refl _).append ?_) (places_self fun h => by subst h; rfl)
    rw [placesList_cons, placesList_cons, placesList_nil, List.append_nil]
    exact List.sublist_append_right _ _
  · exact fun sp cs hn => guarded (markParts rfl (hch hn))
  · exact fun sp cs hn => guarded (markParts rfl (hch hn))
  · intro sp a b hn
    unfold Visitor.visitNode
    dsimp only
    refine frame fun cur => ?_
    refine ite (fun _ => pure trivial) fun _ => markParts rfl ((last (visitWithBody hgo cur (hcs hn b (by simp))) fun _ _ => pure trivial).sub ?_)
    rw [placesList_cons, placesList_cons, placesList_nil, List.append_nil]
    exact List.sublist_append_right _ _
  · intro sp a cs hn
    unfold Visitor.visitNode
    simp only
    split
    · exact guarded (visitCase hgo _ _ hn)
    · exact hv hn
  · intro sp cs hn
    unfold Visitor.visitNode
    simp only
    split
    · exact guarded (hv hn)
    · exact hv hn
  · intro sp cs hn
    unfold Visitor.visitNode
    simp only
    split
    · exact guarded (hv hn)
    · exact hv hn
  · intro sp cs hn
    unfold Visitor.visitNode
    simp only
    split
    · exact guarded (hv hn)
    · exact hv hn
  · intro k sp cs hk hn
    rw [visitNode_default hk]
    exact hv hn

theorem step (m : Mode) {n : Node} (hn : Orderly t n) : Reg t cx (places t n) (step cx go m n) fun _ => True := by
  obtain ⟨k, sp, cs⟩ := n
  have hc := (orderly_mk.1 hn).2
  unfold Visitor.step
  split
  · exact ite (fun _ => frame fun _ => hgo _ _ hn) fun _ => (logicalChildren (n := mk k sp cs) hgo _ hc).sub (places_children _ _ _)
  · unfold visitLogicalInner
    split
    · rename_i heq
      cases heq
      exact visitBin hgo _ _ (fun _ h => logicalChildren hgo _ h) _ _ (hc _ (by simp)) (hc _ (by simp))
    · exact (logicalChildren (n := mk k sp cs) hgo _ hc).sub (places_children _ _ _)
  · exact visitNode hgo m hn

end

theorem visit : ∀ (fuel : Nat) (m : Mode) (n : Node), Orderly t n → Reg t cx (places t n) (visit cx fuel m n) fun _ => True
  | 0, _, _, _ => panic _
  | fuel + 1, m, _, hn => step (visit fuel) m hn

theorem withBefore {x : M Node} (hx : Reg t cx L x fun _ => True) : Reg t cx L (withBefore x) fun _ => True :=
  last hx fun _ _ => pass (P := fun _ => True) (quiet fun _ _ _ h => by cases h; exact ⟨rfl, trivial⟩) fun _ _ => pure trivial

theorem visitItem (fuel : Nat) {n : Node} (hn : Orderly t n) : Reg t cx (places t n) (visitItem cx fuel n) fun _ => True := by
  refine ite (fun _ => pure trivial) fun _ => frame fun _ => withBefore ?_
  unfold itemBody
  unfold Visitor.keepIf
  split
  · exact pass (P := fun _ => True) (pure trivial) fun _ _ => visit fuel _ _ hn
  · rename_i hx
    refine (bind (mark _) fun _ _ => visit fuel _ _ hn).weak ?_
    have hx : isExportConst n = true := by simpa using hx
    unfold isExportConst at hx
    split at hx
    · rename_i sp _ _ _ _
      by_cases ht : t = .s
      · subst ht
        rw [places_mk, here_one (sp := sp) rfl, at_self]
        exact .again _ _
      · rw [at_ne ht]
        exact .refl _
    · cases hx

theorem visitItems (fuel : Nat) : ∀ {ns : List Node}, Orderlies t ns → Reg t cx (placesList t ns) (visitItems cx fuel ns) fun _ => True
  | [], _ => pure trivial
  | n :: ns, h => bind (visitItem fuel (h n (by simp))) fun _ _ => last (visitItems fuel fun x hx => h x (by simp [hx])) fun _ _ => pure trivial

theorem visitScriptItems (fuel : Nat) : ∀ {ns : List Node}, Orderlies t ns → Reg t cx (placesList t ns) (visitScriptItems cx fuel ns) fun _ => True
  | [], _ => pure trivial
  | n :: ns, h => bind (withBefore (visit fuel _ _ (h n (by simp)))) fun _ _ =>
    last (visitScriptItems fuel fun x hx => h x (by simp [hx])) fun _ _ => pure trivial

end Reg

/-! ### The report -/

/-- The entries are in order. -/
def Sorted (t : Table) (c : FileCoverage) : Prop :=
  (c.shown t).Pairwise fun a b => a.1 < b.1 ∧ (a.2 ≠ Range.zero → b.2 ≠ Range.zero → a.2.start.NotAfter b.2.start)

theorem Sorted.inOrder {c : FileCoverage} (h : Sorted t c) : c.InOrder t := by
  intro e he e' he' hlt h1 h2
  obtain ⟨i, hi, rfl⟩ := List.mem_iff_getElem.1 he
  obtain ⟨j, hj, rfl⟩ := List.mem_iff_getElem.1 he'
  have hp := List.pairwise_iff_getElem.1 h
  rcases Nat.lt_trichotomy i j with hij | rfl | hij
  · exact (hp i j hi hj hij).2 h1 h2
  · exact absurd hlt (Nat.lt_irrefl _)
  · exact absurd (Nat.lt_trans hlt (hp j i hj hi hij).1) (Nat.lt_irrefl _)

theorem freezeLoop_sub : ∀ (m : List (Nat × Branch)) (b : BranchHitMap) (bT : Option BranchHitMap),
    (SourceCoverage.freezeLoop m b bT).1.Sublist m
  | [], _, _ => .refl _
  | (k, br) :: rest, b, bT => by
    unfold SourceCoverage.freezeLoop
    split
    · exact (freezeLoop_sub rest _ _).cons _
    · exact (freezeLoop_sub rest _ _).cons_cons _

theorem shown_freeze (c : SourceCoverage) : (c.freeze.inner.shown t).Sublist (c.inner.shown t) := by
  cases t with
  | s => exact .refl _
  | f => exact .refl _
  | b => exact (freezeLoop_sub _ _ _).map _

theorem Reg.sorted {α : Type} {cx : Ctx} {n : Node} {x : M α} {P : α → Prop} {st s : St} {a : α} {L : List Nat} (hx : Reg t cx L x P)
    (hL : Follows L (n.starts t)) (h : x st = .ok (a, s)) (h0 : st.cov.inner.shown t = [])
    (hpos : ∀ a b, a ≤ b → (cx.pos a).NotAfter (cx.pos b)) (hw : n.AsWritten t) : Sorted t s.cov.inner := by
  obtain ⟨hc, R, hr, hf⟩ := (hx st a s h).2 ⟨by rw [h0]; exact .nil, by rw [h0]; nofun⟩
  have h1 := (hf.trans hL).2 hw
  rw [List.pairwise_filter, List.pairwise_map] at h1
  have h2 : (rows t s.cov).Pairwise fun a b => a ≠ Range.zero → b ≠ Range.zero → a.start.NotAfter b.start := by
    rw [hr]
    unfold rows
    rw [h0, List.map_nil, List.nil_append, List.pairwise_map]
    refine h1.imp fun {x y} hxy ha hb => ?_
    unfold Ctx.range at ha hb ⊢
    split at ha
    · exact absurd rfl ha
    · split at hb
      · exact absurd rfl hb
      · rename_i g1 g2
        rw [if_neg g1, if_neg g2]
        exact hpos _ _ (hxy (by simpa using fun h => g1 (.inr h)) (by simpa using fun h => g2 (.inr h)))
  unfold rows at h2
  rw [List.pairwise_map] at h2
  exact List.Pairwise.and hc.1 h2

theorem instrument_sorted {cx : Ctx} {fuel : Nat} {path : String} {sm : Option SourceMap} {p p' : Node} {cov : SourceCoverage}
    (hpos : ∀ a b, a ≤ b → (cx.pos a).NotAfter (cx.pos b)) (hw : p.AsWritten t) (ho : Orderly t p)
    (hr : Visitor.instrument cx fuel path sm p = .ok (p', cov)) : Sorted t cov.inner := by
  have hnil : ∀ st : St, st.cov.inner.shown t = [] → Sorted t st.cov.inner := by
    intro st h
    unfold Sorted
    rw [h]
    exact .nil
  have h0 : (Visitor.initial cx path sm).cov.inner.shown t = [] := by cases t <;> rfl
  unfold Visitor.instrument at hr
  split at hr
  · cases hr
  · rename_i n st h
    cases hr
    unfold Visitor.visitProgram at h
    obtain ⟨_, s1, h1, h2⟩ := M.bind_ok h
    cases h1
    split at h2
    · cases h2
      exact hnil _ h0
    · obtain ⟨q, s2, h3, h4⟩ := M.bind_ok h2
      obtain ⟨_, s3, h5, h6⟩ := M.bind_ok h4
      cases h5
      cases h6
      unfold Visitor.programBody at h3
      split at h3
      · rename_i sp items _
        obtain ⟨items', s4, h7, h8⟩ := M.bind_ok h3
        cases h8
        obtain ⟨r, s5, g1, g2⟩ := M.bind_ok h7
        obtain ⟨is, s6, g3, g4⟩ := M.bind_ok g2
        obtain ⟨⟨d, c⟩, s7, g5, g6⟩ := M.bind_ok g4
        cases g5
        have hs5 : s5.cov.inner.shown t = [] := by
          unfold Visitor.ensureRoot at g1
          split at g1 <;> (cases g1; exact h0)
        have hs := (Reg.visitItems fuel (orderly_mk.1 ho).2).sorted (n := mk .module sp items)
          (.sub (places_children _ _ _)) g3 hs5 hpos hw
        obtain ⟨_, s8, g7, g8⟩ := M.bind_ok g6
        cases g8
        have hs8 : s2.cov = s6.cov.freeze := by
          unfold Visitor.keepIf at g7
          split at g7 <;> (cases g7; rfl)
        show Sorted t s2.cov.inner
        rw [hs8]
        exact hs.sublist (shown_freeze _)
      · rename_i sp items _
        obtain ⟨items', s4, h7, h8⟩ := M.bind_ok h3
        cases h8
        obtain ⟨is, s6, g3, g4⟩ := M.bind_ok h7
        obtain ⟨⟨d, c⟩, s7, g5, g6⟩ := M.bind_ok g4
        cases g5
        cases g6
        have hs := (Reg.visitScriptItems fuel (orderly_mk.1 ho).2).sorted (n := mk .script sp items)
          (.sub (places_children _ _ _)) g3 h0 hpos hw
        exact hs.sublist (shown_freeze _)
      · cases h3
        exact hnil _ h0

end Sequence
end Verif
