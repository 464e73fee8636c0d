import Verif.Lemmas.LockstepStep
import Verif.Model.Program
import Verif.Lemmas.FollowRun
import Verif.Lemmas.FollowSteps
/-
The code between the assignment and the use of a temporary is not itself instrumented, unless something is visited twice.
-/
namespace Verif
open Node

/-- Temporaries, and (with truthiness counters) tagged templates: they are visited twice as initialisers. -/
def Kind.spoils (rl : Bool) : Kind → Bool
  | .temp _ => true
  | .taggedTpl => rl
  | _ => false

/-- Nothing of the kind is in the tree. -/
def Node.Raw (rl : Bool) (n : Node) : Prop := n.any (Kind.spoils rl) = false

/-- Temporaries are only in truthiness wrappers as they are made. -/
inductive Node.Trim (rl : Bool) : Node → Prop
  | node {k : Kind} {sp : Span} {cs : List Node} : k.spoils false = false → (∀ c ∈ cs, Trim rl c) → Trim rl (mk k sp cs)
  | truth {b a : Nat} {e : Node} : rl = true → Trim rl e → Trim rl (wrapTruth b a e)

namespace Node
variable {rl : Bool}

theorem spoils_false {k : Kind} (h : k.spoils rl = false) : k.spoils false = false := by
  cases k <;> first | rfl | exact h

theorem raw_mk {k : Kind} {sp : Span} {cs : List Node} : Raw rl (mk k sp cs) ↔ k.spoils rl = false ∧ ∀ c ∈ cs, Raw rl c := by
  unfold Raw
  rw [any_mk, Bool.or_eq_false_iff, List.any_eq_false]
  simp

theorem raw_one {k : Kind} {sp : Span} {a : Node} (hk : k.spoils rl = false) (ha : Raw rl a) : Raw rl (mk k sp [a]) :=
  raw_mk.2 ⟨hk, by simpa using ha⟩

theorem raw_two {k : Kind} {sp : Span} {a b : Node} (hk : k.spoils rl = false) (ha : Raw rl a) (hb : Raw rl b) : Raw rl (mk k sp [a, b]) :=
  raw_mk.2 ⟨hk, by simp [ha, hb]⟩

theorem raw_three {k : Kind} {sp : Span} {a b c : Node} (hk : k.spoils rl = false) (ha : Raw rl a) (hb : Raw rl b) (hc : Raw rl c) :
    Raw rl (mk k sp [a, b, c]) :=
  raw_mk.2 ⟨hk, by simp [ha, hb, hc]⟩

theorem raw_counterStmt (c : Counter) : Raw rl (counterStmt c) := rfl

theorem raw_wrapCounter {c : Counter} {e : Node} (h : Raw rl e) : Raw rl (wrapCounter c e) := raw_one rfl (raw_two rfl rfl h)

theorem Raw.trim {n : Node} (h : Raw rl n) : Trim rl n := by
  induction n using Node.ind with
  | h k sp cs ih => exact .node (spoils_false (raw_mk.1 h).1) fun c hc => ih c hc ((raw_mk.1 h).2 c hc)

theorem Trim.raw {n : Node} (h : Trim false n) : Raw false n := by
  induction h with
  | node hk _ ih => exact raw_mk.2 ⟨hk, ih⟩
  | truth h => cases h

theorem trim_two {k : Kind} {sp : Span} {a b : Node} (hk : k.spoils false = false) (ha : Trim rl a) (hb : Trim rl b) : Trim rl (mk k sp [a, b]) :=
  .node hk (by simp [ha, hb])

theorem trim_three {k : Kind} {sp : Span} {a b c : Node} (hk : k.spoils false = false) (ha : Trim rl a) (hb : Trim rl b) (hc : Trim rl c) :
    Trim rl (mk k sp [a, b, c]) :=
  .node hk (by simp [ha, hb, hc])

theorem trim_counterStmt (c : Counter) : Trim rl (counterStmt c) := (raw_counterStmt c).trim

theorem trim_wrapCounter {c : Counter} {e : Node} (h : Trim rl e) : Trim rl (wrapCounter c e) :=
  .node rfl (by
    intro x hx
    rw [List.mem_singleton.1 hx]
    exact trim_two rfl (Raw.trim (rl := rl) rfl) h)

end Node

namespace Visitor

/-- The result has the property, and pending statements stay as they should be. -/
def Yields (rl : Bool) (x : M α) (P : α → Prop) : Prop :=
  ∀ st a s, x st = .ok (a, s) → (∀ b ∈ st.before, Trim rl b) → P a ∧ ∀ b ∈ s.before, Trim rl b

/-- Lists of such trees. -/
abbrev Raws (rl : Bool) (l : List Node) : Prop := ∀ n ∈ l, Raw rl n

/-- Lists of such trees. -/
abbrev Trims (rl : Bool) (l : List Node) : Prop := ∀ n ∈ l, Trim rl n

section
variable {rl : Bool}

theorem Raws.cons {a : Node} {b : List Node} (ha : Raw rl a) (hb : Raws rl b) : Raws rl (a :: b) := fun n hn => by
  rcases List.mem_cons.1 hn with rfl | hn
  · exact ha
  · exact hb n hn

theorem Raws.one {a : Node} (ha : Raw rl a) : Raws rl [a] := fun n hn => by
  rw [List.mem_singleton.1 hn]
  exact ha

theorem Raws.trims {l : List Node} (h : Raws rl l) : Trims rl l := fun n hn => (h n hn).trim

theorem Trims.append {a b : List Node} (ha : Trims rl a) (hb : Trims rl b) : Trims rl (a ++ b) := fun n hn =>
  (List.mem_append.1 hn).elim (ha n) (hb n)

theorem Trims.cons {a : Node} {b : List Node} (ha : Trim rl a) (hb : Trims rl b) : Trims rl (a :: b) := fun n hn => by
  rcases List.mem_cons.1 hn with rfl | hn
  · exact ha
  · exact hb n hn

theorem Trims.one {a : Node} (ha : Trim rl a) : Trims rl [a] := fun n hn => by
  rw [List.mem_singleton.1 hn]
  exact ha

end

namespace Yields
variable {rl : Bool} {α β : Type} {P : α → Prop} {Q : β → Prop} {cx : Ctx}

theorem pure {a : α} (h : P a) : Yields rl (Pure.pure a) P := by
  intro st b s h' hb
  cases h'
  exact ⟨h, hb⟩

theorem bind {x : M α} {f : α → M β} (hx : Yields rl x P) (hf : ∀ a, P a → Yields rl (f a) Q) : Yields rl (x >>= f) Q := by
  intro st b s h hb
  obtain ⟨a, s1, h1, h2⟩ := M.bind_ok h
  obtain ⟨h3, h4⟩ := hx st a s1 h1 hb
  exact hf a h3 s1 b s h2 h4

theorem imp {x : M α} {P' : α → Prop} (hx : Yields rl x P) (h : ∀ a, P a → P' a) : Yields rl x P' := fun st a s hs hb =>
  ⟨h a (hx st a s hs hb).1, (hx st a s hs hb).2⟩

theorem ite {p : Prop} [Decidable p] {x x' : M α} (hx : p → Yields rl x P) (hy : ¬p → Yields rl x' P) :
    Yields rl (if p then x else x') P := by
  split
  · exact hx ‹_›
  · exact hy ‹_›

theorem keepIf {p : Prop} [Decidable p] {a : α} {x : M α} (ha : P a) (hx : Yields rl x P) : Yields rl (keepIf p a x) P :=
  ite (fun _ => pure ha) fun _ => hx

/-- Computations that leave the pending statements alone. -/
theorem quiet {x : M α} (h : ∀ st a s, x st = .ok (a, s) → s.before = st.before ∧ P a) : Yields rl x P := fun st a s hs hb =>
  ⟨(h st a s hs).2, fun b hb' => hb b ((h st a s hs).1 ▸ hb')⟩

theorem push (t : Tag) : Yields rl (push t) fun _ => True := quiet fun _ _ _ h => by cases h; exact ⟨rfl, trivial⟩
theorem pop : Yields rl pop fun _ => True := quiet fun _ _ _ h => by cases h; exact ⟨rfl, trivial⟩
theorem exit (old : Option IgnoreScope) : Yields rl (exit old) fun _ => True :=
  quiet fun _ _ _ h => by cases h; exact ⟨rfl, trivial⟩
theorem enterSpan (sp : Span) : Yields rl (enterSpan cx sp) fun _ => True :=
  quiet fun st a s h => by
    unfold Visitor.enterSpan at h
    split at h <;> (cases h; exact ⟨rfl, trivial⟩)
theorem newStatement (r : Range) : Yields rl (newStatement r) fun _ => True :=
  quiet fun _ _ _ h => by cases h; exact ⟨rfl, trivial⟩
theorem newFunction (n : Option String) (d l : Range) : Yields rl (newFunction n d l) fun _ => True :=
  quiet fun _ _ _ h => by cases h; exact ⟨rfl, trivial⟩
theorem newBranch (t : BranchType) (r : Range) (l : Bool) : Yields rl (newBranch t r l) fun _ => True :=
  quiet fun _ _ _ h => by cases h; exact ⟨rfl, trivial⟩
theorem addPath (b : Nat) (r : Range) : Yields rl (addPath b r) fun _ => True :=
  quiet fun _ _ _ h => by
    unfold Visitor.addPath at h
    split at h <;> cases h
    exact ⟨rfl, trivial⟩
theorem topNode : Yields rl topNode fun _ => True :=
  quiet fun _ _ _ h => by
    unfold Visitor.topNode at h
    split at h <;> cases h
    exact ⟨rfl, trivial⟩
theorem allNodes : Yields rl allNodes fun _ => True := quiet fun _ _ _ h => by cases h; exact ⟨rfl, trivial⟩

theorem panic (e : Panic) : Yields rl (M.panic e : M α) P := fun _ _ _ h => by cases h

theorem frame {t : Tag} {sp : Span} {b : Option IgnoreScope → M α} (hb : ∀ cur, Yields rl (b cur) P) :
    Yields rl (frame cx t sp b) P :=
  bind (bind (push t) fun _ _ => enterSpan sp) fun r _ => bind (hb r.2) fun _ h => bind (exit r.1) fun _ _ => pure h

theorem guarded {t : Tag} {n : Node} {b : M Node} (hn : Raw rl n) (hb : Yields rl b (Trim rl)) :
    Yields rl (guarded cx t n b) (Trim rl) :=
  frame fun _ => ite (fun _ => pure hn.trim) fun _ => hb

theorem fresh {ig : Option IgnoreScope} {x : M α} (hx : Yields rl x P) :
    Yields rl (fresh ig x) fun r => P r.1 ∧ Trims rl r.2 := by
  intro st r s h hb
  unfold Visitor.fresh at h
  cases hxs : x { st with before := [], ignore := ig } with
  | error e => rw [hxs] at h; cases h
  | ok r =>
    obtain ⟨a1, st1⟩ := r
    rw [hxs] at h
    cases h
    exact ⟨hx _ _ _ hxs nofun, hb⟩

theorem pushBefore {n : Node} (h : Trim rl n) : Yields rl (pushBefore n) fun _ => True := by
  intro st a s hs hb
  cases hs
  exact ⟨trivial, Trims.append hb (Trims.one h)⟩

theorem mark (sp : Span) : Yields rl (mark cx sp) fun _ => True :=
  bind (newStatement _) fun _ _ => pushBefore (trim_counterStmt _)

theorem mapList {f : Node → M Node} {l : List Node} (h : ∀ c ∈ l, Yields rl (f c) (Trim rl)) : Yields rl (M.mapList f l) (Trims rl) := by
  induction l with
  | nil => exact pure nofun
  | cons a l ih =>
    exact bind (h a (by simp)) fun _ h1 => bind (ih fun c hc => h c (by simp [hc])) fun _ h2 => pure (Trims.cons h1 h2)

theorem replaceWithStmtCounter {e : Node} (h : Raw rl e) : Yields rl (replaceWithStmtCounter cx e) (Raw rl) :=
  bind (newStatement _) fun _ _ => pure (raw_wrapCounter h)

theorem replaceWithBranchCounter (b : Nat) {e : Node} (h : Raw rl e) : Yields rl (replaceWithBranchCounter cx b e) (Raw rl) :=
  bind (addPath _ _) fun _ _ => pure (raw_wrapCounter h)

theorem replaceWithBranchCounter' (b : Nat) {e : Node} (h : Trim rl e) : Yields rl (Visitor.replaceWithBranchCounter cx b e) (Trim rl) :=
  bind (addPath _ _) fun _ _ => pure (trim_wrapCounter h)

section
variable {go : Mode → Node → M Node} (hrl : cx.reportLogic = rl) (hgo : ∀ m n, Raw rl n → Yields rl (go m n) (Trim rl))
include hgo

theorem insertStmt {s : Node} (hs : Raw rl s) : Yields rl (insertStmt cx go s) (Trims rl) :=
  ite (fun _ => pure (Trims.one hs.trim)) fun _ => frame fun _ => ite (fun _ => pure (Trims.one hs.trim)) fun _ =>
    bind (fresh (hgo _ _ hs)) fun _ h => pure (h.2.append (Trims.one h.1))

theorem insertStmts : ∀ {ss : List Node}, Raws rl ss → Yields rl (insertStmts cx go ss) (Trims rl)
  | [], _ => pure nofun
  | s :: ss, h => bind (insertStmt hgo (h s (by simp))) fun _ h1 =>
    bind (insertStmts fun n hn => h n (by simp [hn])) fun _ h2 => pure (h1.append h2)

theorem visitStmts {ss : List Node} (h : Raws rl ss) : Yields rl (visitStmts cx go ss) (Trims rl) :=
  bind (push _) fun _ _ => bind (insertStmts hgo h) fun _ h => bind pop fun _ _ => pure h

theorem visitChildren (m : Mode) {n : Node} (hn : Raw rl n) : Yields rl (visitChildren cx go m n) (Trim rl) := by
  unfold Visitor.visitChildren
  split
  · exact bind (visitStmts hgo (raw_mk.1 hn).2) fun _ h => pure (.node rfl h)
  · have := (raw_mk.1 hn).2
    exact bind (hgo _ _ (this _ (by simp))) fun _ h1 => bind (visitStmts hgo fun c hc => this c (by simp [hc])) fun _ h2 =>
      pure (.node rfl (Trims.cons h1 h2))
  · exact bind (mapList fun c hc => hgo _ _ ((raw_mk.1 hn).2 c hc)) fun _ h => pure (.node (spoils_false (raw_mk.1 hn).1) h)

theorem logicalChildren (b : Nat) {n : Node} (hn : Raw rl n) : Yields rl (logicalChildren go b n) (Trim rl) := by
  cases n
  exact bind (mapList fun c hc => hgo _ _ ((raw_mk.1 hn).2 c hc)) fun _ h => pure (.node (spoils_false (raw_mk.1 hn).1) h)

include hrl in
theorem wrapBin (m : Mode) (b : Nat) {e : Node} (he : Raw rl e) : Yields rl (wrapBin cx go m b e) (Trim rl) :=
  ite (fun _ => pure he.trim) fun _ => ite (fun _ => bind (fresh (hgo _ _ he)) fun _ h => pure h.1) fun _ =>
    ite (fun hl => bind (addPath _ _) fun _ _ => pure (.truth (hrl.symm.trans hl) he.trim)) fun _ =>
      bind (hgo _ _ he) fun _ h => replaceWithBranchCounter' b h

omit hgo in
theorem createFn (i : Option (Span × String)) {fn : Node} (h : Raw rl fn) : Yields rl (createFn cx i fn) (Raw rl) := by
  unfold Visitor.createFn
  split
  · rename_i a sp params decorators body
    have hc := (raw_mk.1 h).2
    refine bind (newFunction _ _ _) fun id _ => bind (P := Raw rl) ?_ fun b hb => pure (raw_three rfl (hc _ (by simp)) (hc _ (by simp)) hb)
    have hb := hc body (by simp)
    unfold prependFn
    split
    · exact pure (raw_mk.2 ⟨rfl, Raws.cons (raw_counterStmt _) (raw_mk.1 hb).2⟩)
    · exact panic _
  · exact pure h

omit hgo in
theorem coverHoisted {e : Node} (h : Raw rl e) : Yields rl (coverHoisted cx e) (Raw rl) :=
  bind allNodes fun _ _ => ite (fun _ => bind (keepIf trivial (mark _)) fun _ _ => pure h) fun _ => replaceWithStmtCounter h

theorem coverStatement (m : Mode) {e : Node} (h : Raw rl e) : Yields rl (coverStatement cx go m e) (Raw rl) := by
  refine ite (fun ht => ?_) fun _ => ite (fun _ => bind (mark _) fun _ _ => pure h) fun _ =>
    bind (keepIf trivial (mark _)) fun _ _ => bind topNode fun _ _ => ite (fun _ => coverHoisted h) fun _ =>
      ite (fun _ => replaceWithStmtCounter h) fun _ => pure h
  have hf : rl = false := by
    obtain ⟨k, sp, cs⟩ := e
    have hk : k = .taggedTpl := ht
    subst hk
    exact (raw_mk.1 h).1
  subst hf
  exact bind (mark _) fun _ _ => (hgo _ _ h).imp fun _ => Trim.raw

theorem wrapArm (cur : Option IgnoreScope) (b : Nat) (r : Range) {s : Node} (h : Raw rl s) :
    Yields rl (wrapArm cx go cur b r s) (Trim rl) := by
  unfold Visitor.wrapArm
  refine bind (addPath _ _) fun idx _ => ?_
  split
  · exact bind (insertStmts hgo (raw_mk.1 h).2) fun _ h => pure (.node rfl (Trims.cons (trim_counterStmt _) h))
  · exact bind (fresh (hgo _ _ h)) fun _ h => pure (.node rfl (Trims.cons (trim_counterStmt _) (h.2.append (Trims.one h.1))))

theorem visitArrow (a : String) (sp : Span) {params body : Node} (hp : Raw rl params) (h : Raw rl body) :
    Yields rl (visitArrow cx go a sp params body) (Trim rl) := by
  unfold Visitor.visitArrow
  refine bind (newFunction _ _ _) fun idx _ => ?_
  split
  · exact bind (insertStmts hgo (raw_mk.1 h).2) fun _ h =>
      pure (trim_two rfl hp.trim (.node rfl (Trims.cons (trim_counterStmt _) h)))
  · exact bind (insertStmts hgo (Raws.cons (raw_counterStmt _) (Raws.one (raw_one rfl h)))) fun _ h =>
      pure (trim_two rfl hp.trim (.node rfl h))

omit hgo in
theorem blockify {s : Node} (h : Raw rl s) : Raw rl (blockify s) := by
  unfold Visitor.blockify
  split
  · exact h
  · exact raw_one rfl h

omit hgo in
theorem blockifyLast : ∀ {cs : List Node}, Raws rl cs → Raws rl (blockifyLast cs)
  | [], h => h
  | [a], h => Raws.one (blockify (h a (by simp)))
  | a :: b :: cs, h => Raws.cons (h a (by simp)) (blockifyLast fun n hn => h n (List.mem_cons_of_mem _ hn))

omit hgo in
theorem createAccessor (name : String) (sp : Span) {body : Node} (h : Raw rl body) :
    Yields rl (createAccessor cx name sp body) (Raw rl) := by
  unfold Visitor.createAccessor
  split
  · exact bind (newFunction _ _ _) fun _ _ => pure (raw_mk.2 ⟨rfl, Raws.cons (raw_counterStmt _) (raw_mk.1 h).2⟩)
  · exact pure h

theorem visitAccessor (m : Mode) {n key body : Node} {rebuild : Node → Node} (hn : Raw rl n) (hb : Raw rl body)
    (hr : ∀ b, Raw rl b → Raw rl (rebuild b)) :
    Yields rl (visitAccessor cx go m n key body rebuild) (Trim rl) := by
  unfold Visitor.visitAccessor
  split
  · exact ite (fun _ => pure hn.trim) fun _ => bind (createAccessor _ _ hb) fun _ h => visitChildren hgo m (hr _ h)
  · exact bind (createAccessor _ _ hb) fun _ h => visitChildren hgo m (hr _ h)

theorem visitIf (m : Mode) (cur : Option IgnoreScope) (sp : Span) {test cons alt : Node} (ht : Raw rl test) (hc : Raw rl cons) (ha : Raw rl alt) :
    Yields rl (visitIf cx go m cur sp test cons alt) (Trim rl) :=
  bind (mark _) fun _ _ => bind (newBranch _ _ _) fun _ _ => bind (keepIf hc.trim (wrapArm hgo _ _ _ hc)) fun _ h1 =>
    bind (keepIf ha.trim (wrapArm hgo _ _ _ (by split; exacts [rfl, ha]))) fun _ h2 => bind (hgo _ _ ht) fun _ h3 =>
      pure (trim_three rfl h3 h1 h2)

theorem visitCond (m : Mode) (cur : Option IgnoreScope) (sp : Span) {test cons alt : Node} (ht : Raw rl test) (hc : Raw rl cons)
    (ha : Raw rl alt) : Yields rl (visitCond cx go m cur sp test cons alt) (Trim rl) := by
  refine bind (P := fun r => Raw rl r.1 ∧ Raw rl r.2) (keepIf ⟨hc, ha⟩ ?_) fun r h => visitChildren hgo m (raw_three rfl ht h.1 h.2)
  exact bind (newBranch _ _ _) fun _ _ => bind (keepIf hc (replaceWithBranchCounter _ hc)) fun _ h1 =>
    bind (keepIf ha (replaceWithBranchCounter _ ha)) fun _ h2 => pure ⟨h1, h2⟩

include hrl in
theorem visitBin (m : Mode) (branch? : Option Nat) {ch : Node → M Node} (hch : ∀ n, Raw rl n → Yields rl (ch n) (Trim rl)) (op : BinOp)
    (sp : Span) {l r : Node} (hl : Raw rl l) (hr : Raw rl r) :
    Yields rl (visitBin cx go m branch? ch op sp l r) (Trim rl) := by
  have hw : ∀ old : Option IgnoreScope, Yields rl (do
      Visitor.push .binExpr
      let n ← ch (mk (.bin op) sp [l, r])
      Visitor.exit old
      Pure.pure n) (Trim rl) := fun old =>
    bind (push _) fun _ _ => bind (hch _ (raw_two rfl hl hr)) fun _ h => bind (exit _) fun _ _ => pure h
  refine bind (enterSpan _) fun x _ => ite (fun _ => hw _) fun _ => ite (fun _ => bind (push _) fun _ _ => bind (P := fun _ => True) ?_ fun b _ =>
    bind (wrapBin hrl hgo _ _ hl) fun _ h1 => bind (wrapBin hrl hgo _ _ hr) fun _ h2 => pure (trim_two rfl h1 h2)) fun _ => hw _
  unfold logicalBranch
  split
  · exact pure trivial
  · exact newBranch _ _ _

theorem visitCase (b : Nat) (sp : Span) {test : Node} {cons : List Node} (ht : Raw rl test) (hc : Raws rl cons) :
    Yields rl (visitCase cx go b sp test cons) (Trim rl) :=
  bind (addPath _ _) fun _ _ => bind (hgo _ _ ht) fun _ h1 => bind (visitStmts hgo hc) fun _ h2 =>
    pure (.node rfl (Trims.cons h1 (Trims.cons (trim_counterStmt _) h2)))

theorem visitWithBody (cur : Option IgnoreScope) {body : Node} (h : Raw rl body) :
    Yields rl (visitWithBody cx go cur body) (Trim rl) := by
  unfold Visitor.visitWithBody
  split
  · exact bind (insertStmts hgo (raw_mk.1 h).2) fun _ h => pure (.node rfl h)
  · exact bind (fresh (hgo _ _ h)) fun _ h => pure (.node rfl (h.2.append (Trims.one h.1)))

include hrl in
theorem visitNode (m : Mode) {n : Node} (hn : Raw rl n) : Yields rl (visitNode cx go m n) (Trim rl) := by
  have hv := visitChildren (cx := cx) hgo m hn
  have hcs : ∀ {k : Kind} {sp : Span} {cs : List Node}, Raw rl (mk k sp cs) → Raws rl cs := fun h => (raw_mk.1 h).2
  revert hn
  refine visitCases (p := fun n => Raw rl n → Yields rl (Visitor.visitChildren cx go m n) (Trim rl) →
    Yields rl (Visitor.visitNode cx go m n) (Trim rl))
    ?_ ?_ ?_ ?_ ?_ ?_ ?_ ?_ ?_ ?_ ?_ ?_ ?_ ?_ ?_ ?_ ?_ ?_ ?_ ?_ ?_ ?_ ?_ ?_ ?_ ?_ ?_ ?_ ?_ ?_ ?_ ?_ ?_ n |> fun h hn => h hn hv
  · exact fun sp cs hn hv => guarded hn hv
  · exact fun sp a b hn hv => guarded hn (bind (createFn _ (hcs hn b (by simp))) fun _ h => visitChildren hgo m (raw_two rfl (hcs hn a (by simp)) h))
  · exact fun x sp a b hn hv => guarded hn (visitArrow hgo x sp (hcs hn a (by simp)) (hcs hn b (by simp)))
  · exact fun sp a b hn hv => guarded hn (ite (fun _ => pure hn.trim) fun _ =>
      bind (createFn _ (hcs hn b (by simp))) fun _ h => visitChildren hgo m (raw_two rfl (hcs hn a (by simp)) h))
  · intro sp a hn hv
    unfold Visitor.visitNode
    dsimp only
    refine frame fun cur => ?_
    exact ite (fun _ => pure hn.trim) fun _ => bind (keepIf trivial (mark _)) fun _ _ => hv
  · intro sp cs hn hv
    unfold Visitor.visitNode
    dsimp only
    refine frame fun cur => ?_
    exact bind (keepIf trivial (mark _)) fun _ _ => hv
  · intro sp a b c hn hv
    unfold Visitor.visitNode
    dsimp only
    refine frame fun cur => ?_
    exact visitCond hgo m cur sp (hcs hn a (by simp)) (hcs hn b (by simp)) (hcs hn c (by simp))
  · exact fun sp cs hn hv => guarded hn (bind (mark _) fun _ _ => hv)
  · intro sp cs hn hv
    unfold Visitor.visitNode
    dsimp only
    refine frame fun cur => ?_
    exact bind (keepIf trivial (mark _)) fun _ _ => hv
  · intro x sp cs hn hv
    unfold Visitor.visitNode
    dsimp only
    refine frame fun cur => ?_
    exact hv
  · exact fun sp cs hn hv => guarded hn hv
  · exact fun sp a b c hn hv => guarded hn (bind (keepIf (hcs hn b (by simp)) (coverStatement hgo m (hcs hn b (by simp)))) fun _ h =>
      visitChildren hgo m (raw_three rfl (hcs hn a (by simp)) h (hcs hn c (by simp))))
  · exact fun sp a b c hn hv => guarded hn (bind (keepIf (hcs hn b (by simp)) (coverStatement hgo m (hcs hn b (by simp)))) fun _ h =>
      visitChildren hgo m (raw_three rfl (hcs hn a (by simp)) h (hcs hn c (by simp))))
  · intro sp a b hn hv
    refine guarded hn ?_
    split
    · exact ite (fun _ => pure hn.trim) fun _ =>
        bind (createFn _ (hcs hn b (by simp))) fun _ h => visitChildren hgo m (raw_two rfl (hcs hn a (by simp)) h)
    · exact pure hn.trim
  · intro sp a b hn hv
    refine guarded hn ?_
    split
    · exact ite (fun _ => pure hn.trim) fun _ =>
        bind (createFn _ (hcs hn b (by simp))) fun _ h => visitChildren hgo m (raw_two rfl (hcs hn a (by simp)) h)
    · exact bind (createFn _ (hcs hn b (by simp))) fun _ h => visitChildren hgo m (raw_two rfl (hcs hn a (by simp)) h)
  · exact fun sp a b hn hv => guarded hn (visitAccessor hgo m hn (hcs hn b (by simp)) fun x hx => raw_two rfl (hcs hn a (by simp)) hx)
  · exact fun sp a b c d hn hv => guarded hn (visitAccessor hgo m hn (hcs hn d (by simp)) fun x hx =>
      raw_mk.2 ⟨rfl, Raws.cons (hcs hn a (by simp)) (Raws.cons (hcs hn b (by simp)) (Raws.cons (hcs hn c (by simp)) (Raws.one hx)))⟩)
  · exact fun sp a b hn hv => guarded hn (bind (keepIf (hcs hn b (by simp)) (coverStatement hgo m (hcs hn b (by simp)))) fun _ h =>
      visitChildren hgo m (raw_two rfl (hcs hn a (by simp)) h))
  · exact fun x sp cs hn hv => guarded hn (bind (mark _) fun _ _ => visitChildren hgo m (raw_mk.2 ⟨rfl, blockifyLast (hcs hn)⟩))
  · intro sp cs hn hv
    unfold Visitor.visitNode
    dsimp only
    refine frame fun cur => ?_
    exact bind (keepIf trivial (mark _)) fun _ _ => hv
  · intro sp cs hn hv
    unfold Visitor.visitNode
    dsimp only
    refine frame fun cur => ?_
    exact bind (keepIf trivial (mark _)) fun _ _ => hv
  · intro sp cs hn hv
    unfold Visitor.visitNode
    dsimp only
    refine frame fun cur => ?_
    exact ite (fun _ => pure hn.trim) fun _ => bind (mark _) fun _ _ => bind (newBranch _ _ _) fun b _ =>
      bind (fresh (visitChildren hgo (.switchCase b) hn)) fun _ h => pure h.1
  · intro sp a b c hn hv
    unfold Visitor.visitNode
    dsimp only
    refine frame fun cur => ?_
    exact ite (fun _ => pure hn.trim) fun _ =>
      visitIf hgo m cur sp (hcs hn a (by simp)) (hcs hn b (by simp)) (hcs hn c (by simp))
  · exact fun x sp a b hn hv => visitBin hrl hgo m none (fun _ h => visitChildren hgo m h) x sp (hcs hn a (by simp)) (hcs hn b (by simp))
  · exact fun sp a b hn hv => guarded hn (bind (newBranch _ _ _) fun _ _ => bind (wrapBin hrl hgo _ _ (hcs hn b (by simp))) fun _ h =>
      pure (trim_two rfl (hcs hn a (by simp)).trim h))
  · exact fun sp cs hn hv => guarded hn (bind (mark _) fun _ _ => hv)
  · exact fun sp cs hn hv => guarded hn (bind (mark _) fun _ _ => hv)
  · intro sp a b hn hv
    unfold Visitor.visitNode
    dsimp only
    refine frame fun cur => ?_
    exact ite (fun _ => pure hn.trim) fun _ => bind (mark _) fun _ _ =>
      bind (visitWithBody hgo cur (hcs hn b (by simp))) fun _ h => pure (trim_two rfl (hcs hn a (by simp)).trim h)
  · intro sp a cs hn hv
    unfold Visitor.visitNode
    simp only
    split
    · exact guarded hn (visitCase hgo _ _ (hcs hn a (by simp)) fun c hc => hcs hn c (by simp [hc]))
    · exact hv
  · intro sp cs hn hv
    unfold Visitor.visitNode
    simp only
    split
    · exact guarded hn hv
    · exact hv
  · intro sp cs hn hv
    unfold Visitor.visitNode
    simp only
    split
    · exact guarded hn hv
    · exact hv
  · intro sp cs hn hv
    unfold Visitor.visitNode
    simp only
    split
    · exact guarded hn hv
    · exact hv
  · intro k sp cs hk hn hv
    rw [visitNode_default hk]
    exact hv

include hrl in
theorem step (m : Mode) {n : Node} (hn : Raw rl n) : Yields rl (step cx go m n) (Trim rl) := by
  unfold Visitor.step
  split
  · exact ite (fun _ => frame fun _ => hgo _ _ hn) fun _ => logicalChildren hgo _ hn
  · unfold visitLogicalInner
    split
    · exact visitBin hrl hgo _ _ (fun _ h => logicalChildren hgo _ h) _ _ ((raw_mk.1 hn).2 _ (by simp)) ((raw_mk.1 hn).2 _ (by simp))
    · exact logicalChildren hgo _ hn
  · exact visitNode hrl hgo m hn

end

section
variable (hrl : cx.reportLogic = rl)
include hrl

theorem visit : ∀ (fuel : Nat) (m : Mode) (n : Node), Raw rl n → Yields rl (visit cx fuel m n) (Trim rl)
  | 0, _, _, _ => panic _
  | fuel + 1, m, _, hn => step hrl (visit fuel) m hn

omit hrl in
theorem withBefore {x : M Node} (hx : Yields rl x (Trim rl)) : Yields rl (withBefore x) (Trims rl) := by
  refine bind hx fun n hn => bind (P := Trims rl) ?_ fun l hl => pure (hl.append (Trims.one hn))
  intro st a s h hb
  cases h
  exact ⟨hb, nofun⟩

theorem visitItem (fuel : Nat) {n : Node} (hn : Raw rl n) : Yields rl (visitItem cx fuel n) (Trims rl) :=
  ite (fun _ => pure (Trims.one hn.trim)) fun _ => frame fun _ =>
    withBefore (bind (keepIf trivial (mark _)) fun _ _ => visit hrl fuel _ _ hn)

theorem visitItems (fuel : Nat) : ∀ {ns : List Node}, Raws rl ns → Yields rl (visitItems cx fuel ns) (Trims rl)
  | [], _ => pure nofun
  | n :: ns, h => bind (visitItem hrl fuel (h n (by simp))) fun _ h1 =>
    bind (visitItems fuel fun x hx => h x (by simp [hx])) fun _ h2 => pure (h1.append h2)

theorem visitScriptItems (fuel : Nat) : ∀ {ns : List Node}, Raws rl ns → Yields rl (visitScriptItems cx fuel ns) (Trims rl)
  | [], _ => pure nofun
  | n :: ns, h => bind (withBefore (visit hrl fuel _ _ (h n (by simp)))) fun _ h1 =>
    bind (visitScriptItems fuel fun x hx => h x (by simp [hx])) fun _ h2 => pure (h1.append h2)

omit hrl in
theorem coverageTemplates : Yields rl coverageTemplates fun r => Trim rl r.1 ∧ Trim rl r.2 := by
  intro st a s h hb
  cases h
  exact ⟨⟨Raw.trim rfl, Raw.trim rfl⟩, hb⟩

omit hrl in
theorem ensureRoot : Yields rl ensureRoot fun _ => True :=
  quiet fun st a s h => by
    unfold Visitor.ensureRoot at h
    split at h <;> (cases h; exact ⟨rfl, trivial⟩)

theorem programBody (fuel : Nat) {p : Node} (hp : Raw rl p) : Yields rl (programBody cx fuel p) (Trim rl) := by
  unfold Visitor.programBody
  split
  · refine bind (P := Trims rl) ?_ fun _ h => pure (.node rfl h)
    refine bind ensureRoot fun _ _ => bind (visitItems hrl fuel (raw_mk.1 hp).2) fun items h1 => bind coverageTemplates fun r h2 =>
      bind (keepIf trivial pop) fun _ _ => pure ?_
    cases items with
    | nil => exact Trims.cons h2.1 (Trims.one h2.2)
    | cons i items =>
      exact Trims.cons (h1 i (by simp)) (Trims.cons h2.1 (Trims.cons h2.2 fun x hx => h1 x (by simp [hx])))
  · refine bind (P := Trims rl) ?_ fun _ h => pure (.node rfl h)
    exact bind (visitScriptItems hrl fuel (raw_mk.1 hp).2) fun items h1 => bind coverageTemplates fun r h2 =>
      pure (Trims.cons h2.1 (Trims.cons h2.2 h1))
  · exact pure hp.trim

end
end Yields
end Visitor

theorem trim_instrument {cx : Ctx} {fuel : Nat} {path : String} {sm : Option SourceMap} {p p' : Node} {cov : SourceCoverage}
    (hp : Raw cx.reportLogic p) (hr : Visitor.instrument cx fuel path sm p = .ok (p', cov)) : Trim cx.reportLogic p' := by
  unfold Visitor.instrument at hr
  have h : Visitor.Yields cx.reportLogic (Visitor.visitProgram cx fuel p) (Trim cx.reportLogic) :=
    .bind (.push _) fun _ _ => .ite (fun _ => .pure hp.trim) fun _ => .bind (.programBody rfl fuel hp) fun _ h => .bind .pop fun _ _ => .pure h
  cases hx : Visitor.visitProgram cx fuel p (Visitor.initial cx path sm) with
  | error e => rw [hx] at hr; cases hr
  | ok r =>
    rw [hx] at hr
    cases hr
    exact (h _ _ _ hx nofun).1

namespace Sem

/-- What is between the assignment and the use of a temporary tests for one counter. -/
def Tidy (n : Node) : Prop := ∀ c e mid, look n = .truth c e mid → ∃ b a, mid.sites = [.bT b a]

theorem tidy_plain {n : Node} (h : look n = .plain) : Tidy n := by
  intro c e mid hl
  rw [h] at hl
  cases hl

theorem tidy_list {n : Node} {ss : List Node} (h : look n = .list ss) : Tidy n := by
  intro c e mid hl
  rw [h] at hl
  cases hl

theorem tidy_closed {n : Node} (h : ((each n).all fun m => match look m with | .truth .. => false | _ => true) = true) :
    ∀ m ∈ each n, Tidy m := by
  intro m hm c e mid hl
  have h1 := List.all_eq_true.1 h m hm
  rw [hl] at h1
  cases h1

theorem Trim.tidy {rl : Bool} {n : Node} (h : Trim rl n) : ∀ m ∈ each n, Tidy m := by
  induction h with
  | @node k sp cs hk hcs ih =>
    intro m hm
    rcases mem_each_mk.1 hm with rfl | ⟨x, hx, hm⟩
    · intro c e mid hl
      unfold look at hl
      split at hl <;> cases hl
      rename_i heq
      cases heq
      have h1 := hcs _ (List.mem_cons_of_mem _ List.mem_cons_self)
      cases h1 with
      | node _ h2 =>
        have h3 := h2 _ List.mem_cons_self
        cases h3 with
        | node _ h4 =>
          have h5 := h4 _ List.mem_cons_self
          cases h5 with
          | node h6 => cases h6
    · exact ih x hx m hm
  | @truth b a e hrl he ih =>
    refine Steps.each_truth_cases ?_ (by rintro _ _ _ ⟨⟩) (tidy_plain rfl) (tidy_plain rfl) ?_ ?_ ?_ ih
    · intro c e mid hl
      cases hl
      exact ⟨b, a, rfl⟩
    · exact tidy_closed (by decide)
    · exact Steps.each_mid (tidy_plain rfl) (tidy_plain rfl) (tidy_closed (by decide +kernel)) (by rintro _ _ _ ⟨⟩) (tidy_plain rfl)
    · exact tidy_closed (by decide)

theorem tidy_kids {n : Node} (h : ∀ m ∈ each n, Tidy m) : ∀ x ∈ kids n, ∀ m ∈ each x, Tidy m := by
  have hb : ∀ {sp ss}, (∀ x ∈ ss, ∀ m ∈ each x, Tidy m) → ∀ m ∈ each (mk .block sp ss), Tidy m := by
    intro sp ss h1 m hm
    rcases mem_each_mk.1 hm with rfl | ⟨x, hx, hm⟩
    · exact tidy_list rfl
    · exact h1 x hx m hm
  have hone : ∀ {b : Node}, (∀ m ∈ each b, Tidy m) → ∀ m ∈ each (if b.kind = .block then b else mk .block Span.dummy [b]), Tidy m := by
    intro b h1
    split
    · exact h1
    · exact hb fun x hx => by rw [List.mem_singleton.1 hx]; exact h1
  obtain ⟨k, sp, cs⟩ := n
  have hcs : ∀ x ∈ cs, ∀ m ∈ each x, Tidy m := fun x hx m hm => h m (mem_each_mk.2 (.inr ⟨x, hx, hm⟩))
  have hlast : ∀ l : List Node, (∀ x ∈ l, ∀ m ∈ each x, Tidy m) →
      ∀ x ∈ mapLast (fun b => if b.kind = .block then b else mk .block Span.dummy [b]) l, ∀ m ∈ each x, Tidy m := by
    intro l
    induction l with
    | nil => exact fun _ x hx => by cases hx
    | cons c l ih =>
      intro hl
      cases l with
      | nil => exact fun x hx => by rw [List.mem_singleton.1 hx]; exact hone (hl c (by simp))
      | cons d l =>
        intro x hx
        rw [mapLast] at hx
        · rcases List.mem_cons.1 hx with rfl | hx
          · exact hl _ (by simp)
          · exact ih (fun x hx => hl x (List.mem_cons_of_mem _ hx)) x hx
        · simp
  unfold kids
  split
  · nofun
  · nofun
  · nofun
  · next h' =>
    cases h'
    intro x hx
    simp only [List.mem_cons, List.not_mem_nil, or_false] at hx
    rcases hx with rfl | rfl
    · exact hcs _ (by simp)
    · exact hb fun x hx => hcs x (by simp [hx])
  · next h' =>
    cases h'
    unfold tidyBodies
    split
    · intro x hx
      simp only [List.mem_cons, List.not_mem_nil, or_false] at hx
      rcases hx with rfl | rfl | rfl
      · exact hcs _ (by simp)
      · exact hone (hcs _ (by simp))
      · split
        · exact hb nofun
        · exact hone (hcs _ (by simp))
    · exact hlast _ hcs
    · intro x hx
      simp only [List.mem_cons, List.not_mem_nil, or_false] at hx
      rcases hx with rfl | rfl
      · exact hcs _ (by simp)
      · exact hone (hcs _ (by simp))
    · intro x hx
      simp only [List.mem_cons, List.not_mem_nil, or_false] at hx
      rcases hx with rfl | rfl
      · exact hcs _ (by simp)
      · have hbody := hcs _ (List.mem_cons_of_mem _ List.mem_cons_self)
        unfold asArrowBody
        split
        · exact hbody
        · refine hb fun x hx => ?_
          rw [List.mem_singleton.1 hx]
          intro m hm
          rcases mem_each_mk.1 hm with rfl | ⟨y, hy, hm⟩
          · exact tidy_plain rfl
          · rw [List.mem_singleton.1 hy] at hm
            exact hbody m hm
    · exact hcs

theorem tidy_comps {n : Node} (h : ∀ m ∈ each n, Tidy m) : ∀ x ∈ comps n, ∀ m ∈ each x, Tidy m := by
  have hs : ∀ {k sp cs x}, (∀ m ∈ each (mk k sp cs), Tidy m) → x ∈ cs → ∀ m ∈ each x, Tidy m := fun h hx m hm =>
    h m (mem_each_mk.2 (.inr ⟨_, hx, hm⟩))
  have hk := tidy_kids h
  unfold comps
  generalize hl : look n = s
  unfold look at hl
  split at hl <;> subst hl
  · exact fun x hx => hs h (List.mem_filter.1 hx).1
  · exact fun x hx => hs h (List.mem_filter.1 hx).1
  · exact fun x hx => hs h (List.mem_filter.1 hx).1
  · nofun
  · intro x hx
    rw [List.mem_singleton.1 hx]
    exact hs (hs h List.mem_cons_self) (by simp)
  · intro x hx
    rw [List.mem_singleton.1 hx]
    exact hs (hs (hs h (List.mem_cons_of_mem _ List.mem_cons_self)) List.mem_cons_self) (by simp)
  · exact hk

theorem tidy_all {n : Node} (h : ∀ m ∈ each n, Tidy m) : All Tidy n := by
  intro m hm
  induction hm with
  | here n => exact h n (each_self n)
  | step hx _ ih => exact ih (tidy_comps h _ hx)

end Sem
end Verif
