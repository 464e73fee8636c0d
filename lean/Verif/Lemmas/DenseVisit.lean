import Verif.Lemmas.Dense
/-
The visits: what becomes of branches without arms.
-/
namespace Verif
open Node

/-- The branch has no arms (yet). -/
def Bare (c : SourceCoverage) (k : Nat) : Prop := ∃ br, c.inner.branchMap.get k = some br ∧ br.locations = []

namespace Visitor
open Dense

/-- `x` leaves no branch bare that was not, and no branch in `F`. The flags say whether nothing is ignored before and after. -/
def Feeds (cx : Ctx) (i o : Bool) (F : Nat → Prop) (x : M α) (P : α → Prop) : Prop :=
  ∀ st a st', (st.ignore ≠ some .next ↔ i = true) → (∀ c ∈ st.before, cx.Armed c ∧ cx.calm c) → x st = .ok (a, st') →
    P a ∧ (st'.ignore ≠ some .next ↔ o = true) ∧ (∀ c ∈ st'.before, cx.Armed c ∧ cx.calm c) ∧
    ∀ k, Bare st'.cov k → Bare st.cov k ∧ ¬ F k

/-- No branch. -/
def nil : Nat → Prop := fun _ => False

namespace Feeds
variable {cx : Ctx} {i o j : Bool} {F G : Nat → Prop} {α β : Type} {P : α → Prop} {Q : β → Prop}

theorem pure {a : α} (h : P a) : Feeds cx i i nil (Pure.pure a : M α) P := by
  intro st a' st' hi hb hx
  cases hx
  exact ⟨h, hi, hb, fun k hk => ⟨hk, id⟩⟩

theorem bind {x : M α} {f : α → M β} (hx : Feeds cx i j F x P) (hf : ∀ a, P a → Feeds cx j o G (f a) Q) :
    Feeds cx i o (fun k => F k ∨ G k) (x >>= f) Q := by
  intro st b st' hi hb h
  obtain ⟨a, st1, h1, h2⟩ := M.bind_ok h
  obtain ⟨p, i1, b1, e1⟩ := hx st a st1 hi hb h1
  obtain ⟨q, i2, b2, e2⟩ := hf a p st1 b st' i1 b1 h2
  refine ⟨q, i2, b2, fun k hk => ?_⟩
  obtain ⟨h3, h4⟩ := e2 k hk
  obtain ⟨h5, h6⟩ := e1 k h3
  exact ⟨h5, by rintro (h | h); exact h6 h; exact h4 h⟩

theorem mono {x : M α} (h : ∀ k, G k → F k) (hx : Feeds cx i o F x P) : Feeds cx i o G x P := by
  intro st a st' hi hb hs
  obtain ⟨p, i1, b1, e1⟩ := hx st a st' hi hb hs
  exact ⟨p, i1, b1, fun k hk => ⟨(e1 k hk).1, fun hg => (e1 k hk).2 (h k hg)⟩⟩

theorem conseq {x : M α} {P' : α → Prop} (hx : Feeds cx i o F x P) (h : ∀ a, P a → P' a) : Feeds cx i o F x P' := by
  intro st a st' hi hb hs
  obtain ⟨p, r⟩ := hx st a st' hi hb hs
  exact ⟨h a p, r⟩

/-- Where it does not matter which branches get arms. -/
theorem bind' {x : M α} {f : α → M β} (hx : Feeds cx i j F x P) (hf : ∀ a, P a → Feeds cx j o G (f a) Q) :
    Feeds cx i o nil (x >>= f) Q := (bind hx hf).mono nofun

theorem bindL {x : M α} {f : α → M β} (hx : Feeds cx i j F x P) (hf : ∀ a, P a → Feeds cx j o G (f a) Q) :
    Feeds cx i o F (x >>= f) Q := (bind hx hf).mono fun _ h => .inl h

theorem bindR {x : M α} {f : α → M β} (hx : Feeds cx i j F x P) (hf : ∀ a, P a → Feeds cx j o G (f a) Q) :
    Feeds cx i o G (x >>= f) Q := (bind hx hf).mono fun _ h => .inr h

theorem keepIf {p : Prop} [Decidable p] {a : α} {x : M α} (ha : P a) (hx : Feeds cx i i F x P) :
    Feeds cx i i nil (keepIf p a x) P := by
  unfold Visitor.keepIf
  split
  · exact pure ha
  · exact hx.mono nofun

theorem ite {p : Prop} [Decidable p] {x y : M α} (hx : Feeds cx i o F x P) (hy : Feeds cx i o F y P) :
    Feeds cx i o F (if p then x else y) P := by
  split
  · exact hx
  · exact hy

/-- A computation that changes neither pending statements nor branches nor the scope. -/
theorem neutral {x : M α} (hx : ∀ st a st', x st = .ok (a, st') → P a ∧ st'.before = st.before ∧ st'.ignore = st.ignore ∧
    st'.cov.inner.branchMap = st.cov.inner.branchMap) : Feeds cx i i nil x P := by
  intro st a st' hi hb hs
  obtain ⟨p, h1, h2, h3⟩ := hx st a st' hs
  exact ⟨p, by rw [h2]; exact hi, by rw [h1]; exact hb, fun k ⟨br, h4, h5⟩ => ⟨⟨br, by rw [← h3]; exact h4, h5⟩, id⟩⟩

theorem push (t : Tag) : Feeds cx i i nil (Visitor.push t) (fun _ => True) :=
  neutral fun st a st' h => by cases h; exact ⟨trivial, rfl, rfl, rfl⟩

theorem pop : Feeds cx i i nil Visitor.pop (fun _ => True) :=
  neutral fun st a st' h => by cases h; exact ⟨trivial, rfl, rfl, rfl⟩

theorem exit {old : Option IgnoreScope} (ho : old ≠ some .next ↔ o = true) :
    Feeds cx i o nil (Visitor.exit old) (fun _ => True) := by
  intro st a st' hi hb h
  cases h
  exact ⟨trivial, ho, hb, fun k hk => ⟨hk, id⟩⟩

/-- Looking up the scope. -/
theorem enterSpan {sp : Span} {f : Option IgnoreScope × Option IgnoreScope → M β}
    (h0 : ∀ old, (old ≠ some .next ↔ i = true) → Feeds cx false o nil (f (old, some .next)) Q)
    (h1 : ∀ old cur, i = true → (old ≠ some .next ↔ i = true) → cur ≠ some .next → Feeds cx true o F (f (old, cur)) Q) :
    Feeds cx i o (fun k => i = true ∧ cx.quiet sp ∧ F k) (Visitor.enterSpan cx sp >>= f) Q := by
  intro st b st' hi hb h
  obtain ⟨⟨old, cur⟩, st1, h2, h3⟩ := M.bind_ok h
  unfold Visitor.enterSpan at h2
  split at h2
  · next hs =>
    cases h2
    have h3 : f (some .next, some .next) st = .ok (b, st') := by rw [← hs]; exact h3
    have hi0 : i = false := by
      cases i
      · rfl
      · exact absurd hs (hi.2 rfl)
    obtain ⟨q, a1, a2, a3⟩ := h0 (some .next) (by rw [hi0]; simp) st b st' (by simp [hs]) hb h3
    exact ⟨q, a1, a2, fun k hk => ⟨(a3 k hk).1, fun hf => by rw [hi0] at hf; exact Bool.false_ne_true hf.1⟩⟩
  · next hs =>
    cases h2
    have hi1 : i = true := hi.1 hs
    by_cases hh : cx.hint sp = some .next
    · rw [hh] at h3
      obtain ⟨q, a1, a2, a3⟩ := h0 _ hi { st with ignore := some .next } b st' (by simp) hb h3
      exact ⟨q, a1, a2, fun k hk => ⟨(a3 k hk).1, fun hf => hf.2.1 hh⟩⟩
    · obtain ⟨q, a1, a2, a3⟩ := h1 _ _ hi1 hi hh { st with ignore := cx.hint sp } b st' (by simp [hh]) hb h3
      exact ⟨q, a1, a2, fun k hk => ⟨(a3 k hk).1, fun hf => (a3 k hk).2 hf.2.2⟩⟩

theorem frame {t : Tag} {sp : Span} {body : Option IgnoreScope → M α}
    (h0 : Feeds cx false false nil (body (some .next)) P)
    (h1 : ∀ cur, cur ≠ some .next → Feeds cx true true F (body cur) P) :
    Feeds cx i i (fun k => i = true ∧ cx.quiet sp ∧ F k) (frame cx t sp body) P := by
  have : Visitor.frame cx t sp body = Visitor.push t >>= fun _ => Visitor.enterSpan cx sp >>= fun r => (do
      let a ← body r.2
      Visitor.exit r.1
      Pure.pure a) := rfl
  rw [this]
  refine bindR (push t) fun _ _ => ?_
  refine enterSpan (fun old ho => ?_) fun old cur _ ho hc => ?_
  · exact bind' h0 fun a ha => bind' (exit ho) fun _ _ => pure ha
  · exact bindL (h1 cur hc) fun a ha => bind' (exit ho) fun _ _ => pure ha

/-- Where it does not matter which branches get arms. -/
theorem frame' {t : Tag} {sp : Span} {body : Option IgnoreScope → M α}
    (h0 : Feeds cx false false nil (body (some .next)) P)
    (h1 : ∀ cur, cur ≠ some .next → Feeds cx true true F (body cur) P) : Feeds cx i i nil (Visitor.frame cx t sp body) P :=
  (frame h0 h1).mono nofun

theorem guarded {t : Tag} {n : Node} {body : M Node} (hn : cx.Armed n) (hb : Feeds cx true true F body (Done cx n)) :
    Feeds cx i i (fun k => i = true ∧ cx.quiet n.span ∧ F k) (guarded cx t n body) (Done cx n) := by
  refine frame ?_ fun cur hc => ?_
  · exact pure (.refl hn)
  · rw [if_neg hc]
    exact hb

theorem guarded' {t : Tag} {n : Node} {body : M Node} (hn : cx.Armed n) (hb : Feeds cx true true F body (Done cx n)) :
    Feeds cx i i nil (Visitor.guarded cx t n body) (Done cx n) := (guarded hn hb).mono nofun

theorem fresh {ig : Option IgnoreScope} {x : M α} (hig : ig ≠ some .next) (hx : Feeds cx true o F x P) :
    Feeds cx i i F (fresh ig x) (fun r => P r.1 ∧ ∀ c ∈ r.2, cx.Armed c ∧ cx.calm c) := by
  intro st a st' hi hb h
  unfold Visitor.fresh at h
  cases hxs : x { st with before := [], ignore := ig } with
  | error e => rw [hxs] at h; cases h
  | ok r =>
    obtain ⟨a1, st1⟩ := r
    rw [hxs] at h
    cases h
    obtain ⟨p, _, b, e⟩ := hx { st with before := [], ignore := ig } _ _ (by simp [hig]) (by simp) hxs
    exact ⟨⟨p, b⟩, hi, hb, e⟩

theorem bracket {t : Tag} {x : M α} (hx : Feeds cx i i F x P) :
    Feeds cx i i nil (do Visitor.push t; let r ← x; Visitor.pop; Pure.pure r) P :=
  bind' (push t) fun _ _ => bind' hx fun a ha => bind' pop fun _ _ => pure ha

theorem newStatement (r : Range) : Feeds cx i i nil (newStatement r) (fun _ => True) :=
  neutral fun st a st' h => by cases h; exact ⟨trivial, rfl, rfl, rfl⟩

theorem newFunction (n : Option String) (d l : Range) : Feeds cx i i nil (newFunction n d l) (fun _ => True) :=
  neutral fun st a st' h => by cases h; exact ⟨trivial, rfl, rfl, rfl⟩

theorem addPath {k : Nat} (r : Range) : Feeds cx i i (fun x => x = k) (addPath k r) (fun _ => True) := by
  intro st a st' hi hb h
  unfold Visitor.addPath at h
  cases h1 : st.cov.addBranchPath k r with
  | error e => rw [h1] at h; cases h
  | ok x =>
    obtain ⟨c, n⟩ := x
    rw [h1] at h
    cases h
    obtain ⟨-, -, e2⟩ := addBranchPath_ok h1
    refine ⟨trivial, hi, hb, ?_⟩
    rintro k' ⟨br, h2, h3⟩
    simp only [e2] at h2
    rw [IndexMap.get_modify] at h2
    split at h2
    · obtain ⟨br0, -, rfl⟩ := Option.map_eq_some_iff.1 h2
      simp at h3
    · next hne => exact ⟨⟨br, h2, h3⟩, fun h => hne h.symm⟩

/-- A branch that is registered gets arms. -/
theorem newBranch {t : BranchType} {r : Range} {g : Bool} {f : Nat → M β} (hf : ∀ b, Feeds cx i o (fun k => k = b) (f b) Q) :
    Feeds cx i o nil (newBranch t r g >>= f) Q := by
  intro st b st' hi hb h
  obtain ⟨b0, st1, h1, h2⟩ := M.bind_ok h
  cases h1
  obtain ⟨e1, e2, e3⟩ := newBranch_lastB st.cov t r g
  rw [e2] at h2
  obtain ⟨q, i', b', e⟩ := hf _ _ _ _ (by exact hi) (by exact hb) h2
  refine ⟨q, i', b', fun k hk => ?_⟩
  obtain ⟨⟨br, h3, h4⟩, h5⟩ := e k hk
  simp only [e3] at h3
  rw [IndexMap.get_insert, if_neg (fun h => h5 h.symm)] at h3
  exact ⟨⟨br, h3, h4⟩, id⟩

section
variable (hd : cx.quiet Span.dummy)
include hd

theorem mark (sp : Span) : Feeds cx i i nil (mark cx sp) (fun _ => True) := by
  refine bind' (newStatement _) fun id _ => (?_ : Feeds cx i i nil _ _)
  intro st a st' hi hb h
  cases h
  refine ⟨trivial, hi, ?_, fun k hk => ⟨hk, fun h => h⟩⟩
  intro c hc
  rcases List.mem_append.1 hc with hc | hc
  · exact hb c hc
  · cases List.mem_singleton.1 hc
    exact ⟨armed_counterStmt _, calm_counterStmt hd _⟩

theorem replaceWithStmtCounter {e : Node} (he : cx.Armed e) :
    Feeds cx i i nil (replaceWithStmtCounter cx e) (Fine cx e) :=
  bind' (newStatement _) fun _ _ => pure (fine_wrapCounter hd _ he)

theorem replaceWithBranchCounter {b : Nat} {e : Node} (he : cx.Armed e) :
    Feeds cx i i (fun k => k = b) (replaceWithBranchCounter cx b e) (Fine cx e) :=
  bindL (addPath _) fun _ _ => pure (fine_wrapCounter hd _ he)

end

/-- The branch that a visit in a given mode gives arms to. -/
def _root_.Verif.Mode.feeds (cx : Ctx) (m : Mode) (n : Node) (k : Nat) : Prop :=
  match m with
  | .switchCase b => k = b ∧ n.kind = .switchCase ∧ n.children ≠ [] ∧ cx.quiet n.span
  | .logical b | .logicalInner b => k = b ∧ n.any Kind.isLogical = true ∧ cx.calm n
  | _ => False

/-- What is assumed of recursive visits. -/
def Rec (cx : Ctx) (go : Mode → Node → M Node) : Prop :=
  ∀ i m n, cx.Armed n → Feeds cx i i (fun k => i = true ∧ m.feeds cx n k) (go m n) (Done cx n)

/-- Visits of several nodes. -/
theorem mapList {f : Node → M Node} {F : Node → Nat → Prop} (cs : List Node) (hf : ∀ c ∈ cs, Feeds cx i i (F c) (f c) (Done cx c)) :
    Feeds cx i i (fun k => ∃ c ∈ cs, F c k) (M.mapList f cs) (fun out => List.Forall₂ (Done cx) cs out) := by
  induction cs with
  | nil => exact (pure .nil).mono (by rintro k ⟨c, hc, -⟩; cases hc)
  | cons c cs ih =>
    refine (bind (hf c (by simp)) fun a ha => bindL (ih fun d hd => hf d (by simp [hd])) fun as has => pure (.cons ha has)).mono ?_
    rintro k ⟨d, hm, hk⟩
    rcases List.mem_cons.1 hm with rfl | hm
    · exact .inl hk
    · exact .inr ⟨d, hm, hk⟩

section
variable {go : Mode → Node → M Node} (hd : cx.quiet Span.dummy) (hgo : Rec cx go)
include hd hgo

omit hd hgo in
theorem child {k : Kind} {sp : Span} {cs : List Node} (h : cx.Armed (mk k sp cs)) {c : Node} (hc : c ∈ cs) : cx.Armed c :=
  (armed_mk.1 h).2 c hc

omit hd in
theorem visited {m : Mode} {n : Node} (hn : cx.Armed n) : Feeds cx i i nil (go m n) (Done cx n) := (hgo i m n hn).mono nofun

omit hd in
theorem insertStmt {s : Node} (hs : cx.Armed s) : Feeds cx i i nil (insertStmt cx go s) (Lists cx [s]) := by
  unfold Visitor.insertStmt
  split
  · exact pure (.cons (.refl hs) .nil)
  · refine frame' (F := nil) ?_ fun cur hc => ?_
    · exact pure (.cons (.refl hs) .nil)
    · rw [if_neg hc]
      refine bind' (G := nil) (fresh hc (visited hgo hs)) ?_
      rintro ⟨s', before⟩ ⟨h1, h2⟩
      exact pure (.before h2 h1.fine)

omit hd in
theorem insertStmts {ss : List Node} (hs : ∀ c ∈ ss, cx.Armed c) : Feeds cx i i nil (insertStmts cx go ss) (Lists cx ss) := by
  induction ss with
  | nil => exact pure .nil
  | cons s ss ih =>
    exact bind' (insertStmt hgo (hs s (by simp))) fun o ho => bind' (ih fun c hc => hs c (by simp [hc])) fun r hr =>
      pure (ho.append hr)

omit hd in
theorem visitStmts {ss : List Node} (hs : ∀ c ∈ ss, cx.Armed c) : Feeds cx i i nil (visitStmts cx go ss) (Lists cx ss) :=
  bracket (insertStmts hgo hs)

omit hd in
theorem visitChildren {m : Mode} {n : Node} (hn : cx.Armed n) : Feeds cx i i nil (visitChildren cx go m n) (Done cx n) := by
  unfold Visitor.visitChildren
  split
  · exact bind' (visitStmts hgo fun c hc => child hn hc) fun cs hcs => pure (.build rfl hcs)
  · exact bind' (visited hgo (child hn (by simp))) fun t ht =>
      bind' (visitStmts hgo fun c hc => child hn (by simp [hc])) fun cs hcs => pure (.build rfl (.cons ht.fine hcs))
  · exact bind' (mapList _ fun c hc => visited hgo (child hn hc)) fun cs hcs => pure (.map hn hcs)

omit hd in
theorem logicalChildren {b : Nat} {n : Node} (hn : cx.Armed n) :
    Feeds cx i i (fun k => i = true ∧ k = b ∧ (∃ c ∈ n.children, c.any Kind.isLogical = true ∧ cx.calm c)) (logicalChildren go b n)
      (Done cx n) := by
  unfold Visitor.logicalChildren
  split
  refine (bindL (mapList _ fun c hc => hgo i (.logical b) c (child hn hc)) fun cs hcs => pure (.map hn hcs)).mono ?_
  rintro k ⟨hi, hk, c, hc, h1, h2⟩
  exact ⟨c, hc, hi, hk, h1, h2⟩

/-- An operand in which nothing is ignored gives an arm to the branch. -/
theorem wrapBin {m : Mode} {b : Nat} {e : Node} (he : cx.Armed e) (hc : cx.calm e) :
    Feeds cx true true (fun k => k = b) (wrapBin cx go m b e) (Fine cx e) := by
  unfold Visitor.wrapBin
  have hq : cx.hint e.span ≠ some .next := calm_root hc
  simp only [if_neg hq]
  split
  · next hl =>
    refine bindL (G := nil) ((fresh hq (hgo true (.logicalInner b) e he)).mono fun k hk => ⟨rfl, hk, hl, hc⟩) ?_
    rintro ⟨e', _⟩ ⟨h, _⟩
    exact pure h.fine
  · split
    · exact bindL (addPath _) fun _ _ => pure (fine_wrapTruth hd _ _ he)
    · refine bindR (visited hgo he) fun e' he' => (replaceWithBranchCounter hd he'.armed).conseq fun r hr => ?_
      exact ⟨hr.1, fun h => hr.2 (he'.calm h)⟩

/-- Any operand. -/
theorem wrapBin' {m : Mode} {b : Nat} {e : Node} (he : cx.Armed e) :
    Feeds cx true true (fun k => cx.calm e ∧ k = b) (Visitor.wrapBin cx go m b e) (Fine cx e) := by
  by_cases hc : cx.calm e
  · exact (wrapBin hd hgo he hc).mono fun k hk => hk.2
  refine Feeds.mono (F := nil) (fun k hk => hc hk.1) ?_
  unfold Visitor.wrapBin
  simp only
  split
  · exact pure (.refl he)
  next hq =>
  split
  · refine bind' (G := nil) (fresh hq (visited hgo he)) ?_
    rintro ⟨e', _⟩ ⟨h, _⟩
    exact pure h.fine
  · split
    · exact bind' (addPath _) fun _ _ => pure (fine_wrapTruth hd _ _ he)
    · refine bind' (visited hgo he) fun e' he' => (replaceWithBranchCounter hd he'.armed).conseq fun r hr => ?_
      exact ⟨hr.1, fun h => hr.2 (he'.calm h)⟩

omit hgo in
theorem createFn (ident : Option (Span × String)) {n : Node} (hn : cx.Armed n) :
    Feeds cx i i nil (createFn cx ident n) (Fine cx n) := by
  unfold Visitor.createFn
  split
  · next a sp params decorators body =>
    refine bind' (newFunction _ _ _) fun id _ => (?_ : Feeds cx i i nil _ _)
    have hb : cx.Armed body := child hn (by simp)
    refine bind' (P := Fine cx body) (F := nil) ?_ fun body' hb' => pure (Done.fine (.build rfl
      (.cons (.refl (child hn (by simp))) (.cons (.refl (child hn (by simp))) (.cons hb' .nil)))))
    unfold Visitor.prependFn
    split
    · exact pure (Done.fine (.build rfl (.extra (armed_counterStmt _) (calm_counterStmt hd _) (.refl fun c hc => child hb hc))))
    · intro st a st' _ _ h; cases h
  · exact pure (.refl hn)

omit hgo in
theorem coverHoisted {e : Node} (he : cx.Armed e) : Feeds cx i i nil (coverHoisted cx e) (Fine cx e) := by
  unfold Visitor.coverHoisted
  refine bind' (G := nil) (P := fun _ => True) (neutral fun st a st' h => by cases h; exact ⟨trivial, rfl, rfl, rfl⟩) ?_
  intro nodes _
  exact ite (bind' (keepIf trivial (mark hd _)) fun _ _ => pure (.refl he)) (replaceWithStmtCounter hd he)

theorem coverStatement {m : Mode} {e : Node} (he : cx.Armed e) : Feeds cx i i nil (coverStatement cx go m e) (Fine cx e) := by
  unfold Visitor.coverStatement
  split
  · exact bind' (mark hd _) fun _ _ => (visited hgo he).conseq fun _ h => h.fine
  · split
    · exact bind' (mark hd _) fun _ _ => pure (.refl he)
    · refine bind' (keepIf trivial (mark hd _)) fun _ _ => (?_ : Feeds cx i i nil _ _)
      refine bind' (P := fun _ => True) (neutral fun st a st' h => ?_) fun t _ => (?_ : Feeds cx i i nil _ _)
      · unfold topNode at h
        split at h
        · cases h
        · cases h; exact ⟨trivial, rfl, rfl, rfl⟩
      · split
        · exact coverHoisted hd he
        · split
          · exact replaceWithStmtCounter hd he
          · exact pure (.refl he)

theorem visitArrow {a : String} {sp : Span} {params body : Node} (hp : cx.Armed params) (hb : cx.Armed body) :
    Feeds cx i i nil (visitArrow cx go a sp params body) (Done cx (mk (.arrow a) sp [params, body])) := by
  unfold Visitor.visitArrow
  refine bind' (newFunction _ _ _) fun id _ => (?_ : Feeds cx i i nil _ _)
  split
  · exact bind' (insertStmts hgo fun c hc => child hb hc) fun ss hss =>
      pure (.build rfl (.cons (.refl hp) (.cons (Done.fine (.build rfl (.extra (armed_counterStmt _) (calm_counterStmt hd _) hss))) .nil)))
  · next e =>
    have hr : cx.Armed (mk .returnStmt body.span [body]) := armed_mk.2 ⟨armed_of rfl, by simpa using hb⟩
    refine bind' (insertStmts hgo (ss := [Node.counterStmt (.f id), mk .returnStmt body.span [body]]) ?_) fun ss hss =>
      pure (.build rfl (.cons (.refl hp) (.cons ?_ .nil)))
    · intro c hc
      rcases List.mem_cons.1 hc with rfl | hc
      · exact armed_counterStmt _
      · cases List.mem_singleton.1 hc
        exact hr
    · refine .build rfl (cs := [Node.counterStmt (.f id), mk .returnStmt body.span [body]]) (fun h => ⟨hd, ?_⟩) hss
      intro c hc
      rcases List.mem_cons.1 hc with rfl | hc
      · exact calm_counterStmt hd _
      · cases List.mem_singleton.1 hc
        exact calm_mk.2 ⟨calm_root h, by simpa using h⟩

omit hgo in
theorem createAccessor {name : String} {sp : Span} {body : Node} (hb : cx.Armed body) :
    Feeds cx i i nil (createAccessor cx name sp body) (Fine cx body) := by
  unfold Visitor.createAccessor
  split
  · exact bind' (newFunction _ _ _) fun id _ => pure (Done.fine (.build rfl
      (.extra (armed_counterStmt _) (calm_counterStmt hd _) (.refl fun c hc => child hb hc))))
  · exact pure (.refl hb)

/-- Rebuild, and visit the children of what is built. -/
theorem rebuilt {m : Mode} {k : Kind} {sp : Span} {cs cs' : List Node} (hk : branching k = false) (h : Lists cx cs cs') :
    Feeds cx i i nil (Visitor.visitChildren cx go m (mk k sp cs')) (Done cx (mk k sp cs)) :=
  (visitChildren hgo (Done.build (sp := sp) hk h).armed).conseq fun _ hr => (Done.build hk h).trans hr

theorem visitAccessor {m : Mode} {k : Kind} {sp : Span} {cs : List Node} {key body : Node} {rebuild : Node → Node}
    (hn : cx.Armed (mk k sp cs)) (hb : cx.Armed body) (hk : branching k = false)
    (hr : ∀ b, Fine cx body b → ∃ cs', rebuild b = mk k sp cs' ∧ Lists cx cs cs') :
    Feeds cx i i nil (visitAccessor cx go m (mk k sp cs) key body rebuild) (Done cx (mk k sp cs)) := by
  unfold Visitor.visitAccessor
  have h : ∀ name sp', Feeds cx i i nil (do
      let body ← Visitor.createAccessor cx name sp' body
      Visitor.visitChildren cx go m (rebuild body)) (Done cx (mk k sp cs)) := by
    intro name sp'
    refine bind' (createAccessor hd hb) fun b hb => (?_ : Feeds cx i i nil _ _)
    obtain ⟨cs', h1, h2⟩ := hr b hb
    rw [h1]
    exact rebuilt hd hgo hk h2
  split
  · split
    · exact pure (.refl hn)
    · exact h _ _
  · exact h _ _

omit hd hgo in
theorem _root_.Verif.Dense.Fine.trans {a b c : Node} (h : Fine cx a b) (h' : Fine cx b c) : Fine cx a c :=
  ⟨h'.1, fun x => h'.2 (h.2 x)⟩

theorem wrapArm {cur : Option IgnoreScope} {b : Nat} {r : Range} {s : Node} (hc : cur ≠ some .next) (hs : cx.Armed s) :
    Feeds cx true true (fun k => k = b) (wrapArm cx go cur b r s) (Fine cx s) := by
  unfold Visitor.wrapArm
  refine bindL (G := nil) (addPath _) fun idx _ => ?_
  split
  · exact bind' (insertStmts hgo fun c hc => child hs hc) fun ss hss =>
      pure (Done.fine (.build rfl (.extra (armed_counterStmt _) (calm_counterStmt hd _) hss)))
  · refine bind' (G := nil) (fresh hc (visited hgo hs)) ?_
    rintro ⟨s', before⟩ ⟨h1, h2⟩
    exact pure (.build rfl (cs := [s]) (fun h => ⟨hd, by simpa using h⟩)
      (.extra (armed_counterStmt _) (calm_counterStmt hd _) (.before h2 h1.fine)))

/-- At least one arm of an `if` statement counts. -/
theorem visitIf {m : Mode} {cur : Option IgnoreScope} {sp : Span} {test cons alt : Node} (hcur : cur ≠ some .next)
    (hn : cx.Armed (mk .ifStmt sp [test, cons, alt])) :
    Feeds cx true true nil (visitIf cx go m cur sp test cons alt) (Done cx (mk .ifStmt sp [test, cons, alt])) := by
  have hc : cx.Armed cons := child hn (by simp)
  have ha : cx.Armed alt := child hn (by simp)
  have ha' : Fine cx alt (if alt.isNone then mk .block Span.dummy [] else alt) := by
    split
    · exact ⟨armed_mk.2 ⟨armed_of rfl, nofun⟩, fun _ => calm_mk.2 ⟨hd, nofun⟩⟩
    · exact .refl ha
  unfold Visitor.visitIf
  refine bind' (mark hd _) fun _ _ => newBranch fun b => ?_
  have hrest : ∀ cons' alt', Fine cx cons cons' → Fine cx alt alt' → Feeds cx true true nil (do
      let test ← go m test
      Pure.pure (mk .ifStmt sp [test, cons', alt'])) (Done cx (mk .ifStmt sp [test, cons, alt])) := fun cons' alt' h1 h2 =>
    bind' (visited hgo (child hn (by simp))) fun t ht => pure (.build rfl (.cons ht.fine (.cons h1 (.cons h2 .nil))))
  by_cases h : cur = some .if
  · have h' : cur ≠ some .else := by rw [h]; decide
    simp only [Visitor.keepIf, if_pos h, if_neg h']
    refine bindR (G := fun k => k = b) (pure (P := Fine cx cons) (.refl hc)) fun c' hc' => ?_
    exact bindL (wrapArm hd hgo hcur ha'.1) fun a' h2 => hrest c' a' hc' (ha'.trans h2)
  · simp only [Visitor.keepIf, if_neg h]
    refine bindL (G := nil) (wrapArm hd hgo hcur hc) fun c' h1 => bind' (P := Fine cx alt) (F := nil) ?_ fun a' h2 => hrest c' a' h1 h2
    split
    · exact pure (.refl ha)
    · exact ((wrapArm hd hgo hcur ha'.1).mono nofun).conseq fun _ h => ha'.trans h

omit hgo in
/-- An arm of a conditional expression. -/
theorem condArm {b : Nat} {e : Node} (he : cx.Armed e) :
    Feeds cx i i (fun k => cx.quiet e.span ∧ k = b)
      (Visitor.keepIf (cx.hint e.span = some .next) e (Visitor.replaceWithBranchCounter cx b e))
      (fun r => Fine cx e r ∧ (cx.quiet e.span → cx.quiet r.span)) := by
  unfold Visitor.keepIf
  split
  · next h => exact (pure ⟨.refl he, id⟩).mono fun k hk => hk.1 h
  · refine (bindL (Q := fun r => Fine cx e r ∧ (cx.quiet e.span → cx.quiet r.span)) (addPath (k := b) _) fun _ _ =>
      pure ⟨fine_wrapCounter hd _ he, fun _ => hd⟩).mono fun k hk => hk.2

theorem visitCond {m : Mode} {cur : Option IgnoreScope} {sp : Span} {test cons alt : Node}
    (hn : cx.Armed (mk .cond sp [test, cons, alt])) :
    Feeds cx i i nil (visitCond cx go m cur sp test cons alt) (Done cx (mk .cond sp [test, cons, alt])) := by
  have hc : cx.Armed cons := child hn (by simp)
  have ha : cx.Armed alt := child hn (by simp)
  have h0 : cx.quiet cons.span ∨ cx.quiet alt.span := (armed_mk.1 hn).1 _ _ _ rfl
  unfold Visitor.visitCond
  refine bind' (j := i) (F := nil) (P := fun r => (Fine cx cons r.1 ∧ (cx.quiet cons.span → cx.quiet r.1.span)) ∧
    (Fine cx alt r.2 ∧ (cx.quiet alt.span → cx.quiet r.2.span))) ?_ ?_ (G := nil)
  · refine keepIf (F := nil) ⟨⟨.refl hc, id⟩, .refl ha, id⟩ ?_
    unfold Visitor.wrapCondArms
    refine newBranch fun b => ?_
    refine (bind (condArm hd hc) fun c' hc' => bindL (condArm hd ha) fun a' ha' => pure ⟨hc', ha'⟩).mono fun k hk => ?_
    exact h0.imp (fun h => ⟨h, hk⟩) (fun h => ⟨h, hk⟩)
  · rintro ⟨c', a'⟩ ⟨⟨h1, h2⟩, h3, h4⟩
    have hl : Lists cx [test, cons, alt] [test, c', a'] := .cons (.refl (child hn (by simp))) (.cons h1 (.cons h3 .nil))
    have hd' : Done cx (mk .cond sp [test, cons, alt]) (mk .cond sp [test, c', a']) := by
      refine ⟨armed_mk.2 ⟨?_, hl.armed⟩, fun h => calm_mk.2 ⟨(calm_mk.1 h).1, hl.calm (calm_mk.1 h).2⟩, rfl, rfl, fun _ => by simp [Node.children]⟩
      intro t c a he
      cases he
      exact h0.imp h2 h4
    exact (visitChildren hgo hd'.armed).conseq fun _ h => hd'.trans h

omit hd hgo in
theorem logical_cases {op : BinOp} (h : op.isLogical = true) : op = .and ∨ op = .or ∨ op = .nullish := by
  cases op <;> simp_all [BinOp.isLogical]

theorem visitBin {m : Mode} {branch? : Option Nat} {C : Nat → Prop} {children : Node → M Node} {op : BinOp} {sp : Span}
    {left right : Node} (hn : cx.Armed (mk (.bin op) sp [left, right]))
    (hc : ∀ j, Feeds cx j j (fun k => j = true ∧ C k) (children (mk (.bin op) sp [left, right])) (Done cx (mk (.bin op) sp [left, right]))) :
    Feeds cx i i (fun k => i = true ∧ cx.quiet sp ∧ (op.isLogical = true → branch? = some k) ∧ (op.isLogical = false → C k))
      (visitBin cx go m branch? children op sp left right) (Done cx (mk (.bin op) sp [left, right])) := by
  have hl : cx.Armed left := child hn (by simp)
  have hr : cx.Armed right := child hn (by simp)
  unfold Visitor.visitBin
  refine enterSpan (F := fun k => (op.isLogical = true → branch? = some k) ∧ (op.isLogical = false → C k)) (fun old ho => ?_)
    fun old cur hi ho hcur => ?_
  · simp only
    exact bind' (push _) fun _ _ => bind' (hc false) fun n hn => bind' (exit ho) fun _ _ => pure hn
  · simp only [if_neg hcur]
    subst hi
    split
    · next hlog =>
      obtain ⟨-, e, he, h2⟩ := (armed_mk.1 hn).1 (logical_cases hlog)
      refine bindR (push _) fun _ _ => ?_
      have hw : ∀ b, Feeds cx true true (fun k => k = b) (do
            let left ← Visitor.wrapBin cx go m b left
            let right ← Visitor.wrapBin cx go m b right
            Pure.pure (mk (.bin op) sp [left, right])) (Done cx (mk (.bin op) sp [left, right])) := by
        intro b
        refine Feeds.mono (fun k hk => ?_) (bind (wrapBin' (b := b) hd hgo hl) fun l' hl' =>
          bindL (wrapBin' (b := b) hd hgo hr) fun r' hr' => pure ?_)
        · have he : e = left ∨ e = right := by simpa [Node.children] using he
          rcases he with rfl | rfl
          · exact .inl ⟨h2, hk⟩
          · exact .inr ⟨h2, hk⟩
        have hls : Lists cx [left, right] [l', r'] := .cons hl' (.cons hr' .nil)
        have hsome : ∃ e ∈ [l', r'], cx.calm e := by
          have he : e = left ∨ e = right := by simpa [Node.children] using he
          rcases he with rfl | rfl
          · exact ⟨l', by simp, hl'.2 h2⟩
          · exact ⟨r', by simp, hr'.2 h2⟩
        exact ⟨armed_mk.2 ⟨fun _ => ⟨rfl, hsome⟩, hls.armed⟩, fun h => calm_mk.2 ⟨(calm_mk.1 h).1, hls.calm (calm_mk.1 h).2⟩,
          rfl, rfl, fun _ => by simp [Node.children]⟩
      cases branch? with
      | some b =>
        refine (bindR (P := fun x => x = b) (F := nil) (pure rfl) ?_).mono fun k hk => (Option.some.inj (hk.1 hlog)).symm
        rintro _ rfl
        exact hw _
      | none => exact (newBranch hw).mono fun k hk => nomatch hk.1 hlog
    · next hlog =>
      refine bindR (push _) fun _ _ => (bindL (hc true) fun n hn => bind' (exit ho) fun _ _ => pure hn).mono fun k hk => ?_
      exact ⟨rfl, hk.2 (by simpa using hlog)⟩

theorem visitCase {b : Nat} {sp : Span} {test : Node} {cons : List Node} (hn : cx.Armed (mk .switchCase sp (test :: cons))) :
    Feeds cx i i (fun k => k = b) (visitCase cx go b sp test cons) (Done cx (mk .switchCase sp (test :: cons))) := by
  unfold Visitor.visitCase
  exact bindL (addPath _) fun _ _ => bind' (visited hgo (child hn (by simp))) fun t ht =>
    bind' (visitStmts hgo fun c hc => child hn (by simp [hc])) fun cs hcs =>
      pure (.build rfl (.cons ht.fine (.extra (armed_counterStmt _) (calm_counterStmt hd _) hcs)))

theorem visitWithBody {cur : Option IgnoreScope} {body : Node} (hc : cur ≠ some .next) (hb : cx.Armed body) :
    Feeds cx true true nil (visitWithBody cx go cur body) (Fine cx body) := by
  unfold Visitor.visitWithBody
  split
  · exact bind' (insertStmts hgo fun c hc => child hb hc) fun ss hss => pure (Done.fine (.build rfl hss))
  · refine bind' (G := nil) (fresh hc (visited hgo hb)) ?_
    rintro ⟨s', before⟩ ⟨h1, h2⟩
    exact pure (.build rfl (cs := [body]) (fun h => ⟨hd, by simpa using h⟩) (.before h2 h1.fine))

omit hgo in
theorem blockify {s : Node} (h : cx.Armed s) : Fine cx s (blockify s) := by
  unfold Visitor.blockify
  split
  · exact .refl h
  · exact .build rfl (cs := [s]) (fun h => ⟨hd, by simpa using h⟩) (.cons (.refl h) .nil)

omit hgo in
theorem blockifyLast {cs : List Node} (h : ∀ c ∈ cs, cx.Armed c) : Lists cx cs (blockifyLast cs) := by
  fun_induction Visitor.blockifyLast cs with
  | case1 => exact .nil
  | case2 body => exact .cons (blockify hd (h _ (by simp))) .nil
  | case3 c cs _ ih => exact .cons (.refl (h _ (by simp))) (ih fun d hd => h d (by simp [hd]))

omit hd in
/-- The cases of a switch. -/
theorem switchChildren {b : Nat} {sp : Span} {cs : List Node} (hn : cx.Armed (mk .switchStmt sp cs)) :
    Feeds cx true true (fun k => k = b) (Visitor.visitChildren cx go (.switchCase b) (mk .switchStmt sp cs))
      (Done cx (mk .switchStmt sp cs)) := by
  obtain ⟨c, hc, h1, h2, h3⟩ := (armed_mk.1 hn).1
  refine (bindL (mapList cs fun c hc => hgo true (.switchCase b) c (child hn hc)) fun cs hcs => pure (.map hn hcs)).mono ?_
  intro k hk
  exact ⟨c, hc, rfl, hk, h1, h2, h3⟩

/-- Whatever the mode. -/
theorem visitNode' {m : Mode} {n : Node} (hn : cx.Armed n) : Feeds cx i i nil (visitNode cx go m n) (Done cx n) := by
  have hch : ∀ j, Feeds cx j j nil (Visitor.visitChildren cx go m n) (Done cx n) := fun j => visitChildren hgo hn
  unfold Visitor.visitNode
  split <;> first
    | exact guarded' hn (hch true)
    | exact guarded' hn (bind' (mark hd _) fun _ _ => hch true)
    | exact frame' (hch false) fun _ _ => hch true
    | exact frame' (bind' (keepIf trivial (mark hd _)) fun _ _ => hch false)
        fun _ _ => bind' (keepIf trivial (mark hd _)) fun _ _ => hch true
    | skip
  all_goals skip
  -- function declaration
  · exact guarded' hn (bind' (createFn hd _ (child hn (by simp))) fun f hf => rebuilt hd hgo rfl
      (.cons (.refl (child hn (by simp))) (.cons hf .nil)))
  -- arrow
  · exact guarded' hn (visitArrow hd hgo (child hn (by simp)) (child hn (by simp)))
  -- function expression
  · refine guarded' (F := nil) hn ?_
    simp only
    refine ite (pure (.refl hn)) (bind' (createFn hd _ (child hn (by simp))) fun f hf => rebuilt hd hgo rfl
      (.cons (.refl (child hn (by simp))) (.cons hf .nil)))
  -- expression statement
  · exact frame' (F := nil) (ite (pure (.refl hn)) (bind' (keepIf trivial (mark hd _)) fun _ _ => hch false))
      fun _ _ => ite (pure (.refl hn)) (bind' (keepIf trivial (mark hd _)) fun _ _ => hch true)
  -- conditional
  · exact frame' (visitCond hd hgo hn) fun cur _ => visitCond hd hgo hn
  -- class properties
  · exact guarded' hn (bind' (keepIf (.refl (child hn (by simp))) (coverStatement hd hgo (child hn (by simp))))
      fun v hv => rebuilt hd hgo rfl (.cons (.refl (child hn (by simp))) (.cons hv (.cons (.refl (child hn (by simp))) .nil))))
  · exact guarded' hn (bind' (keepIf (.refl (child hn (by simp))) (coverStatement hd hgo (child hn (by simp))))
      fun v hv => rebuilt hd hgo rfl (.cons (.refl (child hn (by simp))) (.cons hv (.cons (.refl (child hn (by simp))) .nil))))
  -- methods
  · refine guarded' (F := nil) hn ?_
    split
    · exact ite (pure (.refl hn)) (bind' (createFn hd _ (child hn (by simp))) fun f hf => rebuilt hd hgo rfl
        (.cons (.refl (child hn (by simp))) (.cons hf .nil)))
    · exact pure (.refl hn)
  · refine guarded' (F := nil) hn ?_
    split
    · exact ite (pure (.refl hn)) (bind' (createFn hd _ (child hn (by simp))) fun f hf => rebuilt hd hgo rfl
        (.cons (.refl (child hn (by simp))) (.cons hf .nil)))
    · exact bind' (createFn hd _ (child hn (by simp))) fun f hf => rebuilt hd hgo rfl
        (.cons (.refl (child hn (by simp))) (.cons hf .nil))
  -- accessors
  · exact guarded' hn (visitAccessor hd hgo hn (child hn (by simp)) rfl fun b hb =>
      ⟨_, rfl, .cons (.refl (child hn (by simp))) (.cons hb .nil)⟩)
  · exact guarded' hn (visitAccessor hd hgo hn (child hn (by simp)) rfl fun b hb =>
      ⟨_, rfl, .cons (.refl (child hn (by simp))) (.cons (.refl (child hn (by simp)))
        (.cons (.refl (child hn (by simp))) (.cons hb .nil)))⟩)
  -- declarator
  · exact guarded' hn (bind' (keepIf (.refl (child hn (by simp))) (coverStatement hd hgo (child hn (by simp))))
      fun v hv => rebuilt hd hgo rfl (.cons (.refl (child hn (by simp))) (.cons hv .nil)))
  -- loop
  · exact guarded' hn (bind' (mark hd _) fun _ _ => rebuilt hd hgo rfl (blockifyLast hd fun c hc => child hn hc))
  -- switch
  · refine frame' (F := nil) (pure (.refl hn)) fun cur hc => ?_
    rw [if_neg hc]
    refine bind' (mark hd _) fun _ _ => newBranch fun b => ?_
    refine bindL (G := nil) (fresh hc (switchChildren hgo hn)) ?_
    rintro ⟨n', _⟩ ⟨h, _⟩
    exact pure h
  -- if
  · refine frame' (F := nil) (pure (.refl hn)) fun cur hc => ?_
    rw [if_neg hc]
    exact visitIf hd hgo hc hn
  -- binary
  · exact (visitBin (C := nil) hd hgo hn fun j => (hch j).mono fun k hk => hk.2).mono nofun
  -- default value
  · next sp left right =>
    refine guarded' (F := nil) hn (newBranch fun b => ?_)
    have hq : cx.calm right := (armed_mk.1 hn).1 _ _ rfl
    refine bindL (wrapBin hd hgo (child hn (by simp)) hq) fun r hr => pure ?_
    have hl : Lists cx [left, right] [left, r] := .cons (.refl (child hn (by simp))) (.cons hr .nil)
    refine ⟨armed_mk.2 ⟨?_, hl.armed⟩, fun h => calm_mk.2 ⟨(calm_mk.1 h).1, hl.calm (calm_mk.1 h).2⟩, rfl, rfl,
      fun _ => by simp [Node.children]⟩
    intro l' r' he
    cases he
    exact hr.2 hq
  -- with
  · refine frame' (F := nil) (pure (.refl hn)) fun cur hc => ?_
    rw [if_neg hc]
    exact bind' (mark hd _) fun _ _ => bind' (visitWithBody hd hgo hc (child hn (by simp))) fun b hb =>
      pure (.build rfl (.cons (.refl (child hn (by simp))) (.cons hb .nil)))
  -- switch case
  · split
    · exact guarded' hn (visitCase hd hgo hn)
    · exact hch i
  -- module declarations, debugger, others
  · split
    · exact guarded' hn (hch true)
    · exact hch i
  · split
    · exact guarded' hn (hch true)
    · exact hch i
  · split
    · exact guarded' hn (hch true)
    · exact hch i
  · exact hch i

theorem visitNode {m : Mode} {n : Node} (hn : cx.Armed n) :
    Feeds cx i i (fun k => i = true ∧ ∃ b, m = .switchCase b ∧ m.feeds cx n k) (visitNode cx go m n) (Done cx n) := by
  by_cases hk : ∃ b sp test cons, m = .switchCase b ∧ n = mk .switchCase sp (test :: cons)
  · obtain ⟨b, sp, test, cons, rfl, rfl⟩ := hk
    refine (guarded hn (visitCase (b := b) hd hgo hn)).mono ?_
    rintro k ⟨hi, _, _, hk, -, -, hq⟩
    exact ⟨hi, hq, hk⟩
  · refine (visitNode' hd hgo hn).mono ?_
    rintro k ⟨-, b, rfl, -, h1, h2, -⟩
    obtain ⟨kk, sp, cs⟩ := n
    cases h1
    cases cs with
    | nil => exact h2 rfl
    | cons c cs => exact hk ⟨_, _, _, _, rfl, rfl⟩

omit hd hgo in
/-- A logical expression in a tree that is none. -/
theorem below {n : Node} (h : n.any Kind.isLogical = true) (hk : n.kind.isLogical = false) (hc : cx.calm n) :
    ∃ c ∈ n.children, c.any Kind.isLogical = true ∧ cx.calm c := by
  obtain ⟨k, sp, cs⟩ := n
  rw [any_mk] at h
  simp only [Node.kind] at hk
  rw [hk, Bool.false_or, List.any_eq_true] at h
  obtain ⟨c, h1, h2⟩ := h
  exact ⟨c, h1, h2, (calm_mk.1 hc).2 c h1⟩

theorem visitLogicalInner {b : Nat} {n : Node} (hn : cx.Armed n) :
    Feeds cx i i (fun k => i = true ∧ k = b ∧ n.any Kind.isLogical = true ∧ cx.calm n) (visitLogicalInner cx go b n) (Done cx n) := by
  unfold Visitor.visitLogicalInner
  split
  · refine (visitBin hd hgo hn fun j => logicalChildren (b := b) hgo hn).mono ?_
    rintro k ⟨hi, rfl, h1, h2⟩
    exact ⟨hi, calm_root h2, fun _ => rfl, fun h => ⟨rfl, below h1 h h2⟩⟩
  · next hne =>
    refine (logicalChildren hgo hn).mono ?_
    rintro k ⟨hi, rfl, h1, h2⟩
    refine ⟨hi, rfl, below h1 ?_ h2⟩
    obtain ⟨kk, sp, cs⟩ := n
    cases kk <;> first | rfl | skip
    case bin op =>
      simp only [Node.kind, Kind.isLogical]
      by_contra hl
      obtain ⟨h3, -⟩ := (armed_mk.1 hn).1 (logical_cases (by simpa using hl))
      obtain ⟨l, r, rfl⟩ := List.length_eq_two.1 h3
      exact hne _ _ _ _ rfl

theorem visitLogical {b : Nat} {n : Node} (hn : cx.Armed n) :
    Feeds cx i i (fun k => i = true ∧ k = b ∧ n.any Kind.isLogical = true ∧ cx.calm n) (visitLogical cx go b n) (Done cx n) := by
  unfold Visitor.visitLogical
  split
  · refine (frame (visited hgo hn) fun _ _ => hgo true (.logicalInner b) n hn).mono ?_
    rintro k ⟨hi, hk, h1, h2⟩
    exact ⟨hi, calm_root h2, rfl, hk, h1, h2⟩
  · next he =>
    refine (logicalChildren hgo hn).mono ?_
    rintro k ⟨hi, rfl, h1, h2⟩
    refine ⟨hi, rfl, below h1 ?_ h2⟩
    obtain ⟨kk, sp, cs⟩ := n
    cases kk <;> first | rfl | (exact absurd rfl he)

theorem step {m : Mode} {n : Node} (hn : cx.Armed n) :
    Feeds cx i i (fun k => i = true ∧ m.feeds cx n k) (step cx go m n) (Done cx n) := by
  unfold Visitor.step
  split
  · exact visitLogical hd hgo hn
  · exact visitLogicalInner hd hgo hn
  · next h1 h2 =>
    refine (visitNode hd hgo hn).mono ?_
    rintro k ⟨hi, hk⟩
    refine ⟨hi, ?_⟩
    cases m <;> first | exact ⟨_, rfl, hk⟩ | exact hk.elim | exact absurd rfl (h1 _) | exact absurd rfl (h2 _)

end

/-- Visits leave no branch without arms. -/
theorem visit {cx : Ctx} (hd : cx.quiet Span.dummy) (fuel : Nat) : Rec cx (visit cx fuel) := by
  induction fuel with
  | zero => intro i m n _ st a st' _ _ h; cases h
  | succ fuel ih => intro i m n hn; exact step hd ih hn

/-! ### Programs -/

section
variable (hd : cx.quiet Span.dummy)
include hd

omit hd in
theorem withBefore {x : M Node} {P : Node → Prop} (hx : Feeds cx i i F x P) : Feeds cx i i nil (withBefore x) (fun _ => True) := by
  refine bind' (G := nil) hx fun n hn => ?_
  intro st a st' hi hb h
  cases h
  exact ⟨trivial, hi, by simp, fun k hk => ⟨hk, id⟩⟩

theorem visitItem {fuel : Nat} {item : Node} (hi : cx.Armed item) :
    Feeds cx i i nil (visitItem cx fuel item) (fun _ => True) := by
  have h : ∀ j, Feeds cx j j nil (Visitor.withBefore (itemBody cx fuel item)) (fun _ => True) := fun j =>
    withBefore (bind' (keepIf trivial (mark hd _)) fun _ _ => visited (visit hd fuel) hi)
  unfold Visitor.visitItem
  exact ite (pure trivial) (frame' (h false) fun _ _ => h true)

theorem visitItems {fuel : Nat} {items : List Node} (hi : ∀ c ∈ items, cx.Armed c) :
    Feeds cx i i nil (visitItems cx fuel items) (fun _ => True) := by
  induction items with
  | nil => exact pure trivial
  | cons i items ih =>
    exact bind' (visitItem hd (hi i (by simp))) fun o _ => bind' (ih fun c hc => hi c (by simp [hc])) fun r _ => pure trivial

theorem visitScriptItems {fuel : Nat} {items : List Node} (hi : ∀ c ∈ items, cx.Armed c) :
    Feeds cx i i nil (visitScriptItems cx fuel items) (fun _ => True) := by
  induction items with
  | nil => exact pure trivial
  | cons i items ih =>
    exact bind' (withBefore (visited (visit hd fuel) (hi i (by simp)))) fun o _ =>
      bind' (ih fun c hc => hi c (by simp [hc])) fun r _ => pure trivial

end

end Feeds
end Visitor
end Verif
