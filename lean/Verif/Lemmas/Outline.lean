import Verif.Spec.Outline
import Verif.Lemmas.ArmsOf
import Verif.Lemmas.LockstepStep
/-
The statements, functions and branches of the report are those of the outline of the source.
-/
namespace Verif
open Node Visitor

namespace Outline
variable {cx : Ctx}

/-! ### Outlines -/

/-- Nodes that satisfy what is assumed of the source. -/
abbrev All (cx : Ctx) (n : Node) : Prop := Exact.All cx (fun _ => True) n

/-- The same for a tree that is no case. -/
abbrev Good (cx : Ctx) (n : Node) : Prop := Exact.Good cx (fun _ => True) n

/-- How a visitor looks at a construct. -/
def lookOf : Mode → Look
  | .coverage => .outer
  | _ => .inner

/-- Neither left out nor a body. -/
def Plain (l : Look) : Prop := l = .outer ∨ l = .inner

theorem plain_lookOf (m : Mode) : Plain (lookOf m) := by cases m <;> first | exact .inl rfl | exact .inr rfl

/-- The entries of the parts of a construct. -/
def parts (cx : Ctx) (l : Look) (n : Node) : List Entry := (inOrder n (outlines cx (looks cx l n) n.children)).flatten

theorem outline_skip (n : Node) : outline cx .skip n = [] := by cases n; rw [outline, if_pos rfl]

theorem outline_eq {l : Look} (hl : Plain l) {n : Node} (h : excluded cx l n = false) : outline cx l n = own cx n ++ parts cx l n := by
  obtain ⟨k, sp, cs⟩ := n
  rcases hl with rfl | rfl
  · rw [outline, if_neg (by decide), if_neg (by simp), if_neg (by simp [h])]
    rfl
  · rw [outline, if_neg (by decide), if_neg (by simp), if_neg (by simp [h])]
    rfl

theorem outline_excluded {l : Look} (hl : Plain l) {n : Node} (h : excluded cx l n = true) : outline cx l n = [] := by
  obtain ⟨k, sp, cs⟩ := n
  rcases hl with rfl | rfl
  · rw [outline, if_neg (by decide), if_neg (by simp), if_pos h]
  · rw [outline, if_neg (by decide), if_neg (by simp), if_pos h]

theorem outline_block (sp : Span) (ss : List Node) : outline cx .body (mk .block sp ss) = (outlines cx (ss.map (lookStmt cx)) ss).flatten := by
  rw [outline, if_neg (by decide), if_pos (by simp)]

theorem outline_body {n : Node} (h : n.kind ≠ .block) : outline cx .body n = outline cx .inner n := by
  obtain ⟨k, sp, cs⟩ := n
  have hk : ¬ (decide (Look.body = Look.body) && decide (k = .block)) = true := by simpa [Node.kind] using h
  unfold outline
  rw [if_neg (by decide), if_neg hk]
  rfl

theorem outlines_map {f : Node → Look} (cs : List Node) : outlines cx (cs.map f) cs = cs.map fun c => outline cx (f c) c := by
  induction cs with
  | nil => rfl
  | cons c cs ih => simp only [List.map_cons, outlines, ih]

theorem excluded_of_hint {l : Look} {n : Node} (h : cx.hint n.span ≠ some .next) : excluded cx l n = false := by
  unfold excluded Ctx.hinted
  simp [h]

theorem outline_counterExpr {l : Look} (c : Counter) : outline cx l (counterExpr c) = [] := by
  cases l
  · exact outline_skip _
  · exact outline_eq (.inl rfl) (by simp [excluded, counterExpr, hintable, isCase, Node.kind])
  · exact outline_eq (.inr rfl) (by simp [excluded, counterExpr, hintable, isCase, Node.kind])
  · rw [outline_body (by simp [counterExpr, Node.kind])]
    exact outline_eq (.inr rfl) (by simp [excluded, counterExpr, hintable, isCase, Node.kind])

theorem outline_counterStmt {l : Look} (hl : l = .skip ∨ Plain l) (id : Nat) : outline cx l (counterStmt (.f id)) = [] := by
  rcases hl with rfl | hl
  · exact outline_skip _
  · cases h : excluded cx l (counterStmt (.f id))
    · rw [outline_eq hl h]
      show [] ++ ([outline cx l (counterExpr (.f id))] : List (List Entry)).flatten = []
      rw [outline_counterExpr]
      rfl
    · exact outline_excluded hl h

theorem outline_wrapCounter {l : Look} (hl : Plain l) (c : Counter) (e : Node) : outline cx l (wrapCounter c e) = outline cx l e := by
  unfold wrapCounter
  rw [outline_eq hl (by simp [excluded, hintable, isCase, Node.kind])]
  show [] ++ ([outline cx l (mk .seq Span.dummy [counterExpr c, e])] : List (List Entry)).flatten = _
  rw [outline_eq hl (by simp [excluded, hintable, isCase, Node.kind])]
  show [] ++ ([[] ++ ([outline cx l (counterExpr c), outline cx l e] : List (List Entry)).flatten] : List (List Entry)).flatten = _
  rw [outline_counterExpr]
  simp

/-- The same tree as far as the outline is concerned. -/
def Same (cx : Ctx) (n n' : Node) : Prop := Good cx n' ∧ ∀ l, Plain l → outline cx l n' = outline cx l n

theorem Same.refl {n : Node} (h : Good cx n) : Same cx n n := ⟨h, fun _ _ => rfl⟩

theorem Same.wrap {n : Node} (h : Good cx n) (c : Counter) : Same cx n (wrapCounter c n) := ⟨.wrapCounter c h, fun _ hl => outline_wrapCounter hl c n⟩

theorem lookStmt_cases (s : Node) : lookStmt cx s = .skip ∨ Plain (lookStmt cx s) := by
  unfold lookStmt
  split
  · exact .inl rfl
  · exact .inr (.inr rfl)

/-- A counter at the start of a block. -/
theorem Same.block {bsp : Span} {ss : List Node} (h : Good cx (mk .block bsp ss)) (id : Nat) :
    Same cx (mk .block bsp ss) (mk .block bsp (counterStmt (.f id) :: ss)) := by
  refine ⟨.mk_of rfl rfl rfl (Exact.all_cons (.counterStmt _) fun _ hc => h.1.good rfl hc), fun l hl => ?_⟩
  have e : excluded cx l (mk .block bsp (counterStmt (.f id) :: ss)) = excluded cx l (mk .block bsp ss) := rfl
  cases hx : excluded cx l (mk .block bsp ss)
  · rw [outline_eq hl hx, outline_eq hl (e.trans hx)]
    show [] ++ (outline cx (lookStmt cx (counterStmt (.f id))) (counterStmt (.f id)) :: outlines cx (ss.map (lookStmt cx)) ss).flatten = [] ++ (outlines cx (ss.map (lookStmt cx)) ss).flatten
    rw [outline_counterStmt (lookStmt_cases _)]
    rfl
  · rw [outline_excluded hl hx, outline_excluded hl (e.trans hx)]

theorem Same.function {a : String} {sp : Span} {ps ds b b' : Node} (hp : Good cx ps) (hd : Good cx ds) (hb : Same cx b b') :
    Same cx (mk (.function a) sp [ps, ds, b]) (mk (.function a) sp [ps, ds, b']) := by
  refine ⟨.mk_of rfl rfl rfl (Exact.all_cons hp (Exact.all_cons hd (Exact.all_cons hb.1 Exact.all_nil))), fun l hl => ?_⟩
  rw [outline_eq hl (by simp [excluded, hintable, isCase, Node.kind]), outline_eq hl (by simp [excluded, hintable, isCase, Node.kind])]
  show [] ++ ([outline cx l ps, outline cx l ds, outline cx l b'] : List (List Entry)).flatten =
    [] ++ ([outline cx l ps, outline cx l ds, outline cx l b] : List (List Entry)).flatten
  rw [hb.2 l hl]

theorem own_head {n : Node} (hc : counted cx n = []) (hb : n.branch? cx = none) (hf : fnHead cx n = none) : own cx n = [] := by
  unfold own head
  rw [hc, hb, hf]
  rfl

theorem head_body {n : Node} (hb : n.branch? cx = none) (hf : bodyOf n = none) : head cx n = [] := by
  unfold head
  rw [hb, hf]
  cases fnHead cx n <;> rfl

theorem own_body {n : Node} (hc : counted cx n = []) (hb : n.branch? cx = none) (hf : bodyOf n = none) : own cx n = [] := by
  unfold own
  rw [hc, head_body hb hf]
  rfl

theorem head_function {n body : Node} {name : Option String} {decl : Span} (hb : n.branch? cx = none) (hf : fnHead cx n = some (name, decl))
    (ho : bodyOf n = some body) (hk : body.kind = .block ∨ n.isArrow = true) :
    head cx n = [.function name (cx.range decl) (cx.range body.span)] := by
  unfold head
  rw [hb, hf, ho]
  exact if_pos (by simpa using hk)

theorem own_function {n body : Node} {name : Option String} {decl : Span} (hc : counted cx n = []) (hb : n.branch? cx = none)
    (hf : fnHead cx n = some (name, decl)) (ho : bodyOf n = some body) (hk : body.kind = .block ∨ n.isArrow = true) :
    own cx n = [.function name (cx.range decl) (cx.range body.span)] := by
  unfold own
  rw [hc, head_function hb hf ho hk]
  rfl

theorem own_unbodied {n body : Node} (hc : counted cx n = []) (hb : n.branch? cx = none) (ho : bodyOf n = some body) (hk : body.kind ≠ .block)
    (ha : n.isArrow = false) : own cx n = [] := by
  unfold own head
  rw [hc, hb, ho]
  cases fnHead cx n with
  | none => rfl
  | some x => exact if_neg (by simp [hk, ha])

theorem own_branch {n : Node} {t : BranchType} {l : List Range} (hb : n.branch? cx = some (t, l)) :
    own cx n = counted cx n ++ [.branch t (cx.range n.span) l] := by
  unfold own head
  rw [hb]

/-! ### Reports -/

/-- The branches, functions and statements of the report so far. -/
structure Is (c : SourceCoverage) (B : List Branch) (F : List Function) (U : List (Range × Bool)) : Prop where
  lastB : c.lastB = B.length
  branches : ∀ k, c.inner.branchMap.get k = B[k]?
  lastF : c.lastF = F.length
  functions : ∀ k, c.inner.fnMap.get k = F[k]?
  statements : ∃ S, Picks U S ∧ c.lastS = S.length ∧ ∀ k, c.inner.statementMap.get k = S[k]?

theorem picks_append {α : Type} {U V : List (α × Bool)} {S T : List α} (h : Picks U S) (h' : Picks V T) : Picks (U ++ V) (S ++ T) := by
  induction h with
  | nil => exact h'
  | take _ ih => exact .take ih
  | drop _ ih => exact .drop ih

/-- The branches if one of them gets more arms. -/
def grow (b : Nat) (l : List Range) (B : List Branch) : List Branch := B.modify b fun br => { br with locations := br.locations ++ l }

theorem grow_nil (b : Nat) (B : List Branch) : grow b [] B = B := by
  unfold grow
  refine List.ext_getElem? fun k => ?_
  rw [List.getElem?_modify]
  cases B[k]? <;> simp

theorem getElem?_grow (b : Nat) (l : List Range) (B : List Branch) (k : Nat) :
    (grow b l B)[k]? = B[k]?.map fun br => if k = b then { br with locations := br.locations ++ l } else br := by
  unfold grow
  rw [List.getElem?_modify]
  by_cases h : b = k
  · subst h; cases B[b]? <;> simp
  · cases B[k]? <;> simp [h, Ne.symm h]

theorem grow_grow (b : Nat) (l l' : List Range) (B : List Branch) : grow b l' (grow b l B) = grow b (l ++ l') B := by
  refine List.ext_getElem? fun k => ?_
  simp only [getElem?_grow]
  cases B[k]? with
  | none => rfl
  | some br => by_cases h : k = b <;> simp [h]

theorem length_grow (b : Nat) (l : List Range) (B : List Branch) : (grow b l B).length = B.length := List.length_modify ..

theorem grow_append {b : Nat} {l : List Range} {B : List Branch} (h : l = [] ∨ b < B.length) (C : List Branch) : grow b l (B ++ C) = grow b l B ++ C := by
  rcases h with rfl | h
  · simp [grow_nil]
  · refine List.ext_getElem? fun k => ?_
    rw [getElem?_grow, List.getElem?_append, List.getElem?_append, length_grow, getElem?_grow]
    by_cases hk : k < B.length
    · rw [if_pos hk, if_pos hk]
    · rw [if_neg hk, if_neg hk]
      cases C[k - B.length]? with
      | none => rfl
      | some br => simp [show k ≠ b by omega]

theorem branches_append (E E' : List Entry) : Entry.branches (E ++ E') = Entry.branches E ++ Entry.branches E' := by
  induction E with
  | nil => rfl
  | cons e E ih => cases e <;> simp [Entry.branches, ih]

theorem functions_append (k : Nat) (E E' : List Entry) :
    Entry.functions k (E ++ E') = Entry.functions k E ++ Entry.functions (k + (Entry.functions k E).length) E' := by
  induction E generalizing k with
  | nil => rfl
  | cons e E ih =>
    cases e with
    | function n d l =>
      simp only [List.cons_append, Entry.functions, ih, List.length_cons]
      rw [show k + ((Entry.functions (k + 1) E).length + 1) = k + 1 + (Entry.functions (k + 1) E).length by omega]
    | branch t r a => simp [Entry.functions, ih]
    | statement r sure => simp [Entry.functions, ih]

theorem statements_append (E E' : List Entry) : Entry.statements (E ++ E') = Entry.statements E ++ Entry.statements E' := by
  induction E with
  | nil => rfl
  | cons e E ih => cases e <;> simp [Entry.statements, ih]

/-- From a state in which not everything is ignored, the computation goes to such a state. Branch `b` got the arms `l`, and the entries `E` were added. -/
def Goes (b : Nat) (l : List Range) (E : List Entry) (x : M α) (P : α → Prop) : Prop :=
  ∀ st a s B F U, st.ignore ≠ some .next → Is st.cov B F U → (l = [] ∨ b < B.length) → x st = .ok (a, s) →
    P a ∧ s.ignore ≠ some .next ∧ Is s.cov (grow b l B ++ Entry.branches E) (F ++ Entry.functions F.length E) (U ++ Entry.statements E)

namespace Goes
variable {b : Nat} {l l' : List Range} {E E' : List Entry} {α β : Type} {P : α → Prop} {Q : β → Prop}

/-- A computation that changes neither the scope nor the report. -/
theorem neutral {x : M α} (hx : ∀ st a s, st.ignore ≠ some .next → x st = .ok (a, s) → P a ∧ s.ignore = st.ignore ∧
    (s.cov.lastB = st.cov.lastB ∧ s.cov.inner.branchMap = st.cov.inner.branchMap) ∧
      (s.cov.lastF = st.cov.lastF ∧ s.cov.inner.fnMap = st.cov.inner.fnMap) ∧
        s.cov.lastS = st.cov.lastS ∧ s.cov.inner.statementMap = st.cov.inner.statementMap) : Goes b [] [] x P := by
  intro st a s B F U hi h0 _ hs
  obtain ⟨p, h1, ⟨h2, h3⟩, ⟨h4, h5⟩, h6, h7⟩ := hx st a s hi hs
  refine ⟨p, h1 ▸ hi, ?_⟩
  rw [grow_nil]
  simp only [Entry.branches, Entry.functions, Entry.statements, List.append_nil]
  exact ⟨h2.trans h0.lastB, fun k => by rw [h3]; exact h0.branches k, h4.trans h0.lastF, fun k => by rw [h5]; exact h0.functions k,
    by rw [h6, h7]; exact h0.statements⟩

theorem pure {a : α} (h : P a) : Goes b [] [] (Pure.pure a : M α) P :=
  neutral fun st a' s _ hs => by cases hs; exact ⟨h, rfl, ⟨rfl, rfl⟩, ⟨rfl, rfl⟩, rfl, rfl⟩

theorem bind {x : M α} {f : α → M β} (hx : Goes b l E x P) (hf : ∀ a, P a → Goes b l' E' (f a) Q) :
    Goes b (l ++ l') (E ++ E') (x >>= f) Q := by
  intro st c s B F U hi h0 hb h
  obtain ⟨a, s1, h1, h2⟩ := M.bind_ok h
  obtain ⟨p, i1, g1⟩ := hx st a s1 B F U hi h0 (hb.imp_left fun h => (List.append_eq_nil_iff.1 h).1) h1
  have hb' := hb.imp_left fun h => (List.append_eq_nil_iff.1 h).2
  obtain ⟨q, i2, g2⟩ := hf a p s1 c s _ _ _ i1 g1 (hb'.imp_right fun h => by rw [List.length_append, length_grow]; omega) h2
  refine ⟨q, i2, ?_⟩
  rw [grow_append (hb'.imp_right fun h => by rw [length_grow]; omega), grow_grow, List.append_assoc, ← branches_append, List.append_assoc,
    List.length_append, ← functions_append, List.append_assoc, ← statements_append] at g2
  exact g2

/-- First something that adds nothing. -/
theorem first {x : M α} {f : α → M β} (hx : Goes b [] [] x P) (hf : ∀ a, P a → Goes b l E (f a) Q) : Goes b l E (x >>= f) Q := bind hx hf

/-- Finally something that adds nothing. -/
theorem last {x : M α} {f : α → M β} (hx : Goes b l E x P) (hf : ∀ a, P a → Goes b [] [] (f a) Q) : Goes b l E (x >>= f) Q := by
  have := bind hx hf
  rwa [List.append_nil, List.append_nil] at this

theorem imp {x : M α} {P' : α → Prop} (hx : Goes b l E x P) (h : ∀ a, P a → P' a) : Goes b l E x P' := fun st a s B F U hi h0 hb hs => by
  obtain ⟨p, g⟩ := hx st a s B F U hi h0 hb hs
  exact ⟨h a p, g⟩

theorem keepIf {p : Prop} [Decidable p] {a : α} {x : M α} (ha : P a) (hx : Goes b l E x P) :
    Goes b (if p then [] else l) (if p then [] else E) (keepIf p a x) P := by
  unfold Visitor.keepIf
  split
  · exact pure ha
  · exact hx

theorem keepIf' {p : Prop} [Decidable p] {a : α} {x : M α} (ha : P a) (hx : Goes b [] [] x P) : Goes b [] [] (Visitor.keepIf p a x) P := by
  have := keepIf (p := p) ha hx
  rwa [ite_self, ite_self] at this

theorem ite {p : Prop} [Decidable p] {x y : M α} (hx : p → Goes b l E x P) (hy : ¬p → Goes b l E y P) :
    Goes b l E (if p then x else y) P := by
  split
  · next h => exact hx h
  · next h => exact hy h

theorem frame {t : Tag} {sp : Span} {body : Option IgnoreScope → M α} (hh : cx.hint sp ≠ some .next)
    (hb : Goes b l E (body (cx.hint sp)) P) : Goes b l E (frame cx t sp body) P := by
  intro st a s B F U hi h0 hl h
  unfold Visitor.frame at h
  obtain ⟨⟨old, cur⟩, s1, h1, h2⟩ := M.bind_ok h
  simp only [enter, Visitor.push, enterSpan, Bind.bind, M.bind] at h1
  rw [if_neg hi] at h1
  cases h1
  obtain ⟨r, s2, h3, h4⟩ := M.bind_ok h2
  cases h4
  obtain ⟨p, _, g⟩ := hb { st with nodes := t :: st.nodes, ignore := cx.hint sp } _ _ B F U hh h0 hl h3
  exact ⟨p, hi, g⟩

theorem guarded {t : Tag} {n : Node} {body : M Node} {P : Node → Prop} (hh : cx.hint n.span ≠ some .next) (hb : Goes b l E body P) :
    Goes b l E (guarded cx t n body) P := by
  refine frame hh ?_
  rw [if_neg hh]
  exact hb

theorem hinted {t : Tag} {n : Node} {body : M Node} {P : Node → Prop} (hh : cx.hint n.span = some .next) (hn : P n) :
    Goes b [] [] (Visitor.guarded cx t n body) P := neutral fun st a s hi h => by
  obtain ⟨rfl, rfl⟩ := guarded_hinted hh h
  exact ⟨hn, rfl, ⟨rfl, rfl⟩, ⟨rfl, rfl⟩, rfl, rfl⟩

theorem fresh {ig : Option IgnoreScope} {x : M α} (hig : ig ≠ some .next) (hx : Goes b l E x P) :
    Goes b l E (fresh ig x) (fun r => P r.1) := by
  intro st a s B F U hi h0 hl h
  unfold Visitor.fresh at h
  cases hxs : x { st with before := [], ignore := ig } with
  | error e => rw [hxs] at h; cases h
  | ok r =>
    obtain ⟨a1, st1⟩ := r
    rw [hxs] at h
    cases h
    obtain ⟨p, _, g⟩ := hx { st with before := [], ignore := ig } _ _ B F U hig h0 hl hxs
    exact ⟨p, hi, g⟩

theorem bracket {t : Tag} {x : M α} (hx : Goes b l E x P) : Goes b l E (do push t; let r ← x; pop; Pure.pure r) P :=
  first (P := fun _ => True) (neutral fun st a st' _ h => by cases h; exact ⟨trivial, rfl, ⟨rfl, rfl⟩, ⟨rfl, rfl⟩, rfl, rfl⟩) fun _ _ => last hx fun a ha =>
    first (P := fun _ => True) (neutral fun st a st' _ h => by cases h; exact ⟨trivial, rfl, ⟨rfl, rfl⟩, ⟨rfl, rfl⟩, rfl, rfl⟩) fun _ _ => pure ha

theorem newStatement (r : Range) (sure : Bool) : Goes b [] [.statement r sure] (newStatement r) (fun _ => True) := by
  intro st a s B F U hi h0 _ h
  cases h
  refine ⟨trivial, hi, ?_⟩
  rw [grow_nil]
  simp only [Entry.branches, Entry.functions, Entry.statements, List.append_nil]
  obtain ⟨S, h1, h2, h3⟩ := h0.statements
  refine ⟨h0.lastB, h0.branches, h0.lastF, h0.functions, S ++ [r], picks_append h1 (.take .nil), by simp [SourceCoverage.newStatement, h2], fun k => ?_⟩
  show IndexMap.get (IndexMap.insert _ _ _) k = _
  rw [IndexMap.get_insert, h3, h2, List.getElem?_append]
  rcases Nat.lt_trichotomy k S.length with h | rfl | h
  · rw [if_neg (by omega), if_pos h]
  · rw [if_pos rfl, if_neg (by omega)]
    simp
  · rw [if_neg (by omega), if_neg (by omega), List.getElem?_eq_none (by omega), List.getElem?_eq_none (by simp; omega)]

theorem mark (sp : Span) (sure : Bool) : Goes b [] [.statement (cx.range sp) sure] (mark cx sp) (fun _ => True) :=
  last (newStatement _ sure) fun id _ => neutral fun st a st' _ h => by cases h; exact ⟨trivial, rfl, ⟨rfl, rfl⟩, ⟨rfl, rfl⟩, rfl, rfl⟩

/-- Only the order of entries of the same sort matters. -/
theorem same {x : M α} (hx : Goes b l E x P) (h1 : Entry.branches E' = Entry.branches E) (h2 : ∀ k, Entry.functions k E' = Entry.functions k E)
    (h3 : Entry.statements E' = Entry.statements E) : Goes b l E' x P := by
  intro st a s B F U hi h0 hl h
  rw [h1, h2, h3]
  exact hx st a s B F U hi h0 hl h

/-- What is not sure may be missing. -/
theorem unsure {x : M α} {r : Range} (hx : Goes b l [] x P) : Goes b l [.statement r false] x P := by
  intro st a s B F U hi h0 hl h
  obtain ⟨p, i, g⟩ := hx st a s B F U hi h0 hl h
  obtain ⟨S, h1, h2⟩ := g.statements
  simp only [Entry.branches, Entry.functions, Entry.statements, List.append_nil] at g h1 ⊢
  refine ⟨p, i, g.lastB, g.branches, g.lastF, g.functions, S, ?_, h2⟩
  have := picks_append h1 (.drop (a := r) .nil)
  rwa [List.append_nil] at this

theorem newFunction (n : Option String) (d r : Range) : Goes b [] [.function n d r] (newFunction n d r) (fun _ => True) := by
  intro st a s B F U hi h0 _ h
  cases h
  refine ⟨trivial, hi, ?_⟩
  rw [grow_nil]
  simp only [Entry.branches, Entry.functions, Entry.statements, List.append_nil]
  refine ⟨h0.lastB, h0.branches, by simp [SourceCoverage.newFunction, h0.lastF], fun k => ?_, h0.statements⟩
  show IndexMap.get (IndexMap.insert _ _ _) k = _
  rw [IndexMap.get_insert, h0.functions, h0.lastF, List.getElem?_append]
  rcases Nat.lt_trichotomy k F.length with h | rfl | h
  · rw [if_neg (by omega), if_pos h]
  · rw [if_pos rfl, if_neg (by omega)]
    cases n <;> simp
  · rw [if_neg (by omega), if_neg (by omega), List.getElem?_eq_none (by omega), List.getElem?_eq_none (by simp; omega)]

theorem addPath (r : Range) : Goes b [r] [] (addPath b r) (fun _ => True) := by
  intro st a s B F U hi h0 hl h
  unfold Visitor.addPath at h
  cases h1 : st.cov.addBranchPath b r with
  | error e => rw [h1] at h; cases h
  | ok x =>
    obtain ⟨c, i⟩ := x
    rw [h1] at h
    cases h
    obtain ⟨e1, -, e2⟩ := addBranchPath_ok h1
    obtain ⟨⟨e3, e4⟩, e5, e6⟩ := Operand.addBranchPath_functions h1
    simp only [Entry.branches, Entry.functions, Entry.statements, List.append_nil]
    refine ⟨trivial, hi, by rw [length_grow]; exact e1.trans h0.lastB, fun k => ?_, e3.trans h0.lastF, fun k => by rw [e4]; exact h0.functions k,
      by rw [e5, e6]; exact h0.statements⟩
    rw [e2, IndexMap.get_modify, getElem?_grow, ← h0.branches]
    by_cases h : b = k
    · subst h; simp
    · rw [if_neg h]
      cases st.cov.inner.branchMap.get k <;> simp [Ne.symm h]

/-- Registration of a branch, followed by what adds all its arms. -/
theorem newBranch {b0 : Nat} {t : BranchType} {r : Range} {g : Bool} {f : Nat → M β} (hf : ∀ b, Goes b l E (f b) Q) :
    Goes b0 [] (.branch t r l :: E) (newBranch t r g >>= f) Q := by
  intro st a s B F U hi h0 _ h
  obtain ⟨b', st1, h1, h2⟩ := M.bind_ok h
  cases h1
  obtain ⟨e1, e2, e3⟩ := newBranch_lastB st.cov t r g
  rw [e2, h0.lastB] at h2
  have e4 : ((st.cov.newBranch t r g).1.lastF = st.cov.lastF ∧ (st.cov.newBranch t r g).1.inner.fnMap = st.cov.inner.fnMap) ∧
      (st.cov.newBranch t r g).1.lastS = st.cov.lastS ∧ (st.cov.newBranch t r g).1.inner.statementMap = st.cov.inner.statementMap := by
    refine ⟨⟨?_, ?_⟩, ?_, ?_⟩ <;>
    · simp only [SourceCoverage.newBranch, SourceCoverage.maybeNewBranchTrue]
      split
      · rfl
      · split <;> rfl
  have hIs : Is (st.cov.newBranch t r g).1 (B ++ [⟨some r, t, [], some r.start.line⟩]) F U := by
    refine ⟨by rw [e1, h0.lastB]; simp, fun k => ?_, e4.1.1.trans h0.lastF, fun k => by rw [e4.1.2]; exact h0.functions k,
      by rw [e4.2.1, e4.2.2]; exact h0.statements⟩
    rw [e3, IndexMap.get_insert, h0.branches, h0.lastB, List.getElem?_append]
    rcases Nat.lt_trichotomy k B.length with h | rfl | h
    · rw [if_neg (by omega), if_pos h]
    · rw [if_pos rfl, if_neg (by omega)]
      simp
    · rw [if_neg (by omega), if_neg (by omega), List.getElem?_eq_none (by omega), List.getElem?_eq_none (by simp; omega)]
  obtain ⟨q, i, gr⟩ := hf B.length { st with cov := (st.cov.newBranch t r g).1 } a s _ F U hi hIs (.inr (by simp)) h2
  refine ⟨q, i, ?_⟩
  have : grow B.length l (B ++ [⟨some r, t, [], some r.start.line⟩]) = B ++ [⟨some r, t, l, some r.start.line⟩] := by
    refine List.ext_getElem? fun k => ?_
    rw [getElem?_grow, List.getElem?_append, List.getElem?_append]
    rcases Nat.lt_trichotomy k B.length with h | rfl | h
    · rw [if_pos h, if_pos h]
      cases B[k]? <;> simp [show k ≠ B.length by omega]
    · simp
    · rw [if_neg (by omega), if_neg (by omega), List.getElem?_eq_none (by simp; omega), List.getElem?_eq_none (by simp; omega)]
      rfl
  rw [this, List.append_assoc] at gr
  rw [grow_nil]
  exact gr

/-- What visits in the scope of expressions do. -/
theorem operand {P' : Node → Prop} {x : M Node} (hx : Operand.Adds b l P' x) : Goes b l [] x fun _ => True := by
  intro st a s B F U hi h0 hl h
  obtain ⟨h1, ⟨_, h2⟩, h3, _⟩ := hx st a s h hi
  obtain ⟨h4, h5⟩ := Prod.mk.inj h2
  obtain ⟨h5, h6⟩ := Prod.mk.inj h5
  simp only [Entry.branches, Entry.functions, Entry.statements, List.append_nil]
  refine ⟨trivial, h1, by rw [h4, length_grow]; exact h0.lastB, fun k => ?_, h5.trans h0.lastF, fun k => by rw [h3.functions.1]; exact h0.functions k,
    by rw [h6, h3.statements.1]; exact h0.statements⟩
  rw [h3.branches, getElem?_grow, h0.branches]

end Goes
end Outline
end Verif
