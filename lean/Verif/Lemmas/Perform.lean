import Verif.Lemmas.Joint
import Verif.Lemmas.Trim
/-
Every execution of an instrumented program takes place in some realm.
-/
namespace Verif.Runtime
open Node Js Template Sem

variable {w : World} {gcv : String} {k : Nat} {V A : Type} {solid : V → Bool} {S : Counter → Prop} {inst : Instance} {boxes : List Box}

/-- The counters of the node are in the set, and it is tidy. -/
def Fine (S : Counter → Prop) (n : Node) : Prop := Within S n ∧ Sem.Tidy n

/-- The same for a task. -/
def TaskFine (S : Counter → Prop) : Task → Prop
  | .node n => All (Fine S) n
  | .list ss => (∀ s ∈ ss, isInjectedItem s = false → All (Fine S) s) ∧ ∀ s ∈ ss, ∀ c, isStmtOf c s = true → S c
  | .turn => True

theorem fine_list {n : Node} {ss : List Node} (h : All (Fine S) n) (hl : look n = .list ss) : TaskFine S (.list ss) :=
  ⟨fun _ hs hi => h.comp (comps_list hl hs hi), (within_list (fun m hm => (h m hm).1) hl).2⟩

theorem fine_tail {s : Node} {ss : List Node} (h : TaskFine S (.list (s :: ss))) : TaskFine S (.list ss) :=
  ⟨fun x hx => h.1 x (List.mem_cons_of_mem _ hx), fun x hx => h.2 x (List.mem_cons_of_mem _ hx)⟩

/-- The expressions, evaluated one after the other, lead from one state to another. -/
def Does (w : World) (env : List Nat) (l : List Expr) (s s' : State) : Prop :=
  ∃ vs, exprs w (call w 2) env (Exprs.ofList l) s = .ok (s', vs)

theorem Does.nil {env : List Nat} {s : State} : Does w env [] s s := ⟨[], rfl⟩

theorem Does.one {env : List Nat} {e : Expr} {s s' : State} {v : Value} (h : eval w env e s = .ok (s', v)) : Does w env [e] s s' :=
  ⟨[v], exprs_cons (vs := []) h rfl⟩

theorem exprs_append {env : List Nat} {l l' : List Expr} {s s1 s' : State} {vs vs' : List Value}
    (h : exprs w (call w 2) env (Exprs.ofList l) s = .ok (s1, vs)) (h' : exprs w (call w 2) env (Exprs.ofList l') s1 = .ok (s', vs')) :
    exprs w (call w 2) env (Exprs.ofList (l ++ l')) s = .ok (s', vs ++ vs') := by
  induction l generalizing s vs with
  | nil =>
    cases h
    exact h'
  | cons e l ih =>
    simp only [Exprs.ofList] at h
    rw [exprs] at h
    cases he : expr w (call w 2) env e s with
    | error x => rw [bind_error he] at h; cases h
    | ok y =>
      obtain ⟨s2, v⟩ := y
      rw [bind_ok he] at h
      cases hl : exprs w (call w 2) env (Exprs.ofList l) s2 with
      | error x => rw [bind_error hl] at h; cases h
      | ok y =>
        obtain ⟨s3, us⟩ := y
        rw [bind_ok hl] at h
        cases h
        exact exprs_cons he (ih hl)

theorem Does.append {env : List Nat} {l l' : List Expr} {s s1 s' : State} (h : Does w env l s s1) (h' : Does w env l' s1 s') :
    Does w env (l ++ l') s s' := by
  obtain ⟨vs, h⟩ := h
  obtain ⟨vs', h'⟩ := h'
  exact ⟨_, exprs_append h h'⟩

theorem seq_bool {env : List Nat} {l : List Expr} {s s' : State} (h : Does w env l s s') (v : Bool) :
    eval w env (.seq (Exprs.ofList (l ++ [.bool v]))) s = .ok (s', .bool v) := by
  obtain ⟨vs, h⟩ := h
  have h1 := exprs_append (l' := [.bool v]) (vs' := [.bool v]) h rfl
  unfold eval
  rw [expr, bind_ok h1]
  show Except.ok (s', (vs ++ [Value.bool v]).getLastD .undef) = _
  rw [List.getLastD_eq_getLast?, List.getLast?_append]
  rfl

/-- A place in the scope of the file stays one. -/
theorem Place.grow {s s' : State} {f : Nat} (h : Place s [f] inst) (hp : s.frames <+: s'.frames) : Place s' [f] inst := by
  obtain ⟨h1, h2, h3, h4⟩ := h
  have hf := h1 f (by simp)
  have hx : s.frames[f]? = s'.frames[f]? := by
    rw [List.getElem?_eq_getElem hf]
    exact (prefix_get hp (List.getElem?_eq_getElem hf)).symm
  have hs : ∀ x, scopeOf s'.frames [f] x = scopeOf s.frames [f] x := fun x => by
    unfold scopeOf
    rw [hx]
    rfl
  refine ⟨fun i hi => ?_, (hs _).trans h2, (hs _).trans h3, (hs _).trans h4⟩
  rw [List.mem_singleton.1 hi]
  exact Nat.lt_of_lt_of_le hf hp.length_le

/-- The instance can go on in the realm. -/
structure Poised (gcv : String) (k : Nat) (S : Counter → Prop) (inst : Instance) (boxes : List Box) (r : Realm) (b : Books) : Prop where
  kept : Kept gcv r b boxes
  inst_ : r.insts[k]? = some inst
  place : Place r.st [inst.1] inst
  cell : ∀ c, S c → b.Allows gcv (.hit k c)

/-- The instance went on in the realm. -/
structure Went (w : World) (gcv : String) (k : Nat) (S : Counter → Prop) (inst : Instance) (boxes : List Box) (r : Realm) (b : Books)
    (r' : Realm) (es : List Event) : Prop where
  ready : Poised gcv k S inst boxes r' (b.after es)
  onward : Onward r b boxes r' (b.after es) boxes
  frames : r.st.frames <+: r'.st.frames
  own : r'.own = r.own
  heap : ∀ a, a < r.st.heap.length → ¬ r.own a → r'.st.heap[a]? = r.st.heap[a]?
  does : ∃ l, Does w [inst.1] l r.st r'.st
  only : ∀ e ∈ es, ∃ c, e = .hit k c

theorem Went.stay {r : Realm} {b : Books} (h : Poised gcv k S inst boxes r b) : Went w gcv k S inst boxes r b r [] :=
  ⟨h, .refl, List.prefix_refl _, rfl, fun _ _ _ => rfl, ⟨[], .nil⟩, nofun⟩

theorem Went.trans {r r1 r2 : Realm} {b : Books} {es es' : List Event} (h : Went w gcv k S inst boxes r b r1 es)
    (h' : Went w gcv k S inst boxes r1 (b.after es) r2 es') : Went w gcv k S inst boxes r b r2 (es ++ es') := by
  obtain ⟨a1, a2, a3, a4, a5, ⟨l, a6⟩, a7⟩ := h
  obtain ⟨b1, b2, b3, b4, b5, ⟨l', b6⟩, b7⟩ := h'
  rw [← after_append] at b1 b2
  refine ⟨b1, a2.trans b2, a3.trans b3, b4.trans a4, fun a h1 h2 => ?_, ⟨l ++ l', a6.append b6⟩,
    fun e he => (List.mem_append.1 he).elim (a7 e) (b7 e)⟩
  exact (b5 a (Nat.lt_of_lt_of_le h1 a2.heap) (by rw [a4]; exact h2)).trans (a5 a h1 h2)

/-- It can evaluate its counters. -/
theorem Poised.count {r : Realm} {b : Books} (h : Poised gcv k S inst boxes r b) {c : Counter} (hc : S c) :
    ∃ r', Counts w k r c r' ∧ Went w gcv k S inst boxes r b r' [.hit k c] := by
  have hcell := h.cell c hc
  obtain ⟨m, hm, e, he, hcnt⟩ := hcell
  obtain ⟨n, hn⟩ := Option.isSome_iff_exists.1 hcnt
  obtain ⟨s, k1, _, k2, k3, k4, k5, k6, _⟩ := h.kept.hit (w := w) h.inst_ h.place.covFn hm he hn
  have hf : r.st.frames <+: s.frames := by rw [k5]; exact List.prefix_append _ _
  exact ⟨r.in_ s, ⟨inst, [inst.1], s, _, h.inst_, h.place.covFn, k1, rfl⟩, ⟨k2, h.inst_, h.place.grow hf, fun c h' => cell_after (h.cell c h') _⟩,
    k3, hf, rfl, fun a _ ha => k6 a ha, ⟨_, .one k1⟩, fun e he => ⟨c, List.mem_singleton.1 he⟩⟩

theorem Poised.scope {r : Realm} {b : Books} (h : Poised gcv k S inst boxes r b) : Poised gcv k S inst boxes (r.in_ r.st.scope) b :=
  ⟨h.kept.scope, h.inst_, h.place.grow (List.prefix_append _ _), h.cell⟩

/-- It can evaluate its truthiness wrappers. -/
theorem Poised.truth {r r2 : Realm} {b : Books} (h : Poised gcv k S inst boxes r b) {es : List Event} {branch arm : Nat}
    (h2 : Went w gcv k S inst boxes (r.in_ r.st.scope) b r2 es) (hc : S (.bT branch arm)) (v : Bool) :
    ∃ operand s, eval w [inst.1] operand r.st.scope = .ok (r2.st, .bool v) ∧
      eval w [inst.1] (truthWrapper inst.2 (tempName inst.2) branch arm operand) r.st = .ok (s, .bool v) ∧
      Went w gcv k S inst boxes r b (r2.in_ s) (es ++ if v then [.hit k (.bT branch arm)] else []) := by
  obtain ⟨a1, a2, a3, a4, a5, ⟨l, a6⟩, a7⟩ := h2
  have hop : eval w [inst.1] (.seq (Exprs.ofList (l ++ [.bool v]))) r.st.scope = .ok (r2.st, .bool v) := seq_bool a6 v
  obtain ⟨s, k1, _, k2, k3, k4, k5⟩ := h.kept.wrapper (w := w) h.inst_ h.place a1.kept a2 hop (fun a ha => by cases ha) a1.place
    (a1.cell _ hc)
  have hv : Js.counted r2.st.heap (.bool v) = v := by cases v <;> rfl
  have hb : b.after (es ++ if v then [.hit k (.bT branch arm)] else []) =
      if Js.counted r2.st.heap (.bool v) then (b.after es).hit k (.bT branch arm) else b.after es := by
    rw [after_append, hv]
    cases v <;> rfl
  rw [← hb] at k2 k3
  have hf : r.st.frames <+: r2.st.frames := (List.prefix_append _ _).trans a3
  refine ⟨_, s, hop, k1, ⟨k2, a1.inst_, a1.place.grow k5, fun c h' => cell_after (h.cell c h') _⟩, ?_, hf.trans k5, a4, ?_,
    ⟨_, .one k1⟩, ?_⟩
  · exact ⟨Nat.le_trans a2.heap k3.heap, a2.insts_.trans k3.insts_, a2.writes.trans k3.writes, List.prefix_refl _, fun a ha => k3.own a (a2.own a ha)⟩
  · intro a h1 h3
    have h4 : a < r2.st.heap.length := Nat.lt_of_lt_of_le h1 a2.heap
    exact (k4 a h4 (by rw [a4]; exact h3)).trans (a5 a h1 h3)
  · intro e he
    rcases List.mem_append.1 he with he | he
    · exact a7 e he
    · cases v
      · cases he
      · exact ⟨_, List.mem_singleton.1 he⟩

/-- Executions take place. -/
theorem performs {st st' : List Node} {t : Task} {tr : List (Ev V A)} {o : Sem.Outcome V A} (h : Run solid st t tr o st') {r : Realm}
    {b : Books} (hr : Poised gcv k S inst boxes r b) (hst : ∀ n ∈ st, Shown (Fine S) n) (ht : TaskFine S t) :
    (∀ n ∈ st', Shown (Fine S) n) ∧ ∃ r' es, Performs w gcv k solid r b st t tr o st' r' es ∧ Went w gcv k S inst boxes r b r' es := by
  induction h generalizing r b with
  | cut => exact ⟨hst, r, [], .cut, .stay hr⟩
  | @counter st n c v hl =>
    obtain ⟨r', h1, h2⟩ := hr.count (w := w) (ht.self.1 c (by unfold imm; rw [hl]; simp))
    exact ⟨hst, r', _, .counter hl h1, h2⟩
  | @wrap st n c e tr o st' hl _ ih =>
    obtain ⟨r1, h1, h2⟩ := hr.count (w := w) (ht.self.1 c (by unfold imm; rw [hl]; simp))
    obtain ⟨h0, r', es, h3, h4⟩ := ih h2.ready hst (ht.comp (comps_wrap hl))
    exact ⟨h0, r', _, .wrap hl h1 h3, h2.trans h4⟩
  | @truth st n c e mid tr v st' hl _ ih =>
    obtain ⟨branch, arm, hm⟩ := ht.self.2 c e mid hl
    obtain ⟨r1, h1, h2⟩ := hr.count (w := w) (ht.self.1 c (by unfold imm; rw [hl]; simp only [if_true]; omega))
    have hT : S (.bT branch arm) := ht.self.1 _ (by
      have h9 : 0 < cc (.bT branch arm) mid := by
        unfold cc
        rw [hm]
        simp
      unfold imm
      rw [hl]
      simp only
      omega)
    obtain ⟨h0, r2, es, h3, h4⟩ := ih h2.ready.scope hst (ht.comp (comps_truth hl))
    obtain ⟨operand, s, h5, h6, h7⟩ := h2.ready.truth h4 hT (v.any solid)
    have h8 := Performs.truth (c := c) hl hm h1 h2.ready.inst_ h2.ready.place h3 h5 (fun a ha => by cases ha) h4.ready.place
      (by cases v.any solid <;> rfl) h6
    refine ⟨h0, _, _, ?_, h2.trans h7⟩
    rw [hm]
    exact h8
  | @truthEnd st n c e mid tr o st' hl _ hn ih =>
    obtain ⟨r1, h1, h2⟩ := hr.count (w := w) (ht.self.1 c (by unfold imm; rw [hl]; simp only [if_true]; omega))
    obtain ⟨h0, r', es, h3, h4⟩ := ih h2.ready hst (ht.comp (comps_truth hl))
    exact ⟨h0, r', _, .truthEnd hl h1 h3 hn, h2.trans h4⟩
  | block hl _ ho _ ih ih' =>
    obtain ⟨h0, r1, es, h1, h2⟩ := ih hr (shown_block hst ht hl) (fine_list ht hl)
    obtain ⟨h0, r2, es', h3, h4⟩ := ih' h2.ready h0 trivial
    exact ⟨h0, r2, _, .block hl h1 ho h3, h2.trans h4⟩
  | blockCut hl _ ih =>
    obtain ⟨h0, r1, es, h1, h2⟩ := ih hr (shown_block hst ht hl) (fine_list ht hl)
    exact ⟨h0, r1, _, .blockCut hl h1, h2⟩
  | node hl _ ih =>
    obtain ⟨h0, r1, es, h1, h2⟩ := ih hr (shown_push hst ht hl) trivial
    exact ⟨h0, r1, _, .node hl h1, h2⟩
  | nil => exact ⟨hst, r, [], .nil, .stay hr⟩
  | @count st sp c sp' cs ss tr o st' _ ih =>
    obtain ⟨r1, h1, h2⟩ := hr.count (w := w) (ht.2 _ List.mem_cons_self c (by simp [isStmtOf]))
    obtain ⟨h0, r', es, h3, h4⟩ := ih h2.ready hst (fine_tail ht)
    exact ⟨h0, r', _, .count h1 h3, h2.trans h4⟩
  | setup hk _ ih =>
    obtain ⟨h0, r', es, h3, h4⟩ := ih hr hst (fine_tail ht)
    exact ⟨h0, r', _, .setup hk h3, h4⟩
  | next hi _ _ ih ih' =>
    obtain ⟨h0, r1, es, h1, h2⟩ := ih hr hst (ht.1 _ List.mem_cons_self hi)
    obtain ⟨h0, r2, es', h3, h4⟩ := ih' h2.ready h0 (fine_tail ht)
    exact ⟨h0, r2, _, .next hi h1 h3, h2.trans h4⟩
  | stop hi _ hn ih =>
    obtain ⟨h0, r1, es, h1, h2⟩ := ih hr hst (ht.1 _ List.mem_cons_self hi)
    exact ⟨h0, r1, _, .stop hi h1 hn, h2⟩
  | answer ho => exact ⟨hst, r, [], .answer ho, .stay hr⟩
  | pick hn hx _ ho _ ih ih' =>
    obtain ⟨h0, r1, es, h1, h2⟩ := ih hr hst (shown_kid (hst _ (List.mem_of_getElem? hn)) hx).2
    obtain ⟨h0, r2, es', h3, h4⟩ := ih' h2.ready h0 trivial
    exact ⟨h0, r2, _, .pick hn hx h1 ho h3, h2.trans h4⟩
  | pickCut hn hx _ ih =>
    obtain ⟨h0, r1, es, h1, h2⟩ := ih hr hst (shown_kid (hst _ (List.mem_of_getElem? hn)) hx).2
    exact ⟨h0, r1, _, .pickCut hn hx h1, h2⟩

/-- Executions of programs take place. -/
theorem executes {p : Node} {tr : List (Ev V A)} {o o' : Sem.Outcome V A} (h : Exec solid p tr o o') (hp : All Sem.Tidy p) {r : Realm}
    {b : Books} (hr : Poised gcv k (· ∈ p.sites) inst boxes r b) :
    ∃ r' es, Executes w gcv k solid p r b tr o o' r' es ∧ Went w gcv k (· ∈ p.sites) inst boxes r b r' es := by
  obtain ⟨tr1, tr2, st1, st2, rfl, h1, h2⟩ := h
  obtain ⟨g0, r1, es1, g1, g2⟩ := performs (w := w) h1 hr nofun fun m hm => ⟨within_sites p m hm, hp m hm⟩
  obtain ⟨-, r2, es2, g3, g4⟩ := performs (w := w) h2 g2.ready g0 trivial
  exact ⟨r2, _, ⟨tr1, tr2, st1, st2, r1, es1, es2, rfl, rfl, g1, g3⟩, g2.trans g4⟩

/-! ### Several instances -/

theorem hitsOn_none {j : Nat} {es : List Event} (h : ∀ e ∈ es, ∃ c, e = .hit k c) (hj : j ≠ k) : hitsOn j es = [] := by
  induction es with
  | nil => rfl
  | cons e es ih =>
    obtain ⟨c, rfl⟩ := h e List.mem_cons_self
    rw [hitsOn, if_neg (Ne.symm hj), ih fun e he => h e (List.mem_cons_of_mem _ he)]

theorem paths_none {paths : List String} {es : List Event} (h : ∀ e ∈ es, ∃ c, e = .hit k c) : pathsAfter paths es = paths := by
  induction es with
  | nil => rfl
  | cons e es ih =>
    obtain ⟨c, rfl⟩ := h e List.mem_cons_self
    exact ih fun e he => h e (List.mem_cons_of_mem _ he)

theorem paths_append (paths : List String) (es fs : List Event) : pathsAfter paths (es ++ fs) = pathsAfter (pathsAfter paths es) fs := by
  induction es generalizing paths with
  | nil => rfl
  | cons e es ih =>
    cases e with
    | load i => exact ih _
    | hit n c => exact ih _

/-- An instance is not hit before it is there. -/
theorem hitsOn_early {b : Books} {paths : List String} {es : List Event} (hs : Sane b paths) (ha : b.AllowsAll gcv es)
    (hk : (pathsAfter paths es).length ≤ k) : hitsOn k es = [] := by
  induction es generalizing b paths with
  | nil => rfl
  | cons e es ih =>
    cases e with
    | load i => exact ih (hs.load i) ha.2 hk
    | hit n c =>
      have h1 := (pathsAfter_prefix paths es).length_le
      have h2 := ih (hs.hit n c) ha.2 hk
      obtain ⟨m, hm, _⟩ := ha.1
      have h3 : n < b.writes.length := lt_of_getElem? hm
      have h4 := hs.len
      have h5 : (pathsAfter paths es).length ≤ k := hk
      rw [hitsOn, if_neg (by omega), h2]

/-- The realm may go on. -/
theorem Ran.extend {st : State} {path : String} {p : Node} {r r' : Realm} {es es' : List Event} {tr : List (Ev V A)}
    (h : Ran w gcv st path solid p r es k tr) (hl : Lives w gcv r (Books.empty.after es) r' es') (hn : hitsOn k es' = []) :
    Ran w gcv st path solid p r' (es ++ es') k tr := by
  obtain ⟨r1, es1, es2, o, o', rfl, h2, h3, h4, ⟨tr1, tr2, st1, st2, r2, fs1, fs2, rfl, rfl, h5, h6⟩, h7, h8⟩ := h
  refine ⟨r1, es1, fs1 ++ (fs2 ++ es'), o, o', by simp, h2, h3, h4, ⟨tr1, tr2, st1, st2, r2, fs1, fs2 ++ es', rfl, rfl, h5, .behind h6 ?_ hn⟩, h7, h8⟩
  rw [after_append, after_append] at hl
  exact hl

/-- A file is loaded: its instance can run. -/
theorem Kept.poised {r : Realm} {b : Books} (h : Kept gcv r b boxes) (hg : gcv ≠ "__proto__") {i : Input} (hp : Proper gcv i)
    (hne : i.covFn ≠ "Array" ∧ i.covFn ≠ "Object") (hc : ∀ c, S c → (b.load i).Allows gcv (.hit b.writes.length c)) :
    ∃ st f boxes', Js.load w (prelude i) r.st = .ok (st, f) ∧
      Poised gcv b.writes.length S (f, i.covFn) boxes' (r.loaded st (f, i.covFn)) (b.load i) ∧ r.st.heap.length ≤ st.heap.length ∧
      ∀ a, a < r.st.heap.length → a ≠ globalObj → ¬ r.own a → st.heap[a]? = r.st.heap[a]? := by
  obtain ⟨st, f, boxes', k1, _, k2, k3, k4, -, -⟩ := h.load (w := w) hg hp
  refine ⟨st, f, boxes', k1, ⟨k2, ?_, ?_, hc⟩, k3.heap, fun a h1 h2 h3 => k4.rest a h1 h2 fun hr => h3 (h.owned.reg a hr)⟩
  · rw [← h.inv.lenw]
    exact List.getElem?_concat_length
  · obtain ⟨g, fa, g1, g2, -, -, g3⟩ := k4.fn
    have hlt : f < st.frames.length := lt_of_getElem? g1
    have hs : ∀ x, scopeOf st.frames [f] x = if (g.get x).isSome then some f else none := fun x => by
      show (match st.frames[f]? with | none => _ | some f' => if (f'.get x).isSome then some f else scopeOf st.frames [] x) = _
      rw [show st.frames[f]? = some g from g1]
      rfl
    refine ⟨fun j hj => ?_, ?_, ?_, ?_⟩
    · rw [List.mem_singleton.1 hj]
      exact hlt
    · refine (hs _).trans ?_
      rw [show g.get i.covFn = _ from g2]
      rfl
    · refine (hs _).trans ?_
      rw [g3 _ (Ne.symm hne.1)]
      rfl
    · refine (hs _).trans ?_
      rw [g3 _ (Ne.symm hne.2)]
      rfl

/-- Instances of a file are loaded one after the other, and each executes the program in its own way. -/
theorem performed_all {st : State} (hpr : Pristine gcv st) {i : Input} (hprop : Proper gcv i)
    (hne : i.covFn ≠ "Array" ∧ i.covFn ≠ "Object") {p : Node} (hp : All Sem.Tidy p) (hcount : ∀ c ∈ p.sites, (i.data.count c).isSome)
    (trs : List (List (Ev V A))) (hx : ∀ tr ∈ trs, Complete solid p tr) {r : Realm} {es : List Event}
    (hl : Lives w gcv (.new st) .empty r es) (hk : Kept gcv r (Books.empty.after es) boxes) (hi : ∀ j, Event.load j ∈ es → j = i)
    (h0 : es = [] ∨ ∃ fs, es = .load i :: fs) :
    ∃ r' es', Lives w gcv r (Books.empty.after es) r' es' ∧ (∀ j, Event.load j ∈ es' → j = i) ∧
      pathsAfter [] (es ++ es') = pathsAfter [] es ++ List.replicate trs.length i.path ∧
      (∀ j tr, trs[j]? = some tr → Ran w gcv st i.path solid p r' (es ++ es') ((pathsAfter [] es).length + j) tr) ∧
      (∀ k, k < (pathsAfter [] es).length → hitsOn k es' = []) ∧
      (∀ a, a < r.st.heap.length → a ≠ globalObj → ¬ r.own a → r'.st.heap[a]? = r.st.heap[a]?) ∧
      (trs ≠ [] → ∃ fs, es' = .load i :: fs) := by
  induction trs generalizing r es boxes with
  | nil => exact ⟨r, [], .stay _ _, nofun, by simp, nofun, fun _ _ => rfl, fun _ _ _ _ => rfl, fun h => absurd rfl h⟩
  | cons tr trs ih =>
    obtain ⟨o, o', hex, ho, ho'⟩ := hx tr List.mem_cons_self
    have hlen : (pathsAfter [] es).length = (Books.empty.after es).writes.length := (Sane.empty.after es).len
    have hpath : pathsAfter [] (es ++ [.load i]) = pathsAfter [] es ++ [i.path] := paths_append _ _ _
    have hcells : ∀ c ∈ p.sites, ((Books.empty.after es).load i).Allows gcv (.hit (Books.empty.after es).writes.length c) := by
      intro c hc
      have h1 : (pathsAfter [] (es ++ [.load i]))[(Books.empty.after es).writes.length]? = some i.path := by
        rw [hpath, ← hlen]
        exact List.getElem?_concat_length
      have h2 : ∃ fs, es ++ [.load i] = [] ++ .load i :: fs ∧ ∀ j, Event.load j ∈ fs → j = i := by
        rcases h0 with rfl | ⟨fs, rfl⟩
        · exact ⟨[], rfl, nofun⟩
        · refine ⟨fs ++ [.load i], rfl, fun j hj => ?_⟩
          rcases List.mem_append.1 hj with hj | hj
          · exact hi j (List.mem_cons_of_mem _ hj)
          · cases List.mem_singleton.1 hj
            rfl
      obtain ⟨fs, h2, h3⟩ := h2
      have h4 := cells_of_loaded (gcv := gcv) (pre := []) (es := fs) (es2 := []) (by nofun) (fun j hj _ => by rw [h3 j hj])
        (by rw [List.append_nil, h2]) h1 (hcount c hc)
      rwa [after_snoc] at h4
    obtain ⟨s1, f, boxes1, k1, k2, k3, k4⟩ := hk.poised (w := w) hpr.proto hprop hne hcells
    rw [← hlen, show (Books.empty.after es).load i = Books.empty.after (es ++ [.load i]) by rw [after_snoc]; rfl] at k2
    obtain ⟨r2, es2, k5, k6⟩ := executes (w := w) hex hp k2
    obtain ⟨-, k7, -⟩ := k5.lives k2.cell
    have l1 : Lives w gcv r (Books.empty.after es) (r.loaded s1 (f, i.covFn)) [.load i] := .load (.stay _ _) hprop k1
    have l2 : Lives w gcv (.new st) .empty (r.loaded s1 (f, i.covFn)) (es ++ [.load i]) := hl.append l1
    have hk2 := k6.ready.kept
    rw [← after_append] at hk2
    have hnoload : ∀ j, Event.load j ∉ es2 := fun j hj => by
      obtain ⟨c, hc⟩ := k6.only _ hj
      cases hc
    obtain ⟨r', es3, m1, m2, m3, m4, m5, m6, -⟩ := ih (fun x hx' => hx x (List.mem_cons_of_mem _ hx')) (l2.append k7) hk2 (by
      intro j hj
      rcases List.mem_append.1 hj with hj | hj
      · rcases List.mem_append.1 hj with hj | hj
        · exact hi j hj
        · cases List.mem_singleton.1 hj
          rfl
      · exact absurd hj (hnoload j)) (by
      rcases h0 with rfl | ⟨fs, rfl⟩
      · exact .inr ⟨_, rfl⟩
      · exact .inr ⟨_, rfl⟩)
    have hpath2 : pathsAfter [] (es ++ [.load i] ++ es2) = pathsAfter [] es ++ [i.path] := by
      rw [paths_append, paths_none k6.only, hpath]
    have hplen : (pathsAfter [] (es ++ [.load i] ++ es2)).length = (pathsAfter [] es).length + 1 := by rw [hpath2]; simp
    rw [hplen] at m4 m5
    have hes : es ++ [.load i] ++ es2 ++ es3 = es ++ (.load i :: (es2 ++ es3)) := by simp
    have l3 : Lives w gcv r (Books.empty.after es) r' (.load i :: (es2 ++ es3)) := by
      rw [after_append, after_append] at m1
      rw [after_append] at k7
      exact l1.append (k7.append m1)
    refine ⟨r', .load i :: (es2 ++ es3), l3, ?_, ?_, ?_, ?_, ?_, fun _ => ⟨_, rfl⟩⟩
    · intro j hj
      rcases List.mem_cons.1 hj with hj | hj
      · cases hj
        rfl
      · rcases List.mem_append.1 hj with hj | hj
        · exact absurd hj (hnoload j)
        · exact m2 j hj
    · rw [← hes, m3, hpath2, List.length_cons, List.append_assoc, List.singleton_append]
      rfl
    · intro j tr' hj
      rw [← hes]
      cases j with
      | zero =>
        cases hj
        have h0 : hitsOn (pathsAfter [] es).length (es ++ [.load i]) = [] := by
          rw [hitsOn_append, hitsOn_early Sane.empty (hl.keeps hpr.proto (Kept.start hpr)).1 (Nat.le_refl _)]
          rfl
        refine Ran.extend ⟨_, _, es2, o, o', rfl, l2, ?_, h0, k5, ho, ho'⟩ m1 (m5 _ (by omega))
        rw [hpath]
        exact List.getElem?_concat_length
      | succ j =>
        have := m4 j tr' hj
        rwa [show (pathsAfter [] es).length + 1 + j = (pathsAfter [] es).length + (j + 1) by omega] at this
    · intro k hk'
      show hitsOn k (es2 ++ es3) = []
      rw [hitsOn_append, hitsOn_none k6.only (by omega), m5 k (by omega)]
      rfl
    · intro a h1 h2 h3
      have h4 : ¬ (r.loaded s1 (f, i.covFn)).own a := by
        rintro (h | h)
        · exact h3 h
        · omega
      have h5 : a < (r.loaded s1 (f, i.covFn)).st.heap.length := Nat.lt_of_lt_of_le h1 k3
      have h6 : a < r2.st.heap.length := Nat.lt_of_lt_of_le h5 k6.onward.heap
      exact ((m6 a h6 h2 (by rw [k6.own]; exact h4)).trans (k6.heap a h5 h4)).trans (k4 a h1 h2 h3)

end Verif.Runtime
