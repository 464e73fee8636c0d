import Verif.Lemmas.Life
/-
C30 and C33 for whole lives of a realm: between the loads and the counters the program may run any code that keeps
its hands off the coverage code, including code that changes existing objects and scopes, and operands of
truthiness wrappers may do all of this in turn.
-/
namespace Verif
open Runtime Js Template

/-- C30. Through the whole life of a realm the coverage object has entries for exactly the paths that were loaded,
and each entry shows the data that the books have for it. -/
theorem C30_life_partial (w : World) {gcv : String} {st : State} (hp : Pristine gcv st) {r : Realm} {es : List Event}
    (h : Lives w gcv (.new st) .empty r es) :
    (∀ path i c, (Books.empty.after es).at path = some (i, c) → Reports gcv r.st path i c) ∧
      ∀ path ps, registry gcv r.st = some ps → ((ps.get path).isSome ↔ ((Books.empty.after es).at path).isSome) := by
  obtain ⟨_, boxes, hk, _⟩ := h.keeps hp.proto (Kept.start hp)
  exact ⟨fun path i c hat => hk.inv.reports hat, hk.inv.listed⟩

/-- C30. Counts accumulate through the whole life of a realm: the entry of a file that is loaded with one hash only
shows the initial data of its first load with all hits of all its instances added. -/
theorem C30_life_accumulates_partial (w : World) {gcv : String} {st : State} (hp : Pristine gcv st) {r : Realm}
    (pre es : List Event) (i : Input) (hfirst : ∀ j, Event.load j ∈ pre → j.path ≠ i.path)
    (hsame : SameHash i.path i.hash es) (h : Lives w gcv (.new st) .empty r (pre ++ .load i :: es)) :
    Reports gcv r.st i.path i (i.data.hits (hitsOf i.path [] (pre ++ .load i :: es))) :=
  (C30_life_partial w hp h).1 _ _ _ (at_accumulated pre es i hfirst hsame)

/-- C30. At any time of the life of a realm a file can be loaded: no exception is thrown, no user code is run, and
apart from the objects of the coverage code and the coverage variable nothing is changed. -/
theorem C30_life_loads_partial (w : World) {gcv : String} {st : State} (hp : Pristine gcv st) {r : Realm}
    {es : List Event} (h : Lives w gcv (.new st) .empty r es) {i : Input} (hi : Proper gcv i) :
    ∃ st' f, Js.load w (prelude i) r.st = .ok (st', f) ∧ st'.log = r.st.log ∧
      (∀ a, a < r.st.heap.length → a ≠ globalObj → ¬ r.own a → st'.heap[a]? = r.st.heap[a]?) ∧
      (∀ gs, r.st.heap[globalObj]? = some ⟨.plain, some objectProto, gs⟩ →
        ∃ gs', st'.heap[globalObj]? = some ⟨.plain, some objectProto, gs'⟩ ∧ ∀ k, k ≠ gcv → gs'.get k = gs.get k) ∧
      (∀ n, n < r.st.frames.length → st'.frames[n]? = r.st.frames[n]?) ∧
      Lives w gcv (.new st) .empty (r.loaded st' (f, i.covFn)) (es ++ [.load i]) := by
  obtain ⟨_, boxes, hk, _⟩ := h.keeps hp.proto (Kept.start hp)
  obtain ⟨st', f, boxes', k1, k2, _, _, k3, ⟨T, k4⟩, _⟩ := hk.load (w := w) hp.proto hi
  refine ⟨st', f, k1, k2, fun a h1 h2 h3 => k3.rest a h1 h2 fun hr => h3 (hk.owned.reg a hr), k3.global, ?_,
    .load h hi k1⟩
  intro n hn
  rw [← k4, List.getElem?_append_left hn]

/-- C33. A counter, evaluated at any time of the life of a realm where the coverage function is visible, yields the
old count and adds one to its cell; no user code is run, and no object or scope that does not belong to the coverage
code is changed. -/
theorem C33_life_counter_partial (w : World) {gcv : String} {st : State} (hp : Pristine gcv st) {r : Realm}
    {es : List Event} (h : Lives w gcv (.new st) .empty r es) {k : Nat} {inst : Instance}
    (hk : r.insts[k]? = some inst) {env : List Nat} (hs : scopeOf r.st.frames env inst.2 = some inst.1) {c : Counter}
    {m n : Nat} {e : Input × FileCoverage} (hm : (Books.empty.after es).writes[k]? = some m)
    (he : (Books.empty.after es).sets[m]? = some e) (hn : e.2.count c = some n) :
    ∃ st', eval w env (counter inst.2 c) r.st = .ok (st', .num n) ∧ st'.log = r.st.log ∧
      (∀ path i d, ((Books.empty.after es).hit k c).at path = some (i, d) → Reports gcv st' path i d) ∧
      (∀ a, ¬ r.own a → st'.heap[a]? = r.st.heap[a]?) ∧ st'.frames = r.st.frames ++ [[]] ∧
      Lives w gcv (.new st) .empty (r.in_ st') (es ++ [.hit k c]) := by
  obtain ⟨_, boxes, hkept, _⟩ := h.keeps hp.proto (Kept.start hp)
  obtain ⟨st', k1, k2, k3, _, _, k4, k5, _⟩ := hkept.hit (w := w) hk hs hm he hn
  exact ⟨st', k1, k2, fun path i d hat => k3.inv.reports hat, k5, k4,
    .hit h hk hs ⟨m, hm, e, he, by rw [hn]; rfl⟩ k1⟩

/-- C33. A truthiness wrapper, evaluated at any time of the life of a realm at a place of a loaded file. The operand
is any code under which life goes on, and its value is any value that can be looked at without running user code.
Then the wrapper yields that value, the operand is evaluated once and no other user code is run, what is reported
afterwards is what the books say with one hit of the wrapper's cell added exactly if the value counts as true, and
no object that does not belong to the coverage code is changed. -/
theorem C33_life_wrapper_partial (w : World) {gcv : String} {st : State} (hp : Pristine gcv st) {r r2 : Realm}
    {es more : List Event} (h : Lives w gcv (.new st) .empty r es) {k : Nat} {inst : Instance}
    (hk : r.insts[k]? = some inst) {env : List Nat} (hpl : Place r.st env inst)
    (hmore : Lives w gcv (r.in_ r.st.scope) (Books.empty.after es) r2 more) {operand : Expr} {v : Value}
    (hop : eval w env operand r.st.scope = .ok (r2.st, v)) (hv : Passive r2.st.heap v) (hpl2 : Place r2.st env inst)
    {branch arm : Nat} (hcell : (Books.empty.after (es ++ more)).Allows gcv (.hit k (.bT branch arm))) :
    ∃ st', eval w env (truthWrapper inst.2 (tempName inst.2) branch arm operand) r.st = .ok (st', v) ∧
      st'.log = r2.st.log ∧
      (∀ path i d, (if counted r2.st.heap v then (Books.empty.after (es ++ more)).hit k (.bT branch arm)
        else Books.empty.after (es ++ more)).at path = some (i, d) → Reports gcv st' path i d) ∧
      (∀ a, a < r2.st.heap.length → ¬ r2.own a → st'.heap[a]? = r2.st.heap[a]?) ∧
      Lives w gcv (.new st) .empty (r2.in_ st')
        (es ++ more ++ if counted r2.st.heap v then [.hit k (.bT branch arm)] else []) := by
  obtain ⟨_, boxes, hkept, _⟩ := h.keeps hp.proto (Kept.start hp)
  obtain ⟨_, boxes2, hkept2, hon⟩ := hmore.keeps hp.proto hkept.scope
  rw [← after_append] at hkept2 hon
  obtain ⟨st', k1, k2, k3, _, k4, -⟩ := hkept.wrapper (w := w) hk hpl hkept2 hon hop hv hpl2 hcell
  exact ⟨st', k1, k2, fun path i d hat => k3.inv.reports hat, k4,
    .wrapper h hk hpl hmore hop hv hpl2 hcell k1⟩

/-- C33. Where the operand throws, the wrapper throws the same. -/
theorem C33_life_throws_partial (w : World) {gcv : String} {st : State} (hp : Pristine gcv st) {r : Realm}
    {es : List Event} (h : Lives w gcv (.new st) .empty r es) {k : Nat} {inst : Instance}
    (hk : r.insts[k]? = some inst) {env : List Nat} (hpl : Place r.st env inst) (branch arm : Nat) {operand : Expr}
    {er : Err} (ho : eval w env operand r.st.scope = .error er) :
    eval w env (truthWrapper inst.2 (tempName inst.2) branch arm operand) r.st = .error er := by
  obtain ⟨_, boxes, hkept, _⟩ := h.keeps hp.proto (Kept.start hp)
  have hi := hkept.inv
  have hkl : k < (Books.empty.after es).writes.length := by rw [← hi.lenw]; exact lt_of_getElem? hk
  obtain ⟨x, _, hw⟩ := hi.wired k inst _ hk (List.getElem?_eq_getElem hkl)
  have hc : expr w (call w 2) env (.call (.ident inst.2) .nil) r.st = .ok (r.st.scope, .ref x.root) :=
    call_cov (L := r.st.log) 1 hw hpl.covFn
  have ho' : expr w (call w 2) env operand r.st.scope = .error er := ho
  unfold eval truthWrapper temp
  simp only [Exprs.ofList]
  rw [expr, bind_error]
  rw [exprs, bind_error]
  rw [expr, bind_ok hc, bind_error ho']

/-! ### Concrete cases -/

/-- Changing an object of the program is something the program may do. -/
theorem Runtime.Kept.allows_set {gcv : String} {r : Realm} {b : Books} {boxes : List Box} (h : Kept gcv r b boxes)
    {a : Nat} {o : Obj} {log : List Nat} (h1 : ¬ r.own a) (h2 : a ≠ objectProto) (h3 : a ≠ globalObj) :
    r.Allows gcv ⟨r.st.heap.set a o, r.st.frames, log⟩ := by
  refine ⟨Nat.le_of_eq (List.length_set ..).symm, Nat.le_refl _, ?_, fun _ _ => rfl, fun _ _ _ hv => hv, ?_, ?_⟩
  · intro a' ha'
    exact List.getElem?_set_ne fun e => h1 (by subst e; exact ha')
  · obtain ⟨ps, p1, p2⟩ := h.inv.root
    exact ⟨ps, (List.getElem?_set_ne h2).trans p1, p2⟩
  · intro ps hps
    exact ⟨ps, (List.getElem?_set_ne h3).trans hps, rfl⟩

/-- A realm with an empty array. -/
def arrayRealm : State := { freshRealm with heap := freshRealm.heap ++ [⟨.array, some arrayProto, []⟩] }

theorem arrayRealm_pristine : Pristine "__coverage__" arrayRealm := by
  obtain ⟨ps, p1, p2⟩ := freshRealm_pristine.object
  obtain ⟨gs, g1, g2⟩ := freshRealm_pristine.global
  exact ⟨⟨ps, prefix_get (List.prefix_append _ _) p1, p2⟩, ⟨gs, prefix_get (List.prefix_append _ _) g1, g2⟩,
    by decide, freshRealm_pristine.proto⟩

/-- User code that adds an element to that array, and yields it. -/
def pushes : World := fun _ st =>
  .ok (⟨st.heap.set 4 ⟨.array, some arrayProto, [("0", .data (.num 7))]⟩, st.frames, st.log⟩, .ref 4)

/-- A life in which the operand of a wrapper changes an object that was there before: it counts as true after the
change, although it did not before. -/
example : ∃ r, Lives pushes "__coverage__" (.new arrayRealm) .empty r [.load oneLogic, .hit 0 (.bT 0 0)] ∧
    r.st.log = [0] ∧ r.st.heap[4]? = some ⟨.array, some arrayProto, [("0", .data (.num 7))]⟩ ∧
    Reports "__coverage__" r.st "a.js" oneLogic { oneLogic.data with bT := some [(0, [1, 0])] } := by
  have hp := arrayRealm_pristine
  obtain ⟨st1, f, h1, h2, h3, _, _, h6⟩ := C30_life_loads_partial pushes hp (.stay _ _) oneLogic_proper
  have hc : (match Js.load pushes (prelude oneLogic) arrayRealm with
      | .ok (st, f) => decide (f = 0 ∧ 0 < st.frames.length ∧ scopeOf st.frames [0] "cov_1" = some 0 ∧
          scopeOf st.frames [0] "Array" = none ∧ scopeOf st.frames [0] "Object" = none ∧ 4 < st.heap.length)
      | .error _ => false) = true := by decide +kernel
  have h1' : Js.load pushes (prelude oneLogic) arrayRealm = .ok (st1, f) := h1
  rw [h1'] at hc
  obtain ⟨rfl, c1, c2, c3, c4, c5⟩ := of_decide_eq_true hc
  obtain ⟨_, boxes, hk, _⟩ := h6.keeps hp.proto (Kept.start hp)
  let r1 := (Realm.new arrayRealm).loaded st1 (0, oneLogic.covFn)
  have hown : ¬ (r1.in_ r1.st.scope).own 4 := by
    rintro (ho | ho)
    · exact ho
    · exact absurd ho.1 (by decide)
  have hmore : Lives pushes "__coverage__" (r1.in_ r1.st.scope) (Books.empty.after [.load oneLogic])
      ((r1.in_ r1.st.scope).in_ ⟨st1.heap.set 4 ⟨.array, some arrayProto, [("0", .data (.num 7))]⟩, st1.scope.frames,
        st1.log ++ [0]⟩) [] :=
    .code (.stay _ _) (Kept.allows_set hk.scope hown (by decide) (by decide))
  have hget : (st1.heap.set 4 ⟨.array, some arrayProto, [("0", .data (.num 7))]⟩)[4]?
      = some ⟨.array, some arrayProto, [("0", .data (.num 7))]⟩ := List.getElem?_set_self c5
  have hpl : Place st1 [0] (0, "cov_1") := ⟨by simpa using c1, c2, c3, c4⟩
  have hF : st1.frames <+: st1.scope.frames := List.prefix_append _ _
  have hpl2 : Place (st := ⟨st1.heap.set 4 ⟨.array, some arrayProto, [("0", .data (.num 7))]⟩, st1.scope.frames,
      st1.log ++ [0]⟩) [0] (0, "cov_1") :=
    ⟨fun i hi => Nat.lt_of_lt_of_le (hpl.scopes i hi) hF.length_le, (scopeOf_extends hF hpl.scopes _).trans c2,
      (scopeOf_extends hF hpl.scopes _).trans c3, (scopeOf_extends hF hpl.scopes _).trans c4⟩
  obtain ⟨st5, k1, k2, k3, k4, k5⟩ := C33_life_wrapper_partial pushes hp h6 (k := 0) (inst := (0, "cov_1")) rfl
    (env := [0]) hpl hmore (operand := .extern 0) (v := .ref 4) rfl (by
      intro a ha
      injection ha with ha
      subst ha
      exact ⟨_, hget, (fun t ht => by cases ht), fun hp => by cases hp⟩) hpl2 (branch := 0) (arm := 0)
    ⟨0, rfl, _, rfl, rfl⟩
  have hcount : counted (st1.heap.set 4 ⟨.array, some arrayProto, [("0", .data (.num 7))]⟩) (.ref 4) = true := by
    simp only [counted, emptyArray, emptyObject, hget, falsy]
    decide
  have hcount' : counted (((r1.in_ r1.st.scope).in_ ⟨st1.heap.set 4 ⟨.array, some arrayProto,
      [("0", .data (.num 7))]⟩, st1.scope.frames, st1.log ++ [0]⟩).st.heap) (.ref 4) = true := hcount
  rw [hcount'] at k5
  refine ⟨_, k5, ?_, ?_, ?_⟩
  · refine k2.trans ?_
    show st1.log ++ [0] = [0]
    rw [h2]
    rfl
  · exact (k4 4 (by show 4 < (st1.heap.set 4 _).length; rw [List.length_set]; exact c5) hown).trans hget
  · refine k3 "a.js" oneLogic _ ?_
    rw [hcount']
    rfl

end Verif
