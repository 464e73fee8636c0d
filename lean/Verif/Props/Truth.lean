import Verif.Lemmas.Truth
import Verif.Props.Runtime
/-
C33. What a counter and a truthiness wrapper do when they are evaluated, at any place of a loaded file, after
any history of loads and counter hits.
-/
namespace Verif
open Runtime Js Template

/-- C33. Hitting a counter adds one (up to 2^53) to its cell and leaves all other cells. -/
theorem C33_one_cell (c : FileCoverage) (k k' : Counter) :
    (c.hit k).count k' = if k' = k then (c.count k').map bump else c.count k' := by
  have hl : ∀ (o : Option (List Nat)) (arm arm' : Nat), (o.map fun l => l.modify arm bump).bind (·[arm']?)
      = if arm' = arm then (o.bind (·[arm']?)).map bump else o.bind (·[arm']?) := by
    intro o arm arm'
    cases o with
    | none => simp
    | some l =>
      simp only [Option.map_some, Option.bind_some, List.getElem?_modify]
      by_cases h : arm' = arm
      · subst h
        simp
      · have h' : ¬ arm = arm' := fun e => h e.symm
        simp [h, h']
  cases k <;> cases k' <;> simp only [FileCoverage.hit, FileCoverage.count, reduceCtorEq, if_false] <;> try rfl
  · rename_i a a'
    rw [IndexMap.get_modify]
    by_cases h : a' = a
    · subst h; simp
    · simp [h, show ¬ a = a' from fun e => h e.symm]
  · rename_i a a'
    rw [IndexMap.get_modify]
    by_cases h : a' = a
    · subst h; simp
    · simp [h, show ¬ a = a' from fun e => h e.symm]
  · rename_i a arm a' arm'
    rw [IndexMap.get_modify]
    by_cases h : a' = a
    · subst h
      simp only [if_true, hl, Counter.b.injEq, true_and]
    · simp [h, show ¬ a = a' from fun e => h e.symm]
  · rename_i a arm a' arm'
    cases hb : c.bT with
    | none => simp
    | some m =>
      simp only [Option.map_some, Option.bind_some, IndexMap.get_modify]
      by_cases h : a' = a
      · subst h
        simp only [if_true, hl, Counter.bT.injEq, true_and]
      · simp [h, show ¬ a = a' from fun e => h e.symm]

/-- Hitting a counter changes nothing but counts. -/
theorem C33_only_counts (c : FileCoverage) (k : Counter) :
    ((c.hit k).all, (c.hit k).path, (c.hit k).statementMap, (c.hit k).fnMap, (c.hit k).branchMap,
      (c.hit k).inputSourceMap) = (c.all, c.path, c.statementMap, c.fnMap, c.branchMap, c.inputSourceMap) := by
  cases k <;> rfl

/-- Scopes created meanwhile are not seen. -/
theorem Js.scopeOf_extends {F F' : List (IndexMap String Value)} (h : F <+: F') {env : List Nat}
    (he : ∀ i ∈ env, i < F.length) (x : String) : scopeOf F' env x = scopeOf F env x := by
  obtain ⟨T, rfl⟩ := h
  induction env with
  | nil => rfl
  | cons i env ih =>
    unfold scopeOf
    rw [List.getElem?_append_left (he i List.mem_cons_self), ih fun j hj => he j (List.mem_cons_of_mem _ hj)]

/-- What the books say is what the coverage object shows. -/
theorem Runtime.Inv.reports {gcv : String} {st : State} {insts : List Instance} {b : Books} {boxes : List Box}
    (h : Inv gcv st.heap st.frames insts b boxes) {path : String} {i : Input} {c : FileCoverage}
    (hat : b.at path = some (i, c)) : Reports gcv st path i c := by
  unfold Books.at at hat
  split at hat
  · cases hat
  rename_i n hn
  rcases h.reg with ⟨r1, _⟩ | ⟨R, ps, ⟨⟨gs, r1, r2⟩, r3, r4⟩, r5, r6⟩
  · rw [r1] at hn
    cases hn
  · rcases entries_get r6 path with ⟨k1, _⟩ | ⟨n', x, k1, k2, k3⟩
    · rw [hn] at k1
      cases k1
    · rw [hn] at k1
      injection k1 with k1
      subst k1
      refine ⟨ps, .ref x.root, ?_, k3, (h.held n x _ k2 hat).shows⟩
      unfold registry
      simp only [r1, r2, r3, Option.map_some]

/-- The state of the realm after a history. -/
theorem Runtime.Inv.of_play {w : World} {gcv : String} {st : State} (hp : Pristine gcv st) {es : List Event}
    (ha : Books.empty.AllowsAll gcv es) {st1 : State} {insts1 : List Instance}
    (h1 : Runtime.play w [] es st = .ok (st1, insts1)) :
    ∃ boxes, Inv gcv st1.heap st1.frames insts1 (Books.empty.after es) boxes ∧
      st.heap.length ≤ st1.heap.length ∧ ∀ x ∈ boxes, st.heap.length ≤ x.lo := by
  obtain ⟨H', F', insts', boxes', k1, k2, k3⟩ := (Inv.start hp).play (w := w) (L := st.log) hp.proto es ha
  have h1' : Runtime.play w [] es ⟨st.heap, st.frames, st.log⟩ = .ok (st1, insts1) := h1
  rw [h1'] at k1
  injection k1 with k1
  injection k1 with k1 k1'
  subst k1 k1'
  refine ⟨boxes', k2, k3.heap, fun x hx => ?_⟩
  rcases k3.fresh x hx with h | h
  · cases h
  · exact h

theorem Js.bind_error {α β : Type} {x : M α} {f : α → M β} {st : State} {er : Err} (h : x st = .error er) :
    (x >>= f) st = .error er := by
  show M.bind x f st = _
  unfold M.bind
  rw [h]

theorem Js.exprs_cons {w : World} {call : Value → List Value → M Value} {env : List Nat} {e : Expr} {es : Exprs}
    {st st1 st2 : State} {v : Value} {vs : List Value} (h1 : expr w call env e st = .ok (st1, v))
    (h2 : exprs w call env es st1 = .ok (st2, vs)) : exprs w call env (.cons e es) st = .ok (st2, v :: vs) := by
  rw [exprs, bind_ok h1, bind_ok h2]
  rfl

/-- C33. A counter, evaluated at any place of a loaded file after any history, adds one to its cell: it yields
the old count, no user code is run, what is reported afterwards is what was reported before with that one cell
changed, and no object that does not belong to the coverage data is changed. -/
theorem C33_counter_partial (w : World) {gcv : String} {st : State} (hp : Pristine gcv st) (es : List Event)
    (ha : Books.empty.AllowsAll gcv es) {st1 st2 : State} {insts : List Instance}
    (h1 : play w [] es st = .ok (st1, insts)) (hx : Extends st1 st2) {k : Nat} {inst : Instance}
    (hk : insts[k]? = some inst) {env : List Nat} (hpl : Place st2 env inst) {c : Counter} {m n : Nat}
    {e : Input × FileCoverage} (hm : (Books.empty.after es).writes[k]? = some m)
    (he : (Books.empty.after es).sets[m]? = some e) (hn : e.2.count c = some n) :
    ∃ st3, eval w env (counter inst.2 c) st2 = .ok (st3, .num n) ∧ st3.log = st2.log ∧
      (∀ path i d, ((Books.empty.after es).hit k c).at path = some (i, d) → Reports gcv st3 path i d) ∧
      ∀ a, a < st.heap.length ∨ st1.heap.length ≤ a → st3.heap[a]? = st2.heap[a]? := by
  obtain ⟨boxes, hi, _, hb⟩ := Inv.of_play hp ha h1
  have hi2 := hi.extend hx.1 hx.2
  have hml : m < boxes.length := by rw [hi.len]; exact lt_of_getElem? he
  obtain ⟨x, hxb⟩ : ∃ x, boxes[m]? = some x := ⟨_, List.getElem?_eq_getElem hml⟩
  obtain ⟨H', k1, k2, k3, k4, _⟩ := hi2.hits (w := w) (L := st2.log) hk hm he hxb hn hpl.covFn
  refine ⟨⟨H', st2.frames ++ [[]], st2.log⟩, k1, rfl, ?_, ?_⟩
  · intro path i d hat
    exact Inv.reports (st := ⟨H', st2.frames ++ [[]], st2.log⟩) k4 hat
  · intro a haa
    have h1 := hb x (List.mem_of_getElem? hxb)
    have h2 := (hi.inside x (List.mem_of_getElem? hxb)).2
    exact k3 a (by omega)

/-- The wrapper fails where its operand fails, and in the same way. -/
theorem C33_wrapper_throws_partial (w : World) {gcv : String} {st : State} (hp : Pristine gcv st) (es : List Event)
    (ha : Books.empty.AllowsAll gcv es) {st1 st2 : State} {insts : List Instance}
    (h1 : play w [] es st = .ok (st1, insts)) (hx : Extends st1 st2) {k : Nat} {inst : Instance}
    (hk : insts[k]? = some inst) {env : List Nat} (hpl : Place st2 env inst) (branch arm : Nat) {operand : Expr}
    {er : Err} (ho : eval w env operand st2.scope = .error er) :
    eval w env (truthWrapper inst.2 (tempName inst.2) branch arm operand) st2 = .error er := by
  obtain ⟨boxes, hi, _, _⟩ := Inv.of_play hp ha h1
  have hi2 := hi.extend hx.1 hx.2
  have hkl : k < (Books.empty.after es).writes.length := by rw [← hi.lenw]; exact lt_of_getElem? hk
  obtain ⟨x, _, hw⟩ := hi2.wired k inst _ hk (List.getElem?_eq_getElem hkl)
  have hc : expr w (call w 2) env (.call (.ident inst.2) .nil) st2 = .ok (st2.scope, .ref x.root) :=
    call_cov (L := st2.log) 1 hw hpl.covFn
  have ho' : expr w (call w 2) env operand st2.scope = .error er := ho
  unfold eval truthWrapper temp
  simp only [Exprs.ofList]
  rw [expr, bind_error]
  rw [exprs, bind_error]
  rw [expr, bind_ok hc, bind_error ho']

/-- C33. A truthiness wrapper, evaluated at any place of a loaded file after any history: the operand may run
instrumented code of whatever files (`more`) and create objects and scopes, and its value is any value that can be
looked at without running user code. Then the wrapper yields that value, the operand is evaluated once and no
other user code is run (the log is that of one evaluation), what is reported afterwards is what the books say with
one hit of the wrapper's cell added exactly if the value counts as true, and no object that does not belong to the
coverage data is changed. -/
theorem C33_wrapper_partial (w : World) {gcv : String} {st : State} (hp : Pristine gcv st) (es more : List Event)
    (ha : Books.empty.AllowsAll gcv (es ++ more)) {st1 st2 : State} {insts : List Instance}
    (h1 : play w [] es st = .ok (st1, insts)) (hx : Extends st1 st2) {k : Nat} {inst : Instance}
    (hk : insts[k]? = some inst) {env : List Nat} (hpl : Place st2 env inst) {branch arm : Nat}
    (hcell : (Books.empty.after (es ++ more)).Allows gcv (.hit k (.bT branch arm)))
    {operand : Expr} {st3 st4 : State} {insts3 : List Instance} {v : Value}
    (ho : eval w env operand st2.scope = .ok (st4, v))
    (hmore : play w insts more st2.scope = .ok (st3, insts3)) (hx' : Extends st3 st4) (hv : Passive st4.heap v) :
    ∃ st5, eval w env (truthWrapper inst.2 (tempName inst.2) branch arm operand) st2 = .ok (st5, v) ∧
      st5.log = st4.log ∧
      (∀ path i d, (if counted st4.heap v then (Books.empty.after (es ++ more)).hit k (.bT branch arm)
        else Books.empty.after (es ++ more)).at path = some (i, d) → Reports gcv st5 path i d) ∧
      ∀ a, a < st.heap.length ∨ st3.heap.length ≤ a → a < st4.heap.length → st5.heap[a]? = st4.heap[a]? := by
  obtain ⟨ha1, ha2⟩ := allows_append.1 ha
  obtain ⟨boxes, hi, hh0, hb⟩ := Inv.of_play hp ha1 h1
  have hi2 : Inv gcv st2.scope.heap st2.scope.frames insts (Books.empty.after es) boxes :=
    hi.extend hx.1 (hx.2.trans (List.prefix_append _ _))
  obtain ⟨H3, F3, insts', boxes', p1, p2, p3⟩ := hi2.play (w := w) (L := st2.scope.log) hp.proto more ha2
  have hmore' : play w insts more ⟨st2.scope.heap, st2.scope.frames, st2.scope.log⟩ = .ok (st3, insts3) := hmore
  rw [hmore'] at p1
  injection p1 with p1
  injection p1 with p1 p1'
  subst p1 p1'
  rw [← after_append] at p2 p3
  have hi4 := p2.extend hx'.1 hx'.2
  have hF : st2.frames <+: st4.frames := (List.prefix_append _ _).trans (p3.frames.trans hx'.2)
  obtain ⟨m, hm, e, he, hcnt⟩ := hcell
  have hm : (Books.empty.after (es ++ more)).writes[k]? = some m := hm
  have he : (Books.empty.after (es ++ more)).sets[m]? = some e := he
  obtain ⟨n, hn⟩ := Option.isSome_iff_exists.1 hcnt
  have hk' : insts3[k]? = some inst := prefix_get p3.insts_ hk
  obtain ⟨x, hxb, hw4⟩ := hi4.wired k inst m hk' hm
  -- the data object is the one found before the operand was evaluated
  have hkl : k < (Books.empty.after es).writes.length := by rw [← hi.lenw]; exact lt_of_getElem? hk
  obtain ⟨m0, hm0⟩ : ∃ m0, (Books.empty.after es).writes[k]? = some m0 := ⟨_, List.getElem?_eq_getElem hkl⟩
  have hm0' := prefix_get p3.writes hm0
  rw [hm] at hm0'
  injection hm0' with hm0'
  subst hm0'
  obtain ⟨x0, hxb0, hw2⟩ := (hi.extend hx.1 hx.2).wired k inst m hk hm0
  have hxb0' := prefix_get p3.boxes_ hxb0
  rw [hxb] at hxb0'
  injection hxb0' with hxb0'
  subst hxb0'
  have hc : expr w (call w 2) env (.call (.ident inst.2) .nil) st2 = .ok (st2.scope, .ref x.root) :=
    call_cov (L := st2.log) 1 hw2 hpl.covFn
  obtain ⟨ps, H5, F5, r, t1, t2, t3, t4, t5, t6, _⟩ := hi4.tested (w := w) (L := st4.log) (env := env) hk' hm he hxb hn
    ((scopeOf_extends hF hpl.scopes _).trans hpl.covFn) ((scopeOf_extends hF hpl.scopes _).trans hpl.array)
    ((scopeOf_extends hF hpl.scopes _).trans hpl.object) hv
  have hput : put (.ref x.root) (tempName inst.2) v st4 = .ok (⟨st4.heap.set x.root
      ⟨.plain, some objectProto, ps.insert (tempName inst.2) (.data v)⟩, st4.frames, st4.log⟩, ()) :=
    put_plain (H := st4.heap) (F := st4.frames) (L := st4.log) t1 (tempName_fresh inst.2).2
  have ho' : expr w (call w 2) env operand st2.scope = .ok (st4, v) := ho
  have hass : expr w (call w 2) env (.assign (temp inst.2 (tempName inst.2)) operand) st2
      = .ok (⟨st4.heap.set x.root ⟨.plain, some objectProto, ps.insert (tempName inst.2) (.data v)⟩, st4.frames,
        st4.log⟩, v) := by
    unfold temp
    rw [expr, bind_ok hc, bind_ok ho', bind_ok hput]
    rfl
  refine ⟨⟨H5, F5, st4.log⟩, ?_, rfl, ?_, ?_⟩
  · unfold eval truthWrapper
    simp only [Exprs.ofList] at t2 ⊢
    have hes := exprs_cons hass t2
    rw [expr, bind_ok hes]
    rfl
  · intro path i d hat
    exact Inv.reports (st := ⟨H5, F5, st4.log⟩) t4 hat
  · intro a haa hal
    simp only at haa
    refine t6 a hal ?_
    have g1 : st.heap.length ≤ x.lo := hb x (List.mem_of_getElem? hxb0)
    have g2 : x.hi ≤ H3.length := (p2.inside x (List.mem_of_getElem? hxb)).2
    omega

/-! ### Concrete cases -/

/-- A file with one logical expression of two operands. -/
def oneLogic : Input :=
  { covFn := "cov_1", coverageVariable := "__coverage__", path := "a.js", magic := "m", hash := "1",
    data := { FileCoverage.empty "a.js" true with b := [(0, [0, 0])], bT := some [(0, [0, 0])] } }

theorem oneLogic_proper : Proper "__coverage__" oneLogic :=
  ⟨rfl, (by simp [oneLogic]), (by decide), ⟨.nil, .nil, .nil, .nil, .nil,
    (by simp [oneLogic, IndexMap.NodupKeys, IndexMap.keys, FileCoverage.empty]),
    fun m hm => by
      have : m = [(0, [0, 0])] := (Option.some.inj hm).symm
      subst this
      simp [IndexMap.NodupKeys, IndexMap.keys]⟩⟩

theorem oneLogic_allowed : Books.empty.AllowsAll "__coverage__" ([.load oneLogic] ++ []) := ⟨oneLogic_proper, trivial⟩

/-- User code that makes an array with one element. -/
def someArray : World := fun _ => newArray [.num 7]

/-- User code that makes an empty object. -/
def someObject : World := fun _ => newObject []

/-- Evaluating `a && b` where `a` is user code making a non-empty array: the cell of the first operand goes to one,
and the array is what the wrapper yields. -/
example : ∃ st1 st5 a, play someArray [] [.load oneLogic] freshRealm = .ok (st1, [(0, "cov_1")]) ∧
    eval someArray [0] (truthWrapper "cov_1" "cov_1_temp" 0 0 (.extern 0)) st1 = .ok (st5, .ref a) ∧
    st5.log = [0] ∧ st5.heap[a]?.map Obj.props = some [("0", .data (.num 7))] ∧
    Reports "__coverage__" st5 "a.js" oneLogic { oneLogic.data with bT := some [(0, [1, 0])] } := by
  have h : (match play someArray [] [.load oneLogic] freshRealm with
      | .ok (st1, insts) => decide (insts = [(0, "cov_1")] ∧ 0 < st1.frames.length ∧
          scopeOf st1.frames [0] "cov_1" = some 0 ∧ scopeOf st1.frames [0] "Array" = none ∧
          scopeOf st1.frames [0] "Object" = none ∧ st1.log = [])
      | .error _ => false) = true := by decide +kernel
  split at h
  case h_2 => cases h
  rename_i st1 insts hs
  obtain ⟨rfl, h2, h3, h4, h5, h6⟩ := of_decide_eq_true h
  have ho : eval someArray [0] (.extern 0) st1.scope = .ok
      (⟨st1.heap ++ [⟨.array, some arrayProto, [("0", .data (.num 7))]⟩], st1.frames ++ [[]], st1.log ++ [0]⟩,
        .ref st1.heap.length) := rfl
  have hget : (st1.heap ++ [(⟨.array, some arrayProto, [("0", .data (.num 7))]⟩ : Obj)])[st1.heap.length]?
      = some ⟨.array, some arrayProto, [("0", .data (.num 7))]⟩ := List.getElem?_concat_length ..
  obtain ⟨st5, k1, k2, k3, k4⟩ := C33_wrapper_partial someArray freshRealm_pristine [.load oneLogic] []
    oneLogic_allowed hs ⟨List.prefix_refl _, List.prefix_refl _⟩ (k := 0) (inst := (0, "cov_1")) rfl
    (env := [0]) ⟨by simpa using h2, h3, h4, h5⟩ (branch := 0) (arm := 0) ⟨0, rfl, _, rfl, rfl⟩ ho rfl
    ⟨List.prefix_append _ _, List.prefix_refl _⟩
    (by
      intro a ha
      injection ha with ha
      subst ha
      exact ⟨_, hget, (fun t ht => by cases ht), fun hp => by cases hp⟩)
  refine ⟨st1, st5, _, hs, k1, ?_, ?_, ?_⟩
  · rw [k2, h6]
    rfl
  · have k5 := (k4 st1.heap.length (Or.inr (Nat.le_refl _)) (by simp)).trans hget
    rw [k5]
    rfl
  · have hc : counted (st1.heap ++ [(⟨.array, some arrayProto, [("0", .data (.num 7))]⟩ : Obj)])
        (.ref st1.heap.length) = true := by
      simp only [counted, emptyArray, emptyObject, hget, falsy]
      decide
    refine k3 "a.js" oneLogic _ ?_
    rw [if_pos hc]
    rfl

/-- The same with an empty object: nothing is counted. -/
example : ∃ st1 st5 a, play someObject [] [.load oneLogic] freshRealm = .ok (st1, [(0, "cov_1")]) ∧
    eval someObject [0] (truthWrapper "cov_1" "cov_1_temp" 0 0 (.extern 0)) st1 = .ok (st5, .ref a) ∧
    st5.log = [0] ∧ Reports "__coverage__" st5 "a.js" oneLogic oneLogic.data := by
  have h : (match play someObject [] [.load oneLogic] freshRealm with
      | .ok (st1, insts) => decide (insts = [(0, "cov_1")] ∧ 0 < st1.frames.length ∧
          scopeOf st1.frames [0] "cov_1" = some 0 ∧ scopeOf st1.frames [0] "Array" = none ∧
          scopeOf st1.frames [0] "Object" = none ∧ st1.log = [])
      | .error _ => false) = true := by decide +kernel
  split at h
  case h_2 => cases h
  rename_i st1 insts hs
  obtain ⟨rfl, h2, h3, h4, h5, h6⟩ := of_decide_eq_true h
  have ho : eval someObject [0] (.extern 0) st1.scope = .ok
      (⟨st1.heap ++ [⟨.plain, some objectProto, []⟩], st1.frames ++ [[]], st1.log ++ [0]⟩,
        .ref st1.heap.length) := rfl
  have hget : (st1.heap ++ [(⟨.plain, some objectProto, []⟩ : Obj)])[st1.heap.length]?
      = some ⟨.plain, some objectProto, []⟩ := List.getElem?_concat_length ..
  obtain ⟨st5, k1, k2, k3, k4⟩ := C33_wrapper_partial someObject freshRealm_pristine [.load oneLogic] []
    oneLogic_allowed hs ⟨List.prefix_refl _, List.prefix_refl _⟩ (k := 0) (inst := (0, "cov_1")) rfl
    (env := [0]) ⟨by simpa using h2, h3, h4, h5⟩ (branch := 0) (arm := 0) ⟨0, rfl, _, rfl, rfl⟩ ho rfl
    ⟨List.prefix_append _ _, List.prefix_refl _⟩
    (by
      intro a ha
      injection ha with ha
      subst ha
      exact ⟨_, hget, (fun t ht => by cases ht), fun _ k g hm => by cases hm⟩)
  refine ⟨st1, st5, _, hs, k1, ?_, ?_⟩
  · rw [k2, h6]
    rfl
  · have hc : counted (st1.heap ++ [(⟨.plain, some objectProto, []⟩ : Obj)]) (.ref st1.heap.length) = false := by
      simp only [counted, emptyArray, emptyObject, hget, falsy]
      decide
    refine k3 "a.js" oneLogic _ ?_
    rw [if_neg (by rw [hc]; decide)]
    rfl

/-- User code: piece 0 makes an object with a getter, which runs piece 1; piece 1 is an operand of the same
instrumented file, wrapped. -/
def reentrant : World
  | 0, st => alloc ⟨.plain, some objectProto, [("x", .getter 1)]⟩ st
  | _, st => eval noWorld [0] (truthWrapper "cov_1" "cov_1_temp" 0 1 (.num 5)) st

/-- C33 fails for plain objects with getters: testing whether the object is empty runs its getters (user code that
the original program did not run there), and if such a getter runs another truthiness wrapper of the same file,
the temporary is overwritten and the expression yields the other operand's value. -/
theorem C33_getter_fails :
    ∃ st1 st2 st3 a, play reentrant [] [.load oneLogic] freshRealm = .ok (st1, [(0, "cov_1")]) ∧
      eval reentrant [0] (.extern 0) st1 = .ok (st2, .ref a) ∧ st2.log = [0] ∧
      eval reentrant [0] (truthWrapper "cov_1" "cov_1_temp" 0 0 (.extern 0)) st1 = .ok (st3, .num 5) ∧
      st3.log = [0, 1] := by
  have h : (match play reentrant [] [.load oneLogic] freshRealm with
      | .ok (st1, insts) => decide (insts = [(0, "cov_1")]) &&
        (match eval reentrant [0] (.extern 0) st1 with
          | .ok (st2, .ref _) => decide (st2.log = [0])
          | _ => false) &&
        (match eval reentrant [0] (truthWrapper "cov_1" "cov_1_temp" 0 0 (.extern 0)) st1 with
          | .ok (st3, v) => decide (v = .num 5 ∧ st3.log = [0, 1])
          | _ => false)
      | .error _ => false) = true := by decide +kernel
  split at h
  case h_2 => cases h
  rename_i st1 insts hs
  rw [Bool.and_eq_true, Bool.and_eq_true] at h
  obtain ⟨⟨h1, h2⟩, h3⟩ := h
  have h1 := of_decide_eq_true h1
  subst h1
  split at h2
  case h_2 => cases h2
  rename_i st2 a hs2
  split at h3
  case h_2 => cases h3
  rename_i st3 v hs3
  obtain ⟨rfl, h4⟩ := of_decide_eq_true h3
  exact ⟨st1, st2, st3, a, hs, hs2, of_decide_eq_true h2, hs3, h4⟩

/-- User code: piece 0 makes a proxy whose handler runs piece 1; piece 1 is an operand of the same instrumented
file, wrapped. -/
def trapping : World
  | 0, st => alloc ⟨.proxy 1, some objectProto, []⟩ st
  | _, st => eval noWorld [0] (truthWrapper "cov_1" "cov_1_temp" 0 1 (.num 5)) st

/-- C33 fails for proxies: asking for the prototype runs the handler (user code that the original program did not
run there), and if it runs another truthiness wrapper of the same file, the expression yields the other
operand's value. -/
theorem C33_proxy_fails :
    ∃ st1 st2 st3 a, play trapping [] [.load oneLogic] freshRealm = .ok (st1, [(0, "cov_1")]) ∧
      eval trapping [0] (.extern 0) st1 = .ok (st2, .ref a) ∧ st2.log = [0] ∧
      eval trapping [0] (truthWrapper "cov_1" "cov_1_temp" 0 0 (.extern 0)) st1 = .ok (st3, .num 5) ∧
      st3.log = [0, 1] := by
  have h : (match play trapping [] [.load oneLogic] freshRealm with
      | .ok (st1, insts) => decide (insts = [(0, "cov_1")]) &&
        (match eval trapping [0] (.extern 0) st1 with
          | .ok (st2, .ref _) => decide (st2.log = [0])
          | _ => false) &&
        (match eval trapping [0] (truthWrapper "cov_1" "cov_1_temp" 0 0 (.extern 0)) st1 with
          | .ok (st3, v) => decide (v = .num 5 ∧ st3.log = [0, 1])
          | _ => false)
      | .error _ => false) = true := by decide +kernel
  split at h
  case h_2 => cases h
  rename_i st1 insts hs
  rw [Bool.and_eq_true, Bool.and_eq_true] at h
  obtain ⟨⟨h1, h2⟩, h3⟩ := h
  have h1 := of_decide_eq_true h1
  subst h1
  split at h2
  case h_2 => cases h2
  rename_i st2 a hs2
  split at h3
  case h_2 => cases h3
  rename_i st3 v hs3
  obtain ⟨rfl, h4⟩ := of_decide_eq_true h3
  exact ⟨st1, st2, st3, a, hs, hs2, of_decide_eq_true h2, hs3, h4⟩

/-- C33 fails where the source declares a variable `Object` (say, an import of that name): the wrapper of an
operand that yields 1 throws a type error. -/
theorem C33_shadowed_fails :
    ∃ st1, play noWorld [] [.load oneLogic] freshRealm = .ok (st1, [(0, "cov_1")]) ∧
      (∃ st2, eval noWorld [st1.frames.length, 0] (.num 1)
        { st1 with frames := st1.frames ++ [[("Object", .num 0)]] } = .ok (st2, .num 1)) ∧
      eval noWorld [st1.frames.length, 0] (truthWrapper "cov_1" "cov_1_temp" 0 0 (.num 1))
        { st1 with frames := st1.frames ++ [[("Object", .num 0)]] } = .error .typeError := by
  have h : (match play noWorld [] [.load oneLogic] freshRealm with
      | .ok (st1, insts) => decide (insts = [(0, "cov_1")]) &&
        (match eval noWorld [st1.frames.length, 0] (truthWrapper "cov_1" "cov_1_temp" 0 0 (.num 1))
            { st1 with frames := st1.frames ++ [[("Object", .num 0)]] } with
          | .error er => decide (er = .typeError)
          | _ => false)
      | .error _ => false) = true := by decide +kernel
  split at h
  case h_2 => cases h
  rename_i st1 insts hs
  rw [Bool.and_eq_true] at h
  obtain ⟨h1, h3⟩ := h
  have h1 := of_decide_eq_true h1
  subst h1
  split at h3
  case h_2 => cases h3
  rename_i er hs3
  have := of_decide_eq_true h3
  subst this
  exact ⟨st1, hs, ⟨_, rfl⟩, hs3⟩

end Verif
