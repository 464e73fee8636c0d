import Verif.Lemmas.Dangling
import Verif.Props.Instrument
import Verif.Props.Truth
/-
C17. Which counters dangle, and what happens when such a counter is evaluated.
-/
namespace Verif
open Node RegOp Visitor Build

section
variable {cx : Ctx} {fuel : Nat} {path : String} {sm : Option SourceMap} {p p' : Node} {cov : SourceCoverage}

/-- C17: the counters of the emitted program that have no cell in the emitted data are exactly the truthiness
counters of default values; for these the data have truthiness counts, but no entry for the branch. -/
theorem C17_dangling_iff (hp : Clean p) (hr : instrument cx fuel path sm p = .ok (p', cov))
    (c : Counter) (hc : c ∈ p'.sites) :
    (c.cell cov.inner = none ↔ ∃ i a br, c = .bT i a ∧ cov.inner.branchMap.get i = some br ∧
      br.branchType = .defaultArg) ∧
    (c.cell cov.inner = none → ∃ i a t, c = .bT i a ∧ cov.inner.bT = some t ∧ t.get i = none) := by
  cases ht : c.isTruth with
  | false =>
    rw [C17_counters_exist hp hr c hc ht]
    refine ⟨⟨(fun h => by cases h), ?_⟩, fun h => by cases h⟩
    rintro ⟨i, a, _, rfl, _⟩
    cases ht
  | true =>
    cases c with
    | bT i a =>
      obtain ⟨n, h, o⟩ := outcome hr
      have h1 := o.count_truth_le hp i a
      have h2 : 0 < p'.sites.count (.bT i a) := List.count_pos_iff.2 hc
      have h3 : has h (.b i a) = true := by
        unfold total at h1
        split at h1
        · assumption
        · omega
      have hne : arms h i ≠ [] := by
        intro e
        simp only [has, decide_eq_true_eq] at h3
        rw [e] at h3
        cases h3
      have h4 : .bT i a ∈ n.sites := by rw [← List.count_pos_iff, ← o.sites_eq]; exact h2
      rcases o.steps.truth_mem i a (.inl h4) with h5 | ⟨h5, t, l, g, h6, h7⟩
      · rw [clean_sites hp] at h5
        rcases h5 with h5 | h5 <;> cases h5
      · have hbm := o.finished.branchMap i
        rw [h6, Option.bind_some, if_neg hne] at hbm
        rcases h7 with ⟨rfl, rfl⟩ | rfl
        · rw [h5] at h6
          rw [o.finished.truthCell i a h6 h3]
          refine ⟨⟨(fun h => by cases h), ?_⟩, fun h => by cases h⟩
          rintro ⟨i', a', br, he, hb, hd⟩
          injection he with he
          subst he
          rw [hbm] at hb
          injection hb with hb
          subst hb
          cases hd
        · have hbT := o.finished.bT i
          rw [h6, Option.bind_some, if_neg (fun h => by cases h.1)] at hbT
          have hsome := o.finished.bTSome
          rw [h5, Bool.true_or] at hsome
          obtain ⟨t, ht⟩ := Option.isSome_iff_exists.1 hsome
          rw [ht, Option.getD_some] at hbT
          have hcell : (Counter.bT i a).cell cov.inner = none := by
            simp only [Counter.cell, ht, Option.bind_some, hbT]
            rfl
          exact ⟨⟨fun _ => ⟨i, a, _, rfl, hbm, rfl⟩, fun _ => hcell⟩, fun _ => ⟨i, a, t, rfl, ht, hbT⟩⟩
    | _ => cases ht

end

/-- Two default values and a logical expression, `function f(a = 1, b = 2) { a || b; }`: the truthiness counters
of the first two dangle, those of the third do not. -/
example : ∃ p' cov, run logic (Build.module [fnDecl 2 "f" [mk .assignPat (at' 3) [ident 3 "a", num 4 "1"],
      mk .assignPat (at' 5) [ident 5 "b", num 6 "2"]] [expr 7 (bin 7 .or (ident 7 "a") (ident 8 "b"))]])
      = .ok (p', cov) ∧
    p'.sites.filter (fun c => (c.cell cov.inner).isNone) = [.bT 0 0, .bT 1 0] ∧
    cov.inner.bT = some [(2, [0, 0])] := by
  have h : yields (run logic (Build.module [fnDecl 2 "f" [mk .assignPat (at' 3) [ident 3 "a", num 4 "1"],
      mk .assignPat (at' 5) [ident 5 "b", num 6 "2"]] [expr 7 (bin 7 .or (ident 7 "a") (ident 8 "b"))]]))
      (fun p' r => decide (p'.sites.filter (fun c => (c.cell r).isNone) = [.bT 0 0, .bT 1 0] ∧
        r.bT = some [(2, [0, 0])])) = true := by
    decide +kernel
  obtain ⟨p', cov, h1, h2⟩ := of_yields h
  exact ⟨p', cov, h1, of_decide_eq_true h2⟩

open Runtime Js Template

/-- C17, what the violation does: a truthiness wrapper whose branch has no entry in the truthiness counts,
evaluated at any place of a loaded file after any history, throws a TypeError whenever its operand has a value that
counts as true, although the original expression just yields that value. (`hproto`: nobody has put a property whose
name is that number on `Object.prototype`.) If the value does not count as true, the wrapper yields it. -/
theorem C17_dangling_throws (w : World) {gcv : String} {st : State} (hp : Pristine gcv st) (es more : List Event)
    (ha : Books.empty.AllowsAll gcv (es ++ more)) {st1 st2 : State} {insts : List Instance}
    (h1 : play w [] es st = .ok (st1, insts)) (hx : Js.Extends st1 st2) {k : Nat} {inst : Instance}
    (hk : insts[k]? = some inst) {env : List Nat} (hpl : Place st2 env inst) {branch : Nat} (arm : Nat) {m : Nat}
    {e : Input × FileCoverage} {t : IndexMap Nat (List Nat)}
    (hm : (Books.empty.after (es ++ more)).writes[k]? = some m)
    (he : (Books.empty.after (es ++ more)).sets[m]? = some e) (ht : e.2.bT = some t) (hb : t.get branch = none)
    {operand : Expr} {st3 st4 : State} {insts3 : List Instance} {v : Value}
    (ho : eval w env operand st2.scope = .ok (st4, v))
    (hmore : play w insts more st2.scope = .ok (st3, insts3)) (hx' : Js.Extends st3 st4)
    (hproto : ∀ o, st4.heap[objectProto]? = some o → o.props.get (toString branch) = none)
    (hv : Passive st4.heap v) :
    (counted st4.heap v = true →
      eval w env (truthWrapper inst.2 (tempName inst.2) branch arm operand) st2 = .error .typeError) ∧
    (counted st4.heap v = false → ∃ st5,
      eval w env (truthWrapper inst.2 (tempName inst.2) branch arm operand) st2 = .ok (st5, v) ∧
        st5.log = st4.log) := by
  obtain ⟨ha1, ha2⟩ := allows_append.1 ha
  obtain ⟨boxes, hi, hh0, hbx⟩ := Inv.of_play hp ha1 h1
  have hi2 : Runtime.Inv gcv st2.scope.heap st2.scope.frames insts (Books.empty.after es) boxes :=
    hi.extend hx.1 (hx.2.trans (List.prefix_append _ _))
  obtain ⟨H3, F3, insts', boxes', p1, p2, p3⟩ := hi2.play (w := w) (L := st2.scope.log) hp.proto more ha2
  have hmore' : play w insts more ⟨st2.scope.heap, st2.scope.frames, st2.scope.log⟩ = .ok (st3, insts3) := hmore
  rw [hmore'] at p1
  injection p1 with p1
  injection p1 with p1 p1'
  subst p1 p1'
  rw [← after_append] at p2 p3
  have hi4 := p2.extend hx'.1 hx'.2
  have hF : st2.frames <+: st4.frames := (List.prefix_append _ _).trans (p3.frames.trans hx'.2)
  have hk' : insts3[k]? = some inst := prefix_get p3.insts_ hk
  obtain ⟨x, hxb, hw4⟩ := hi4.wired k inst m hk' hm
  have hkl : k < (Books.empty.after es).writes.length := by rw [← hi.lenw]; exact lt_of_getElem? hk
  obtain ⟨m0, hm0⟩ : ∃ m0, (Books.empty.after es).writes[k]? = some m0 := ⟨_, List.getElem?_eq_getElem hkl⟩
  have hm0' := prefix_get p3.writes hm0
  rw [hm] at hm0'
  injection hm0' with hm0'
  subst hm0'
  obtain ⟨x0, hxb0, hw2⟩ := (hi.extend hx.1 hx.2).wired k inst m hk hm0
  have hxb0' := prefix_get p3.boxes_ hxb0
  rw [hxb] at hxb0'
  injection hxb0' with hxb0'
  subst hxb0'
  have hc : expr w (call w 2) env (.call (.ident inst.2) .nil) st2 = .ok (st2.scope, .ref x.root) :=
    call_cov (L := st2.log) 1 hw2 hpl.covFn
  obtain ⟨ps, t1, t2⟩ := hi4.tested_missing (w := w) (L := st4.log) (env := env) (arm := arm) hk' hm he hxb ht hb
    hproto ((scopeOf_extends hF hpl.scopes _).trans hpl.covFn) ((scopeOf_extends hF hpl.scopes _).trans hpl.array)
    ((scopeOf_extends hF hpl.scopes _).trans hpl.object) hv
  have hput : put (.ref x.root) (tempName inst.2) v st4 = .ok (⟨st4.heap.set x.root
      ⟨.plain, some objectProto, ps.insert (tempName inst.2) (.data v)⟩, st4.frames, st4.log⟩, ()) :=
    put_plain (H := st4.heap) (F := st4.frames) (L := st4.log) t1 (tempName_fresh inst.2).2
  have ho' : expr w (call w 2) env operand st2.scope = .ok (st4, v) := ho
  have hass : expr w (call w 2) env (.assign (temp inst.2 (tempName inst.2)) operand) st2
      = .ok (⟨st4.heap.set x.root ⟨.plain, some objectProto, ps.insert (tempName inst.2) (.data v)⟩, st4.frames,
        st4.log⟩, v) := by
    unfold temp
    rw [Js.expr, bind_ok hc, bind_ok ho', bind_ok hput]
    rfl
  unfold eval truthWrapper
  simp only [Exprs.ofList] at t2 ⊢
  constructor
  · intro hcn
    rw [hcn] at t2
    split at t2
    · rename_i er _ hes
      subst t2
      rw [Js.expr, bind_error]
      rw [exprs, bind_ok hass, bind_error hes]
    · rename_i hbad _
      cases hbad
    · cases t2
  · intro hcn
    rw [hcn] at t2
    split at t2
    · rename_i hbad _
      cases hbad
    · rename_i st5 vs _ hes
      obtain ⟨rfl, t3⟩ := t2
      refine ⟨st5, ?_, t3⟩
      rw [Js.expr, bind_ok (exprs_cons hass hes)]
      rfl
    · cases t2

/-- The data of `function f(a = 1) { a; }` as far as branches go. -/
def oneDefault : Input :=
  { oneLogic with data := { FileCoverage.empty "a.js" true with b := [(0, [0])], bT := some [] } }

theorem oneDefault_allowed : Books.empty.AllowsAll "__coverage__" ([.load oneDefault] ++ []) :=
  ⟨⟨rfl, (by simp [oneDefault, oneLogic]), (by decide), ⟨.nil, .nil, .nil, .nil, .nil,
    (by simp [oneDefault, oneLogic, IndexMap.NodupKeys, IndexMap.keys, FileCoverage.empty]),
    fun m hm => by
      have : m = [] := (Option.some.inj hm).symm
      subst this
      simp [IndexMap.NodupKeys, IndexMap.keys]⟩⟩, trivial⟩

/-- Evaluating the wrapped default value `1` throws; the default value `0` is yielded. -/
example : ∃ st1, play noWorld [] [.load oneDefault] freshRealm = .ok (st1, [(0, "cov_1")]) ∧
    eval noWorld [0] (truthWrapper "cov_1" "cov_1_temp" 0 0 (.num 1)) st1 = .error .typeError ∧
    ∃ st5, eval noWorld [0] (truthWrapper "cov_1" "cov_1_temp" 0 0 (.num 0)) st1 = .ok (st5, .num 0) := by
  have h : (match play noWorld [] [.load oneDefault] freshRealm with
      | .ok (st1, insts) => decide (insts = [(0, "cov_1")] ∧ 0 < st1.frames.length ∧
          scopeOf st1.frames [0] "cov_1" = some 0 ∧ scopeOf st1.frames [0] "Array" = none ∧
          scopeOf st1.frames [0] "Object" = none ∧
          (st1.heap[objectProto]?.map fun o => o.props.get "0") = some none)
      | .error _ => false) = true := by decide +kernel
  split at h
  case h_2 => cases h
  rename_i st1 insts hs
  obtain ⟨rfl, h2, h3, h4, h5, h6⟩ := of_decide_eq_true h
  have hpr : ∀ o, st1.heap[objectProto]? = some o → o.props.get (toString 0) = none := by
    intro o ho
    rw [ho] at h6
    exact Option.some.inj h6
  have key : ∀ n, _ := fun n => C17_dangling_throws noWorld freshRealm_pristine [.load oneDefault] []
    oneDefault_allowed hs ⟨List.prefix_refl _, List.prefix_refl _⟩ (k := 0) (inst := (0, "cov_1")) rfl
    (env := [0]) ⟨by simpa using h2, h3, h4, h5⟩ (branch := 0) 0 (m := 0) rfl rfl (t := []) rfl rfl
    (operand := .num n) (v := .num n) (st4 := st1.scope) rfl rfl ⟨List.prefix_refl _, List.prefix_refl _⟩ hpr
    (fun a ha => by cases ha)
  refine ⟨st1, hs, (key 1).1 rfl, ?_⟩
  obtain ⟨st5, k1, _⟩ := (key 0).2 rfl
  exact ⟨st5, k1⟩

end Verif
