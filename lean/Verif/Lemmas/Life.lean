import Verif.Spec.Life
import Verif.Props.Truth
/-
The books are kept through the life of a realm.
-/
namespace Verif.Runtime
open Js Template

/-- What the coverage code relies on is what it made. -/
structure Owned (gcv : String) (r : Realm) (boxes : List Box) : Prop where
  box : ∀ x ∈ boxes, ∀ a, x.lo ≤ a → a < x.hi → r.own a
  reg : ∀ R, IsReg gcv r.st.heap R → r.own R
  fn : ∀ inst ∈ r.insts, ∃ f fa j, r.st.frames[inst.1]? = some f ∧ f.get inst.2 = some (.ref fa) ∧ r.own fa ∧
    r.st.heap[fa]? = some (getter [j, inst.1]) ∧ r.ownScopes j
  heap : ∀ a, r.own a → a < r.st.heap.length
  frames : ∀ i, r.ownScopes i → i < r.st.frames.length

/-- The books are kept, and what they rely on is owned. -/
structure Kept (gcv : String) (r : Realm) (b : Books) (boxes : List Box) : Prop where
  inv : Inv gcv r.st.heap r.st.frames r.insts b boxes
  owned : Owned gcv r boxes

/-- How a life goes on. -/
structure Onward (r : Realm) (b : Books) (boxes : List Box) (r' : Realm) (b' : Books) (boxes' : List Box) : Prop where
  heap : r.st.heap.length ≤ r'.st.heap.length
  insts_ : r.insts <+: r'.insts
  writes : b.writes <+: b'.writes
  boxes_ : boxes <+: boxes'
  own : ∀ a, r.own a → r'.own a

theorem Onward.refl {r : Realm} {b : Books} {boxes : List Box} : Onward r b boxes r b boxes :=
  ⟨Nat.le_refl _, List.prefix_refl _, List.prefix_refl _, List.prefix_refl _, fun _ h => h⟩

theorem Onward.trans {r r1 r2 : Realm} {b b1 b2 : Books} {boxes boxes1 boxes2 : List Box}
    (h : Onward r b boxes r1 b1 boxes1) (h' : Onward r1 b1 boxes1 r2 b2 boxes2) : Onward r b boxes r2 b2 boxes2 :=
  ⟨Nat.le_trans h.heap h'.heap, h.insts_.trans h'.insts_, h.writes.trans h'.writes, h.boxes_.trans h'.boxes_,
    fun a ha => h'.own a (h.own a ha)⟩

section
variable {w : World} {gcv : String} {r : Realm} {b : Books} {boxes : List Box}

/-- The code of the program keeps the books. -/
theorem Kept.code (h : Kept gcv r b boxes) {st : State} (ha : r.Allows gcv st) :
    Kept gcv (r.in_ st) b boxes ∧ Onward r b boxes (r.in_ st) b boxes := by
  obtain ⟨hi, ho⟩ := h
  have hle := ha.heap
  have hreg : ∀ R, IsReg gcv st.heap R → r.own R := by
    rintro R ⟨gs', g1, g2⟩
    have : ∃ gs, r.st.heap[globalObj]? = some ⟨.plain, some objectProto, gs⟩ := by
      rcases hi.reg with ⟨_, gs, r2, _⟩ | ⟨_, _, ⟨⟨gs, r1, _⟩, _⟩, _⟩
      · exact ⟨gs, r2⟩
      · exact ⟨gs, r1⟩
    obtain ⟨gs, hgs⟩ := this
    obtain ⟨ps', k1, k2⟩ := ha.global gs hgs
    rw [g1] at k1
    injection k1 with k1
    injection k1 with _ _ k1
    subst k1
    exact ho.reg R ⟨gs, hgs, by rw [← k2]; exact g2⟩
  have hfn : ∀ inst ∈ r.insts, ∀ f v, r.st.frames[inst.1]? = some f → f.get inst.2 = some v →
      ∃ f', st.frames[inst.1]? = some f' ∧ f'.get inst.2 = some v := by
    intro inst hin f v h1 h2
    have h3 : (r.st.frames[inst.1]?.bind (·.get inst.2)) = some v := by
      rw [h1]
      exact h2
    obtain ⟨f', h4, h5⟩ := Option.bind_eq_some_iff.1 (ha.covFn inst hin v h3)
    exact ⟨f', h4, h5⟩
  refine ⟨⟨⟨ha.object, Nat.le_trans hi.size hle, hi.len, ?_, hi.apart, fun y hy => ?_, ?_, hi.lenw, ?_⟩,
    ⟨ho.box, hreg, ?_, ?_, ?_⟩⟩, hle, List.prefix_refl _, List.prefix_refl _, List.prefix_refl _, fun _ h => h⟩
  · intro m y e hy he
    exact (hi.held m y e hy he).agree fun a ha1 ha2 => ha.own a (ho.box y (List.mem_of_getElem? hy) a ha1 ha2)
  · have := hi.inside y hy
    exact ⟨this.1, Nat.le_trans this.2 hle⟩
  · rcases hi.reg with ⟨r1, gs, r2, r3⟩ | ⟨R, ps, ⟨⟨gs, r1, r2⟩, r3, r4⟩, r5, r6⟩
    · obtain ⟨gs', k1, k2⟩ := ha.global gs r2
      exact Or.inl ⟨r1, gs', k1, k2.trans r3⟩
    · obtain ⟨gs', k1, k2⟩ := ha.global gs r1
      refine Or.inr ⟨R, ps, ⟨⟨gs', k1, k2.trans r2⟩, ?_, r4⟩, r5, r6⟩
      exact (ha.own R (ho.reg R ⟨gs, r1, r2⟩)).trans r3
  · intro k inst m hk hw
    obtain ⟨y, hy, f, fa, j, g, h1, h2, h3, h4, h5⟩ := hi.wired k inst m hk hw
    obtain ⟨f0, fa0, j0, o1, o2, o3, o4, o5⟩ := ho.fn inst (List.mem_of_getElem? hk)
    rw [h1] at o1
    injection o1 with o1
    subst o1
    rw [h2] at o2
    injection o2 with o2
    injection o2 with o2
    subst o2
    rw [h3] at o4
    injection o4 with o4
    injection o4 with o4
    injection o4 with _ o4
    injection o4 with o4
    subst o4
    obtain ⟨f', k1, k2⟩ := hfn inst (List.mem_of_getElem? hk) f _ h1 h2
    exact ⟨y, hy, f', fa, j, g, k1, k2, (ha.own fa o3).trans h3, (ha.ownScopes j o5).trans h4, h5⟩
  · intro inst hin
    obtain ⟨f, fa, j, o1, o2, o3, o4, o5⟩ := ho.fn inst hin
    obtain ⟨f', k1, k2⟩ := hfn inst hin f _ o1 o2
    exact ⟨f', fa, j, k1, k2, o3, (ha.own fa o3).trans o4, o5⟩
  · intro a h1
    exact Nat.lt_of_lt_of_le (ho.heap a h1) hle
  · intro i h1
    exact Nat.lt_of_lt_of_le (ho.frames i h1) ha.frames

/-- Loading a file. -/
theorem Kept.load (h : Kept gcv r b boxes) (hg : gcv ≠ "__proto__") {i : Input} (hp : Proper gcv i) :
    ∃ st f boxes', Js.load w (prelude i) r.st = .ok (st, f) ∧ st.log = r.st.log ∧
      Kept gcv (r.loaded st (f, i.covFn)) (b.load i) boxes' ∧
      Onward r b boxes (r.loaded st (f, i.covFn)) (b.load i) boxes' ∧
      Laid gcv r.st.heap r.st.frames st.heap st.frames (f, i.covFn) ∧ r.st.frames <+: st.frames ∧
      ∀ x ∈ boxes', x ∈ boxes ∨ Spare st.heap x := by
  obtain ⟨hi, ho⟩ := h
  obtain ⟨H', F', boxes', f, h1, h2, h3, h4, h5⟩ := hi.load (w := w) (L := r.st.log) hp hg
  refine ⟨⟨H', F', r.st.log⟩, f, boxes', h1, rfl, ⟨h2, ?_, ?_, ?_, ?_, ?_⟩,
    ⟨h3.heap, h3.insts_, h3.writes, h3.boxes_, fun a ha => Or.inl ha⟩, h4, h3.frames, h5⟩
  · intro x hx a ha1 ha2
    rcases h3.fresh x hx with hx' | hx'
    · exact Or.inl (ho.box x hx' a ha1 ha2)
    · exact Or.inr ⟨by omega, Nat.lt_of_lt_of_le ha2 (h2.inside x hx).2⟩
  · intro R hR
    rcases h4.reg R hR with hR | hR
    · exact Or.inl (ho.reg R hR)
    · exact Or.inr hR
  · intro inst hin
    rcases List.mem_append.1 hin with hin | hin
    · obtain ⟨g, fa, j, o1, o2, o3, o4, o5⟩ := ho.fn inst hin
      refine ⟨g, fa, j, prefix_get h3.frames o1, o2, Or.inl o3, ?_, Or.inl o5⟩
      have hne : fa ≠ globalObj ∧ ¬ IsReg gcv r.st.heap fa := by
        rcases hi.reg with ⟨_, gs, r2, r3⟩ | ⟨R, ps, ⟨⟨gs, r1, r2⟩, r3, _⟩, _⟩
        · refine ⟨not_getter r2 o4, ?_⟩
          rintro ⟨gs', g1, g2⟩
          rw [r2] at g1
          injection g1 with g1
          injection g1 with _ _ g1
          subst g1
          rw [r3] at g2
          cases g2
        · refine ⟨not_getter r1 o4, ?_⟩
          rintro ⟨gs', g1, g2⟩
          rw [r1] at g1
          injection g1 with g1
          injection g1 with _ _ g1
          subst g1
          rw [r2] at g2
          injection g2 with g2
          injection g2 with g2
          injection g2 with g2
          subst g2
          exact not_getter r3 o4 rfl
      exact (h4.rest fa (lt_of_getElem? o4) hne.1 hne.2).trans o4
    · simp only [List.mem_singleton] at hin
      subst hin
      obtain ⟨g, fa, k1, k2, k3, k4, -⟩ := h4.fn
      have hf := h4.frame
      simp only at hf
      subst hf
      refine ⟨g, fa, _, k1, k2, Or.inr ⟨k3, lt_of_getElem? k4⟩, k4, Or.inr ⟨by omega, ?_, ?_⟩⟩
      · have := h4.frames
        simp only
        omega
      · simp only
        omega
  · intro a ha
    rcases ha with ha | ha
    · exact Nat.lt_of_lt_of_le (ho.heap a ha) h3.heap
    · exact ha.2
  · intro j hj
    rcases hj with hj | hj
    · exact Nat.lt_of_lt_of_le (ho.frames j hj) h3.frames.length_le
    · exact hj.2.1

/-- A change inside a data object, and new objects and scopes. -/
theorem Owned.inside (ho : Owned gcv r boxes) {x : Box} {st : State} (hx : x ∈ boxes) (h4 : 4 ≤ x.lo)
    (hlo : ∀ a, x.lo ≤ a → a < x.hi → ∀ env, r.st.heap[a]? = some (getter env) → st.heap[a]? = some (getter env))
    (hlen : r.st.heap.length ≤ st.heap.length) (hF : r.st.frames <+: st.frames) (hg : globalObj < r.st.heap.length)
    (hout : ∀ a, a < r.st.heap.length → a < x.lo ∨ x.hi ≤ a → st.heap[a]? = r.st.heap[a]?) :
    Owned gcv (r.in_ st) boxes := by
  refine ⟨ho.box, ?_, ?_, fun a ha => Nat.lt_of_lt_of_le (ho.heap a ha) hlen,
    fun i hi => Nat.lt_of_lt_of_le (ho.frames i hi) hF.length_le⟩
  · rintro R ⟨gs, g1, g2⟩
    refine ho.reg R ⟨gs, ?_, g2⟩
    rw [← hout globalObj hg (by unfold globalObj; omega)]
    exact g1
  · intro inst hin
    obtain ⟨f, fa, j, o1, o2, o3, o4, o5⟩ := ho.fn inst hin
    refine ⟨f, fa, j, prefix_get hF o1, o2, o3, ?_, o5⟩
    by_cases hb : x.lo ≤ fa ∧ fa < x.hi
    · exact hlo fa hb.1 hb.2 _ o4
    · exact (hout fa (lt_of_getElem? o4) (by omega)).trans o4

theorem hit_writes {k : Nat} {c : Counter} : (b.hit k c).writes = b.writes := by
  unfold Books.hit
  split <;> rfl

/-- A counter, evaluated where the coverage function is visible. -/
theorem Kept.hit (h : Kept gcv r b boxes) {k : Nat} {inst : Instance} (hk : r.insts[k]? = some inst) {env : List Nat}
    (hs : scopeOf r.st.frames env inst.2 = some inst.1) {c : Counter} {m n : Nat} {e : Input × FileCoverage}
    (hm : b.writes[k]? = some m) (he : b.sets[m]? = some e) (hn : e.2.count c = some n) :
    ∃ st, eval w env (counter inst.2 c) r.st = .ok (st, .num n) ∧ st.log = r.st.log ∧
      Kept gcv (r.in_ st) (b.hit k c) boxes ∧ Onward r b boxes (r.in_ st) (b.hit k c) boxes ∧
      st.heap.length = r.st.heap.length ∧ st.frames = r.st.frames ++ [[]] ∧
      (∀ a, ¬ r.own a → st.heap[a]? = r.st.heap[a]?) ∧ ∀ x, boxes[m]? = some x → st.heap[x.root]? = r.st.heap[x.root]? := by
  obtain ⟨hi, ho⟩ := h
  obtain ⟨x, hx, hw⟩ := hi.wired k inst m hk hm
  obtain ⟨H', k1, k2, k3, k4, k5⟩ := hi.hits (w := w) (L := r.st.log) hk hm he hx hn hs
  have hxm := List.mem_of_getElem? hx
  have hin := hi.inside x hxm
  have hsize := hi.size
  refine ⟨⟨H', r.st.frames ++ [[]], r.st.log⟩, k1, rfl, ⟨k4, ho.inside hxm hin.1 (fun a _ _ => k5 a)
    (Nat.le_of_eq k2) (List.prefix_append _ _) (by unfold globalObj; omega) (fun a _ ha => k3 a (by omega))⟩,
    ⟨Nat.le_of_eq k2, List.prefix_refl _, by rw [hit_writes]; exact List.prefix_refl _, List.prefix_refl _, fun _ h => h⟩, k2.symm, rfl, ?_, ?_⟩
  · intro a ha
    refine k3 a ?_
    by_cases hb : x.lo ≤ a ∧ a < x.hi
    · exact absurd (ho.box x hxm a hb.1 hb.2) ha
    · omega
  · intro y hy
    rw [hx] at hy
    cases hy
    exact k3 _ (.inr (.inr rfl))

/-- The empty scope of a call of the coverage function. -/
theorem Kept.scope (h : Kept gcv r b boxes) : Kept gcv (r.in_ r.st.scope) b boxes := by
  obtain ⟨hi, ho⟩ := h
  refine ⟨hi.extend (List.prefix_refl _) (List.prefix_append _ _), ho.box, ho.reg, ?_, ho.heap, ?_⟩
  · intro inst hin
    obtain ⟨f, fa, j, o1, o2, o3⟩ := ho.fn inst hin
    exact ⟨f, fa, j, prefix_get (List.prefix_append _ _) o1, o2, o3⟩
  · intro i hi
    have := ho.frames i hi
    show i < (r.st.frames ++ [[]]).length
    rw [List.length_append]
    omega

/-- A truthiness wrapper, evaluated at a place of a loaded file; `r2` is the realm when the operand has been
evaluated. -/
theorem Kept.wrapper (h : Kept gcv r b boxes) {k : Nat} {inst : Instance} (hk : r.insts[k]? = some inst)
    {env : List Nat} (hpl : Place r.st env inst) {r2 : Realm} {b2 : Books} {boxes2 : List Box}
    (h2 : Kept gcv r2 b2 boxes2) (hon : Onward (r.in_ r.st.scope) b boxes r2 b2 boxes2) {operand : Expr} {v : Value}
    (hop : eval w env operand r.st.scope = .ok (r2.st, v)) (hv : Passive r2.st.heap v) (hpl2 : Place r2.st env inst)
    {branch arm : Nat} (hcell : b2.Allows gcv (.hit k (.bT branch arm))) :
    ∃ st, eval w env (truthWrapper inst.2 (tempName inst.2) branch arm operand) r.st = .ok (st, v) ∧
      st.log = r2.st.log ∧
      Kept gcv (r2.in_ st) (if counted r2.st.heap v then b2.hit k (.bT branch arm) else b2) boxes2 ∧
      Onward r2 b2 boxes2 (r2.in_ st) (if counted r2.st.heap v then b2.hit k (.bT branch arm) else b2) boxes2 ∧
      (∀ a, a < r2.st.heap.length → ¬ r2.own a → st.heap[a]? = r2.st.heap[a]?) ∧ r2.st.frames <+: st.frames := by
  obtain ⟨m, hm, e, he, hcnt⟩ := hcell
  have hm : b2.writes[k]? = some m := hm
  have he : b2.sets[m]? = some e := he
  obtain ⟨n, hn⟩ := Option.isSome_iff_exists.1 hcnt
  have hi := h.inv
  have hi4 := h2.inv
  have hk' : r2.insts[k]? = some inst := prefix_get hon.insts_ hk
  obtain ⟨x, hxb, hw4⟩ := hi4.wired k inst m hk' hm
  -- the data object is the one found before the operand was evaluated
  have hkl : k < b.writes.length := by rw [← hi.lenw]; exact lt_of_getElem? hk
  obtain ⟨m0, hm0⟩ : ∃ m0, b.writes[k]? = some m0 := ⟨_, List.getElem?_eq_getElem hkl⟩
  have hm0' := prefix_get hon.writes hm0
  rw [hm] at hm0'
  injection hm0' with hm0'
  subst hm0'
  obtain ⟨x0, hxb0, hw2⟩ := hi.wired k inst m hk hm0
  have hxb0' := prefix_get hon.boxes_ hxb0
  rw [hxb] at hxb0'
  injection hxb0' with hxb0'
  subst hxb0'
  have hc : expr w (call w 2) env (.call (.ident inst.2) .nil) r.st = .ok (r.st.scope, .ref x.root) :=
    call_cov (L := r.st.log) 1 hw2 hpl.covFn
  obtain ⟨ps, H5, F5, y, t1, t2, t3, t4, t5, t6, t7⟩ := hi4.tested (w := w) (L := r2.st.log) (env := env) hk' hm he
    hxb hn hpl2.covFn hpl2.array hpl2.object hv
  have hput : put (.ref x.root) (tempName inst.2) v r2.st = .ok (⟨r2.st.heap.set x.root
      ⟨.plain, some objectProto, ps.insert (tempName inst.2) (.data v)⟩, r2.st.frames, r2.st.log⟩, ()) :=
    put_plain (H := r2.st.heap) (F := r2.st.frames) (L := r2.st.log) t1 (tempName_fresh inst.2).2
  have hop' : expr w (call w 2) env operand r.st.scope = .ok (r2.st, v) := hop
  have hass : expr w (call w 2) env (.assign (temp inst.2 (tempName inst.2)) operand) r.st
      = .ok (⟨r2.st.heap.set x.root ⟨.plain, some objectProto, ps.insert (tempName inst.2) (.data v)⟩, r2.st.frames,
        r2.st.log⟩, v) := by
    unfold temp
    rw [expr, bind_ok hc, bind_ok hop', bind_ok hput]
    rfl
  have hxm := List.mem_of_getElem? hxb
  have hin := hi4.inside x hxm
  have hsize := hi4.size
  refine ⟨⟨H5, F5, r2.st.log⟩, ?_, rfl, ⟨t4, h2.owned.inside hxm hin.1 (fun a _ _ => t7 a) t5 t3
    (by unfold globalObj; omega) t6⟩, ⟨t5, List.prefix_refl _, ?_, List.prefix_refl _, fun _ h => h⟩, ?_, t3⟩
  · unfold eval truthWrapper
    simp only [Exprs.ofList] at t2 ⊢
    have hes := exprs_cons hass t2
    rw [expr, bind_ok hes]
    rfl
  · split
    · rw [hit_writes]
      exact List.prefix_refl _
    · exact List.prefix_refl _
  · intro a ha1 ha2
    refine t6 a ha1 ?_
    by_cases hb : x.lo ≤ a ∧ a < x.hi
    · exact absurd (h2.owned.box x hxm a hb.1 hb.2) ha2
    · omega

theorem after_snoc (es : List Event) (e : Event) : b.after (es ++ [e]) = (b.after es).step e := by
  rw [after_append]
  rfl

/-- Lives keep the books, and the coverage events on the way can happen. -/
theorem Lives.keeps {r' : Realm} {es : List Event} (h : Lives w gcv r b r' es) (hg : gcv ≠ "__proto__") :
    ∀ {boxes : List Box}, Kept gcv r b boxes →
      b.AllowsAll gcv es ∧ ∃ boxes', Kept gcv r' (b.after es) boxes' ∧ Onward r b boxes r' (b.after es) boxes' := by
  induction h with
  | stay r b => exact fun {boxes} hk => ⟨trivial, boxes, hk, .refl⟩
  | code before allowed ih =>
    intro boxes hk
    obtain ⟨a1, boxes1, k1, o1⟩ := ih hk
    obtain ⟨k2, o2⟩ := k1.code allowed
    exact ⟨a1, boxes1, k2, o1.trans o2⟩
  | load before proper run ih =>
    intro boxes hk
    obtain ⟨a1, boxes1, k1, o1⟩ := ih hk
    obtain ⟨st', f', boxes', l1, _, l2, l3, _⟩ := k1.load (w := w) hg proper
    rw [run] at l1
    injection l1 with l1
    injection l1 with l1 l1'
    subst l1 l1'
    refine ⟨allows_append.2 ⟨a1, proper, trivial⟩, boxes', ?_⟩
    rw [after_snoc]
    exact ⟨l2, o1.trans l3⟩
  | hit before instance_ place cell run ih =>
    intro boxes hk
    obtain ⟨a1, boxes1, k1, o1⟩ := ih hk
    have hcell := cell
    obtain ⟨m, hm, e, he, hcnt⟩ := cell
    obtain ⟨n, hn⟩ := Option.isSome_iff_exists.1 hcnt
    obtain ⟨st', l1, _, l2, l3, _⟩ := k1.hit (w := w) instance_ place hm he hn
    rw [run] at l1
    injection l1 with l1
    injection l1 with l1 l1'
    subst l1
    refine ⟨allows_append.2 ⟨a1, hcell, trivial⟩, boxes1, ?_⟩
    rw [after_snoc]
    exact ⟨l2, o1.trans l3⟩
  | @wrapper r r1 r2 b es more k inst env branch arm operand st v v' before instance_ place meanwhile operand_ passive
      place' cell run ih ih2 =>
    intro boxes hk
    obtain ⟨a1, boxes1, k1, o1⟩ := ih hk
    obtain ⟨a2, boxes2, k2, o2⟩ := ih2 k1.scope
    rw [← after_append] at k2 o2
    obtain ⟨st', l1, _, l2, l3, _⟩ := k1.wrapper (w := w) instance_ place k2 o2 operand_ passive place' cell
    rw [run] at l1
    injection l1 with l1
    injection l1 with l1 l1'
    subst l1
    have o1' : Onward r b boxes (r1.in_ r1.st.scope) (b.after es) boxes1 :=
      ⟨o1.heap, o1.insts_, o1.writes, o1.boxes_, o1.own⟩
    cases hc : counted r2.st.heap v with
    | true =>
      rw [hc] at l2 l3
      simp only [if_true] at l2 l3 ⊢
      refine ⟨allows_append.2 ⟨allows_append.2 ⟨a1, a2⟩, cell, trivial⟩, boxes2, ?_⟩
      rw [after_snoc]
      exact ⟨l2, (o1'.trans o2).trans l3⟩
    | false =>
      rw [hc] at l2 l3
      simp only [Bool.false_eq_true, if_false, List.append_nil] at l2 l3 ⊢
      exact ⟨allows_append.2 ⟨a1, a2⟩, boxes2, l2, (o1'.trans o2).trans l3⟩

/-- A realm that has not loaded anything. -/
theorem Kept.start {st : State} (h : Pristine gcv st) : Kept gcv (.new st) .empty [] := by
  refine ⟨Inv.start h, ?_, ?_, ?_, ?_, ?_⟩
  · intro x hx
    cases hx
  · rintro R ⟨gs, g1, g2⟩
    obtain ⟨ps, p1, p2⟩ := h.global
    have g1' : st.heap[globalObj]? = some ⟨.plain, some objectProto, gs⟩ := g1
    rw [p1] at g1'
    injection g1' with g1'
    injection g1' with _ _ g1'
    subst g1'
    rw [p2] at g2
    cases g2
  · intro inst hin
    cases hin
  · intro a ha
    exact ha.elim
  · intro i hi
    exact hi.elim

end
end Verif.Runtime
