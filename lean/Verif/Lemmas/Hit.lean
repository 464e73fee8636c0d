import Verif.Lemmas.Load
import Verif.Lemmas.Focus
/-
Data sets on the heap, and hitting a counter.
-/
namespace Verif.Runtime
open Js Template

/-- Where a data set is: its addresses, and that of the data object. -/
structure Box where
  lo : Nat
  hi : Nat
  root : Nat

/-- The properties of a data object that hold coverage data. -/
def known (ps : IndexMap String Cell) : IndexMap String Cell := ps.filter fun e => e.1 ∈ fieldNames

/-- The properties of a data object besides those that hold coverage data are temporaries of truthiness counters, and
there are none if there are no truthiness counters. -/
def Temps (c : FileCoverage) (ps : IndexMap String Cell) : Prop :=
  ∀ e ∈ ps, e.1 ∈ fieldNames ∨ (c.bT.isSome ∧ ∃ cov v, e = (tempName cov, Cell.data v))

/-- The data set is in its box. -/
def Held (H : List Obj) (x : Box) (e : Input × FileCoverage) : Prop :=
  ∃ ps m, H[x.root]? = some ⟨.plain, some objectProto, ps⟩ ∧ m ≤ x.root ∧ x.root < x.hi ∧
    ReadsAll H x.lo m (known ps) (dataFields e.1.magic e.1.hash e.2) ∧ Temps e.2 ps

/-- The data object has no temporaries. -/
def Spare (H : List Obj) (x : Box) : Prop :=
  ∀ ps, H[x.root]? = some ⟨.plain, some objectProto, ps⟩ → ∀ e ∈ ps, e.1 ∈ fieldNames

theorem Held.agree {H H' : List Obj} {x : Box} {e : Input × FileCoverage} (h : Held H x e)
    (ha : Agree H H' x.lo x.hi) : Held H' x e := by
  obtain ⟨ps, m, h1, h2, h3, h4, h5⟩ := h
  have hl := h4.le
  exact ⟨ps, m, (ha _ (by omega) h3).trans h1, h2, h3, h4.agree (ha.sub (Nat.le_refl _) (by omega)), h5⟩

theorem Held.lo_le {H : List Obj} {x : Box} {e : Input × FileCoverage} (h : Held H x e) :
    x.lo ≤ x.root ∧ x.root < x.hi ∧ x.root < H.length := by
  obtain ⟨ps, m, h1, h2, h3, h4, _⟩ := h
  have := h4.le
  exact ⟨by omega, h3, (List.getElem?_eq_some_iff.1 h1).1⟩

theorem known_get {ps : IndexMap String Cell} {k : String} (hk : k ∈ fieldNames) :
    (known ps).get k = ps.get k :=
  IndexMap.get_filter (p := fun k => k ∈ fieldNames) (by simpa using hk)

/-- The tree of a table of the data. -/
theorem dataFields_get (magic hash : String) (c : FileCoverage) :
    IndexMap.get (dataFields magic hash c) "s" = some (tableTree .num c.s) ∧
    IndexMap.get (dataFields magic hash c) "f" = some (tableTree .num c.f) ∧
    IndexMap.get (dataFields magic hash c) "b" = some (tableTree countsTree c.b) ∧
    IndexMap.get (dataFields magic hash c) "hash" = some (.str hash) ∧
    (∀ m, c.bT = some m → IndexMap.get (dataFields magic hash c) "bT" = some (tableTree countsTree m)) := by
  unfold dataFields
  cases c.bT <;> cases c.inputSourceMap <;> simp [IndexMap.get, magicKey]

/-- The hash of a data set can be read. -/
theorem Held.hash {H : List Obj} {x : Box} {e : Input × FileCoverage} (h : Held H x e) :
    ∃ ps, H[x.root]? = some ⟨.plain, some objectProto, ps⟩ ∧ ps.get "hash" = some (.data (.str e.1.hash)) := by
  obtain ⟨ps, m, h1, h2, h3, h4, _⟩ := h
  obtain ⟨_, _, v, _, _, a3, a4⟩ := h4.get (dataFields_get _ _ _).2.2.2.1
  have hv : v = .str e.1.hash := by cases a4; rfl
  subst hv
  rw [known_get (by decide)] at a3
  exact ⟨ps, h1, a3⟩

section
variable {w : World} {H : List Obj} {F : List (IndexMap String Value)} {L : List Nat}

/-- An instance that has been loaded: its coverage function returns the data object. -/
def Wired (H : List Obj) (F : List (IndexMap String Value)) (root : Nat) (inst : Instance) : Prop :=
  ∃ f fa j g, F[inst.1]? = some f ∧ f.get inst.2 = some (.ref fa) ∧ H[fa]? = some (getter [j, inst.1]) ∧
    F[j]? = some g ∧ g.get "actualCoverage" = some (.ref root)

theorem Wired.mono {H H' : List Obj} {F F' : List (IndexMap String Value)} {root : Nat} {inst : Instance}
    (h : Wired H F root inst) (hF : F <+: F')
    (hH : ∀ (fa : Nat) (env : List Nat), H[fa]? = some (getter env) → H'[fa]? = some (getter env)) : Wired H' F' root inst := by
  obtain ⟨f, fa, j, g, h1, h2, h3, h4, h5⟩ := h
  obtain ⟨T, rfl⟩ := hF
  refine ⟨f, fa, j, g, ?_, h2, hH _ _ h3, ?_, h5⟩
  · rw [List.getElem?_append_left (List.getElem?_eq_some_iff.1 h1).1]
    exact h1
  · rw [List.getElem?_append_left (List.getElem?_eq_some_iff.1 h4).1]
    exact h4

/-- The coverage function is visible in the scope of its file. -/
theorem Wired.sees {root : Nat} {inst : Instance} (h : Wired H F root inst) :
    scopeOf F [inst.1] inst.2 = some inst.1 := by
  obtain ⟨f, fa, j, g, h1, h2, _⟩ := h
  unfold scopeOf
  simp only [h1, h2, Option.isSome_some, if_true]

/-- `cov()`, wherever the coverage function is visible. -/
theorem call_cov {root : Nat} {inst : Instance} {env : List Nat} (d : Nat) (hw : Wired H F root inst)
    (hs : scopeOf F env inst.2 = some inst.1) :
    expr w (call w (d + 1)) env (.call (.ident inst.2) .nil) ⟨H, F, L⟩
      = .ok (⟨H, F ++ [[]], L⟩, .ref root) := by
  obtain ⟨f, fa, j, g, h1, h2, h3, h4, h5⟩ := hw
  have hg : expr w (call w (d + 1)) env (.ident inst.2) ⟨H, F, L⟩ = .ok (⟨H, F, L⟩, .ref fa) := by
    rw [expr]
    unfold getVar
    simp only [hs]
    unfold frameGet
    simp only [h1, h2]
  rw [expr, bind_ok hg, bind_ok (by rw [exprs]; rfl)]
  show callWith w (call w d) (.ref fa) [] _ = _
  unfold callWith
  simp only [h3, getter]
  have hj : (F ++ [[]])[j]? = some g := by
    rw [List.getElem?_append_left (List.getElem?_eq_some_iff.1 h4).1]
    exact h4
  have hv : expr w (call w d) [F.length, j, inst.1] (.ident "actualCoverage") ⟨H, F ++ [[]], L⟩
      = .ok (⟨H, F ++ [[]], L⟩, .ref root) := by
    rw [expr]
    unfold getVar scopeOf
    simp only [getElem?_length, IndexMap.get, Option.isSome_none, Bool.false_eq_true, if_false]
    unfold scopeOf
    simp only [hj, h5, Option.isSome_some, if_true]
    unfold frameGet
    simp only [hj, h5]
  have hb : body w (call w d) [j, inst.1] (.ofList [.ret (.ident "actualCoverage")]) ⟨H, F, L⟩
      = .ok (⟨H, F ++ [[]], L⟩, some (.ref root)) := by
    unfold body
    rw [bind_ok (show newFrame ⟨H, F, L⟩ = .ok (⟨H, F ++ [[]], L⟩, F.length) from rfl)]
    simp only [Stmts.ofList]
    have hh : hoist [F.length, j, inst.1] (.cons (.ret (.ident "actualCoverage")) .nil) ⟨H, F ++ [[]], L⟩
        = .ok (⟨H, F ++ [[]], L⟩, ()) := by
      rw [hoist_cons rfl]
      rfl
    rw [bind_ok hh]
    have hs : stmt w (call w d) [F.length, j, inst.1] (.ret (.ident "actualCoverage")) ⟨H, F ++ [[]], L⟩
        = .ok (⟨H, F ++ [[]], L⟩, some (.ref root)) := by
      rw [stmt, bind_ok hv]
      rfl
    rw [stmts, bind_ok hs]
    rfl
  rw [bind_ok hb]
  rfl

/-- `cov().field` -/
theorem call_field {root : Nat} {inst : Instance} {env : List Nat} (d : Nat) {ps : IndexMap String Cell} {k : String}
    {v : Value} (hw : Wired H F root inst) (hs : scopeOf F env inst.2 = some inst.1) (hr : H[root]? = some ⟨.plain, some objectProto, ps⟩)
    (hp : k ≠ "__proto__") (hk : ps.get k = some (.data v)) :
    expr w (call w (d + 1)) env (.member (.call (.ident inst.2) .nil) k) ⟨H, F, L⟩
      = .ok (⟨H, F ++ [[]], L⟩, v) := by
  rw [expr, bind_ok (call_cov d hw hs)]
  exact get_own (st := ⟨H, F ++ [[]], L⟩) hr hp (Or.inr rfl) hk

/-- `o[i]++` for a number cell of the object `o`. -/
theorem incr_cell {call : Value → List Value → M Value} {env : List Nat} {o : Expr} {F' : List (IndexMap String Value)}
    {a n id : Nat} {c : Cls} {p : Option Nat} {ps : IndexMap String Cell}
    (he : expr w call env o ⟨H, F, L⟩ = .ok (⟨H, F', L⟩, .ref a)) (ha : H[a]? = some ⟨c, p, ps⟩)
    (hg : ps.get (toString id) = some (.data (.num n))) :
    expr w call env (.incr (.index o (.num id))) ⟨H, F, L⟩
      = .ok (⟨H.set a ⟨c, p, ps.insert (toString id) (.data (.num (bump n)))⟩, F', L⟩, .num n) := by
  rw [expr, bind_ok he, bind_ok (by rw [expr]; rfl)]
  have hg' : get w (.ref a) (Value.num id).key ⟨H, F', L⟩ = .ok (⟨H, F', L⟩, .num n) :=
    get_own (st := ⟨H, F', L⟩) ha (toString_ne_proto id) (Or.inl (toString_ne (by decide))) hg
  have hp' : put (.ref a) (Value.num id).key (Value.incr (.num n)) ⟨H, F', L⟩
      = .ok (⟨H.set a ⟨c, p, ps.insert (toString id) (.data (.num (bump n)))⟩, F', L⟩, ()) :=
    put_plain ha (toString_ne_proto id)
  rw [bind_ok hg', bind_ok hp']
  rfl

/-- `o[i][j]`: the object of the first access. -/
theorem index_obj {call : Value → List Value → M Value} {env : List Nat} {o : Expr} {F' : List (IndexMap String Value)}
    {r id : Nat} {v : Value} {rs : IndexMap String Cell}
    (he : expr w call env o ⟨H, F, L⟩ = .ok (⟨H, F', L⟩, .ref r))
    (hr : H[r]? = some ⟨.plain, some objectProto, rs⟩) (hg : rs.get (toString id) = some (.data v)) :
    expr w call env (.index o (.num id)) ⟨H, F, L⟩ = .ok (⟨H, F', L⟩, v) := by
  rw [expr, bind_ok he, bind_ok (by rw [expr]; rfl)]
  exact get_own (st := ⟨H, F', L⟩) hr (toString_ne_proto id) (Or.inl (toString_ne (by decide))) hg

/-- Hitting a counter changes one object, inside the box of the data set, and the data set is as after the hit. -/
theorem hit_ok (d : Nat) {x : Box} {inst : Instance} {env : List Nat} {e : Input × FileCoverage} {c : Counter} {n : Nat}
    (hh : Held H x e) (hw : Wired H F x.root inst) (hs : scopeOf F env inst.2 = some inst.1)
    (hc : e.2.count c = some n) :
    ∃ a o o', H[a]? = some o ∧ (∀ env, o ≠ getter env) ∧ x.lo ≤ a ∧ a < x.hi ∧ a ≠ x.root ∧
      expr w (call w (d + 1)) env (counter inst.2 c) ⟨H, F, L⟩
        = .ok (⟨H.set a o', F ++ [[]], L⟩, .num n) ∧
      Held (H.set a o') x (e.1, e.2.hit c) := by
  obtain ⟨ps, m, h1, h2, h3, h4, h5⟩ := hh
  obtain ⟨g1, g2, g3, _, g5⟩ := dataFields_get e.1.magic e.1.hash e.2
  have hm := h4.le
  -- the two shapes
  have one : ∀ (k : String) (t : IndexMap Nat Nat) (id : Nat), k ∈ fieldNames → k ≠ "__proto__" →
      IndexMap.get (dataFields e.1.magic e.1.hash e.2) k = some (tableTree .num t) → t.get id = some n →
      ∃ a o o', H[a]? = some o ∧ (∀ env, o ≠ getter env) ∧ x.lo ≤ a ∧ a < m ∧
        expr w (call w (d + 1)) env (.incr (.index (.member (.call (.ident inst.2) .nil) k) (.num id)))
          ⟨H, F, L⟩ = .ok (⟨H.set a o', F ++ [[]], L⟩, .num n) ∧
        ReadsAll (H.set a o') x.lo m (known ps)
          (IndexMap.insert (dataFields e.1.magic e.1.hash e.2) k (tableTree .num (t.modify id bump))) := by
    intro k t id hk hp hg ht
    obtain ⟨lo', hi', v, a1, a2, a3, a4, a5⟩ := h4.focus hg
    obtain ⟨a, as, rfl, b2, b3, b4, b5, b6⟩ := reads_table_incr a4 ht
    have a3' := a3
    rw [known_get hk] at a3'
    refine ⟨a, _, _, b4, ?_, by omega, by omega, incr_cell (call_field d hw hs h1 hp a3') b4 b5, ?_⟩
    · intro env e
      injection e with e
      cases e
    · have := a5 _ _ _ (fun b hb1 hb2 hb3 => List.getElem?_set_ne (by omega)) b6
      rw [IndexMap.insert_same a3] at this
      exact this
  have two : ∀ (k : String) (t : IndexMap Nat (List Nat)) (id arm : Nat) (l : List Nat), k ∈ fieldNames →
      k ≠ "__proto__" → IndexMap.get (dataFields e.1.magic e.1.hash e.2) k = some (tableTree countsTree t) →
      t.get id = some l → l[arm]? = some n →
      ∃ a o o', H[a]? = some o ∧ (∀ env, o ≠ getter env) ∧ x.lo ≤ a ∧ a < m ∧
        expr w (call w (d + 1)) env
          (.incr (.index (.index (.member (.call (.ident inst.2) .nil) k) (.num id)) (.num arm)))
          ⟨H, F, L⟩ = .ok (⟨H.set a o', F ++ [[]], L⟩, .num n) ∧
        ReadsAll (H.set a o') x.lo m (known ps)
          (IndexMap.insert (dataFields e.1.magic e.1.hash e.2) k
            (tableTree countsTree (t.modify id fun l => l.modify arm bump))) := by
    intro k t id arm l hk hp hg ht hl
    obtain ⟨lo', hi', v, a1, a2, a3, a4, a5⟩ := h4.focus hg
    obtain ⟨r, rs, a, as, rfl, b2, b3, b4, b5, b6, b7, b8⟩ := reads_arms_incr a4 ht hl
    have a3' := a3
    rw [known_get hk] at a3'
    refine ⟨a, _, _, b6, ?_, by omega, by omega,
      incr_cell (index_obj (call_field d hw hs h1 hp a3') b2 b3) b6 b7, ?_⟩
    · intro env e
      injection e with e
      cases e
    · have := a5 _ _ _ (fun b hb1 hb2 hb3 => List.getElem?_set_ne (by omega)) b8
      rw [IndexMap.insert_same a3] at this
      exact this
  -- the data set afterwards
  have fin : ∀ {a : Nat} {o' : Obj} {c' : FileCoverage}, a < m → c'.bT.isSome = e.2.bT.isSome →
      ReadsAll (H.set a o') x.lo m (known ps) (dataFields e.1.magic e.1.hash c') →
      Held (H.set a o') x (e.1, c') := by
    intro a o' c' ha hb hr
    refine ⟨ps, m, ?_, h2, h3, hr, fun q hq => by rw [hb]; exact h5 q hq⟩
    rw [List.getElem?_set_ne (by omega)]
    exact h1
  obtain ⟨i, fc⟩ := e
  obtain ⟨all, path, sm, fm, bm, s, f, b, bT, ism⟩ := fc
  cases c with
  | s id =>
    obtain ⟨a, o, o', k1, k2, k3, k4, k5, k6⟩ := one "s" s id (by decide) (by decide) g1 hc
    refine ⟨a, o, o', k1, k2, k3, by omega, by omega, k5, fin k4 rfl ?_⟩
    have : IndexMap.insert (dataFields i.magic i.hash ⟨all, path, sm, fm, bm, s, f, b, bT, ism⟩) "s"
        (tableTree .num (s.modify id bump))
        = dataFields i.magic i.hash ⟨all, path, sm, fm, bm, s.modify id bump, f, b, bT, ism⟩ := by
      unfold dataFields
      simp [IndexMap.insert]
    rw [this] at k6
    exact k6
  | f id =>
    obtain ⟨a, o, o', k1, k2, k3, k4, k5, k6⟩ := one "f" f id (by decide) (by decide) g2 hc
    refine ⟨a, o, o', k1, k2, k3, by omega, by omega, k5, fin k4 rfl ?_⟩
    have : IndexMap.insert (dataFields i.magic i.hash ⟨all, path, sm, fm, bm, s, f, b, bT, ism⟩) "f"
        (tableTree .num (f.modify id bump))
        = dataFields i.magic i.hash ⟨all, path, sm, fm, bm, s, f.modify id bump, b, bT, ism⟩ := by
      unfold dataFields
      simp [IndexMap.insert]
    rw [this] at k6
    exact k6
  | b id arm =>
    obtain ⟨l, hl1, hl2⟩ : ∃ l, b.get id = some l ∧ l[arm]? = some n := by
      have hc' : (b.get id).bind (·[arm]?) = some n := hc
      exact Option.bind_eq_some_iff.1 hc'
    obtain ⟨a, o, o', k1, k2, k3, k4, k5, k6⟩ := two "b" b id arm l (by decide) (by decide) g3 hl1 hl2
    refine ⟨a, o, o', k1, k2, k3, by omega, by omega, k5, fin k4 rfl ?_⟩
    have : IndexMap.insert (dataFields i.magic i.hash ⟨all, path, sm, fm, bm, s, f, b, bT, ism⟩) "b"
        (tableTree countsTree (b.modify id fun l => l.modify arm bump))
        = dataFields i.magic i.hash
          ⟨all, path, sm, fm, bm, s, f, b.modify id fun l => l.modify arm bump, bT, ism⟩ := by
      unfold dataFields
      simp [IndexMap.insert]
    rw [this] at k6
    exact k6
  | bT id arm =>
    cases bT with
    | none => cases hc
    | some t =>
      obtain ⟨l, hl1, hl2⟩ : ∃ l, t.get id = some l ∧ l[arm]? = some n := by
        have hc' : (t.get id).bind (·[arm]?) = some n := hc
        exact Option.bind_eq_some_iff.1 hc'
      obtain ⟨a, o, o', k1, k2, k3, k4, k5, k6⟩ := two "bT" t id arm l (by decide) (by decide) (g5 t rfl) hl1 hl2
      refine ⟨a, o, o', k1, k2, k3, by omega, by omega, k5, fin k4 rfl ?_⟩
      have : IndexMap.insert (dataFields i.magic i.hash ⟨all, path, sm, fm, bm, s, f, b, some t, ism⟩) "bT"
          (tableTree countsTree (t.modify id fun l => l.modify arm bump))
          = dataFields i.magic i.hash
            ⟨all, path, sm, fm, bm, s, f, b, some (t.modify id fun l => l.modify arm bump), ism⟩ := by
        unfold dataFields
        simp [IndexMap.insert]
      rw [this] at k6
      exact k6

end

end Verif.Runtime
