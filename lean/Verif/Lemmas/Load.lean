import Verif.Lemmas.Runtime
/-
Loading an instrumented file: the coverage function is declared and called once.
-/
namespace Verif.Runtime
open Js Template

/-- The variables of the coverage function. -/
def locals (p h g v d c a : Value) : IndexMap String Value :=
  [("path", p), ("hash", h), ("global", g), ("gcv", v), ("coverageData", d), ("coverage", c), ("actualCoverage", a)]

theorem locals_get_none {p h g v d c a : Value} {x : String}
    (hx : x ∉ ["path", "hash", "global", "gcv", "coverageData", "coverage", "actualCoverage"]) :
    (locals p h g v d c a).get x = none := by
  simp only [List.mem_cons, List.not_mem_nil, or_false, not_or] at hx
  obtain ⟨h1, h2, h3, h4, h5, h6, h7⟩ := hx
  simp [locals, IndexMap.get, Ne.symm h1, Ne.symm h2, Ne.symm h3, Ne.symm h4, Ne.symm h5, Ne.symm h6, Ne.symm h7]

section
variable {w : World} {H : List Obj} {F : List (IndexMap String Value)} {fi fj : IndexMap String Value}
  {L : List Nat}

theorem hoist_var {x : String} {e : Expr} :
    hoistOne [F.length + 1, F.length] (.var x e) ⟨H, F ++ [fi, fj], L⟩
      = .ok (⟨H, F ++ [fi, fj.insert x .undef], L⟩, ()) := setFrame_inner

theorem hoist_cons {env : List Nat} {s : Stmt} {ss : Stmts} {st st' : State}
    (h : hoistOne env s st = .ok (st', ())) : hoist env (.cons s ss) st = hoist env ss st' := by
  rw [hoist, bind_ok h]

theorem hoist_body (i : Input) :
    hoist [F.length + 1, F.length] (fnBody i) ⟨H, F ++ [fi, []], L⟩
      = .ok (⟨H, F ++ [fi, locals .undef .undef .undef .undef .undef .undef .undef], L⟩, ()) := by
  simp only [fnBody, Stmts.ofList, assignStmt, globalStmt]
  rw [hoist_cons hoist_var, hoist_cons hoist_var, hoist_cons hoist_var, hoist_cons hoist_var, hoist_cons hoist_var,
    hoist_cons hoist_var, hoist_cons rfl, hoist_cons hoist_var, hoist_cons rfl, hoist_cons rfl]
  rfl

/-- create_coverage_fn_decl.rs:60-92: the first five statements. -/
theorem body_head (i : Input) (d : Nat) (rest : List Stmt) (hk : i.data.Keyed) :
    ∃ H' root, H <+: H' ∧ Reads H' H.length H'.length (.ref root) (dataTree i.magic i.hash i.data) ∧
      stmts w (call w (d + 1)) [F.length + 1, F.length] (.ofList
        ([assignStmt "path" (plainStr i.path), assignStmt "hash" (plainStr i.hash), globalStmt "this",
          assignStmt "gcv" (plainStr i.coverageVariable),
          assignStmt "coverageData" (dataLit i.magic i.hash i.data)] ++ rest))
        ⟨H, F ++ [fi, locals .undef .undef .undef .undef .undef .undef .undef], L⟩
      = stmts w (call w (d + 1)) [F.length + 1, F.length] (.ofList rest)
        ⟨H', F ++ [fi, locals (.str i.path) (.str i.hash) (.ref globalObj) (.str i.coverageVariable) (.ref root)
          .undef .undef], L⟩ := by
  obtain ⟨H', v, h1, h2, h3⟩ := lit_expr w (call w (d + 1)) [F.length + 1, F.length]
    (dataLit i.magic i.hash i.data) _ (denote_data i.magic i.hash i.data hk)
    ⟨H, F ++ [fi, locals (.str i.path) (.str i.hash) (.ref globalObj) (.str i.coverageVariable) .undef
          .undef .undef], L⟩
  have hv : ∃ root, v = .ref root := by
    cases h3
    exact ⟨_, rfl⟩
  obtain ⟨root, rfl⟩ := hv
  refine ⟨H', root, h2, h3, ?_⟩
  have e1 : ∀ (x s : String) (fj : IndexMap String Value),
      stmt w (call w (d + 1)) [F.length + 1, F.length] (assignStmt x (plainStr s)) ⟨H, F ++ [fi, fj], L⟩
      = .ok (⟨H, F ++ [fi, fj.insert x (.str s)], L⟩, none) := by
    intro x s fj
    refine var_step ?_
    unfold plainStr
    rw [expr]
    rfl
  have e2 : ∀ fj : IndexMap String Value,
      stmt w (call w (d + 1)) [F.length + 1, F.length] (globalStmt "this") ⟨H, F ++ [fi, fj], L⟩
      = .ok (⟨H, F ++ [fi, fj.insert "global" (.ref globalObj)], L⟩, none) := by
    intro fj
    refine var_step ?_
    have hf : expr w (call w (d + 1)) [F.length + 1, F.length] (.paren (.newFn (plainStr ("return " ++ "this"))))
        ⟨H, F ++ [fi, fj], L⟩ = .ok (⟨H, F ++ [fi, fj], L⟩, .native "Function: return this") := by
      rw [expr, expr]
      unfold plainStr
      rw [bind_ok (by rw [expr]; rfl), if_pos (by rfl)]
      rfl
    rw [expr, bind_ok hf, bind_ok (by rw [exprs]; rfl)]
    rfl
  simp only [List.cons_append, List.nil_append, Stmts.ofList]
  rw [stmts_cons (e1 _ _ _), stmts_cons (e1 _ _ _), stmts_cons (e2 _), stmts_cons (e1 _ _ _)]
  have h4 : stmt w (call w (d + 1)) [F.length + 1, F.length]
      (assignStmt "coverageData" (dataLit i.magic i.hash i.data))
      ⟨H, F ++ [fi, locals (.str i.path) (.str i.hash) (.ref globalObj) (.str i.coverageVariable) .undef
          .undef .undef], L⟩
      = .ok (⟨H', F ++ [fi, locals (.str i.path) (.str i.hash) (.ref globalObj) (.str i.coverageVariable) (.ref root)
          .undef .undef], L⟩, none) := var_step h1
  have hl : (((((locals .undef .undef .undef .undef .undef .undef .undef).insert "path" (.str i.path)).insert
      "hash" (.str i.hash)).insert "global" (.ref globalObj)).insert "gcv" (.str i.coverageVariable))
      = locals (.str i.path) (.str i.hash) (.ref globalObj) (.str i.coverageVariable) .undef .undef .undef := rfl
  rw [hl, stmts_cons h4]

/-- The function the coverage function is replaced by. -/
def getter (env : List Nat) : Obj :=
  ⟨.closure (.ofList [.ret (.ident "actualCoverage")]) env, some functionProto, []⟩

/-- create_coverage_fn_decl.rs:114-177: the last three statements. -/
theorem body_tail (i : Input) (call : Value → List Value → M Value) {p h g v d u : Value} {R root : Nat}
    {ps : IndexMap String Cell}
    (hc : i.covFn ∉ ["path", "hash", "global", "gcv", "coverageData", "coverage", "actualCoverage"])
    (hi : fi.get i.covFn = some u) (hp : i.path ≠ "__proto__")
    (hR : H[R]? = some ⟨.plain, some objectProto, ps⟩) (he : ps.get i.path = some (.data (.ref root))) :
    stmts w call [F.length + 1, F.length] (.ofList
      [.var "actualCoverage" (.index (.ident "coverage") (.ident "path")),
       .block (.ofList [.expr (.assign (.ident i.covFn) (.fn (.ofList [.ret (.ident "actualCoverage")])))]),
       .ret (.ident "actualCoverage")])
      ⟨H, F ++ [fi, locals (.str i.path) h g v d (.ref R) p], L⟩
    = .ok (⟨H ++ [getter [F.length + 1, F.length]],
        F ++ [fi.insert i.covFn (.ref H.length), locals (.str i.path) h g v d (.ref R) (.ref root)], L⟩,
        some (.ref root)) := by
  have h1 : expr w call [F.length + 1, F.length] (.index (.ident "coverage") (.ident "path"))
      ⟨H, F ++ [fi, locals (.str i.path) h g v d (.ref R) p], L⟩
      = .ok (⟨H, F ++ [fi, locals (.str i.path) h g v d (.ref R) p], L⟩, .ref root) :=
    entry_some (path := i.path) rfl rfl hp hR he
  have h2 : stmt w call [F.length + 1, F.length]
      (.block (.ofList [.expr (.assign (.ident i.covFn) (.fn (.ofList [.ret (.ident "actualCoverage")])))]))
      ⟨H, F ++ [fi, locals (.str i.path) h g v d (.ref R) (.ref root)], L⟩
      = .ok (⟨H ++ [getter [F.length + 1, F.length]],
        F ++ [fi.insert i.covFn (.ref H.length), locals (.str i.path) h g v d (.ref R) (.ref root)], L⟩, none) := by
    have ha : expr w call [F.length + 1, F.length]
        (.assign (.ident i.covFn) (.fn (.ofList [.ret (.ident "actualCoverage")])))
        ⟨H, F ++ [fi, locals (.str i.path) h g v d (.ref R) (.ref root)], L⟩
        = .ok (⟨H ++ [getter [F.length + 1, F.length]],
          F ++ [fi.insert i.covFn (.ref H.length), locals (.str i.path) h g v d (.ref R) (.ref root)], L⟩,
          .ref H.length) := by
      have hf : expr w call [F.length + 1, F.length] (.fn (.ofList [.ret (.ident "actualCoverage")]))
          ⟨H, F ++ [fi, locals (.str i.path) h g v d (.ref R) (.ref root)], L⟩
          = .ok (⟨H ++ [getter [F.length + 1, F.length]],
            F ++ [fi, locals (.str i.path) h g v d (.ref R) (.ref root)], L⟩, .ref H.length) := by
        rw [expr]
        rfl
      rw [expr, bind_ok hf, bind_ok (setVar_outer (locals_get_none hc) hi)]
      rfl
    rw [stmt]
    unfold Stmts.ofList
    have hs : stmt w call [F.length + 1, F.length]
        (.expr (.assign (.ident i.covFn) (.fn (.ofList [.ret (.ident "actualCoverage")]))))
        ⟨H, F ++ [fi, locals (.str i.path) h g v d (.ref R) (.ref root)], L⟩
        = .ok (⟨H ++ [getter [F.length + 1, F.length]],
          F ++ [fi.insert i.covFn (.ref H.length), locals (.str i.path) h g v d (.ref R) (.ref root)], L⟩, none) := by
      rw [stmt, bind_ok ha]
      rfl
    rw [stmts_cons hs]
    unfold Stmts.ofList
    rw [stmts_nil]
  simp only [Stmts.ofList] at h2 ⊢
  rw [stmts_cons (var_step h1)]
  have hl : (locals (.str i.path) h g v d (.ref R) p).insert "actualCoverage" (.ref root)
      = locals (.str i.path) h g v d (.ref R) (.ref root) := rfl
  rw [hl, stmts_cons h2]
  have h3 : stmt w call [F.length + 1, F.length] (.ret (.ident "actualCoverage"))
      ⟨H ++ [getter [F.length + 1, F.length]],
        F ++ [fi.insert i.covFn (.ref H.length), locals (.str i.path) h g v d (.ref R) (.ref root)], L⟩
      = .ok (⟨H ++ [getter [F.length + 1, F.length]],
        F ++ [fi.insert i.covFn (.ref H.length), locals (.str i.path) h g v d (.ref R) (.ref root)], L⟩,
        some (.ref root)) := by
    rw [stmt, bind_ok (by rw [expr]; exact getVar_inner rfl)]
    rfl
  rw [stmts, bind_ok h3]
  rfl

/-- Loading runs the body of the coverage function once. -/
theorem load_body (i : Input) {H' : List Obj} {fi' fj' : IndexMap String Value} {v : Value}
    (hb : stmts w (call w 1) [F.length + 1, F.length] (fnBody i)
      ⟨H ++ [⟨.closure (fnBody i) [F.length], some functionProto, []⟩],
        F ++ [[(i.covFn, .ref H.length)], locals .undef .undef .undef .undef .undef .undef .undef], L⟩
      = .ok (⟨H', F ++ [fi', fj'], L⟩, some v)) :
    load w (prelude i) ⟨H, F, L⟩ = .ok (⟨H', F ++ [fi', fj'], L⟩, F.length) := by
  have h1 : newFrame ⟨H, F, L⟩ = .ok (⟨H, F ++ [[]], L⟩, F.length) := rfl
  have h2 : hoist [F.length] (prelude i) ⟨H, F ++ [[]], L⟩
      = .ok (⟨H ++ [⟨.closure (fnBody i) [F.length], some functionProto, []⟩],
        F ++ [[(i.covFn, .ref H.length)]], L⟩, ()) := by
    unfold prelude fnDecl
    simp only [Stmts.ofList]
    have hf : hoistOne [F.length] (.fnDecl i.covFn (fnBody i)) ⟨H, F ++ [[]], L⟩
        = .ok (⟨H ++ [⟨.closure (fnBody i) [F.length], some functionProto, []⟩],
          F ++ [[(i.covFn, .ref H.length)]], L⟩, ()) := by
      simp only [hoistOne]
      rw [bind_ok (show alloc _ ⟨H, F ++ [[]], L⟩ = .ok (_, _) from rfl)]
      unfold declare setFrame
      simp only [List.getElem?_append_right (Nat.le_refl _), Nat.sub_self, List.getElem?_cons_zero]
      rw [List.set_append_right _ _ (Nat.le_refl _)]
      simp [IndexMap.insert]
    rw [hoist_cons hf, hoist_cons rfl]
    rfl
  have h3 : expr w (call w 2) [F.length] (.call (.ident i.covFn) .nil)
      ⟨H ++ [⟨.closure (fnBody i) [F.length], some functionProto, []⟩], F ++ [[(i.covFn, .ref H.length)]], L⟩
      = .ok (⟨H', F ++ [fi', fj'], L⟩, v) := by
    have hg : expr w (call w 2) [F.length] (.ident i.covFn)
        ⟨H ++ [⟨.closure (fnBody i) [F.length], some functionProto, []⟩], F ++ [[(i.covFn, .ref H.length)]], L⟩
        = .ok (⟨H ++ [⟨.closure (fnBody i) [F.length], some functionProto, []⟩],
          F ++ [[(i.covFn, .ref H.length)]], L⟩, .ref H.length) := by
      rw [expr]
      unfold getVar scopeOf
      simp only [List.getElem?_append_right (Nat.le_refl _), Nat.sub_self, List.getElem?_cons_zero, IndexMap.get,
        if_true, Option.isSome_some]
      unfold frameGet
      simp [IndexMap.get]
    rw [expr, bind_ok hg, bind_ok (by rw [exprs]; rfl)]
    show callWith w (call w 1) (.ref H.length) [] _ = _
    unfold callWith
    simp only [getElem?_length]
    have hbody : body w (call w 1) [F.length] (fnBody i)
        ⟨H ++ [⟨.closure (fnBody i) [F.length], some functionProto, []⟩], F ++ [[(i.covFn, .ref H.length)]], L⟩
        = .ok (⟨H', F ++ [fi', fj'], L⟩, some v) := by
      unfold body
      have hn : newFrame
          ⟨H ++ [⟨.closure (fnBody i) [F.length], some functionProto, []⟩], F ++ [[(i.covFn, .ref H.length)]], L⟩
          = .ok (⟨H ++ [⟨.closure (fnBody i) [F.length], some functionProto, []⟩],
            F ++ [[(i.covFn, .ref H.length)], []], L⟩, F.length + 1) := by
        unfold newFrame
        simp
      rw [bind_ok hn, bind_ok (hoist_body i)]
      exact hb
    rw [bind_ok hbody]
    rfl
  unfold load
  rw [bind_ok h1, bind_ok h2]
  have h4 : stmts w (call w 2) [F.length] (prelude i)
      ⟨H ++ [⟨.closure (fnBody i) [F.length], some functionProto, []⟩], F ++ [[(i.covFn, .ref H.length)]], L⟩
      = .ok (⟨H', F ++ [fi', fj'], L⟩, none) := by
    unfold prelude fnDecl
    simp only [Stmts.ofList]
    rw [stmts_cons (by rw [stmt]; rfl)]
    have : stmt w (call w 2) [F.length] (.expr (.call (.ident i.covFn) .nil))
        ⟨H ++ [⟨.closure (fnBody i) [F.length], some functionProto, []⟩], F ++ [[(i.covFn, .ref H.length)]], L⟩
        = .ok (⟨H', F ++ [fi', fj'], L⟩, none) := by
      rw [stmt, bind_ok h3]
      rfl
    rw [stmts_cons this, stmts_nil]
  rw [bind_ok h4]
  rfl

end

end Verif.Runtime
