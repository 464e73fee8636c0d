import Verif.Lemmas.Template
import Verif.Spec.Runtime
/-
The emitted coverage code, executed step by step.
-/
namespace Verif.Runtime
open Js Template

/-! ### Objects -/

theorem get_own {w : World} {st : State} {a : Nat} {o : Obj} {k : String} {v : Value}
    (ho : st.heap[a]? = some o) (hk : k ≠ "__proto__") (hl : k ≠ "length" ∨ lengthOf o = none)
    (hv : o.props.get k = some (.data v)) : get w (.ref a) k st = .ok (st, v) := by
  have hf : find st.heap (st.heap.length + 1) a k = some (.data v) := by
    unfold find
    rw [ho]
    simp only [hv]
  show getRef w a k st = _
  unfold getRef
  rw [ho]
  simp only
  rw [if_neg hk]
  have : (if k = "length" then lengthOf o else none) = none := by
    split
    · rename_i e
      exact hl.resolve_left (fun h => h e)
    · rfl
  rw [this, hf]
  rfl

/-- A property of a plain object that only `Object.prototype` may have. -/
theorem get_inherited {w : World} {st : State} {a : Nat} {ps p0 : IndexMap String Cell} {k : String}
    (ho : st.heap[a]? = some ⟨.plain, some objectProto, ps⟩) (hk : k ≠ "__proto__")
    (h0 : st.heap[objectProto]? = some ⟨.plain, none, p0⟩) (hn : ps.get k = none) :
    get w (.ref a) k st = readCell w (p0.get k) st := by
  have hlen : ∃ n, st.heap.length = n + 1 := by
    cases hh : st.heap with
    | nil => rw [hh] at ho; cases ho
    | cons o l => exact ⟨l.length, rfl⟩
  obtain ⟨n, hn'⟩ := hlen
  have hf : find st.heap (st.heap.length + 1) a k = p0.get k := by
    rw [hn']
    unfold find
    rw [ho]
    simp only [hn]
    unfold find
    rw [h0]
    cases h : p0.get k with
    | none => simp [h]
    | some c => simp [h]
  show getRef w a k st = _
  unfold getRef
  rw [ho]
  simp only
  rw [if_neg hk]
  have : (if k = "length" then lengthOf (⟨.plain, some objectProto, ps⟩ : Obj) else none) = none := by
    split <;> rfl
  rw [this, hf]

theorem put_own {st : State} {a : Nat} {o : Obj} {k : String} {v : Value} (ho : st.heap[a]? = some o)
    (hk : k ≠ "__proto__") : put (.ref a) k v st =
      .ok ({ st with heap := st.heap.set a { o with props := o.props.insert k (.data v) } }, ()) := by
  unfold put
  simp only [ho]
  unfold Obj.set
  rw [if_neg hk]

theorem put_plain {H : List Obj} {F : List (IndexMap String Value)} {L : List Nat} {a : Nat} {c : Cls}
    {p : Option Nat} {ps : IndexMap String Cell} {k : String} {v : Value} (ho : H[a]? = some ⟨c, p, ps⟩)
    (hk : k ≠ "__proto__") :
    put (.ref a) k v ⟨H, F, L⟩ = .ok (⟨H.set a ⟨c, p, ps.insert k (.data v)⟩, F, L⟩, ()) :=
  put_own (st := ⟨H, F, L⟩) ho hk

/-! ### Variables of the coverage function -/

section
variable {w : World} {H : List Obj} {F : List (IndexMap String Value)} {fi fj : IndexMap String Value}
  {L : List Nat}

theorem frame_outer : (F ++ [fi, fj])[F.length]? = some fi := by simp

theorem frame_inner : (F ++ [fi, fj])[F.length + 1]? = some fj := by simp

theorem getVar_inner {x : String} {v : Value} (hv : fj.get x = some v) :
    getVar w [F.length + 1, F.length] x ⟨H, F ++ [fi, fj], L⟩ = .ok (⟨H, F ++ [fi, fj], L⟩, v) := by
  unfold getVar scopeOf
  simp only [frame_inner, hv, Option.isSome_some, if_true]
  unfold frameGet
  simp only [frame_inner, hv]

theorem setFrame_inner {x : String} {v : Value} :
    setFrame (F.length + 1) x v ⟨H, F ++ [fi, fj], L⟩ = .ok (⟨H, F ++ [fi, fj.insert x v], L⟩, ()) := by
  unfold setFrame
  simp only [frame_inner]
  rw [List.set_append_right _ _ (by omega)]
  simp

theorem setVar_outer {x : String} {u v : Value} (hj : fj.get x = none) (hi : fi.get x = some u) :
    setVar [F.length + 1, F.length] x v ⟨H, F ++ [fi, fj], L⟩ = .ok (⟨H, F ++ [fi.insert x v, fj], L⟩, ()) := by
  unfold setVar scopeOf
  simp only [frame_inner, hj, Option.isSome_none]
  unfold scopeOf
  simp only [frame_outer, hi, Option.isSome_some, if_true]
  unfold setFrame
  simp only [Bool.false_eq_true, if_false, frame_outer]
  rw [List.set_append_right _ _ (by omega)]
  simp

end

/-- `var x = e`, once `e` is evaluated. -/
theorem var_step {w : World} {call : Value → List Value → M Value} {H H' : List Obj}
    {F : List (IndexMap String Value)} {fi fj : IndexMap String Value} {L : List Nat} {x : String} {e : Expr}
    {v : Value} (h : expr w call [F.length + 1, F.length] e ⟨H, F ++ [fi, fj], L⟩
      = .ok (⟨H', F ++ [fi, fj], L⟩, v)) :
    stmt w call [F.length + 1, F.length] (.var x e) ⟨H, F ++ [fi, fj], L⟩
      = .ok (⟨H', F ++ [fi, fj.insert x v], L⟩, none) := by
  rw [stmt, bind_ok h]
  have : declare [F.length + 1, F.length] x v ⟨H', F ++ [fi, fj], L⟩
      = .ok (⟨H', F ++ [fi, fj.insert x v], L⟩, ()) := setFrame_inner
  rw [bind_ok this]
  rfl

theorem stmts_cons {w : World} {call : Value → List Value → M Value} {env : List Nat} {s : Stmt} {ss : Stmts}
    {st st' : State} (h : stmt w call env s st = .ok (st', none)) :
    stmts w call env (.cons s ss) st = stmts w call env ss st' := by
  rw [stmts, bind_ok h]

theorem stmts_nil {w : World} {call : Value → List Value → M Value} {env : List Nat} {st : State} :
    stmts w call env .nil st = .ok (st, none) := by rw [stmts]; rfl

/-! ### The object the data is kept in -/

/-- `Object.prototype` has built-in functions only, none under the name of the coverage variable. -/
def Root (gcv : String) (H : List Obj) : Prop :=
  ∃ ps, H[objectProto]? = some ⟨.plain, none, ps⟩ ∧ ps.get gcv = none ∧
    ∀ k c, ps.get k = some c → ∃ n, c = .data (.native n) ∧ nativeMember n "hash" = .undef

/-- There is no coverage object yet. -/
def Unopened (gcv : String) (H : List Obj) : Prop :=
  ∃ ps, H[globalObj]? = some ⟨.plain, some objectProto, ps⟩ ∧ ps.get gcv = none

/-- The coverage object is at `R`, with the properties `ps`. -/
def Opened (gcv : String) (H : List Obj) (R : Nat) (ps : IndexMap String Cell) : Prop :=
  (∃ gs, H[globalObj]? = some ⟨.plain, some objectProto, gs⟩ ∧ gs.get gcv = some (.data (.ref R))) ∧
    H[R]? = some ⟨.plain, some objectProto, ps⟩ ∧ 4 ≤ R

section
variable {w : World} {call : Value → List Value → M Value} {H : List Obj} {F : List (IndexMap String Value)}
  {fi fj : IndexMap String Value} {L : List Nat} {gcv : String}

/-- The expression `global[gcv]`, coverage object present. -/
theorem global_opened {R : Nat} {ps : IndexMap String Cell} (hp : gcv ≠ "__proto__")
    (hg : fj.get "global" = some (.ref globalObj)) (hv : fj.get "gcv" = some (.str gcv))
    (ho : Opened gcv H R ps) :
    expr w call [F.length + 1, F.length] (.index (.ident "global") (.ident "gcv")) ⟨H, F ++ [fi, fj], L⟩
      = .ok (⟨H, F ++ [fi, fj], L⟩, .ref R) := by
  obtain ⟨⟨gs, h1, h2⟩, _, _⟩ := ho
  rw [expr, bind_ok (by rw [expr]; exact getVar_inner hg), bind_ok (by rw [expr]; exact getVar_inner hv)]
  exact get_own (o := ⟨.plain, some objectProto, gs⟩) h1 hp (Or.inr rfl) h2

/-- The expression `global[gcv]`, coverage object missing. -/
theorem global_unopened (hp : gcv ≠ "__proto__")
    (hg : fj.get "global" = some (.ref globalObj)) (hv : fj.get "gcv" = some (.str gcv))
    (hr : Root gcv H) (ho : Unopened gcv H) :
    expr w call [F.length + 1, F.length] (.index (.ident "global") (.ident "gcv")) ⟨H, F ++ [fi, fj], L⟩
      = .ok (⟨H, F ++ [fi, fj], L⟩, .undef) := by
  obtain ⟨gs, h1, h2⟩ := ho
  obtain ⟨p0, h3, h4, _⟩ := hr
  rw [expr, bind_ok (by rw [expr]; exact getVar_inner hg), bind_ok (by rw [expr]; exact getVar_inner hv)]
  show get w (.ref globalObj) gcv _ = _
  rw [get_inherited (ps := gs) h1 hp h3 h2, h4]
  rfl

/-- create_coverage_fn_decl.rs:95-100, coverage object present. -/
theorem coverage_opened {R : Nat} {ps : IndexMap String Cell} (hp : gcv ≠ "__proto__")
    (hg : fj.get "global" = some (.ref globalObj)) (hv : fj.get "gcv" = some (.str gcv))
    (ho : Opened gcv H R ps) :
    expr w call [F.length + 1, F.length] (.or (.index (.ident "global") (.ident "gcv"))
      (.paren (.assign (.index (.ident "global") (.ident "gcv")) (.obj .nil)))) ⟨H, F ++ [fi, fj], L⟩
      = .ok (⟨H, F ++ [fi, fj], L⟩, .ref R) := by
  rw [expr, bind_ok (global_opened hp hg hv ho)]
  rfl

/-- The heap after a coverage object was made. -/
def openedHeap (gcv : String) (H : List Obj) (gs : IndexMap String Cell) : List Obj :=
  (H ++ [(⟨.plain, some objectProto, []⟩ : Obj)]).set globalObj
    ⟨.plain, some objectProto, gs.insert gcv (.data (.ref H.length))⟩

/-- create_coverage_fn_decl.rs:95-100, coverage object missing. -/
theorem coverage_unopened {gs : IndexMap String Cell} (hp : gcv ≠ "__proto__")
    (hg : fj.get "global" = some (.ref globalObj)) (hv : fj.get "gcv" = some (.str gcv))
    (hr : Root gcv H) (h1 : H[globalObj]? = some ⟨.plain, some objectProto, gs⟩) (h2 : gs.get gcv = none) :
    expr w call [F.length + 1, F.length] (.or (.index (.ident "global") (.ident "gcv"))
      (.paren (.assign (.index (.ident "global") (.ident "gcv")) (.obj .nil)))) ⟨H, F ++ [fi, fj], L⟩
      = .ok (⟨openedHeap gcv H gs, F ++ [fi, fj], L⟩, .ref H.length) := by
  rw [expr, bind_ok (global_unopened hp hg hv hr ⟨gs, h1, h2⟩)]
  rw [if_neg (show ¬ Value.truthy .undef = true by decide)]
  rw [expr, expr, bind_ok (by rw [expr]; exact getVar_inner hg), bind_ok (by rw [expr]; exact getVar_inner hv)]
  have hn : expr w call [F.length + 1, F.length] (.obj .nil) ⟨H, F ++ [fi, fj], L⟩
      = .ok (⟨H ++ [⟨.plain, some objectProto, []⟩], F ++ [fi, fj], L⟩, .ref H.length) := by
    rw [expr, bind_ok (by rw [props]; rfl)]
    rfl
  rw [bind_ok hn]
  have h1' : (H ++ [⟨.plain, some objectProto, []⟩])[globalObj]? = some ⟨.plain, some objectProto, gs⟩ := by
    rw [List.getElem?_append_left (List.getElem?_eq_some_iff.1 h1).1]
    exact h1
  have h3 : put (.ref globalObj) (Value.str gcv).key (.ref H.length)
      ⟨H ++ [⟨.plain, some objectProto, []⟩], F ++ [fi, fj], L⟩
      = .ok (⟨openedHeap gcv H gs, F ++ [fi, fj], L⟩, ()) := put_plain h1' hp
  rw [bind_ok h3]
  rfl

/-! ### Installing or keeping the data -/

/-- The statement create_coverage_fn_decl.rs:102-112. -/
def installStmt : Stmt :=
  .ifThen (.or (.not (.index (.ident "coverage") (.ident "path")))
      (.ne (.member (.index (.ident "coverage") (.ident "path")) "hash") (.ident "hash")))
    (.block (.ofList [.expr (.assign (.index (.ident "coverage") (.ident "path")) (.ident "coverageData"))]))

variable {R : Nat} {ps : IndexMap String Cell} {path hash : String}

/-- `coverage[path]`, installed. -/
theorem entry_some {v : Value} (hc : fj.get "coverage" = some (.ref R)) (hv : fj.get "path" = some (.str path))
    (hp : path ≠ "__proto__") (hR : H[R]? = some ⟨.plain, some objectProto, ps⟩)
    (he : ps.get path = some (.data v)) :
    expr w call [F.length + 1, F.length] (.index (.ident "coverage") (.ident "path")) ⟨H, F ++ [fi, fj], L⟩
      = .ok (⟨H, F ++ [fi, fj], L⟩, v) := by
  rw [expr, bind_ok (by rw [expr]; exact getVar_inner hc), bind_ok (by rw [expr]; exact getVar_inner hv)]
  exact get_own (o := ⟨.plain, some objectProto, ps⟩) hR hp (Or.inr rfl) he

/-- `coverage[path]`, not installed. -/
theorem entry_none (hc : fj.get "coverage" = some (.ref R)) (hv : fj.get "path" = some (.str path))
    (hp : path ≠ "__proto__") (hR : H[R]? = some ⟨.plain, some objectProto, ps⟩) (hr : Root gcv H)
    (he : ps.get path = none) :
    ∃ v, expr w call [F.length + 1, F.length] (.index (.ident "coverage") (.ident "path"))
      ⟨H, F ++ [fi, fj], L⟩ = .ok (⟨H, F ++ [fi, fj], L⟩, v) ∧
      (v = .undef ∨ ∃ n, v = .native n ∧ nativeMember n "hash" = .undef) := by
  obtain ⟨p0, h3, _, h5⟩ := hr
  have h : expr w call [F.length + 1, F.length] (.index (.ident "coverage") (.ident "path"))
      ⟨H, F ++ [fi, fj], L⟩ = readCell w (p0.get path) ⟨H, F ++ [fi, fj], L⟩ := by
    rw [expr, bind_ok (by rw [expr]; exact getVar_inner hc), bind_ok (by rw [expr]; exact getVar_inner hv)]
    exact get_inherited (ps := ps) hR hp h3 he
  rw [h]
  cases hq : p0.get path with
  | none => exact ⟨.undef, rfl, Or.inl rfl⟩
  | some c =>
    obtain ⟨n, rfl, hn⟩ := h5 _ _ hq
    exact ⟨.native n, rfl, Or.inr ⟨n, rfl, hn⟩⟩

/-- The condition is false for an entry with the same hash. -/
theorem install_keep {root : Nat} {rs : IndexMap String Cell} (hc : fj.get "coverage" = some (.ref R))
    (hv : fj.get "path" = some (.str path)) (hh : fj.get "hash" = some (.str hash)) (hp : path ≠ "__proto__")
    (hR : H[R]? = some ⟨.plain, some objectProto, ps⟩) (he : ps.get path = some (.data (.ref root)))
    (ho : H[root]? = some ⟨.plain, some objectProto, rs⟩) (hs : rs.get "hash" = some (.data (.str hash))) :
    stmt w call [F.length + 1, F.length] installStmt ⟨H, F ++ [fi, fj], L⟩
      = .ok (⟨H, F ++ [fi, fj], L⟩, none) := by
  have h1 : expr w call [F.length + 1, F.length] (.index (.ident "coverage") (.ident "path"))
      ⟨H, F ++ [fi, fj], L⟩ = .ok (⟨H, F ++ [fi, fj], L⟩, .ref root) := entry_some hc hv hp hR he
  have h2 : expr w call [F.length + 1, F.length] (.member (.index (.ident "coverage") (.ident "path")) "hash")
      ⟨H, F ++ [fi, fj], L⟩ = .ok (⟨H, F ++ [fi, fj], L⟩, .str hash) := by
    rw [expr, bind_ok h1]
    exact get_own (o := ⟨.plain, some objectProto, rs⟩) ho (by decide) (Or.inr rfl) hs
  have h3 : expr w call [F.length + 1, F.length] (.or (.not (.index (.ident "coverage") (.ident "path")))
      (.ne (.member (.index (.ident "coverage") (.ident "path")) "hash") (.ident "hash")))
      ⟨H, F ++ [fi, fj], L⟩ = .ok (⟨H, F ++ [fi, fj], L⟩, .bool false) := by
    have hn : expr w call [F.length + 1, F.length] (.not (.index (.ident "coverage") (.ident "path")))
        ⟨H, F ++ [fi, fj], L⟩ = .ok (⟨H, F ++ [fi, fj], L⟩, .bool false) := by
      rw [expr, bind_ok h1]
      rfl
    rw [expr, bind_ok hn]
    rw [if_neg (show ¬ Value.truthy (.bool false) = true by decide)]
    rw [expr, bind_ok h2, bind_ok (by rw [expr]; exact getVar_inner hh)]
    simp [pure_ok]
  unfold installStmt
  rw [stmt, bind_ok h3]
  rfl

/-- The assignment under the condition. -/
theorem install_block {cd : Value} (hc : fj.get "coverage" = some (.ref R))
    (hv : fj.get "path" = some (.str path)) (hd : fj.get "coverageData" = some cd) (hp : path ≠ "__proto__")
    (hR : H[R]? = some ⟨.plain, some objectProto, ps⟩) :
    stmt w call [F.length + 1, F.length]
      (.block (.ofList [.expr (.assign (.index (.ident "coverage") (.ident "path")) (.ident "coverageData"))]))
      ⟨H, F ++ [fi, fj], L⟩
      = .ok (⟨H.set R ⟨.plain, some objectProto, ps.insert path (.data cd)⟩, F ++ [fi, fj], L⟩, none) := by
  have h : stmt w call [F.length + 1, F.length]
      (.expr (.assign (.index (.ident "coverage") (.ident "path")) (.ident "coverageData")))
      ⟨H, F ++ [fi, fj], L⟩
      = .ok (⟨H.set R ⟨.plain, some objectProto, ps.insert path (.data cd)⟩, F ++ [fi, fj], L⟩, none) := by
    have ha : expr w call [F.length + 1, F.length]
        (.assign (.index (.ident "coverage") (.ident "path")) (.ident "coverageData")) ⟨H, F ++ [fi, fj], L⟩
        = .ok (⟨H.set R ⟨.plain, some objectProto, ps.insert path (.data cd)⟩, F ++ [fi, fj], L⟩, cd) := by
      rw [expr, bind_ok (by rw [expr]; exact getVar_inner hc), bind_ok (by rw [expr]; exact getVar_inner hv),
        bind_ok (by rw [expr]; exact getVar_inner hd)]
      have h3 : put (.ref R) (Value.str path).key cd ⟨H, F ++ [fi, fj], L⟩
          = .ok (⟨H.set R ⟨.plain, some objectProto, ps.insert path (.data cd)⟩, F ++ [fi, fj], L⟩, ()) :=
        put_plain hR hp
      rw [bind_ok h3]
      rfl
    rw [stmt, bind_ok ha]
    rfl
  rw [stmt]
  unfold Stmts.ofList
  rw [stmts_cons h]
  unfold Stmts.ofList
  rw [stmts_nil]

/-- The condition is true for an entry with another hash, and when there is no entry. -/
theorem install_new {cd : Value} (hc : fj.get "coverage" = some (.ref R))
    (hv : fj.get "path" = some (.str path)) (hh : fj.get "hash" = some (.str hash))
    (hd : fj.get "coverageData" = some cd) (hp : path ≠ "__proto__")
    (hR : H[R]? = some ⟨.plain, some objectProto, ps⟩) (hr : Root gcv H)
    (he : ps.get path = none ∨ ∃ root rs hash', ps.get path = some (.data (.ref root)) ∧
      H[root]? = some ⟨.plain, some objectProto, rs⟩ ∧ rs.get "hash" = some (.data (.str hash')) ∧ hash' ≠ hash) :
    stmt w call [F.length + 1, F.length] installStmt ⟨H, F ++ [fi, fj], L⟩
      = .ok (⟨H.set R ⟨.plain, some objectProto, ps.insert path (.data cd)⟩, F ++ [fi, fj], L⟩, none) := by
  have h3 : ∃ b, b.truthy = true ∧
      expr w call [F.length + 1, F.length] (.or (.not (.index (.ident "coverage") (.ident "path")))
      (.ne (.member (.index (.ident "coverage") (.ident "path")) "hash") (.ident "hash")))
      ⟨H, F ++ [fi, fj], L⟩ = .ok (⟨H, F ++ [fi, fj], L⟩, b) := by
    -- the value of the entry, and of its hash
    have hq : ∃ v, expr w call [F.length + 1, F.length] (.index (.ident "coverage") (.ident "path"))
        ⟨H, F ++ [fi, fj], L⟩ = .ok (⟨H, F ++ [fi, fj], L⟩, v) ∧
        (v = .undef ∨ (v.truthy = true ∧ ∃ u, get w v "hash" ⟨H, F ++ [fi, fj], L⟩
          = .ok (⟨H, F ++ [fi, fj], L⟩, u) ∧ u ≠ .str hash)) := by
      rcases he with he | ⟨root, rs, hash', h1, h2, h3, h4⟩
      · obtain ⟨v, hv1, hv2⟩ := entry_none (w := w) (call := call) (fi := fi) (L := L) (F := F) hc hv hp hR hr he
        refine ⟨v, hv1, ?_⟩
        rcases hv2 with hv2 | ⟨n, rfl, hn⟩
        · exact Or.inl hv2
        · refine Or.inr ⟨rfl, .undef, ?_, by simp⟩
          show (pure (nativeMember n "hash") : M Value) _ = _
          rw [hn]
          rfl
      · refine ⟨.ref root, entry_some hc hv hp hR h1, Or.inr ⟨rfl, .str hash', ?_, ?_⟩⟩
        · exact get_own (o := ⟨.plain, some objectProto, rs⟩) h2 (by decide) (Or.inr rfl) h3
        · intro e
          injection e with e
          exact h4 e
    obtain ⟨v, h1, h2⟩ := hq
    have hn : expr w call [F.length + 1, F.length] (.not (.index (.ident "coverage") (.ident "path")))
        ⟨H, F ++ [fi, fj], L⟩ = .ok (⟨H, F ++ [fi, fj], L⟩, .bool (!v.truthy)) := by
      rw [expr, bind_ok h1]
      rfl
    rcases h2 with rfl | ⟨ht, u, hu, hne⟩
    · refine ⟨.bool true, rfl, ?_⟩
      rw [expr, bind_ok hn]
      rfl
    · refine ⟨.bool true, rfl, ?_⟩
      rw [ht] at hn
      rw [expr, bind_ok hn]
      rw [if_neg (show ¬ Value.truthy (.bool (!true)) = true by decide)]
      have hm : expr w call [F.length + 1, F.length]
          (.member (.index (.ident "coverage") (.ident "path")) "hash") ⟨H, F ++ [fi, fj], L⟩
          = .ok (⟨H, F ++ [fi, fj], L⟩, u) := by
        rw [expr, bind_ok h1]
        exact hu
      rw [expr, bind_ok hm, bind_ok (by rw [expr]; exact getVar_inner hh)]
      simp [pure_ok, hne]
  obtain ⟨b, hb, h3⟩ := h3
  unfold installStmt
  rw [stmt, bind_ok h3, if_pos hb]
  exact install_block hc hv hd hp hR

end

end Verif.Runtime
