import Verif.Lemmas.Template
import Verif.Model.Reader
import Verif.Spec.Reader
/-
What the reader of program texts finds in the emitted code.
-/
namespace Verif.Reader
open Js Template

/-! ### The search -/

/-- The properties of a literal: the declaration is the current one if one of them is the marker. -/
theorem visitProps_eq (magic : String) : ∀ (l : List (String × Expr)) (s : Search),
    visitProps magic (.ofList l) s =
      if l.any fun e => isMark magic e.1 e.2 then { s with scope := s.current } else s
  | [], s => rfl
  | (k, e) :: l, s => by
    simp only [Props.ofList, visitProps, visitProps_eq magic l, List.any_cons]
    by_cases h : isMark magic k e = true <;> by_cases h' : (l.any fun e => isMark magic e.1 e.2) = true <;>
      simp [h, h']

theorem visitProps_scope (magic : String) : ∀ (ps : Props) (s : Search), ps.mentions magicKey magic = false →
    (visitProps magic ps s).scope = s.scope
  | .nil, _, _ => rfl
  | .cons k e ps, s, h => by
    simp only [Props.mentions, Bool.or_eq_false_iff] at h
    simp only [visitProps]
    rw [visitProps_scope magic ps _ h.2]
    have h' := h.1.1
    cases e with
    | str v raw =>
      have : isMark magic k (.str v raw) = false := h'
      rw [this]
      rfl
    | _ => rfl

mutual
theorem visitExpr_scope (magic : String) : ∀ (e : Expr) (s : Search), e.mentions magicKey magic = false →
    (visitExpr magic e s).scope = s.scope
  | .obj ps, s, h => by
    rw [Expr.mentions] at h
    rw [visitExpr, visitProps_scope magic ps s h]
  | .arr es, s, h => by
    rw [Expr.mentions] at h
    rw [visitExpr, visitExprs_scope magic es s h]
  | .member o _, s, h => by
    rw [Expr.mentions] at h
    rw [visitExpr, visitExpr_scope magic o s h]
  | .index o i, s, h => by
    rw [Expr.mentions, Bool.or_eq_false_iff] at h
    rw [visitExpr, visitExpr_scope magic i _ h.2, visitExpr_scope magic o s h.1]
  | .call f args, s, h => by
    rw [Expr.mentions, Bool.or_eq_false_iff] at h
    rw [visitExpr, visitExprs_scope magic args _ h.2, visitExpr_scope magic f s h.1]
  | .newFn t, s, h => by
    rw [Expr.mentions] at h
    rw [visitExpr, visitExpr_scope magic t s h]
  | .assign t v, s, h => by
    rw [Expr.mentions, Bool.or_eq_false_iff] at h
    rw [visitExpr, visitExpr_scope magic v _ h.2, visitExpr_scope magic t s h.1]
  | .incr t, s, h => by
    rw [Expr.mentions] at h
    rw [visitExpr, visitExpr_scope magic t s h]
  | .and l r, s, h => by
    rw [Expr.mentions, Bool.or_eq_false_iff] at h
    rw [visitExpr, visitExpr_scope magic r _ h.2, visitExpr_scope magic l s h.1]
  | .or l r, s, h => by
    rw [Expr.mentions, Bool.or_eq_false_iff] at h
    rw [visitExpr, visitExpr_scope magic r _ h.2, visitExpr_scope magic l s h.1]
  | .not e, s, h => by
    rw [Expr.mentions] at h
    rw [visitExpr, visitExpr_scope magic e s h]
  | .ne l r, s, h => by
    rw [Expr.mentions, Bool.or_eq_false_iff] at h
    rw [visitExpr, visitExpr_scope magic r _ h.2, visitExpr_scope magic l s h.1]
  | .cond t c a, s, h => by
    rw [Expr.mentions, Bool.or_eq_false_iff, Bool.or_eq_false_iff] at h
    rw [visitExpr, visitExpr_scope magic a _ h.2, visitExpr_scope magic c _ h.1.2, visitExpr_scope magic t s h.1.1]
  | .seq es, s, h => by
    rw [Expr.mentions] at h
    rw [visitExpr, visitExprs_scope magic es s h]
  | .paren e, s, h => by
    rw [Expr.mentions] at h
    rw [visitExpr, visitExpr_scope magic e s h]
  | .fn body, s, h => by
    rw [Expr.mentions] at h
    rw [visitExpr, visitStmts_scope magic body s h]
  | .str _ _, s, _ => by rw [visitExpr]
  | .num _, s, _ => by rw [visitExpr]
  | .bool _, s, _ => by rw [visitExpr]
  | .null, s, _ => by rw [visitExpr]
  | .ident _, s, _ => by rw [visitExpr]
  | .extern _, s, _ => by rw [visitExpr]

theorem visitExprs_scope (magic : String) : ∀ (es : Exprs) (s : Search), es.mentions magicKey magic = false →
    (visitExprs magic es s).scope = s.scope
  | .nil, s, _ => by rw [visitExprs]
  | .cons e es, s, h => by
    rw [Exprs.mentions, Bool.or_eq_false_iff] at h
    rw [visitExprs, visitExprs_scope magic es _ h.2, visitExpr_scope magic e s h.1]

theorem visitStmt_scope (magic : String) : ∀ (t : Stmt) (s : Search), t.mentions magicKey magic = false →
    (visitStmt magic t s).scope = s.scope
  | .var _ e, s, h => by
    rw [Stmt.mentions] at h
    rw [visitStmt, visitExpr_scope magic e s h]
  | .expr e, s, h => by
    rw [Stmt.mentions] at h
    rw [visitStmt, visitExpr_scope magic e s h]
  | .ifThen c t, s, h => by
    rw [Stmt.mentions, Bool.or_eq_false_iff] at h
    rw [visitStmt, visitStmt_scope magic t _ h.2, visitExpr_scope magic c s h.1]
  | .block ss, s, h => by
    rw [Stmt.mentions] at h
    rw [visitStmt, visitStmts_scope magic ss s h]
  | .ret e, s, h => by
    rw [Stmt.mentions] at h
    rw [visitStmt, visitExpr_scope magic e s h]
  | .fnDecl _ body, s, h => by
    rw [Stmt.mentions] at h
    rw [visitStmt]
    exact visitStmts_scope magic body { s with current := some body } h

theorem visitStmts_scope (magic : String) : ∀ (ts : Stmts) (s : Search), ts.mentions magicKey magic = false →
    (visitStmts magic ts s).scope = s.scope
  | .nil, s, _ => by rw [visitStmts]
  | .cons t ts, s, h => by
    rw [Stmts.mentions, Bool.or_eq_false_iff] at h
    rw [visitStmts, visitStmts_scope magic ts _ h.2, visitStmt_scope magic t s h.1]
end

theorem visitStmts_append (magic : String) : ∀ (a b : Stmts) (s : Search),
    visitStmts magic (a.append b) s = visitStmts magic b (visitStmts magic a s)
  | .nil, b, s => by rw [Stmts.append, visitStmts]
  | .cons t a, b, s => by
    rw [Stmts.append, visitStmts, visitStmts, visitStmts_append magic a b]

/-- The coverage function is found. -/
theorem visit_prelude (i : Input) (s : Search) :
    (visitStmts i.magic (prelude i) s).scope = some (fnBody i) := by
  have h : ∀ t : Search, visitExpr i.magic (dataLit i.magic i.hash i.data) t = { t with scope := t.current } := by
    intro t
    unfold dataLit
    rw [visitExpr, visitProps_eq, if_pos]
    simp [isMark, strLit]
  generalize hb : fnBody i = body
  unfold prelude fnDecl
  rw [hb]
  simp only [Stmts.ofList, visitStmts, visitStmt, visitExpr, visitExprs]
  rw [← hb]
  unfold fnBody
  simp [Stmts.ofList, assignStmt, globalStmt, plainStr, visitStmts, visitStmt, visitExpr, visitExprs,
    visitProps, h]

theorem find_scope (i : Input) (before after : Stmts) (ha : after.mentions magicKey i.magic = false) :
    findScope i.magic (before.append ((prelude i).append after)) = some (fnBody i) := by
  unfold findScope
  rw [visitStmts_append, visitStmts_append, visitStmts_scope _ _ _ ha, visit_prelude]

/-! ### The data -/

/-- Setting a new property to the expression adds the tree. -/
def Sets (e : Expr) (d : Data) : Prop :=
  ∀ (o : IndexMap String Data) (k : String), k ∉ o.map Prod.fst → setRec o k e = o ++ [(k, d)]

theorem arrayAt_fresh {o : IndexMap String Data} {k : String} (h : k ∉ o.map Prod.fst) : arrayAt o k = [] := by
  have : IndexMap.get o k = none := by
    induction o with
    | nil => rfl
    | cons e o ih =>
      simp only [List.map_cons, List.mem_cons, not_or] at h
      simp only [IndexMap.get]
      rw [if_neg (Ne.symm h.1), ih h.2]
  rw [arrayAt, this]

theorem sets_str (v : String) (raw : Option String) : Sets (.str v raw) (.str v) :=
  fun o k h => by rw [setRec, insert_fresh h]

theorem sets_num (n : Nat) : Sets (.num n) (.num n) := fun o k h => by rw [setRec, insert_fresh h]

theorem sets_bool (b : Bool) : Sets (.bool b) (.bool b) := fun o k h => by rw [setRec, insert_fresh h]

theorem setProps_ofList (l : List (String × Expr)) (fs : List (String × Data))
    (h : List.Forall₂ (fun p q => p.1 = q.1 ∧ Sets p.2 q.2) l fs) : ∀ (o : IndexMap String Data),
    ((o ++ fs).map Prod.fst).Nodup → setProps o (.ofList l) = o ++ fs := by
  induction h with
  | nil => intro o _; simp [Props.ofList, setProps]
  | @cons p q l fs hpq _ ih =>
    intro o hn
    obtain ⟨k, e⟩ := p
    obtain ⟨k', d⟩ := q
    obtain ⟨rfl, hd⟩ := hpq
    simp only [Props.ofList, setProps]
    have hk : k ∉ o.map Prod.fst := by
      rw [List.map_append, List.nodup_append] at hn
      intro hm
      exact hn.2.2 k hm k (by simp) rfl
    rw [hd o k hk, ih (o ++ [(k, d)]) (by simpa using hn)]
    simp

theorem setProps_obj {l : List (String × Expr)} {fs : List (String × Data)}
    (h : List.Forall₂ (fun p q => p.1 = q.1 ∧ Sets p.2 q.2) l fs) (hn : (fs.map Prod.fst).Nodup) :
    setProps [] (.ofList l) = fs := by
  rw [setProps_ofList l fs h [] (by simpa using hn)]
  rfl

theorem sets_obj {l : List (String × Expr)} {fs : List (String × Data)}
    (h : List.Forall₂ (fun p q => p.1 = q.1 ∧ Sets p.2 q.2) l fs) (hn : (fs.map Prod.fst).Nodup) :
    Sets (.obj (.ofList l)) (.obj fs) := fun o k hk => by
  rw [setRec, setProps_obj h hn, insert_fresh hk]

/-- An array whose elements add the given lists in turn. -/
theorem sets_arr (es : List Expr) (l : List Data) (h : setElems [] 0 (.ofList es) = l) :
    Sets (.arr (.ofList es)) (.arr l) := fun o k hk => by
  cases es with
  | nil =>
    simp only [Exprs.ofList, setElems] at h
    subst h
    simp only [Exprs.ofList, setRec, insert_fresh hk]
  | cons e es =>
    simp only [Exprs.ofList, setElems] at h
    simp only [Exprs.ofList, setRec, arrayAt_fresh hk]
    rw [h, insert_fresh hk]

theorem setElems_objs {α : Type} (f : α → Props) (g : α → List (String × Data)) (hg : ∀ a, setProps [] (f a) = g a) :
    ∀ (l : List α) (acc : List Data),
    setElems acc acc.length (.ofList (l.map fun a => .obj (f a))) = acc ++ l.map fun a => .obj (g a)
  | [], acc => by simp [Exprs.ofList, setElems]
  | a :: l, acc => by
    have := setElems_objs f g hg l (acc ++ [.obj (g a)])
    simp only [List.length_append, List.length_cons, List.length_nil, Nat.zero_add] at this
    simp only [List.map_cons, Exprs.ofList, setElems, setElem, setAt, Nat.lt_irrefl, if_false, Nat.sub_self,
      List.replicate_zero, List.append_nil, hg]
    rw [this]
    simp

theorem setElems_map {α : Type} (f : α → Expr) (g : α → Data) (hg : ∀ l i a, setElem l i (f a) = l ++ [g a]) :
    ∀ (l : List α) (acc : List Data) (i : Nat), setElems acc i (.ofList (l.map f)) = acc ++ l.map g
  | [], acc, i => by simp [Exprs.ofList, setElems]
  | a :: l, acc, i => by
    simp only [List.map_cons, Exprs.ofList, setElems, hg]
    rw [setElems_map f g hg l]
    simp

/-- The texts of the sources: those not known are dropped. -/
theorem setElems_contents : ∀ (l : List (Option String)) (acc : List Data) (i : Nat),
    setElems acc i (.ofList (l.map fun
        | some c => plainStr c
        | none => .null)) = acc ++ (l.filter Option.isSome).map contentTree
  | [], acc, i => by simp [Exprs.ofList, setElems]
  | none :: l, acc, i => by
    simp only [List.map_cons, Exprs.ofList, setElems, setElem]
    rw [setElems_contents l acc]
    rfl
  | some c :: l, acc, i => by
    simp only [List.map_cons, Exprs.ofList, setElems, setElem, plainStr]
    have := setElems_contents l (acc ++ [.str c]) (i + 1)
    simp only [plainStr] at this
    rw [this]
    simp [contentTree]

theorem rangeProps_read (r : Range) : setProps [] (rangeProps r) =
    [("start", .obj [("line", .num r.start.line), ("column", .num r.start.column)]),
     ("end", .obj [("line", .num r.end.line), ("column", .num r.end.column)])] := by
  unfold rangeProps
  refine setProps_obj (.cons ⟨rfl, ?_⟩ (.cons ⟨rfl, ?_⟩ .nil)) (by simp)
  · exact sets_obj (.cons ⟨rfl, sets_num _⟩ (.cons ⟨rfl, sets_num _⟩ .nil)) (by simp)
  · exact sets_obj (.cons ⟨rfl, sets_num _⟩ (.cons ⟨rfl, sets_num _⟩ .nil)) (by simp)

theorem sets_range (r : Range) : Sets (rangeLit r) (rangeTree r) := fun o k hk => by
  rw [rangeLit, setRec, rangeProps_read, insert_fresh hk, rangeTree]

theorem sets_fn (f : Function) : Sets (fnLit f) (fnTree f) := by
  unfold fnLit fnTree
  exact sets_obj (.cons ⟨rfl, sets_str _ _⟩ (.cons ⟨rfl, sets_range _⟩ (.cons ⟨rfl, sets_range _⟩
    (.cons ⟨rfl, sets_num _⟩ .nil)))) (by simp)

theorem sets_counts (v : List Nat) : Sets (countsLit v) (countsTree v) :=
  sets_arr _ _ (by rw [setElems_map _ Data.num (fun _ _ _ => by rw [setElem])]; rfl)

theorem sets_texts (v : List String) : Sets (.arr (.ofList (v.map plainStr))) (.arr (v.map .str)) :=
  sets_arr _ _ (by rw [setElems_map _ Data.str (fun _ _ _ => by rw [plainStr, setElem])]; rfl)

theorem sets_branch (b : Branch) : Sets (branchLit b) (branchTree b) := by
  obtain ⟨loc, t, ls, line⟩ := b
  unfold branchLit branchTree
  have hl : Sets (.arr (.ofList (ls.map fun r => .obj (rangeProps r)))) (.arr (ls.map rangeTree)) :=
    sets_arr _ _ (setElems_objs rangeProps _ rangeProps_read ls [])
  refine sets_obj ?_ ?_
  · refine rel_append' (rel_append' (rel_append' ?_ ?_) ?_) ?_
    · cases loc with
      | none => exact .nil
      | some r => exact .cons ⟨rfl, sets_range r⟩ .nil
    · exact .cons ⟨rfl, sets_str _ _⟩ .nil
    · dsimp only
      split
      · exact .cons ⟨rfl, hl⟩ .nil
      · exact .nil
    · cases line with
      | none => exact .nil
      | some n => exact .cons ⟨rfl, sets_num _⟩ .nil
  · cases loc <;> cases line <;> dsimp only <;> split <;> simp

theorem sets_sourceMap (m : SourceMap) : Sets (sourceMapLit m) (sourceMapTree m.withoutUnknown) := by
  obtain ⟨version, file, root, sources, contents, names, mappings⟩ := m
  unfold sourceMapLit sourceMapTree SourceMap.withoutUnknown
  refine sets_obj ?_ ?_
  · refine rel_append' (rel_append' (rel_append' (rel_append' (rel_append' ?_ ?_) ?_) ?_) ?_) ?_
    · exact .cons ⟨rfl, sets_num _⟩ .nil
    · cases file with
      | none => exact .nil
      | some r => exact .cons ⟨rfl, sets_str _ _⟩ .nil
    · cases root with
      | none => exact .nil
      | some r => exact .cons ⟨rfl, sets_str _ _⟩ .nil
    · exact .cons ⟨rfl, sets_texts _⟩ .nil
    · cases contents with
      | none => exact .nil
      | some cs => exact .cons ⟨rfl, sets_arr _ _ (setElems_contents cs [] 0)⟩ .nil
    · exact .cons ⟨rfl, sets_texts _⟩ (.cons ⟨rfl, sets_str _ _⟩ .nil)
  · cases file <;> cases root <;> cases contents <;> simp

theorem sets_table {V : Type} (f : V → Expr) (g : V → Data) (m : IndexMap Nat V) (hm : IndexMap.NodupKeys m)
    (h : ∀ v, Sets (f v) (g v)) : Sets (tableLit f m) (tableTree g m) := by
  unfold tableLit tableTree
  refine sets_obj ?_ ?_
  · rw [List.forall₂_map_left_iff, List.forall₂_map_right_iff]
    exact List.forall₂_same.2 fun e _ => ⟨rfl, h e.2⟩
  · rw [tableTree_keys]
    exact List.Pairwise.map (R := (· ≠ ·)) _ (fun _ _ h e => h (toString_inj e)) hm

theorem sets_data (magic hash : String) (c : FileCoverage) (hk : c.Keyed) :
    Sets (dataLit magic hash c) (dataTree magic hash c.withoutUnknown) := by
  unfold dataLit dataTree
  have hn := dataFields_keys magic hash c.withoutUnknown
  refine sets_obj ?_ ?_
  · unfold dataFields FileCoverage.withoutUnknown
    refine rel_append' (rel_append' (rel_append' ?_ ?_) ?_) ?_
    · exact .cons ⟨rfl, sets_bool _⟩ (.cons ⟨rfl, sets_str _ _⟩
        (.cons ⟨rfl, sets_table _ _ _ hk.statementMap sets_range⟩
        (.cons ⟨rfl, sets_table _ _ _ hk.fnMap sets_fn⟩
        (.cons ⟨rfl, sets_table _ _ _ hk.branchMap sets_branch⟩
        (.cons ⟨rfl, sets_table _ _ _ hk.s sets_num⟩
        (.cons ⟨rfl, sets_table _ _ _ hk.f sets_num⟩
        (.cons ⟨rfl, sets_table _ _ _ hk.b sets_counts⟩ .nil)))))))
    · have := hk.bT
      dsimp only
      cases hb : c.bT with
      | none => exact .nil
      | some m => exact .cons ⟨rfl, sets_table _ _ _ (this m hb) sets_counts⟩ .nil
    · dsimp only
      cases c.inputSourceMap with
      | none => exact .nil
      | some m => exact .cons ⟨rfl, sets_sourceMap m⟩ .nil
    · exact .cons ⟨rfl, sets_str _ _⟩ (.cons ⟨rfl, sets_str _ _⟩ .nil)
  · rw [hn]
    cases c.withoutUnknown.bT <;> cases c.withoutUnknown.inputSourceMap <;> simp

/-- The data object without the schema key and the hash. -/
def bareFields (c : FileCoverage) : List (String × Data) := (dataFields "" "" c).dropLast.dropLast

theorem delete_both (magic hash : String) (c : FileCoverage) :
    delete "hash" (delete magicKey (dataTree magic hash c)) = .obj (bareFields c) := by
  obtain ⟨all, path, sm, fm, bm, s, f, b, bT, ism⟩ := c
  cases bT <;> cases ism <;> simp [delete, dataTree, dataFields, magicKey, bareFields]

theorem bare_coverage (c : FileCoverage) (strict : Bool)
    (hl : strict = true → ∀ b ∈ c.branchMap.values, b.locations ≠ []) :
    (Data.obj (bareFields c)).coverage strict = some c := by
  have h := (coverage_tree "" "" c strict hl).1
  rw [← h]
  obtain ⟨all, path, sm, fm, bm, s, f, b, bT, ism⟩ := c
  cases bT <;> cases ism <;> simp [dataTree, dataFields, bareFields, Data.coverage, Data.optional, Data.required,
    Data.field, IndexMap.get, magicKey]

/-- What the reader returns for an emitted program. -/
theorem read_prelude (i : Input) (hk : i.data.Keyed) (before after : Stmts)
    (ha : after.mentions magicKey i.magic = false) :
    read i.magic (before.append ((prelude i).append after)) = .ok (some
      [("path", .str i.path), ("hash", .str i.hash), ("gcv", .str i.coverageVariable),
       ("coverageData", .obj (bareFields i.data.withoutUnknown))]) := by
  have hd := sets_data i.magic i.hash i.data hk
    [("path", .str i.path), ("hash", .str i.hash), ("gcv", .str i.coverageVariable)] "coverageData" (by simp)
  have h : collect (fnBody i) ["path", "hash", "gcv", "coverageData"] [] = some
      [("path", .str i.path), ("hash", .str i.hash), ("gcv", .str i.coverageVariable),
       ("coverageData", dataTree i.magic i.hash i.data.withoutUnknown)] := by
    unfold fnBody
    simp only [Stmts.ofList, assignStmt, globalStmt, plainStr, collect, findVar, setRec, IndexMap.insert,
      if_true, reduceCtorEq, if_false, String.reduceEq, hd]
    rfl
  unfold read
  rw [find_scope i before after ha]
  simp only [h]
  simp [IndexMap.get, IndexMap.insert, delete_both]

end Verif.Reader
