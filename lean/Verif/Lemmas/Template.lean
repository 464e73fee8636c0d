import Verif.Lemmas.Js
import Verif.Model.Template
import Mathlib.Data.List.Forall2
/-
The tree the emitted object literal stands for, and reading it.
-/
namespace Verif.Template
open Js

/-- A table as a tree. -/
def tableTree {V : Type} (f : V → Data) (m : IndexMap Nat V) : Data :=
  .obj (m.map fun e => (toString e.1, f e.2))

/-- A range as a tree. -/
def rangeTree (r : Range) : Data := .obj
  [("start", .obj [("line", .num r.start.line), ("column", .num r.start.column)]),
   ("end", .obj [("line", .num r.end.line), ("column", .num r.end.column)])]

/-- A function record as a tree. -/
def fnTree (f : Function) : Data := .obj
  [("name", .str f.name), ("decl", rangeTree f.decl), ("loc", rangeTree f.loc), ("line", .num f.line)]

/-- A branch record as a tree. -/
def branchTree (b : Branch) : Data := .obj
  ((match b.loc with | some r => [("loc", rangeTree r)] | none => [])
    ++ [("type", .str b.branchType.toStr)]
    ++ (if b.locations.length > 0 then [("locations", .arr (b.locations.map rangeTree))] else [])
    ++ (match b.line with | some n => [("line", .num n)] | none => []))

/-- Counts as a tree. -/
def countsTree (v : List Nat) : Data := .arr (v.map .num)

/-- The text of a source, or null. -/
def contentTree : Option String → Data
  | some c => .str c
  | none => .null

/-- A source map as a tree. -/
def sourceMapTree (m : SourceMap) : Data := .obj
  ([("version", .num m.version)]
    ++ (match m.file with | some f => [("file", .str f)] | none => [])
    ++ (match m.sourceRoot with | some f => [("sourceRoot", .str f)] | none => [])
    ++ [("sources", .arr (m.sources.map .str))]
    ++ (match m.sourcesContent with
        | some cs => [("sourcesContent", .arr (cs.map contentTree))]
        | none => [])
    ++ [("names", .arr (m.names.map .str)), ("mappings", .str m.mappings)])

/-- The fields of the data object. -/
def dataFields (magic hash : String) (c : FileCoverage) : List (String × Data) :=
  [("all", .bool c.all),
    ("path", .str c.path),
    ("statementMap", tableTree rangeTree c.statementMap),
    ("fnMap", tableTree fnTree c.fnMap),
    ("branchMap", tableTree branchTree c.branchMap),
    ("s", tableTree .num c.s),
    ("f", tableTree .num c.f),
    ("b", tableTree countsTree c.b)]
    ++ (match c.bT with | some m => [("bT", tableTree countsTree m)] | none => [])
    ++ (match c.inputSourceMap with | some m => [("inputSourceMap", sourceMapTree m)] | none => [])
    ++ [(magicKey, .str magic), ("hash", .str hash)]

/-- The data object as a tree. -/
def dataTree (magic hash : String) (c : FileCoverage) : Data := .obj (dataFields magic hash c)

/-! ### What the literals stand for -/

/-- Pointwise denotation of properties. -/
theorem denoteProps_ofList (l : List (String × Expr)) (fs : List (String × Data))
    (h : List.Forall₂ (fun p q => p.1 = q.1 ∧ denote p.2 = some q.2) l fs) :
    denoteProps (.ofList l) = some fs := by
  induction h with
  | nil => rfl
  | @cons p q l fs hpq _ ih =>
    obtain ⟨k, e⟩ := p
    obtain ⟨k', d⟩ := q
    obtain ⟨rfl, hd⟩ := hpq
    simp only at hd
    simp only [Props.ofList, denoteProps, hd, ih]

theorem rel_append' {α β : Type} {R : α → β → Prop} {a c : List α} {b d : List β} (h : List.Forall₂ R a b)
    (h' : List.Forall₂ R c d) : List.Forall₂ R (a ++ c) (b ++ d) := List.rel_append h h'

theorem denoteExprs_map {α : Type} (f : α → Expr) (g : α → Data) (l : List α)
    (h : ∀ a ∈ l, denote (f a) = some (g a)) : denoteExprs (.ofList (l.map f)) = some (l.map g) := by
  induction l with
  | nil => rfl
  | cons a l ih =>
    simp only [List.map_cons, Exprs.ofList, denoteExprs]
    rw [h a List.mem_cons_self, ih fun b hb => h b (List.mem_cons_of_mem _ hb)]

theorem denote_arr {α : Type} (f : α → Expr) (g : α → Data) (l : List α)
    (h : ∀ a ∈ l, denote (f a) = some (g a)) : denote (.arr (.ofList (l.map f))) = some (.arr (l.map g)) := by
  simp only [denote, denoteExprs_map f g l h]

theorem denote_obj {l : List (String × Expr)} {fs : List (String × Data)}
    (h : List.Forall₂ (fun p q => p.1 = q.1 ∧ denote p.2 = some q.2) l fs)
    (hn : (fs.map Prod.fst).Nodup) (hp : "__proto__" ∉ fs.map Prod.fst) :
    denote (.obj (.ofList l)) = some (.obj fs) := by
  simp only [denote, denoteProps_ofList l fs h]
  rw [if_pos ⟨hn, hp⟩]

theorem denote_range (r : Range) : denote (rangeLit r) = some (rangeTree r) := by
  unfold rangeLit rangeProps rangeTree
  refine denote_obj (.cons ⟨rfl, ?_⟩ (.cons ⟨rfl, ?_⟩ .nil)) (by simp) (by simp)
  · exact denote_obj (.cons ⟨rfl, rfl⟩ (.cons ⟨rfl, rfl⟩ .nil)) (by simp) (by simp)
  · exact denote_obj (.cons ⟨rfl, rfl⟩ (.cons ⟨rfl, rfl⟩ .nil)) (by simp) (by simp)

theorem denote_fn (f : Function) : denote (fnLit f) = some (fnTree f) := by
  unfold fnLit fnTree
  exact denote_obj (.cons ⟨rfl, rfl⟩ (.cons ⟨rfl, denote_range _⟩ (.cons ⟨rfl, denote_range _⟩
    (.cons ⟨rfl, rfl⟩ .nil)))) (by simp) (by simp)

theorem denote_counts (v : List Nat) : denote (countsLit v) = some (countsTree v) :=
  denote_arr _ _ v fun _ _ => rfl

theorem denote_branch (b : Branch) : denote (branchLit b) = some (branchTree b) := by
  obtain ⟨loc, t, ls, line⟩ := b
  unfold branchLit branchTree
  have hl : denote (.arr (.ofList (ls.map fun r => .obj (rangeProps r)))) = some (.arr (ls.map rangeTree)) :=
    denote_arr _ _ ls fun r _ => denote_range r
  refine denote_obj ?_ ?_ ?_
  · refine rel_append' (rel_append' (rel_append' ?_ ?_) ?_) ?_
    · cases loc with
      | none => exact .nil
      | some r => exact .cons ⟨rfl, denote_range r⟩ .nil
    · exact .cons ⟨rfl, rfl⟩ .nil
    · dsimp only
      split
      · exact .cons ⟨rfl, hl⟩ .nil
      · exact .nil
    · cases line with
      | none => exact .nil
      | some n => exact .cons ⟨rfl, rfl⟩ .nil
  · cases loc <;> cases line <;> dsimp only <;> split <;> simp
  · cases loc <;> cases line <;> dsimp only <;> split <;> simp

theorem denote_sourceMap (m : SourceMap) : denote (sourceMapLit m) = some (sourceMapTree m) := by
  obtain ⟨version, file, root, sources, contents, names, mappings⟩ := m
  unfold sourceMapLit sourceMapTree
  refine denote_obj ?_ ?_ ?_
  · refine rel_append' (rel_append' (rel_append' (rel_append' (rel_append' ?_ ?_) ?_) ?_)
      ?_) ?_
    · exact .cons ⟨rfl, rfl⟩ .nil
    · cases file with
      | none => exact .nil
      | some r => exact .cons ⟨rfl, rfl⟩ .nil
    · cases root with
      | none => exact .nil
      | some r => exact .cons ⟨rfl, rfl⟩ .nil
    · exact .cons ⟨rfl, denote_arr _ _ _ fun _ _ => rfl⟩ .nil
    · cases contents with
      | none => exact .nil
      | some cs =>
        refine .cons ⟨rfl, denote_arr _ _ _ fun c _ => ?_⟩ .nil
        cases c <;> rfl
    · exact .cons ⟨rfl, denote_arr _ _ _ fun _ _ => rfl⟩ (.cons ⟨rfl, rfl⟩ .nil)
  · cases file <;> cases root <;> cases contents <;> simp
  · cases file <;> cases root <;> cases contents <;> simp

theorem tableTree_keys {V : Type} (f : V → Data) (m : IndexMap Nat V) :
    (m.map fun e => (toString e.1, f e.2)).map Prod.fst = (IndexMap.keys m).map toString := by
  simp [IndexMap.keys]

theorem denote_table {V : Type} (f : V → Expr) (g : V → Data) (m : IndexMap Nat V)
    (hm : IndexMap.NodupKeys m) (h : ∀ v, denote (f v) = some (g v)) :
    denote (tableLit f m) = some (tableTree g m) := by
  unfold tableLit tableTree
  refine denote_obj ?_ ?_ ?_
  · rw [List.forall₂_map_left_iff, List.forall₂_map_right_iff]
    exact List.forall₂_same.2 fun e _ => ⟨rfl, h e.2⟩
  · rw [tableTree_keys]
    exact List.Pairwise.map (R := (· ≠ ·)) _ (fun _ _ h e => h (toString_inj e)) hm
  · rw [tableTree_keys]
    intro hm
    obtain ⟨n, _, hn⟩ := List.mem_map.1 hm
    exact toString_ne_proto n hn

theorem dataFields_keys (magic hash : String) (c : FileCoverage) :
    (dataFields magic hash c).map Prod.fst =
      ["all", "path", "statementMap", "fnMap", "branchMap", "s", "f", "b"]
        ++ (if c.bT.isSome then ["bT"] else []) ++ (if c.inputSourceMap.isSome then ["inputSourceMap"] else [])
        ++ ["_coverageSchema", "hash"] := by
  unfold dataFields
  cases c.bT <;> cases c.inputSourceMap <;> rfl

theorem denote_data (magic hash : String) (c : FileCoverage) (hk : c.Keyed) :
    denote (dataLit magic hash c) = some (dataTree magic hash c) := by
  unfold dataLit dataTree
  have hn := dataFields_keys magic hash c
  refine denote_obj ?_ ?_ ?_
  · unfold dataFields
    refine rel_append' (rel_append' (rel_append' ?_ ?_) ?_) ?_
    · exact .cons ⟨rfl, rfl⟩ (.cons ⟨rfl, rfl⟩
        (.cons ⟨rfl, denote_table _ _ _ hk.statementMap denote_range⟩
        (.cons ⟨rfl, denote_table _ _ _ hk.fnMap denote_fn⟩
        (.cons ⟨rfl, denote_table _ _ _ hk.branchMap denote_branch⟩
        (.cons ⟨rfl, denote_table _ _ _ hk.s fun _ => rfl⟩
        (.cons ⟨rfl, denote_table _ _ _ hk.f fun _ => rfl⟩
        (.cons ⟨rfl, denote_table _ _ _ hk.b denote_counts⟩ .nil)))))))
    · have := hk.bT
      cases hb : c.bT with
      | none => exact .nil
      | some m => exact .cons ⟨rfl, denote_table _ _ _ (this m hb) denote_counts⟩ .nil
    · cases c.inputSourceMap with
      | none => exact .nil
      | some m => exact .cons ⟨rfl, denote_sourceMap m⟩ .nil
    · exact .cons ⟨rfl, rfl⟩ (.cons ⟨rfl, rfl⟩ .nil)
  · rw [hn]
    cases c.bT <;> cases c.inputSourceMap <;> simp
  · rw [hn]
    cases c.bT <;> cases c.inputSourceMap <;> simp

/-! ### Reading the trees back -/

theorem each_map {α β γ : Type} (f : β → Option γ) (g : α → β) (r : α → γ) (l : List α)
    (h : ∀ a ∈ l, f (g a) = some (r a)) : Data.each f (l.map g) = some (l.map r) := by
  induction l with
  | nil => rfl
  | cons a l ih =>
    simp only [List.map_cons, Data.each]
    rw [h a List.mem_cons_self, ih fun b hb => h b (List.mem_cons_of_mem _ hb)]

theorem each_map_id {α β : Type} (f : β → Option α) (g : α → β) (l : List α)
    (h : ∀ a ∈ l, f (g a) = some a) : Data.each f (l.map g) = some l := by
  have := each_map f g id l h
  rwa [List.map_id] at this

theorem table_tree {V : Type} (f : Data → Option V) (g : V → Data) (m : IndexMap Nat V)
    (h : ∀ v ∈ m.values, f (g v) = some v) : Data.table f (tableTree g m) = some m := by
  unfold Data.table tableTree
  refine each_map_id _ _ m fun e he => ?_
  have := h e.2 (List.mem_map.2 ⟨e, he, rfl⟩)
  simp only [key_toString, this]

theorem range_tree (r : Range) : Data.range (rangeTree r) = some r := rfl

theorem function_tree (f : Function) : Data.function (fnTree f) = some f := rfl

theorem counts_tree (v : List Nat) : Data.list Data.nat (countsTree v) = some v :=
  each_map_id _ _ v fun _ _ => rfl

theorem branch_tree (strict : Bool) (b : Branch) (hb : strict = true → b.locations ≠ []) :
    Data.branch strict (branchTree b) = some b := by
  obtain ⟨loc, t, ls, line⟩ := b
  have hl : Data.list Data.range (.arr (ls.map rangeTree)) = some ls :=
    each_map_id _ _ ls fun _ _ => rfl
  unfold branchTree
  by_cases hp : ls.length > 0
  · rw [if_pos hp]
    cases loc <;> cases line <;> cases t <;>
      simp [Data.branch, Data.optional, Data.required, Data.field, IndexMap.get, Data.branchType, hl,
        range_tree, Data.nat, BranchType.toStr]
  · have h0 : ls = [] := List.eq_nil_of_length_eq_zero (by omega)
    subst h0
    cases strict with
    | true => exact absurd rfl (hb rfl)
    | false =>
      rw [if_neg hp]
      cases loc <;> cases line <;> cases t <;>
        simp [Data.branch, Data.optional, Data.required, Data.field, IndexMap.get, Data.branchType,
          range_tree, Data.nat, BranchType.toStr]

theorem sourceMap_tree (m : SourceMap) : Data.sourceMap (sourceMapTree m) = some m := by
  obtain ⟨version, file, root, sources, contents, names, mappings⟩ := m
  have hs : ∀ l : List String, Data.list Data.text (.arr (l.map .str)) = some l :=
    fun l => each_map_id _ _ l fun _ _ => rfl
  have hc : ∀ l : List (Option String), Data.list Data.textOrNull (.arr (l.map contentTree)) = some l :=
    fun l => each_map_id _ _ l fun c _ => by cases c <;> rfl
  unfold sourceMapTree
  cases file <;> cases root <;> cases contents <;>
    simp [Data.sourceMap, Data.optional, Data.required, Data.field, IndexMap.get, hs, hc, Data.nat, Data.text]

/-- What is read off the tree of the data object. -/
theorem coverage_tree (magic hash : String) (c : FileCoverage) (strict : Bool)
    (hl : strict = true → ∀ b ∈ c.branchMap.values, b.locations ≠ []) :
    (dataTree magic hash c).coverage strict = some c ∧
      (dataTree magic hash c).field "_coverageSchema" = some (.str magic) ∧
      (dataTree magic hash c).field "hash" = some (.str hash) := by
  obtain ⟨all, path, sm, fm, bm, s, f, b, bT, ism⟩ := c
  have h1 := table_tree Data.range rangeTree sm fun v _ => range_tree v
  have h2 := table_tree Data.function fnTree fm fun v _ => function_tree v
  have h3 := table_tree (Data.branch strict) branchTree bm fun v hv => branch_tree strict v fun h => hl h v hv
  have h4 := table_tree Data.nat Data.num s fun v _ => rfl
  have h5 := table_tree Data.nat Data.num f fun v _ => rfl
  have h6 := table_tree (Data.list Data.nat) countsTree b fun v _ => counts_tree v
  have h7 : ∀ m, Data.table (Data.list Data.nat) (tableTree countsTree m) = some m :=
    fun m => table_tree _ _ m fun v _ => counts_tree v
  refine ⟨?_, ?_, ?_⟩
  · cases bT <;> cases ism <;>
      simp [dataTree, dataFields, Data.coverage, Data.optional, Data.required, Data.field, IndexMap.get, h1, h2, h3,
        h4, h5, h6, h7, Data.truth, Data.text, sourceMap_tree, magicKey]
  · cases bT <;> cases ism <;> simp [dataTree, dataFields, Data.field, IndexMap.get, magicKey]
  · cases bT <;> cases ism <;> simp [dataTree, dataFields, Data.field, IndexMap.get, magicKey]

end Verif.Template
