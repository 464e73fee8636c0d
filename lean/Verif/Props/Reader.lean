import Verif.Lemmas.Reader
import Verif.Model.Emit
import Verif.Lemmas.Serde
import Verif.Props.Template
/-
C55: the data can be read off the text of an instrumented program.
-/
namespace Verif
open Js Template Build

/-- What the reader returns: path, hash and name of the global variable, and the coverage data without the schema
key and the hash. -/
structure ReadAs (o : IndexMap String Data) (path hash var : String) (c : FileCoverage) : Prop where
  path : IndexMap.get o "path" = some (.str path)
  hash : IndexMap.get o "hash" = some (.str hash)
  gcv : IndexMap.get o "gcv" = some (.str var)
  data : ∃ fs, IndexMap.get o "coverageData" = some (.obj fs) ∧ (Data.obj fs).coverage true = some c ∧
    (Data.obj fs).field "_coverageSchema" = none ∧ (Data.obj fs).field "hash" = none

theorem withoutUnknown_iff (c : FileCoverage) : c.withoutUnknown = c ↔ c.TextsKnown := by
  obtain ⟨all, path, sm, fm, bm, s, f, b, bT, ism⟩ := c
  cases ism with
  | none => simp [FileCoverage.withoutUnknown, FileCoverage.TextsKnown]
  | some m =>
    obtain ⟨version, file, root, sources, contents, names, mappings⟩ := m
    cases contents with
    | none => simp [FileCoverage.withoutUnknown, FileCoverage.TextsKnown, SourceMap.withoutUnknown]
    | some cs =>
      simp only [FileCoverage.withoutUnknown, FileCoverage.TextsKnown, SourceMap.withoutUnknown, Option.map_some,
        FileCoverage.mk.injEq, Option.some.injEq, SourceMap.mk.injEq, true_and, and_true, Option.mem_def,
        forall_eq', List.filter_eq_self]
      constructor
      · intro h hn
        exact absurd (h _ hn) (by simp)
      · intro h a ha
        cases a with
        | none => exact absurd ha h
        | some x => rfl

/-- C55 for all data whose branches have arms, in programs that have no marker of their own behind the emitted code:
the reader returns all of the data, except that unknown texts of sources are dropped. -/
theorem C55_reads_partial (i : Input) (hk : i.data.Keyed) (hl : ∀ b ∈ i.data.branchMap.values, b.locations ≠ [])
    (before after : Stmts) (ha : after.mentions "_coverageSchema" i.magic = false) :
    ∃ o, Reader.read i.magic (before.append ((prelude i).append after)) = .ok (some o) ∧
      ReadAs o i.path i.hash i.coverageVariable i.data.withoutUnknown := by
  refine ⟨_, Reader.read_prelude i hk before after ha, ?_, ?_, ?_,
    Reader.bareFields i.data.withoutUnknown, ?_, ?_, ?_, ?_⟩
  · simp [IndexMap.get]
  · simp [IndexMap.get]
  · simp [IndexMap.get]
  · simp [IndexMap.get]
  · exact Reader.bare_coverage _ true fun _ => hl
  · obtain ⟨all, path, sm, fm, bm, s, f, b, bT, ism⟩ := i.data
    cases bT <;> cases ism <;>
      simp [Reader.bareFields, dataFields, Data.field, IndexMap.get, FileCoverage.withoutUnknown, magicKey]
  · obtain ⟨all, path, sm, fm, bm, s, f, b, bT, ism⟩ := i.data
    cases bT <;> cases ism <;>
      simp [Reader.bareFields, dataFields, Data.field, IndexMap.get, FileCoverage.withoutUnknown, magicKey]

/-- The branches of a report have locations, lines and arms. -/
theorem branch_full {cx : Ctx} {path : String} {sm : Option SourceMap} {p p' : Node} {r : FileCoverage} {n : Node}
    {h : List RegOp} (f : Outcome cx path sm p p' r n h) {b : Branch} (hb : b ∈ r.branchMap.values) :
    b.loc.isSome = true ∧ b.line.isSome = true ∧ b.locations ≠ [] := by
  obtain ⟨⟨k, b'⟩, h1, rfl⟩ := List.mem_map.1 hb
  have h2 := IndexMap.get_of_mem f.finished.keyed.branchMap h1
  rw [f.finished.branchMap] at h2
  obtain ⟨x, _, h3⟩ := Option.bind_eq_some_iff.1 h2
  split at h3
  · cases h3
  · next ha =>
    cases h3
    exact ⟨rfl, rfl, ha⟩

/-- C55 for every instrumented program whose input source map has the texts of all sources, or none: what the reader
returns is the data that was collected. -/
theorem C55_partial {cx : Ctx} {fuel : Nat} {path : String} {sm : Option SourceMap} {p p' : Node}
    {cov : SourceCoverage} (hr : Visitor.instrument cx fuel path sm p = .ok (p', cov)) (covFn var : String)
    (ht : ∀ m ∈ sm, ∀ cs ∈ m.sourcesContent, none ∉ cs) (before after : Stmts)
    (ha : after.mentions "_coverageSchema" magicValue = false) :
    ∃ o, Reader.read magicValue (before.append ((prelude (emit covFn var path cov.inner)).append after)) = .ok (some o) ∧
      ReadAs o path (dataHash cov.inner) var cov.inner := by
  obtain ⟨n, h, f⟩ := outcome hr
  have := C55_reads_partial (emit covFn var path cov.inner) f.finished.keyed (fun b hb => (branch_full f hb).2.2)
    before after ha
  have hw : (emit covFn var path cov.inner).data.withoutUnknown = cov.inner := by
    refine (withoutUnknown_iff _).2 fun m hm => ht m ?_
    have : cov.inner.inputSourceMap = sm := f.finished.sm
    rwa [← this]
  rw [hw] at this
  exact this

theorem branch_saved {b : Branch} (h : b.loc.isSome = true ∧ b.line.isSome = true ∧ b.locations ≠ []) :
    Template.branchTree b = Serde.branchTree b := by
  obtain ⟨loc, t, ls, line⟩ := b
  obtain ⟨h1, h2, h3⟩ := h
  obtain ⟨l, rfl⟩ := Option.isSome_iff_exists.1 h1
  obtain ⟨k, rfl⟩ := Option.isSome_iff_exists.1 h2
  have hl : ls.length > 0 := List.length_pos_iff.2 h3
  unfold Template.branchTree Serde.branchTree
  simp only [if_pos hl]
  cases t <;> rfl

/-- Data whose branches are complete is emitted in the same form as it is saved. -/
theorem bare_saved {c : FileCoverage}
    (h : ∀ b ∈ c.branchMap.values, b.loc.isSome = true ∧ b.line.isSome = true ∧ b.locations ≠ []) :
    Data.obj (Reader.bareFields c) = Serde.coverageTree c := by
  obtain ⟨all, path, sm, fm, bm, s, f, b, bT, ism⟩ := c
  have hb : tableTree Template.branchTree bm = Serde.mapTree Serde.branchTree bm := by
    unfold tableTree Serde.mapTree
    refine congrArg Data.obj (List.map_congr_left fun e he => ?_)
    rw [branch_saved (h e.2 (List.mem_map_of_mem he))]
  have hc : ∀ cs : List (Option String), cs.map contentTree = cs.map (Serde.optTree .str) := fun cs =>
    List.map_congr_left fun c _ => by cases c <;> rfl
  have hs : ∀ m, Template.sourceMapTree m = Serde.sourceMapTree m := fun m => by
    obtain ⟨version, file, root, sources, contents, names, mappings⟩ := m
    unfold Template.sourceMapTree Serde.sourceMapTree
    cases file <;> cases root <;> cases contents <;> simp [Serde.skipNone, Serde.vecTree, hc]
  have h1 : tableTree Template.rangeTree sm = Serde.mapTree Serde.rangeTree sm := rfl
  have h2 : tableTree fnTree fm = Serde.mapTree Serde.functionTree fm := rfl
  have h3 : ∀ m, tableTree Data.num m = Serde.mapTree .num m := fun _ => rfl
  have h4 : ∀ m, tableTree countsTree m = Serde.mapTree (Serde.vecTree .num) m := fun _ => rfl
  unfold Reader.bareFields dataFields Serde.coverageTree
  cases bT <;> cases ism <;> simp [hb, hs, h1, h2, h3, h4, Serde.skipNone]

/-- C55 and the debug comment: what the reader returns is what parsing the text of the debug comment returns, with all
fields in the same order. -/
theorem C55_comment_partial {cx : Ctx} {fuel : Nat} {path : String} {sm : Option SourceMap} {p p' : Node}
    {cov : SourceCoverage} (hr : Visitor.instrument cx fuel path sm p = .ok (p', cov)) (covFn var : String)
    (ht : ∀ m ∈ sm, ∀ cs ∈ m.sourcesContent, none ∉ cs) (before after : Stmts)
    (ha : after.mentions "_coverageSchema" magicValue = false) :
    ∃ o d, Reader.read magicValue (before.append ((prelude (emit covFn var path cov.inner)).append after)) = .ok (some o) ∧
      IndexMap.get o "coverageData" = some d ∧ Json.parse (Serde.save cov.inner) = some d := by
  obtain ⟨n, h, f⟩ := outcome hr
  have hw : cov.inner.withoutUnknown = cov.inner := by
    refine (withoutUnknown_iff _).2 fun m hm => ht m ?_
    have : cov.inner.inputSourceMap = sm := f.finished.sm
    rwa [← this]
  have h1 := Reader.read_prelude (emit covFn var path cov.inner) f.finished.keyed before after ha
  have h2 : (emit covFn var path cov.inner).data = cov.inner := rfl
  rw [h2, hw, bare_saved fun b hb => branch_full f hb] at h1
  refine ⟨_, Serde.coverageTree cov.inner, h1, by simp [IndexMap.get], ?_⟩
  have := Serde.within_coverage cov.inner
  exact Json.parse_text _ this.1 (Nat.lt_of_le_of_lt this.2 (by decide))

/-- The condition on the source map is necessary: otherwise the data that is read differs from the data that was
emitted. -/
theorem C55_exact (i : Input) (hk : i.data.Keyed) (hl : ∀ b ∈ i.data.branchMap.values, b.locations ≠ [])
    (before after : Stmts) (ha : after.mentions "_coverageSchema" i.magic = false) :
    (∃ o, Reader.read i.magic (before.append ((prelude i).append after)) = .ok (some o) ∧
      ReadAs o i.path i.hash i.coverageVariable i.data) ↔ i.data.TextsKnown := by
  obtain ⟨o, h1, h2⟩ := C55_reads_partial i hk hl before after ha
  rw [← withoutUnknown_iff]
  constructor
  · rintro ⟨o', g1, g2⟩
    rw [h1] at g1
    cases g1
    obtain ⟨fs, a1, a2, _⟩ := h2.data
    obtain ⟨fs', b1, b2, _⟩ := g2.data
    rw [a1] at b1
    cases b1
    rw [a2] at b2
    exact Option.some.inj b2
  · intro h
    rw [h] at h2
    exact ⟨o, h1, h2⟩

/-- Nothing is read off a program without the marker. -/
theorem C55_unmarked (magic : String) (p : Stmts) (h : p.mentions "_coverageSchema" magic = false) :
    Reader.read magic p = .ok none := by
  have : Reader.findScope magic p = none := Reader.visitStmts_scope magic p ⟨none, none⟩ h
  simp only [Reader.read, this]

/-- The emitted code of the sample, between a directive and user code. -/
example : ∃ p' cov o, run plain sample = .ok (p', cov) ∧
    Reader.read magicValue ((Stmts.ofList [.expr (.str "use strict" none)]).append
        ((prelude (emit "cov_1" "__coverage__" "/f.js" cov.inner)).append
          (.ofList [.expr (counter "cov_1" (.s 0)), .expr (.extern 0)]))) = .ok (some o) ∧
      ReadAs o "/f.js" (dataHash cov.inner) "__coverage__" cov.inner := by
  obtain ⟨p', cov, h1, _⟩ := sample_runs
  obtain ⟨o, g1, g2⟩ := C55_partial h1 "cov_1" "__coverage__" (by simp) (.ofList [.expr (.str "use strict" none)])
    (.ofList [.expr (counter "cov_1" (.s 0)), .expr (.extern 0)]) rfl
  exact ⟨p', cov, o, h1, g1, g2⟩

/-- Data with a source map of two sources, of which only the second has a text. -/
def halfKnown : FileCoverage :=
  { FileCoverage.empty "a.js" false with
    inputSourceMap := some { SourceMap.default with sources := ["x.ts", "y.ts"], sourcesContent := some [none, some "y"] } }

/-- C55 fails if the text of a source is unknown: the reader takes the text of the second source for that of the
first. -/
theorem C55_unknown_fails (before after : Stmts) (ha : after.mentions "_coverageSchema" magicValue = false) :
    ∃ o fs c m, Reader.read magicValue (before.append ((prelude (emit "cov_1" "v" "a.js" halfKnown)).append after))
        = .ok (some o) ∧
      IndexMap.get o "coverageData" = some (.obj fs) ∧ (Data.obj fs).coverage true = some c ∧
      c.inputSourceMap = some m ∧ m.sources = ["x.ts", "y.ts"] ∧ m.sourcesContent = some [some "y"] := by
  have hk : halfKnown.Keyed := ⟨.nil, .nil, .nil, .nil, .nil, .nil, fun m hm => by cases hm⟩
  obtain ⟨o, h1, h2⟩ := C55_reads_partial (emit "cov_1" "v" "a.js" halfKnown) hk (by intro b hb; cases hb) before after ha
  obtain ⟨fs, h3, h4, _⟩ := h2.data
  exact ⟨o, fs, _, _, h1, h3, h4, rfl, rfl, rfl⟩

/-- C55 fails for source code that has the marker in an object literal outside of function declarations: nothing is
read. -/
theorem C55_marked_fails (i : Input) (before : Stmts) (x : String) :
    Reader.read i.magic (before.append ((prelude i).append
      (.ofList [.var x (.obj (.ofList [("_coverageSchema", .str i.magic none)]))]))) = .ok none := by
  have hc : ∀ s, (Reader.visitStmts i.magic (prelude i) s).current = none := fun s => by
    simp [prelude, Template.fnDecl, Stmts.ofList, Reader.visitStmts, Reader.visitStmt, Reader.visitExpr, Reader.visitExprs]
  have : Reader.findScope i.magic (before.append ((prelude i).append
      (.ofList [.var x (.obj (.ofList [("_coverageSchema", .str i.magic none)]))]))) = none := by
    unfold Reader.findScope
    rw [Reader.visitStmts_append, Reader.visitStmts_append]
    simp [Stmts.ofList, Props.ofList, Reader.visitStmts, Reader.visitStmt, Reader.visitExpr, Reader.visitProps,
      Reader.isMark, magicKey, hc]
  simp only [Reader.read, this]

/-- C55 fails for source code that is instrumented already: the data of the earlier instrumentation is read, which is
behind the emitted code. -/
theorem C55_twice_fails (i j : Input) (hm : j.magic = i.magic) (hk : j.data.Keyed)
    (hl : ∀ b ∈ j.data.branchMap.values, b.locations ≠ []) (before after : Stmts)
    (ha : after.mentions "_coverageSchema" i.magic = false) :
    ∃ o, Reader.read i.magic ((before.append (prelude i)).append ((prelude j).append after)) = .ok (some o) ∧
      ReadAs o j.path j.hash j.coverageVariable j.data.withoutUnknown := by
  rw [← hm] at ha ⊢
  exact C55_reads_partial j hk hl _ after ha

/-- A function like the emitted one, with an object literal of one's own. -/
def Reader.marked (f magic : String) (more : List (String × Expr)) (rest : Stmts) : Stmts :=
  .cons (.fnDecl f (.cons (.var "coverageData" (.obj (.ofList (("_coverageSchema", .str magic none) :: more)))) rest)) .nil

theorem Reader.find_marked (f magic : String) (more : List (String × Expr)) (rest before after : Stmts)
    (hr : rest.mentions "_coverageSchema" magic = false) (ha : after.mentions "_coverageSchema" magic = false) :
    Reader.findScope magic (before.append ((Reader.marked f magic more rest).append after)) =
      some (.cons (.var "coverageData" (.obj (.ofList (("_coverageSchema", .str magic none) :: more)))) rest) := by
  unfold Reader.findScope
  rw [Reader.visitStmts_append, Reader.visitStmts_append, Reader.visitStmts_scope _ _ _ ha]
  simp only [Reader.marked, Reader.visitStmts, Reader.visitStmt, Reader.visitExpr]
  rw [Reader.visitStmts_scope _ _ _ hr, Reader.visitProps_eq, if_pos]
  simp [Reader.isMark, magicKey]

theorem Reader.findVar_isSome (x : String) : ∀ ss : Stmts, (Reader.findVar x ss).isSome ↔ ss.declares x
  | .nil => by simp [Reader.findVar, Stmts.declares]
  | .cons (.var y e) ss => by
    rw [Reader.findVar, Stmts.declares, ← Reader.findVar_isSome x ss]
    by_cases h : y = x <;> simp [h]
  | .cons (.expr _) ss => by rw [Reader.findVar, Stmts.declares, Reader.findVar_isSome x ss]; all_goals simp
  | .cons (.ifThen _ _) ss => by rw [Reader.findVar, Stmts.declares, Reader.findVar_isSome x ss]; all_goals simp
  | .cons (.block _) ss => by rw [Reader.findVar, Stmts.declares, Reader.findVar_isSome x ss]; all_goals simp
  | .cons (.ret _) ss => by rw [Reader.findVar, Stmts.declares, Reader.findVar_isSome x ss]; all_goals simp
  | .cons (.fnDecl _ _) ss => by rw [Reader.findVar, Stmts.declares, Reader.findVar_isSome x ss]; all_goals simp

/-- C55: from a function with marked data something is read exactly if it has the other variables of the emitted
function too. -/
theorem C55_variables (f magic : String) (more : List (String × Expr)) (rest before after : Stmts)
    (hr : rest.mentions "_coverageSchema" magic = false) (ha : after.mentions "_coverageSchema" magic = false) :
    (∃ o, Reader.read magic (before.append ((Reader.marked f magic more rest).append after)) = .ok (some o)) ↔
      rest.declares "path" ∧ rest.declares "hash" ∧ rest.declares "gcv" := by
  simp only [Reader.read, Reader.find_marked f magic more rest before after hr ha, Reader.collect]
  rw [← Reader.findVar_isSome, ← Reader.findVar_isSome, ← Reader.findVar_isSome]
  have hv : ∀ x, x ≠ "coverageData" → ∀ e, Reader.findVar x (.cons (.var "coverageData" e) rest) = Reader.findVar x rest :=
    fun x hx e => by rw [Reader.findVar, if_neg (Ne.symm hx)]
  rw [hv "path" (by decide), hv "hash" (by decide), hv "gcv" (by decide)]
  cases h1 : Reader.findVar "path" rest with
  | none => simp
  | some e1 =>
    cases h2 : Reader.findVar "hash" rest with
    | none => simp
    | some e2 =>
      cases h3 : Reader.findVar "gcv" rest with
      | none => simp
      | some e3 =>
        simp [Reader.findVar, Reader.setRec, IndexMap.get_insert]

/-- The variables the emitted function has besides the data. -/
def Reader.others : Stmts :=
  .ofList [.var "path" (.str "a.js" none), .var "hash" (.str "1" none), .var "gcv" (.str "v" none)]

example : (∃ o, Reader.read "m" (.append .nil ((Reader.marked "f" "m" [] Reader.others).append .nil)) = .ok (some o)) ∧
    ¬ ∃ o, Reader.read "m" (.append .nil ((Reader.marked "f" "m" [] .nil).append .nil)) = .ok (some o) := by
  rw [C55_variables "f" "m" [] _ _ _ rfl rfl, C55_variables "f" "m" [] _ _ _ rfl rfl]
  simp [Reader.others, Stmts.ofList, Stmts.declares]

/-- C55 fails for functions with the marker that are not the emitted one: of their data an identifier is read as its
name, the arrays of a property that is given twice run together, and what has no value is left out or is a hole. -/
theorem C55_handmade_fails (before after : Stmts) (ha : after.mentions "_coverageSchema" "m" = false) :
    ∃ o fs, Reader.read "m" (before.append ((Reader.marked "f" "m"
        [("x", .ident "undefined"), ("a", .arr (.ofList [.num 1])), ("a", .arr (.ofList [.num 2])),
          ("l", .arr (.ofList [.null, .obj .nil])), ("n", .arr (.ofList [.num 1, .num 2])), ("n", .arr (.ofList [.obj .nil])),
          ("k", .arr (.ofList [.null, .num 2]))]
        Reader.others).append after)) = .ok (some o) ∧
      IndexMap.get o "coverageData" = some (.obj fs) ∧
      IndexMap.get fs "x" = some (.str "undefined") ∧
      IndexMap.get fs "a" = some (.arr [.num 1, .num 2]) ∧
      IndexMap.get fs "l" = some (.arr [.null, .obj []]) ∧
      IndexMap.get fs "n" = some (.arr [.obj [], .num 2]) ∧
      IndexMap.get fs "k" = some (.arr [.num 2]) := by
  simp only [Reader.read, Reader.find_marked "f" "m" _ Reader.others before after rfl ha]
  exact ⟨_, _, rfl, rfl, rfl, rfl, rfl, rfl, rfl⟩

end Verif
