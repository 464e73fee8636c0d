import Verif.Lemmas.Interop
import Verif.Props.Runs
import Verif.Props.Lines
/-
C64: coverage data as JavaScript sees it through the wasm interface.
-/
namespace Verif
open Interop Node Visitor Sem Build Runtime Js Template

/-- C64. Through the interface every counter is read as the report has it. -/
theorem C64_counts {c : FileCoverage} (hk : c.Keyed) (k : Counter) : shown c k = c.count k := by
  cases k with
  | s id => exact nat_get_toMap hk.s id
  | f id => exact nat_get_toMap hk.f id
  | b id arm =>
    simp only [shown, getB, FileCoverage.count, get_toMap _ hk.b]
    cases c.b.get id with
    | none => rfl
    | some l => exact item_toArr l arm
  | bT id arm =>
    simp only [shown, getBT, FileCoverage.count]
    cases hb : c.bT with
    | none => rfl
    | some m =>
      simp only [toOpt, get_toMap _ (hk.bT m hb), Option.bind_some]
      cases m.get id with
      | none => rfl
      | some l => exact item_toArr l arm

/-- C64. The keys of the maps are numbers: with a string as key (as in `s().get("0")`) nothing is found. -/
theorem C64_number_keys {c : FileCoverage} (hk : c.Keyed) (k : String) : ∀ v ∈ [getS c, getF c, getB c, getBT c],
    v.get (.str k) = .undefined := by
  intro v hv
  have hn : ∀ n, JsVal.str k ≠ .num n := fun n => by simp
  simp only [List.mem_cons, List.not_mem_nil, or_false] at hv
  rcases hv with rfl | rfl | rfl | rfl
  · rw [getS, toMap_eq _ hk.s]; exact getEntry_other _ _ hn _
  · rw [getF, toMap_eq _ hk.f]; exact getEntry_other _ _ hn _
  · rw [getB, toMap_eq _ hk.b]; exact getEntry_other _ _ hn _
  · unfold getBT
    cases hb : c.bT with
    | none => rfl
    | some m =>
      rw [toOpt, toMap_eq _ (hk.bT m hb)]
      exact getEntry_other _ _ hn _

/-- C64. What is handed out is what the JSON text of the value had: the tables of counts, with their members in the same order. -/
theorem C64_tables {fs : List (String × Data)} {c : FileCoverage} (h : Serde.coverage (.obj fs) = some c) :
    (∀ x ∈ [("s", getS c), ("f", getF c), ("b", getB c), ("bT", getBT c)], ∀ ms, Serde.member fs x.1 = some (.obj ms) →
      (ms.map (·.1)).Nodup → Depicts (.obj ms) x.2) ∧
    (getBT c = .undefined ↔ Serde.member fs "bT" = none ∨ Serde.member fs "bT" = some .null) := by
  unfold Serde.coverage at h
  simp only [Option.bind_eq_bind, Option.bind_eq_some_iff, Option.pure_def, Option.some.injEq] at h
  obtain ⟨fs', h0, _, _, _, _, sm, h1, fm, h2, bm, h3, s, h4, f, h5, b, h6, bT, h7, ism, h8, rfl⟩ := h
  have hfs : fs' = fs := by
    unfold Serde.struct at h0
    dsimp only at h0
    split at h0
    · exact (Option.some.inj h0).symm
    · cases h0
  subst hfs
  have hreq : ∀ {V : Type} {g : Data → Option V} {k : String} {v : V} {d : Data}, Serde.required g fs' k = some v →
      Serde.member fs' k = some d → g d = some v := by
    intro V g k v d hv hd
    simpa [Serde.required, hd] using hv
  refine ⟨?_, ?_⟩
  · intro x hx ms hm hn
    simp only [List.mem_cons, List.not_mem_nil, or_false] at hx
    rcases hx with rfl | rfl | rfl | rfl
    · exact depicts_map (fun _ _ => depicts_num) (hreq h4 hm) hn
    · exact depicts_map (fun _ _ => depicts_num) (hreq h5 hm) hn
    · exact depicts_map (fun _ _ hd => depicts_arr (fun _ _ => depicts_num) hd) (hreq h6 hm) hn
    · dsimp only at hm
      simp only [Serde.optional, Serde.withDefault, hm, Serde.opt] at h7
      obtain ⟨m, hmm, rfl⟩ := Option.map_eq_some_iff.1 h7
      exact depicts_map (fun _ _ hd => depicts_arr (fun _ _ => depicts_num) hd) hmm hn
  · cases hm : Serde.member fs' "bT" with
    | none =>
      simp only [Serde.optional, Serde.withDefault, hm, Option.some.injEq] at h7
      subst h7
      simp [getBT, toOpt]
    | some d =>
      simp only [Serde.optional, Serde.withDefault, hm] at h7
      cases d <;> simp only [Serde.opt, Serde.map, reduceCtorEq, Option.map_none, Option.some.injEq] at h7
      · subst h7
        simp [getBT, toOpt]
      · obtain ⟨m, hmm, rfl⟩ := Option.map_eq_some_iff.1 h7
        simp [getBT, toOpt, toMap]

/-- C64. The two members that the coverage object has beyond the report can be left out before it is handed on. -/
theorem C64_handed_on (fs : List (String × Data)) : Serde.coverage (.obj (handedOn fs)) = Serde.coverage (.obj fs) :=
  coverage_filter (fun k => decide (k ≠ "_coverageSchema" ∧ k ≠ "hash")) (by decide) fs

/-- C64. The constructor takes what `JSON.stringify` writes for a value if this is a report, and then has this report; it throws for
`undefined` and for everything else. Reports that were saved are taken without change. -/
theorem C64_constructor : new none = none ∧ (∀ text c, new (some text) = some c ↔ Serde.load text = some c) ∧
    (∀ text c, new (some text) = some c → c.Keyed ∧ c.Fits) ∧
    (∀ c : FileCoverage, c.Keyed → c.Fits → new (some (Serde.save c)) = some c) ∧
    ∀ fs c, Json.whole (.obj fs) = true → Json.height (.obj fs) < 128 → Serde.coverage (.obj fs) = some c →
      new (some (Json.text (.obj (handedOn fs)))) = some c := by
  refine ⟨by decide, fun _ _ => Iff.rfl, fun text c h => C41_loaded h, fun c => C41_lossless, fun fs c hw hh hc => ?_⟩
  show (Json.parse (Json.text (.obj (handedOn fs)))).bind Serde.coverage = some c
  rw [Json.parse_text (.obj (handedOn fs)) (wholeFields_filter _ fs hw)]
  · rw [Option.bind_some, C64_handed_on, hc]
  · have := heightFields_filter (fun e => decide (e.1 ≠ "_coverageSchema" ∧ e.1 ≠ "hash")) fs
    simp only [Json.height, handedOn] at hh ⊢
    omega

/-- C64. `getLineCoverage` gives a number for a line exactly if a statement starts there: the largest count of such a statement. -/
theorem C64_lines {c : FileCoverage} (hw : c.WellFormed) : ∃ v, getLineCoverage c = .ok v ∧
    (∀ l, (v.get (.num l)).nat.isSome ↔ ∃ e ∈ c.statementTable, e.1.start.line = l) ∧
    ∀ l n, (v.get (.num l)).nat = some n ↔
      (∃ e ∈ c.statementTable, e.1.start.line = l ∧ e.2 = n) ∧ ∀ e ∈ c.statementTable, e.1.start.line = l → e.2 ≤ n := by
  obtain ⟨lm, h1, h2, h3, h4⟩ := C08_line_coverage c hw
  refine ⟨_, by rw [getLineCoverage, h1], fun l => ?_, fun l n => ?_⟩
  · rw [nat_get_toMap h2, ← h3, isSome_keys]
  · rw [nat_get_toMap h2, h4]

/-- C64. The source map is handed out as it was saved exactly if no source without content is listed in `sourcesContent`. -/
theorem C64_source_map_iff {c : FileCoverage} {m : SourceMap} (hm : c.inputSourceMap = some m) :
    Depicts (Serde.sourceMapTree m) (getInputSourceMap c) ↔ ∀ l ∈ m.sourcesContent, none ∉ l := by
  have hstr : ∀ l : List String, Depicts (Serde.vecTree .str l) (toArr .str l) := by
    intro l
    refine .arr (by simp) fun i a b ha hb => ?_
    rw [List.getElem?_map] at ha hb
    obtain ⟨x, hx, rfl⟩ := Option.map_eq_some_iff.1 ha
    rw [hx, Option.map_some, Option.some.injEq] at hb
    exact hb ▸ .str x
  unfold getInputSourceMap
  rw [hm]
  constructor
  · intro h l hl hnone
    obtain ⟨version, file, root, sources, contents, names, mappings⟩ := m
    simp only [Option.mem_def] at hl
    subst hl
    have key : Depicts (Serde.vecTree (Serde.optTree .str) l) (toArr (toOpt .str) l) := by
      unfold Serde.sourceMapTree toSourceMap at h
      cases h with
      | obj names members =>
        cases file <;> cases root <;>
          first
          | exact members 2 _ _ rfl rfl
          | exact members 3 _ _ rfl rfl
          | exact members 4 _ _ rfl rfl
    obtain ⟨i, hi⟩ := List.getElem?_of_mem hnone
    cases key with
    | arr _ items =>
      have := items i .null .undefined (by rw [List.getElem?_map, hi]; rfl) (by rw [List.getElem?_map, hi]; rfl)
      cases this
  · intro h
    obtain ⟨version, file, root, sources, contents, names, mappings⟩ := m
    have hc : ∀ l, contents = some l → Depicts (Serde.vecTree (Serde.optTree .str) l) (toArr (toOpt .str) l) := by
      intro l hl
      refine .arr (by simp) fun i a b ha hb => ?_
      rw [List.getElem?_map] at ha hb
      obtain ⟨x, hx, rfl⟩ := Option.map_eq_some_iff.1 ha
      rw [hx, Option.map_some, Option.some.injEq] at hb
      cases x with
      | none => exact absurd (List.mem_of_getElem? hx) (h l hl)
      | some s => exact hb ▸ .str s
    have h1 := Depicts.num version
    have h2 := hstr sources
    have h3 := hstr names
    have h4 := Depicts.str mappings
    have h5 := forall₂_skip (o := file) "file" fun v _ => Depicts.str v
    have h6 := forall₂_skip (o := root) "sourceRoot" fun v _ => Depicts.str v
    have h7 := forall₂_skip (o := contents) "sourcesContent" fun v hv => hc v hv
    exact depicts_obj (forall₂_append' (forall₂_append' (forall₂_append' (forall₂_append' (forall₂_append' (.cons ⟨rfl, h1⟩ .nil) h5) h6)
      (.cons ⟨rfl, h2⟩ .nil)) h7) (.cons ⟨rfl, h3⟩ (.cons ⟨rfl, h4⟩ .nil)))

section
variable {cx : Ctx} {fuel : Nat} {path : String} {sm : Option SourceMap} {p p' : Node} {cov : SourceCoverage}

/-- C64 for running programs. What the interface says of the coverage object of an instrumented program is true of its executions: the
counts are execution counts, `getLineCoverage` does not throw, and the source map is that of the instrumenter. -/
theorem C64_runs_partial (w : World) (hr : instrument cx fuel path sm p = .ok (p', cov)) (hf : cov.inner.Fits) :
    Reported w path p' cov.inner fun _ _ solid trs c =>
      (∀ k t, CountsBegun p' k t → cov.inner.count k = some 0 → shown c k = some (trs.map fun tr => began t (visible tr)).sum) ∧
      (∀ k t j, CountsEntered p' k t j → cov.inner.count k = some 0 → shown c k = some (trs.map fun tr => entered t j (visible tr)).sum) ∧
      (∀ k t, CountsSolid p' k t → cov.inner.count k = some 0 → shown c k = some (trs.map fun tr => gave solid t [] (visible tr)).sum) ∧
      (∃ v, getLineCoverage c = .ok v) ∧ getInputSourceMap c = getInputSourceMap cov.inner := by
  refine (C45_partial w hr hf).mono fun _ _ solid trs c hc => ⟨fun k t h h0 => ?_, fun k t j h h0 => ?_, fun k t h h0 => ?_, ?_, ?_⟩
  · rw [C64_counts hc.keyed]; exact hc.begun k t h h0
  · rw [C64_counts hc.keyed]; exact hc.entered k t j h h0
  · rw [C64_counts hc.keyed]; exact hc.gave k t h h0
  · obtain ⟨v, hv, _, _⟩ := C64_lines (hc.wellFormed (tables_of hr).1)
    exact ⟨v, hv⟩
  · unfold getInputSourceMap
    rw [hc.inputSourceMap]

/-- C64 for statements: `s()` gives the number of times the statement began, and the line it starts on has at least this count. -/
theorem C64_statements_partial (w : World) (hp : Clean p) (hig : Hint.shouldIgnoreFile cx.cc cx.comments p.span = false)
    (hk : p.kind = .module ∨ p.kind = .script) (hr : instrument cx fuel path sm p = .ok (p', cov)) (hf : cov.inner.Fits)
    (x : Node) (hx : InProgram cx p x) (hi : cx.ignores x = false) (l : List Node) (hl : l ∈ lists cx x) (s : Node)
    (hs : s ∈ ownStmts cx l) (ho : Only p (tag s)) (sp : Span) (hsp : sp ∈ dues cx s) :
    ∃ id, Reported w path p' cov.inner fun _ _ _ trs c =>
      ((getS c).get (.num id)).nat = some (trs.map fun tr => began (tag s) (visible tr)).sum ∧
      ∃ v n, getLineCoverage c = .ok v ∧ (v.get (.num (cx.range sp).start.line)).nat = some n ∧
        (trs.map fun tr => began (tag s) (visible tr)).sum ≤ n := by
  obtain ⟨id, h1, h2⟩ := C22_statements_partial hp hig hk hr x hx hi l hl s hs ho sp hsp
  refine ⟨id, (C45_partial w hr hf).mono fun _ _ _ trs c hc => ?_⟩
  have k1 := (hc.statementMap id).trans h1.1
  have k2 := hc.begun _ _ h2 (C22_start_partial.1 _ _ h1)
  have k3 : c.s.get id = some (trs.map fun tr => began (tag s) (visible tr)).sum := k2
  refine ⟨(nat_get_toMap hc.keyed.s id).trans k3, ?_⟩
  have hmem : (cx.range sp, (trs.map fun tr => began (tag s) (visible tr)).sum) ∈ c.statementTable :=
    mem_located.2 ⟨_, _, IndexMap.mem_of_get k3, k1, rfl⟩
  obtain ⟨v, v1, v2, v3⟩ := C64_lines (hc.wellFormed (tables_of hr).1)
  have hsome := (v2 (cx.range sp).start.line).2 ⟨_, hmem, rfl⟩
  obtain ⟨n, hn⟩ := Option.isSome_iff_exists.1 hsome
  exact ⟨v, n, v1, hn, ((v3 _ _).1 hn).2 _ hmem rfl⟩
end

/-- C64. The constants that are handed out mark the coverage data in emitted programs. -/
theorem C64_constants : ∃ k v, getCoverageMagicConstants = .obj [("key", .str k), ("value", .str v)] ∧
    ∀ covFn gcv path c, ∃ ps, dataLit (emit covFn gcv path c).magic (emit covFn gcv path c).hash c = .obj (.ofList ps) ∧
      (ps.filter fun e => e.1 = k).map (·.2) = [strLit v] := by
  refine ⟨_, _, rfl, fun covFn gcv path c => ⟨_, rfl, ?_⟩⟩
  cases c.bT <;> cases c.inputSourceMap <;> rfl

/-! ### Examples -/

/-- A report with truthiness counts, and a source map one of whose sources has no content. -/
def interopReport : FileCoverage :=
  { MergeEx.shardA with bT := some [(0, [1, 0])], inputSourceMap := some { SourceMap.default with sources := ["a.ts", "b.ts"], sourcesContent := some [some "x", none] } }

theorem interopReport_keyed : interopReport.Keyed := ⟨by decide, by decide, by decide, by decide, by decide, by decide, by decide⟩

example : shown interopReport (.s 0) = some 3 ∧ shown interopReport (.b 0 0) = some 1 ∧ shown interopReport (.bT 0 0) = some 1 ∧
    shown interopReport (.s 2) = none := ⟨rfl, rfl, rfl, rfl⟩

example : (getS interopReport).get (.num 0) = .num 3 ∧ (getS interopReport).get (.str "0") = .undefined := ⟨rfl, rfl⟩

example : ∃ v, getLineCoverage interopReport = .ok v ∧ (v.get (.num 1)).nat = some 3 ∧ (v.get (.num 2)).nat = some 0 ∧
    v.get (.num 3) = .undefined := ⟨_, rfl, rfl, rfl, rfl⟩

example : Serde.coverage (.obj (handedOn [("hash", .str "1"), ("path", .str "a"), ("statementMap", .obj []), ("fnMap", .obj []),
    ("branchMap", .obj []), ("s", .obj []), ("f", .obj []), ("b", .obj []), ("_coverageSchema", .str "2")])) =
    some (FileCoverage.empty "a" false) := rfl

/-- The members of a table are depicted in the order of the text. -/
example : ∃ c, Serde.coverage (.obj [("path", .str "a"), ("statementMap", .obj []), ("fnMap", .obj []), ("branchMap", .obj []),
    ("s", .obj [("7", .num 1), ("2", .num 5)]), ("f", .obj []), ("b", .obj [])]) = some c ∧
    getS c = .map [(.num 7, .num 1), (.num 2, .num 5)] ∧ getBT c = .undefined := ⟨_, rfl, rfl, rfl⟩

/-- A program that was executed twice, as the interface shows it. -/
example : ∃ p' cov d c, run plain bothCalls = .ok (p', cov) ∧ new (some (Json.text d)) = some c ∧ shown c (.s 0) = some 2 ∧
    shown c (.b 0 0) = some 2 ∧ shown c (.b 0 1) = some 1 := by
  obtain ⟨p', cov, h1, r, es, ps, a, d, c, _, _, _, _, h6, _, h8, _, h10, _, h12⟩ := bothCalls_reported
  have hk := (C41_loaded h6).1
  exact ⟨p', cov, d, c, h1, h6, (C64_counts hk _).trans h8, (C64_counts hk _).trans h10, (C64_counts hk _).trans h12⟩

/-- C64 fails for source maps with sources without content: where the instrumenter was given `null`, JavaScript gets `undefined`. -/
theorem C64_source_map_fails : ∃ (c : FileCoverage) (m : SourceMap), c.Keyed ∧ c.inputSourceMap = some m ∧
    new (some (Serde.save c)) = some c ∧ ¬ Depicts (Serde.sourceMapTree m) (getInputSourceMap c) ∧
    Serde.sourceMapTree m = .obj [("version", .num 3), ("sources", .arr [.str "a.ts", .str "b.ts"]),
      ("sourcesContent", .arr [.str "x", .null]), ("names", .arr []), ("mappings", .str "")] ∧
    getInputSourceMap c = .obj [("version", .num 3), ("sources", .arr [.str "a.ts", .str "b.ts"]),
      ("sourcesContent", .arr [.str "x", .undefined]), ("names", .arr []), ("mappings", .str "")] := by
  refine ⟨interopReport, _, interopReport_keyed, rfl, ?_, fun h => ?_, rfl, rfl⟩
  · refine C41_lossless interopReport_keyed ?_
    refine ⟨?_, ?_, ?_, ?_, ?_, ?_, ?_, ?_⟩ <;>
      simp [interopReport, MergeEx.shardA, MergeEx.r1, MergeEx.r2, Range.mk4, Branch.fromLine, SourceMap.default, IndexMap.Fits, Range.Fits, Location.Fits, Branch.Fits, Function.Fits]
  · exact (C64_source_map_iff rfl).1 h [some "x", none] rfl (by simp)

end Verif
