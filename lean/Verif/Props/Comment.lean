import Verif.Lemmas.Comment
import Verif.Props.Options
/-
C47: the debug comment carries the initial coverage data.
-/
namespace Verif
open Plugin Comment

/-- The text of the comment. -/
theorem debugComment_toList (c : FileCoverage) : (debugComment c).toList = marker ++ (Serde.save c).toList := by
  unfold debugComment marker
  rw [String.toList_append]

/-- The data of the template. -/
theorem emit_data (covFn v path : String) (c : FileCoverage) : (Template.emit covFn v path c).data = c := by
  unfold Template.emit
  dsimp only

/-- C47. A comment is attached if and only if it is asked for and the coverage function is created; it is the marker and the
saved coverage data. -/
theorem C47_attached {x : Externals} (hs : x.cc.Sane) {fuel : Nat} {p p' : Process} {m : Metadata} {program : Node} {out : Output}
    {i : Injected} (hr : process x fuel p m program = .ok (out, p')) (hi : out.injected = some i) :
    (∀ t, i.comment = some t → t.toList = marker ++ (Serde.save i.input.data).toList) ∧
    (i.comment.isSome ↔ (options m.config).debugInitialCoverageComment = true ∧
      (program.kind = .module ∨ program.kind = .script) ∧
      ∀ text, (text ∈ m.comments.leading program.span.lo ∨ text ∈ m.comments.leading program.span.hi ∨
        text ∈ m.comments.trailing program.span.lo ∨ text ∈ m.comments.trailing program.span.hi) →
        ¬ ReadsAs x.cc "file".toList text) := by
  unfold process run at hr
  split at hr
  · cases hr; cases hi
  · split at hr
    · cases hr
    · unfold transform at hr
      simp only at hr
      split at hr
      · cases hr
      · next n cov h =>
        cases hr
        cases hi
        have hig : Hint.shouldIgnoreFile x.cc m.comments program.span = false ↔
            ∀ text, (text ∈ m.comments.leading program.span.lo ∨ text ∈ m.comments.leading program.span.hi ∨
              text ∈ m.comments.trailing program.span.lo ∨ text ∈ m.comments.trailing program.span.hi) →
              ¬ ReadsAs x.cc "file".toList text := by
          rw [Bool.eq_false_iff, ne_eq, C27_file_hint_iff x.cc hs]
          simp only [not_exists, not_and]
        constructor
        · intro t ht
          simp only at ht
          split at ht
          · rw [← Option.some.inj ht, emit_data]
            exact debugComment_toList _
          · cases ht
        · rw [← hig]
          simp only [templated, context]
          rcases Bool.eq_false_or_eq_true (Hint.shouldIgnoreFile x.cc m.comments program.span) with h1 | h1 <;>
            rcases Bool.eq_false_or_eq_true (options m.config).debugInitialCoverageComment with h2 | h2 <;> simp [h1, h2]

/-- C47. The comment that is printed has exactly the text that was attached, and what is printed after it is outside of it, if
and only if the end of a comment is not in the saved data. -/
theorem C47_comment_iff {t : String} {c : FileCoverage} (ht : t.toList = marker ++ (Serde.save c).toList) (post : List Char) :
    block (['/', '*'] ++ t.toList ++ close ++ post) = some (t.toList, post) ↔ ¬ close <:+: (Serde.save c).toList := by
  have hm : close <:+: t.toList ↔ close <:+: (Serde.save c).toList := by
    rw [ht]
    constructor
    · intro h
      have h1 := (scan_none false (marker ++ (Serde.save c).toList)).2 (.inl h)
      rw [scan_append] at h1
      have h2 : scan false marker = some false := by decide
      rw [h2] at h1
      simpa using (scan_none false _).1 h1
    · exact fun h => h.trans (List.suffix_append _ _).isInfix
  rw [← hm]
  constructor
  · intro h
    exact cut_first (by decide) h
  · intro h
    exact cut_close h post

/-- C47 holds for reports in whose texts (path, names of functions, source map) there is no end of a comment: the comment is
read as it was attached, and the reader of the test-suite gets the coverage data from the emitted text, if the marker is not
in the text before it, nor in the data. -/
theorem C47_partial {x : Externals} (hs : x.cc.Sane) {fuel : Nat} {p p' : Process} {m : Metadata} {program : Node} {out : Output}
    {i : Injected} (hr : process x fuel p m program = .ok (out, p')) (hi : out.injected = some i) {t : String}
    (ht : i.comment = some t) (hc : ∀ s ∈ i.input.data.texts, ¬ close <:+: s.toList) (pre post : List Char) :
    block (['/', '*'] ++ t.toList ++ close ++ post) = some (t.toList, post) ∧
    (i.input.data.Fits → ¬ marker <:+: pre → ¬ marker <:+: (Serde.save i.input.data).toList →
      ∃ text, lastFileCoverage (pre ++ ['/', '*'] ++ t.toList ++ close ++ post) = some text ∧
        Serde.load (String.ofList text) = some i.input.data) := by
  have h1 := (C47_attached hs hr hi).1 t ht
  have h2 := save_open hc
  refine ⟨(C47_comment_iff h1 post).2 h2, fun hf hpre hm => ?_⟩
  have hn : '\n' ∉ (Serde.save i.input.data).toList := fun h => absurd (save_printable _ _ h) (by decide)
  refine ⟨_, by rw [h1]; exact lastFileCoverage_reads hpre hm h2 hn post, ?_⟩
  rw [String.ofList_toList]
  refine C41_lossless ?_ hf
  obtain ⟨cov, h3, h4, -⟩ := C46_instrumented hr hi
  obtain ⟨n, h, o⟩ := outcome h3
  rw [h4]
  exact o.finished.keyed

/-- A source map with the text of the source, which has a comment. -/
def commented : SourceMap := ⟨3, none, none, ["a.ts"], some [some "/* a */ x"], [], ""⟩

/-- The options of a file with that source map, with the debug comment. -/
def commentedOptions : Options :=
  { Options.default with inputSourceMap := some commented, debugInitialCoverageComment := true }

/-- Such a file. -/
def commentedFile : Metadata := withConfig "a.js" (some (Json.text commentedOptions.tree))

/-- The report of `x` in such a file. -/
def commentedReport : FileCoverage :=
  ⟨false, "a.js", [(0, ⟨⟨2, 0⟩, ⟨3, 0⟩⟩)], [], [], [(0, 0)], [], [], none, some commented⟩

theorem commentedFile_run : ∃ out i p', process plainExternals 20 .fresh commentedFile oneCall = .ok (out, p') ∧
    out.injected = some i ∧ i.input.data = commentedReport ∧ i.comment.isSome = true := by
  have ho : options commentedFile.config = commentedOptions := C46_written _ (by decide)
  unfold process
  rw [ho]
  have h : (match run plainExternals 20 commentedFile commentedOptions oneCall .fresh with
    | .ok (out, _) => match out.injected with
      | some i => decide (i.input.data = commentedReport) && i.comment.isSome
      | none => false
    | .error _ => false) = true := by decide +kernel
  split at h
  · next out p' hr =>
    split at h
    · next i hi =>
      rw [Bool.and_eq_true] at h
      exact ⟨out, i, p', hr, hi, of_decide_eq_true h.1, h.2⟩
    · cases h
  · cases h

/-- C47 fails for files with a source map that has the source, if there is a block comment in the source: the comment ends
with the first comment of the source, and the rest of the data is taken for program text. -/
theorem C47_fails : ∃ out i p' t, process plainExternals 20 .fresh commentedFile oneCall = .ok (out, p') ∧
    out.injected = some i ∧ i.comment = some t ∧
    ∀ post, block (['/', '*'] ++ t.toList ++ close ++ post) ≠ some (t.toList, post) := by
  obtain ⟨out, i, p', hr, hi, hd, hc⟩ := commentedFile_run
  obtain ⟨t, ht⟩ := Option.isSome_iff_exists.1 hc
  refine ⟨out, i, p', t, hr, hi, ht, fun post hb => ?_⟩
  have h1 := (C47_attached asciiClasses_sane hr hi).1 t ht
  refine (C47_comment_iff h1 post).1 hb ?_
  have h2 : scan false (Json.print (Serde.coverageTree commentedReport)) = none := by decide +kernel
  rw [hd, save_toList]
  simpa using (scan_none _ _).1 h2

/-- The same file without a source map: the comment is read back. -/
example : ∃ out i p' t, process plainExternals 20 .fresh
      (withConfig "a.js" (some (Json.text { Options.default with debugInitialCoverageComment := true }.tree))) oneCall =
        .ok (out, p') ∧ out.injected = some i ∧ i.comment = some t ∧
    ∀ post, ∃ text, lastFileCoverage ("var a;\n".toList ++ ['/', '*'] ++ t.toList ++ close ++ post) = some text ∧
      Serde.load (String.ofList text) = some { commentedReport with inputSourceMap := none } := by
  have hr : ∃ out i p', process plainExternals 20 .fresh
      (withConfig "a.js" (some (Json.text { Options.default with debugInitialCoverageComment := true }.tree))) oneCall =
        .ok (out, p') ∧ out.injected = some i ∧ i.input.data = { commentedReport with inputSourceMap := none } ∧
        i.comment.isSome = true := by
    unfold process
    have ho : options (withConfig "a.js" (some (Json.text { Options.default with
      debugInitialCoverageComment := true }.tree))).config = { Options.default with debugInitialCoverageComment := true } :=
      C46_written _ (fun m h => by cases h)
    rw [ho]
    have h : (match run plainExternals 20 (withConfig "a.js" none)
        { Options.default with debugInitialCoverageComment := true } oneCall .fresh with
      | .ok (out, _) => match out.injected with
        | some i => decide (i.input.data = { commentedReport with inputSourceMap := none }) && i.comment.isSome
        | none => false
      | .error _ => false) = true := by decide +kernel
    split at h
    · next out p' hr =>
      split at h
      · next i hi =>
        rw [Bool.and_eq_true] at h
        exact ⟨out, i, p', hr, hi, of_decide_eq_true h.1, h.2⟩
      · cases h
    · cases h
  obtain ⟨out, i, p', hr, hi, hd, hc⟩ := hr
  obtain ⟨t, ht⟩ := Option.isSome_iff_exists.1 hc
  refine ⟨out, i, p', t, hr, hi, ht, fun post => ?_⟩
  have h := (C47_partial asciiClasses_sane hr hi ht (by rw [hd]; decide +kernel) "var a;\n".toList post).2
  rw [hd] at h
  refine h ?_ (by decide +kernel) ?_
  · constructor
    all_goals simp [commentedReport, IndexMap.Fits, Range.Fits, Location.Fits]
  · rw [save_toList]
    decide +kernel

end Verif
