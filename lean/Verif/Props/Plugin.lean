import Verif.Spec.Plugin
import Verif.Spec.Hint
import Verif.Spec.Build
import Verif.Lemmas.SoundProgram
import Verif.Props.Hint
import Verif.Props.Runtime
import Verif.Props.Serde
/-
C25: ignored and excluded files pass through untouched. C32: names of coverage functions. C44: files are
processed independently of each other.
-/
namespace Verif
open Plugin

theorem Plugin.isLevel_iff (l : String) : isLevel l = true ↔ LogLevel l := by
  unfold isLevel LogLevel
  simp only [List.contains_iff_mem, List.mem_cons, List.not_mem_nil, or_false]
  constructor <;> rintro (h | h | h | h | h) <;> simp [h]

theorem Plugin.initLog_unhindered {p : Process} {m : Metadata} (h : Unhindered p m) :
    ∃ p', initLog (options m.config).instrumentLog p = .ok p' ∧ p'.covFn = p.covFn ∧ p'.tempFn = p.tempFn := by
  unfold initLog
  split
  · exact ⟨p, rfl, rfl, rfl⟩
  · next l hl =>
    rcases h with h | h
    · rw [h]
      split
      · exact ⟨_, rfl, rfl, rfl⟩
      · exact ⟨p, rfl, rfl, rfl⟩
    · rw [if_neg fun hv => h l hl ((isLevel_iff l).1 hv)]
      exact ⟨p, rfl, rfl, rfl⟩

theorem Plugin.initLog_names {o : LogOptions} {p p' : Process} (h : initLog o p = .ok p') :
    p'.covFn = p.covFn ∧ p'.tempFn = p.tempFn := by
  unfold initLog at h
  split at h
  · cases h; exact ⟨rfl, rfl⟩
  · split at h
    · split at h
      · cases h
      · cases h; exact ⟨rfl, rfl⟩
    · cases h; exact ⟨rfl, rfl⟩

theorem Plugin.instrument_ignored {cx : Ctx} {fuel : Nat} {path : String} {sm : Option SourceMap} {program : Node}
    (h : Hint.shouldIgnoreFile cx.cc cx.comments program.span = true) :
    Visitor.instrument cx fuel path sm program = .ok (program, (Visitor.initial cx path sm).cov) := by
  have h1 : Visitor.visitProgram cx fuel program (Visitor.initial cx path sm) =
      .ok (program, { Visitor.initial cx path sm with nodes := [.program] }) := by
    unfold Visitor.visitProgram
    rw [if_pos h]
    rfl
  unfold Visitor.instrument
  rw [h1]

/-! ### C25 -/

/-- C25. A file whose normalised name matches one of the normalised exclude patterns, all of them well-formed, is
emitted as it was, with nothing injected, and leaves the process as it was. -/
theorem C25_excluded {x : Externals} {glob : String → Option (String → Bool)} (hx : Alternation x.globAny glob)
    (fuel : Nat) (p : Process) (m : Metadata) (program : Node) {patterns : List String}
    (he : (options m.config).unstableExclude = some patterns)
    (hw : ∀ q ∈ patterns, (glob (normalizePath x q)).isSome)
    (hm : ∃ q ∈ patterns, ∃ g, glob (normalizePath x q) = some g ∧ g (normalizePath x m.file) = true) :
    process x fuel p m program = .ok (⟨program, none⟩, p) := by
  obtain ⟨q, hq, g, hg, hn⟩ := hm
  obtain ⟨f, hf, hf'⟩ := hx.formed (patterns.map (normalizePath x))
    (by intro h; rw [List.map_eq_nil_iff] at h; rw [h] at hq; cases hq)
    (by simpa using hw)
  have : f (normalizePath x m.file) = true := (hf' _).2 ⟨_, List.mem_map_of_mem hq, g, hg, hn⟩
  unfold process run
  rw [he]
  simp [excluded, hf, this]

/-- C25. A file with the file hint in a comment at its start or end is emitted as it was. -/
theorem C25_ignored {x : Externals} (hs : x.cc.Sane) (fuel : Nat) (p : Process) (m : Metadata) (program : Node)
    (hp : Unhindered p m) {text : List Char}
    (ht : text ∈ m.comments.leading program.span.lo ∨ text ∈ m.comments.leading program.span.hi ∨
      text ∈ m.comments.trailing program.span.lo ∨ text ∈ m.comments.trailing program.span.hi)
    (hr : ReadsAs x.cc "file".toList text) :
    ∃ out p', process x fuel p m program = .ok (out, p') ∧ out.program = program := by
  have hf : Hint.shouldIgnoreFile x.cc m.comments program.span = true :=
    (C27_file_hint_iff x.cc hs m.comments program.span).2 ⟨text, ht, hr⟩
  obtain ⟨p', hl, -⟩ := initLog_unhindered hp
  unfold process run
  split
  · exact ⟨_, _, rfl, rfl⟩
  · rw [hl]
    simp only [transform, instrument_ignored (cx := context x m (options m.config)) hf]
    exact ⟨_, _, rfl, rfl⟩

/-- C25. Malformed options are as good as none. -/
theorem C25_malformed_options (x : Externals) (fuel : Nat) (p : Process) (m : Metadata) (program : Node)
    {text : String} (hc : m.config = some text) (hm : Malformed text) :
    process x fuel p m program = process x fuel p { m with config := none } program := by
  have h1 : options m.config = .default := by
    unfold Malformed at hm
    simp [options, hc, hm]
  have h2 : options none = .default := rfl
  unfold process
  simp only [h1, h2]
  rfl

/-- C25. If one of the exclude patterns is malformed the run is that with the same options without patterns. -/
theorem C25_malformed_patterns {x : Externals} {glob : String → Option (String → Bool)}
    (hx : Alternation x.globAny glob) (fuel : Nat) (p : Process) (m : Metadata) (program : Node)
    {patterns : List String} (he : (options m.config).unstableExclude = some patterns)
    (hm : ∃ q ∈ patterns, glob (normalizePath x q) = none) :
    process x fuel p m program =
      run x fuel m { options m.config with unstableExclude := none } program p := by
  obtain ⟨q, hq, hg⟩ := hm
  have h1 := hx.malformed (patterns.map (normalizePath x)) ⟨_, List.mem_map_of_mem hq, hg⟩
  unfold process run
  rw [he]
  simp only [excluded, h1]
  rfl

/-- C25. Normalising a path that is no Windows path makes its backslashes slashes and leaves everything else, so that
paths are told apart but for their separators. -/
theorem C25_normalised {x : Externals} {path : String} (h : x.toUnix path = none) :
    (normalizePath x path).toList = path.toList.map fun c => if c = '\\' then '/' else c := by
  unfold normalizePath
  rw [h]
  simp only
  split
  · rw [String.toList_ofList]
  · next hc =>
    have : ∀ c ∈ path.toList, (if c = '\\' then '/' else c) = c := by
      intro c hm
      rw [if_neg]
      rintro rfl
      exact hc (List.contains_iff_mem.2 hm)
    rw [List.map_congr_left this, List.map_id']

/-- C25, the other direction. A module or script that is neither excluded nor has the hint gets the declaration
of the coverage function and its call; they are for the path and the coverage variable of the options. -/
theorem C25_otherwise {x : Externals} (hs : x.cc.Sane) {fuel : Nat} {p p' : Process} {m : Metadata}
    {program : Node} {out : Output} (hr : process x fuel p m program = .ok (out, p'))
    (he : excluded x (options m.config).unstableExclude m.file = false)
    (hk : program.kind = .module ∨ program.kind = .script)
    (hn : ∀ text, (text ∈ m.comments.leading program.span.lo ∨ text ∈ m.comments.leading program.span.hi ∨
      text ∈ m.comments.trailing program.span.lo ∨ text ∈ m.comments.trailing program.span.hi) →
      ¬ ReadsAs x.cc "file".toList text) :
    (∃ n, Sound.Templated n out.program) ∧ ∃ i, out.injected = some i ∧ i.input.path = m.file ∧
      i.input.coverageVariable = (options m.config).coverageVariable ∧
      i.input.hash = Template.dataHash i.input.data := by
  unfold process run at hr
  rw [he] at hr
  simp only [Bool.false_eq_true, if_false] at hr
  split at hr
  · cases hr
  · unfold transform at hr
    simp only at hr
    split at hr
    · cases hr
    · next n cov hi =>
      cases hr
      refine ⟨?_, _, rfl, rfl, rfl, rfl⟩
      rcases Sound.instrument hi with ⟨-, -, h | h⟩ | ⟨-, n, _, _, -, h, -⟩
      · obtain ⟨text, h1, h2⟩ := (C27_file_hint_iff x.cc hs m.comments program.span).1 h
        exact absurd h2 (hn text h1)
      · rcases hk with hk | hk
        · exact absurd hk h.1
        · exact absurd hk h.2
      · exact ⟨n, h⟩

/-! ### C32 -/

theorem Plugin.fnName_inj {a b : String} (h : fnName a = fnName b) : SipHash.hash a = SipHash.hash b := by
  unfold fnName at h
  have h1 := congrArg String.toList h
  rw [String.toList_append, String.toList_append] at h1
  exact Js.toString_inj (String.ext (List.append_cancel_left h1))

/-- The names of a process: both cells are set or neither is, and the temporary is named after the function. -/
def Plugin.Process.Named (p : Process) : Prop := p.tempFn = p.covFn.map Template.tempName

theorem Plugin.createFnIdent_named {p : Process} (hp : p.Named) (file : String) :
    (createFnIdent file p).Named ∧ (createFnIdent file p).covFn = some (p.covFn.getD (fnName file)) := by
  unfold Process.Named createFnIdent at *
  rw [hp]
  cases p.covFn <;> exact ⟨rfl, rfl⟩

/-- What is known of the names after one file. -/
theorem Plugin.process_names {x : Externals} {fuel : Nat} {p p' : Process} {m : Metadata} {program : Node}
    {out : Output} (hp : p.Named) (hr : process x fuel p m program = .ok (out, p')) :
    p'.Named ∧ ((out.injected = none ∧ p' = p) ∨ ∃ i, out.injected = some i ∧
      i.input.covFn = p.covFn.getD (fnName m.file) ∧ i.tempFn = Template.tempName i.input.covFn ∧
      p'.covFn = some i.input.covFn) := by
  unfold process run at hr
  split at hr
  · cases hr
    exact ⟨hp, .inl ⟨rfl, rfl⟩⟩
  · split at hr
    · cases hr
    · next p1 h1 =>
      obtain ⟨h2, h3⟩ := initLog_names h1
      have hp1 : p1.Named := by unfold Process.Named; rw [h2, h3]; exact hp
      obtain ⟨h4, h5⟩ := createFnIdent_named hp1 m.file
      unfold transform at hr
      simp only at hr
      split at hr
      · cases hr
      · cases hr
        refine ⟨h4, .inr ⟨_, rfl, ?_, ?_, ?_⟩⟩
        · simp only [Template.emit, h5, h2]
          rfl
        · unfold Process.Named at h4
          rw [h5] at h4
          simp only [Template.emit, h4, h5]
          rfl
        · simp only [Template.emit, h5]
          rfl

theorem Plugin.processAll_names {x : Externals} {fuel : Nat} (files : List (Metadata × Node)) :
    ∀ {p p' : Process} {outs : List Output} {name : String}, p.Named → p.covFn = some name →
      processAll x fuel p files = .ok (outs, p') →
      ∀ out ∈ outs, ∀ i, out.injected = some i → i.input.covFn = name ∧ i.tempFn = Template.tempName name := by
  induction files with
  | nil => intro p p' outs name _ _ h; cases h; simp
  | cons f files ih =>
    intro p p' outs name hp hn h
    obtain ⟨m, program⟩ := f
    unfold processAll at h
    split at h
    · cases h
    · next out1 p1 h1 =>
      split at h
      · cases h
      · next outs2 p2 h2 =>
        cases h
        obtain ⟨hp1, h3⟩ := process_names hp h1
        have hn1 : p1.covFn = some name := by
          rcases h3 with ⟨-, rfl⟩ | ⟨i, -, h4, -, h5⟩
          · exact hn
          · rw [h5, h4, hn]; rfl
        intro out ho i hi
        rcases List.mem_cons.1 ho with rfl | ho
        · rcases h3 with ⟨h4, -⟩ | ⟨j, h4, h5, h6, -⟩
          · rw [h4] at hi; cases hi
          · rw [h4] at hi
            cases hi
            rw [h6, h5, hn]
            exact ⟨rfl, rfl⟩
        · exact ih hp1 hn1 h2 out ho i hi

/-- C32 holds only between processes: with a process for each file the name of the coverage function is made from
the name of the file. Two names are the same only if the hashes of the file names are. -/
theorem C32_own_process_partial {x y : Externals} {fuel fuel' : Nat} {p' q' : Process} {m n : Metadata}
    {program program' : Node} {out out' : Output} {i j : Injected}
    (h1 : process x fuel .fresh m program = .ok (out, p')) (hi : out.injected = some i)
    (h2 : process y fuel' .fresh n program' = .ok (out', q')) (hj : out'.injected = some j)
    (ht : Told m.file n.file) :
    i.input.covFn = "cov_" ++ toString (SipHash.hash m.file) ∧ i.tempFn = i.input.covFn ++ "_temp" ∧
      (i.input.covFn = j.input.covFn ↔ m.file = n.file) := by
  have key : ∀ {x : Externals} {fuel : Nat} {p' : Process} {m : Metadata} {program : Node} {out : Output}
      {i : Injected}, process x fuel .fresh m program = .ok (out, p') → out.injected = some i →
      i.input.covFn = fnName m.file ∧ i.tempFn = Template.tempName i.input.covFn := by
    intro x fuel p' m program out i h hi
    obtain ⟨-, ⟨h4, -⟩ | ⟨k, h4, h5, h6, -⟩⟩ := process_names (p := .fresh) rfl h
    · rw [h4] at hi; cases hi
    · rw [h4] at hi
      cases hi
      exact ⟨h5, h6⟩
  obtain ⟨a1, a2⟩ := key h1 hi
  obtain ⟨b1, -⟩ := key h2 hj
  refine ⟨a1, a2, ?_⟩
  rw [a1, b1]
  constructor
  · intro h
    exact Classical.byContradiction fun hne => ht hne (fnName_inj h)
  · intro h
    rw [h]

/-- What happens instead of C32: all files of one process share the name made from the first of them that is
visited, whatever they are called. -/
theorem C32_first_name_wins {x : Externals} {fuel : Nat} (files : List (Metadata × Node)) :
    ∀ {outs : List Output} {p' : Process}, processAll x fuel .fresh files = .ok (outs, p') →
    ∀ {a b : Nat} {oa ob : Output} {i j : Injected}, outs[a]? = some oa → outs[b]? = some ob →
      oa.injected = some i → ob.injected = some j → i.input.covFn = j.input.covFn ∧ i.tempFn = j.tempFn := by
  suffices h : ∀ {outs : List Output} {p' : Process}, processAll x fuel .fresh files = .ok (outs, p') →
      ∃ name, ∀ out ∈ outs, ∀ i, out.injected = some i →
        i.input.covFn = name ∧ i.tempFn = Template.tempName name by
    intro outs p' hr a b oa ob i j ha hb hi hj
    obtain ⟨name, hn⟩ := h hr
    obtain ⟨h1, h2⟩ := hn oa (List.mem_of_getElem? ha) i hi
    obtain ⟨h3, h4⟩ := hn ob (List.mem_of_getElem? hb) j hj
    rw [h1, h2, h3, h4]
    exact ⟨rfl, rfl⟩
  induction files with
  | nil => intro outs p' h; cases h; exact ⟨"", by simp⟩
  | cons f files ih =>
    intro outs p' h
    obtain ⟨m, program⟩ := f
    unfold processAll at h
    split at h
    · cases h
    · next out1 p1 h1 =>
      split at h
      · cases h
      · next outs2 p2 h2 =>
        cases h
        obtain ⟨hp1, ⟨h4, rfl⟩ | ⟨i, h4, h5, h6, h7⟩⟩ := process_names (p := .fresh) rfl h1
        · obtain ⟨name, hn⟩ := ih h2
          refine ⟨name, fun out ho i hi => ?_⟩
          rcases List.mem_cons.1 ho with rfl | ho
          · rw [h4] at hi; cases hi
          · exact hn out ho i hi
        · refine ⟨i.input.covFn, fun out ho j hj => ?_⟩
          rcases List.mem_cons.1 ho with rfl | ho
          · rw [h4] at hj
            cases hj
            exact ⟨rfl, h6⟩
          · exact processAll_names files hp1 h7 h2 out ho j hj

/-! ### C44 -/

/-- The outputs are the same up to the names of the coverage function and its temporary. -/
def Plugin.Output.Alike (a b : Output) : Prop :=
  a.program = b.program ∧
    a.injected.map (fun i => ({ i.input with covFn := "" }, i.comment)) =
      b.injected.map (fun i => ({ i.input with covFn := "" }, i.comment))

/-- C44. What becomes of a file does not depend on the files processed before, but for the names of the coverage
function and its temporary, as long as logging is not asked for again. -/
theorem C44_independent_partial (x : Externals) (fuel : Nat) {p q : Process} {m : Metadata} (program : Node)
    (hp : Unhindered p m) (hq : Unhindered q m) :
    (∃ e, process x fuel p m program = .error e ∧ process x fuel q m program = .error e) ∨
    ∃ a b p' q', process x fuel p m program = .ok (a, p') ∧ process x fuel q m program = .ok (b, q') ∧
      a.Alike b := by
  obtain ⟨p1, h1, -⟩ := initLog_unhindered hp
  obtain ⟨q1, h2, -⟩ := initLog_unhindered hq
  unfold process run
  split
  · exact .inr ⟨_, _, _, _, rfl, rfl, rfl, rfl⟩
  · rw [h1, h2]
    simp only [transform]
    split
    · exact .inl ⟨_, rfl, rfl⟩
    · exact .inr ⟨_, _, _, _, rfl, rfl, rfl, rfl⟩

/-- C44 fails where logging is asked for: the second file of a process that asks for it makes the plugin panic,
whatever the files are, unless it is excluded. -/
theorem C44_logging_fails (x : Externals) (fuel : Nat) {p : Process} {m : Metadata} (program : Node) {l : String}
    (hl : (options m.config).instrumentLog.level = some l) (hv : LogLevel l) (hp : p.logging = true)
    (he : excluded x (options m.config).unstableExclude m.file = false) :
    process x fuel p m program = .error .subscriberSet := by
  unfold process run
  rw [he]
  simp [initLog, hl, (isLevel_iff l).2 hv, hp]

/-- Logging is on after a file if it was on before or the file asks for it. -/
theorem Plugin.logging_after {x : Externals} {fuel : Nat} {p p' : Process} {m : Metadata} {program : Node} {a : Output}
    (h : process x fuel p m program = .ok (a, p')) : p'.logging = true ↔ p.logging = true ∨ AsksForLog x m := by
  unfold process run at h
  split at h
  · next he =>
    cases h
    exact ⟨.inl, fun h => h.elim id fun h => absurd (he.symm.trans h.1) (by decide)⟩
  · next he =>
    have he : excluded x (options m.config).unstableExclude m.file = false := by simpa using he
    have ht : ∀ {q : Process}, transform x fuel m (options m.config) program q = .ok (a, p') →
        p'.logging = q.logging := by
      intro q hq
      unfold transform at hq
      dsimp only at hq
      split at hq
      · cases hq
      · cases hq; rfl
    unfold initLog at h
    cases hl : (options m.config).instrumentLog.level with
    | none =>
      rw [hl] at h
      rw [ht h]
      exact ⟨.inl, fun h => h.elim id fun ⟨_, l, h, _⟩ => by rw [hl] at h; cases h⟩
    | some l =>
      rw [hl] at h
      by_cases hv : isLevel l = true
      · simp only [hv, if_true] at h
        cases hp : p.logging with
        | true => rw [hp] at h; cases h
        | false =>
          rw [hp] at h
          rw [ht h]
          exact ⟨fun _ => .inr ⟨he, l, hl, (isLevel_iff l).1 hv⟩, fun _ => rfl⟩
      · simp only [hv, if_false, Bool.false_eq_true] at h
        rw [ht h]
        refine ⟨.inl, fun h => h.elim id fun ⟨_, l', h, h'⟩ => ?_⟩
        rw [hl] at h
        cases h
        exact absurd ((isLevel_iff l).2 h') hv

/-- A file that can be processed alone, in a process. -/
theorem Plugin.process_alone {x : Externals} {fuel : Nat} {p p0 : Process} {m : Metadata} {program : Node} {a : Output}
    (h : process x fuel .fresh m program = .ok (a, p0)) :
    (¬ (p.logging = true ∧ AsksForLog x m) → ∃ b p', process x fuel p m program = .ok (b, p') ∧ a.Alike b) ∧
    (p.logging = true ∧ AsksForLog x m → process x fuel p m program = .error .subscriberSet) := by
  refine ⟨fun hn => ?_, fun ⟨hp, he, l, hl, hv⟩ => C44_logging_fails x fuel program hl hv hp he⟩
  cases he : excluded x (options m.config).unstableExclude m.file with
  | true =>
    have h1 : ∀ q, process x fuel q m program = .ok (⟨program, none⟩, q) := by
      intro q
      unfold process run
      rw [if_pos he]
    rw [h1] at h
    cases h
    exact ⟨_, _, h1 p, rfl, rfl⟩
  | false =>
    have hu : Unhindered p m := by
      cases hp : p.logging with
      | false => exact .inl hp
      | true => exact .inr fun l hl hv => hn ⟨hp, he, l, hl, hv⟩
    rcases C44_independent_partial x fuel program (p := .fresh) (.inl rfl) hu with ⟨e, h1, -⟩ | ⟨a', b, _, p', h1, h2, h3⟩
    · rw [h] at h1; cases h1
    · rw [h] at h1
      cases h1
      exact ⟨b, p', h2, h3⟩

theorem Plugin.processAll_alone (x : Externals) (fuel : Nat) (files : List (Metadata × Node)) :
    ∀ (alone : List Output) (p : Process),
    List.Forall₂ (fun f a => ∃ p', process x fuel .fresh f.1 f.2 = .ok (a, p')) files alone →
    (files.Pairwise (fun f g => ¬ (AsksForLog x f.1 ∧ AsksForLog x g.1)) ∧
        (p.logging = true → ∀ f ∈ files, ¬ AsksForLog x f.1) →
      ∃ outs p', processAll x fuel p files = .ok (outs, p') ∧ List.Forall₂ Output.Alike alone outs) ∧
    (¬ (files.Pairwise (fun f g => ¬ (AsksForLog x f.1 ∧ AsksForLog x g.1)) ∧
        (p.logging = true → ∀ f ∈ files, ¬ AsksForLog x f.1)) →
      processAll x fuel p files = .error .subscriberSet) := by
  induction files with
  | nil =>
    intro alone p h
    cases h
    exact ⟨fun _ => ⟨[], p, rfl, .nil⟩, fun h => absurd ⟨.nil, fun _ f hf => by cases hf⟩ h⟩
  | cons f files ih =>
    intro alone p h
    cases h with
    | @cons _ a _ as h1 h2 =>
      obtain ⟨p0, h1⟩ := h1
      obtain ⟨k1, k2⟩ := process_alone (p := p) h1
      by_cases hn : p.logging = true ∧ AsksForLog x f.1
      · refine ⟨fun ⟨_, h⟩ => absurd hn.2 (h hn.1 f List.mem_cons_self), fun _ => ?_⟩
        simp only [processAll, k2 hn]
      · obtain ⟨b, p', h3, h4⟩ := k1 hn
        obtain ⟨i1, i2⟩ := ih as p' h2
        have hlog := logging_after h3
        have hiff : ((f :: files).Pairwise (fun f g => ¬ (AsksForLog x f.1 ∧ AsksForLog x g.1)) ∧
            (p.logging = true → ∀ g ∈ f :: files, ¬ AsksForLog x g.1)) ↔
            files.Pairwise (fun f g => ¬ (AsksForLog x f.1 ∧ AsksForLog x g.1)) ∧
              (p'.logging = true → ∀ g ∈ files, ¬ AsksForLog x g.1) := by
          rw [List.pairwise_cons, hlog]
          constructor
          · rintro ⟨⟨j1, j2⟩, j3⟩
            refine ⟨j2, fun hl g hg hga => ?_⟩
            rcases hl with hl | hl
            · exact j3 hl g (List.mem_cons_of_mem _ hg) hga
            · exact j1 g hg ⟨hl, hga⟩
          · rintro ⟨j1, j2⟩
            refine ⟨⟨fun g hg hb => j2 (.inr hb.1) g hg hb.2, j1⟩, fun hl g hg hga => ?_⟩
            rcases List.mem_cons.1 hg with rfl | hg
            · exact hn ⟨hl, hga⟩
            · exact j2 (.inl hl) g hg hga
        rw [hiff]
        constructor
        · intro hc
          obtain ⟨outs, p'', r1, r2⟩ := i1 hc
          refine ⟨b :: outs, p'', ?_, .cons h4 r2⟩
          simp only [processAll, h3, r1]
        · intro hc
          simp only [processAll, h3, i2 hc]

/-- C44 for a whole history, partial: of files each of which can be processed alone, a process makes what it would
make of each of them alone (up to the names of the coverage function and its temporary) if at most one of them asks
for logging, and panics otherwise. -/
theorem C44_history_partial (x : Externals) (fuel : Nat) (files : List (Metadata × Node)) (alone : List Output)
    (ha : List.Forall₂ (fun f a => ∃ p', process x fuel .fresh f.1 f.2 = .ok (a, p')) files alone) :
    (files.Pairwise (fun f g => ¬ (AsksForLog x f.1 ∧ AsksForLog x g.1)) →
      ∃ outs p', processAll x fuel .fresh files = .ok (outs, p') ∧ List.Forall₂ Output.Alike alone outs) ∧
    (¬ files.Pairwise (fun f g => ¬ (AsksForLog x f.1 ∧ AsksForLog x g.1)) →
      processAll x fuel .fresh files = .error .subscriberSet) := by
  obtain ⟨h1, h2⟩ := processAll_alone x fuel files alone .fresh ha
  exact ⟨fun h => h1 ⟨h, fun h => by cases h⟩, fun h => h2 fun hc => h hc.1⟩

/-! ### Concrete cases -/

/-- Globs: a pattern is a suffix to be matched, `[` is malformed. -/
def suffixGlob (q : String) : Option (String → Bool) :=
  if q = "[" then none else some fun n => q.toList.isSuffixOf n.toList

/-- No Windows paths. -/
def plainExternals : Externals where
  cc := asciiClasses
  toUnix _ := none
  globAny ps := if ps.all fun q => (suffixGlob q).isSome
    then some fun n => ps.any fun q => ((suffixGlob q).map (· n)).getD false else none

theorem plainExternals_alternation : Alternation plainExternals.globAny suffixGlob := by
  constructor
  · intro ps _ h
    refine ⟨_, if_pos (List.all_eq_true.2 h), fun n => ?_⟩
    rw [List.any_eq_true]
    constructor
    · rintro ⟨q, hq, h1⟩
      cases hg : suffixGlob q with
      | none => rw [hg] at h1; cases h1
      | some g => rw [hg] at h1; exact ⟨q, hq, g, hg, h1⟩
    · rintro ⟨q, hq, g, hg, h1⟩
      exact ⟨q, hq, by rw [hg]; exact h1⟩
  · rintro ps ⟨q, hq, h⟩
    refine if_neg fun h1 => ?_
    have := List.all_eq_true.1 h1 q hq
    rw [h] at this
    cases this

/-- A file with options. -/
def withConfig (file : String) (config : Option String) : Metadata where
  filename := some file
  config := config
  comments := Build.plain.comments
  pos := Build.plain.pos

/-- A script with one statement. -/
def oneCall : Node := Build.script [Build.expr 2 (Build.ident 2 "x")]

theorem options_exclude : options (some "{\"unstableExclude\":[\"b\\\\x.js\"]}") =
    { Options.default with unstableExclude := some ["b\\x.js"] } := by decide +kernel

/-- Excluded: both pattern and name are normalised. -/
example : process plainExternals 9 .fresh (withConfig "a\\b\\x.js" (some "{\"unstableExclude\":[\"b\\\\x.js\"]}"))
    oneCall = .ok (⟨oneCall, none⟩, .fresh) := by
  refine C25_excluded plainExternals_alternation 9 _ _ _ (patterns := ["b\\x.js"]) ?_ ?_ ?_
  · show (options (some _)).unstableExclude = _
    rw [options_exclude]
  · decide +kernel
  · exact ⟨_, List.mem_singleton.2 rfl, _, rfl, by decide +kernel⟩

/-- Unknown members are ignored, members that are missing have their defaults; one member of the wrong type, and
everything is the default. -/
example : options (some "{\"reportLogic\":true,\"other\":1}") = { Options.default with reportLogic := true } ∧
    Malformed "{\"reportLogic\":true,\"compact\":0}" ∧ Malformed "{" ∧
    options (some "{\"reportLogic\":true,\"compact\":0}") = .default := by
  refine ⟨?_, ?_, ?_, ?_⟩
  · decide +kernel
  · show Options.parse _ = none; decide +kernel
  · show Options.parse _ = none; decide +kernel
  · decide +kernel

/-- The hint at the end of the file. -/
example : ∃ out p', process plainExternals 9 .fresh
    { withConfig "a.js" none with comments := ⟨fun _ => [], fun q => if q = 1000 then [" istanbul ignore file".toList] else []⟩ }
    oneCall = .ok (out, p') ∧ out.program = oneCall :=
  C25_ignored asciiClasses_sane 9 _ _ _ (.inl rfl) (.inr (.inr (.inr (List.mem_singleton.2 rfl))))
    ((C27_file_hint_iff asciiClasses asciiClasses_sane ⟨fun _ => [" istanbul ignore file".toList], fun _ => []⟩ ⟨1, 2⟩).1
      (by decide) |>.elim fun t h => by
        have : t = " istanbul ignore file".toList := by
          rcases h.1 with h | h | h | h
          · exact List.mem_singleton.1 h
          · exact List.mem_singleton.1 h
          · cases h
          · cases h
        exact this ▸ h.2)

/-- Two files of one process. -/
def twoScripts : List (Metadata × Node) := [(withConfig "a.js" none, oneCall), (withConfig "b.js" none, oneCall)]

theorem twoScripts_run : ∃ a b i j p', processAll plainExternals 20 .fresh twoScripts = .ok ([a, b], p') ∧
    a.injected = some i ∧ b.injected = some j := by
  have h : (match processAll plainExternals 20 .fresh twoScripts with
    | .ok ([a, b], _) => a.injected.isSome && b.injected.isSome
    | _ => false) = true := by decide +kernel
  split at h
  · next a b p' hs =>
    rw [Bool.and_eq_true] at h
    obtain ⟨i, hi⟩ := Option.isSome_iff_exists.1 h.1
    obtain ⟨j, hj⟩ := Option.isSome_iff_exists.1 h.2
    exact ⟨a, b, i, j, p', hs, hi, hj⟩
  · cases h

/-- C32 as stated is refuted: two files with different names, whose hashes differ too, instrumented in one process
get the same coverage function name. -/
theorem C32_refuted : ¬ ∀ (x : Externals) (fuel : Nat) (files : List (Metadata × Node)) (outs : List Output)
    (p' : Process), processAll x fuel .fresh files = .ok (outs, p') →
    ∀ (a b : Nat) (fa fb : Metadata × Node) (oa ob : Output) (i j : Injected), files[a]? = some fa →
      files[b]? = some fb → outs[a]? = some oa → outs[b]? = some ob → oa.injected = some i → ob.injected = some j →
      SipHash.hash fa.1.file ≠ SipHash.hash fb.1.file → i.input.covFn ≠ j.input.covFn := by
  intro h
  obtain ⟨a, b, i, j, p', hr, hi, hj⟩ := twoScripts_run
  refine h _ _ _ _ _ hr 0 1 _ _ a b i j rfl rfl rfl rfl hi hj (by decide +kernel) ?_
  exact (C32_first_name_wins _ hr (a := 0) (b := 1) rfl rfl hi hj).1

/-- C44 with a process that has seen another file. -/
example : ∃ a b p' q', process plainExternals 20 .fresh (withConfig "b.js" none) oneCall = .ok (a, p') ∧
    process plainExternals 20 ⟨some "cov_1", some "cov_1_temp", true⟩ (withConfig "b.js" none) oneCall = .ok (b, q') ∧
    a.Alike b := by
  rcases C44_independent_partial plainExternals 20 (p := .fresh) (q := ⟨some "cov_1", some "cov_1_temp", true⟩)
    (m := withConfig "b.js" none) oneCall (.inl rfl) (.inr fun l h => by cases h) with ⟨e, h, -⟩ | h
  · have h1 : (match process plainExternals 20 .fresh (withConfig "b.js" none) oneCall with
      | .ok _ => true
      | .error _ => false) = true := by decide +kernel
    rw [h] at h1
    cases h1
  · exact h

/-- A file that asks for logging. -/
def logging (file : String) : Metadata := withConfig file (some "{\"instrumentLog\":{\"level\":\"trace\"}}")

theorem logging_options (file : String) :
    options (logging file).config = { Options.default with instrumentLog := ⟨some "trace", false⟩ } := by
  show options (some "{\"instrumentLog\":{\"level\":\"trace\"}}") = _
  decide +kernel

/-- Two files that ask for logging in one process. -/
example : processAll plainExternals 20 .fresh [(logging "a.js", oneCall), (logging "b.js", oneCall)] =
    .error .subscriberSet := by
  have h : (match run plainExternals 20 (logging "a.js")
      { Options.default with instrumentLog := ⟨some "trace", false⟩ } oneCall .fresh with
    | .ok (_, p) => p.logging
    | .error _ => false) = true := by decide +kernel
  split at h
  · next out p hr =>
    have h1 : process plainExternals 20 .fresh (logging "a.js") oneCall = .ok (out, p) := by
      unfold process
      rw [logging_options, hr]
    have h2 : process plainExternals 20 p (logging "b.js") oneCall = .error .subscriberSet :=
      C44_logging_fails _ _ _ (l := "trace") (by rw [logging_options]) (.inl rfl) h (by rw [logging_options]; rfl)
    simp only [processAll, h1, h2]
  · cases h

/-- One file asks for logging, another does not: both are processed as if they were alone. -/
example : ∃ a b outs p', processAll plainExternals 20 .fresh
      [(logging "a.js", oneCall), (withConfig "b.js" none, oneCall)] = .ok (outs, p') ∧
    List.Forall₂ Output.Alike [a, b] outs := by
  have h1 : ∃ a p', process plainExternals 20 .fresh (logging "a.js") oneCall = .ok (a, p') := by
    have h : (match run plainExternals 20 (logging "a.js")
        { Options.default with instrumentLog := ⟨some "trace", false⟩ } oneCall .fresh with
      | .ok (_, p) => p.logging
      | .error _ => false) = true := by decide +kernel
    split at h
    · next out p hr =>
      refine ⟨out, p, ?_⟩
      unfold process
      rw [logging_options, hr]
    · cases h
  have h2 : ∃ a p', process plainExternals 20 .fresh (withConfig "b.js" none) oneCall = .ok (a, p') := by
    have h : (match process plainExternals 20 .fresh (withConfig "b.js" none) oneCall with
      | .ok _ => true
      | .error _ => false) = true := by decide +kernel
    split at h
    · next o hr => exact ⟨o.1, o.2, hr⟩
    · cases h
  obtain ⟨a, pa, ha⟩ := h1
  obtain ⟨b, pb, hb⟩ := h2
  obtain ⟨outs, p', k1, k2⟩ := (C44_history_partial plainExternals 20
    [(logging "a.js", oneCall), (withConfig "b.js" none, oneCall)] [a, b]
    (.cons ⟨pa, ha⟩ (.cons ⟨pb, hb⟩ .nil))).1 (by
      rw [List.pairwise_cons]
      refine ⟨fun g hg hc => ?_, List.pairwise_singleton _ _⟩
      rw [List.mem_singleton.1 hg] at hc
      obtain ⟨-, -, l, hl, -⟩ := hc
      cases hl)
  exact ⟨a, b, outs, p', k1, k2⟩

open Js in
/-- The statements of a script, run in the scope that scripts share. -/
def runScript (w : World) (scope : Nat) (ss : Stmts) : Js.M Unit := do
  hoist [scope] ss
  let _ ← stmts w (Js.call w 2) [scope] ss
  pure ()

open Js Template in
/-- Two scripts loaded into one scope; then a statement of the first is counted. -/
def shareScope (i j : Input) : Js.M Unit := do
  let scope ← newFrame
  runScript noWorld scope (prelude i)
  runScript noWorld scope (prelude j)
  let _ ← eval noWorld [scope] (counter i.covFn (.s 0))
  pure ()

/-- The count of statement 0 in the entry of a path. -/
def statementCountAt (st : Js.State) (path : String) : Option Js.Value := do
  let ps ← Runtime.registry "__coverage__" st
  let .data (.ref a) ← ps.get path | none
  let o ← st.heap[a]?
  let .data (.ref s) ← o.props.get "s" | none
  let t ← st.heap[s]?
  let .data v ← t.props.get "0" | none
  pure v

/-- What comes of it: with the same function name the count of the first script goes to the second; with
different names it goes where it belongs. -/
theorem C32_shared_scope_fails :
    (match shareScope (oneStatement "a.js" "1") (oneStatement "b.js" "2") freshRealm with
      | .ok (st, _) => decide (statementCountAt st "a.js" = some (.num 0) ∧ statementCountAt st "b.js" = some (.num 1))
      | .error _ => false) = true ∧
    (match shareScope { oneStatement "a.js" "1" with covFn := "cov_a" } { oneStatement "b.js" "2" with covFn := "cov_b" }
        freshRealm with
      | .ok (st, _) => decide (statementCountAt st "a.js" = some (.num 1) ∧ statementCountAt st "b.js" = some (.num 0))
      | .error _ => false) = true := by
  constructor <;> decide +kernel

end Verif
