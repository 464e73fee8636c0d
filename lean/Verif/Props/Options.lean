import Verif.Spec.Options
import Verif.Props.Plugin
import Verif.Props.Ignore
import Verif.Lemmas.Outcome
/-
C46: the options of the plugin take effect.
-/
namespace Verif
open Plugin Node

namespace Plugin

theorem nullable_eq {V : Type} (f : V → Data) : nullable f = Serde.optTree f := by
  funext o; cases o <;> rfl

theorem names_eq : names = Serde.vecTree .str := rfl

theorem filter_key {fs : List (String × Data)} (h : IndexMap.NodupKeys fs) (k : String) :
    (fs.filter fun e => e.1 = k).length ≤ 1 := by
  induction fs with
  | nil => simp
  | cons e fs ih =>
    simp only [IndexMap.NodupKeys, IndexMap.keys, List.map_cons, List.nodup_cons] at h
    by_cases hk : e.1 = k
    · have h0 : fs.filter (fun e => e.1 = k) = [] := by
        rw [List.filter_eq_nil_iff]
        intro a ha hk'
        exact h.1 (List.mem_map.2 ⟨a, ha, by rw [hk, of_decide_eq_true hk']⟩)
      rw [List.filter_cons_of_pos (by simpa using hk), h0]
      simp
    · rw [List.filter_cons_of_neg (by simpa using hk)]
      exact ih h.2

theorem struct_obj {fs : List (String × Data)} (h : IndexMap.NodupKeys fs) (known : List String) :
    Serde.struct known (.obj fs) = some fs := by
  show (if _ then some fs else none) = _
  rw [if_pos (List.all_eq_true.2 fun k _ => by simpa using filter_key h k)]

theorem Says.read {V : Type} {fs : List (String × Data)} {k : String} {form : V → Data} {dflt v : V}
    (h : Says fs k form dflt v) {f : Data → Option V} (hf : f (form v) = some v) :
    Serde.withDefault dflt f fs k = some v := by
  unfold Serde.withDefault Serde.member
  rcases h with h | ⟨h, rfl⟩ <;> rw [h]
  exact hf

theorem Says.readOpt {V : Type} {fs : List (String × Data)} {k : String} {form : V → Data} {v : Option V}
    (h : Says fs k (nullable form) none v) {f : Data → Option V} (hf : ∀ x, v = some x → f (form x) = some x)
    (hn : ∀ x, form x ≠ .null) : Serde.optional f fs k = some v := by
  refine Says.read h ?_
  cases v with
  | none => rfl
  | some x =>
    have := hf x rfl
    have hx := hn x
    show Serde.opt f (form x) = _
    unfold Serde.opt
    split
    · next h => exact absurd h hx
    · rw [this]; rfl

theorem SaysLog.read {fs : List (String × Data)} {o : LogOptions} (hn : IndexMap.NodupKeys fs) (h : SaysLog fs o) :
    LogOptions.read (.obj fs) = some o := by
  unfold LogOptions.read
  rw [struct_obj hn]
  have h1 := h.level.readOpt (f := Serde.string) (fun _ _ => rfl) (fun _ => by simp)
  have h2 := h.enableTrace.read (f := Serde.bool) rfl
  simp [h1, h2]

theorem strings_names (l : List String) : Serde.vec Serde.string (names l) = some l := Serde.strings_tree l

theorem SaysOptions.read {fs : List (String × Data)} {o : Options} (hn : IndexMap.NodupKeys fs) (h : SaysOptions fs o) :
    Options.read (.obj fs) = some o := by
  have h1 := h.coverageVariable.read (f := Serde.string) rfl
  have h2 := h.compact.read (f := Serde.bool) rfl
  have h3 := h.reportLogic.read (f := Serde.bool) rfl
  have h4 := h.ignoreClassMethods.read (f := Serde.vec Serde.string) (strings_names _)
  have h5 := h.inputSourceMap.readOpt (f := Serde.sourceMap) (fun m hm => Serde.sourceMap_tree (h.version m hm))
    (fun m => by simp [Serde.sourceMapTree])
  have h6 : Serde.withDefault LogOptions.default LogOptions.read fs "instrumentLog" = some o.instrumentLog := by
    unfold Serde.withDefault Serde.member
    rcases h.instrumentLog with ⟨ls, h1, h2, h3⟩ | ⟨h1, h2⟩
    · rw [h1]; exact h3.read h2
    · rw [h1, h2]; rfl
  have h7 := h.debugInitialCoverageComment.read (f := Serde.bool) rfl
  have h8 := h.unstableExclude.readOpt (f := Serde.vec Serde.string) (fun l _ => strings_names l) (fun _ => by simp [names])
  unfold Options.read
  rw [struct_obj hn]
  simp [h1, h2, h3, h4, h5, h6, h7, h8]

theorem within_names (n : Nat) (l : List String) : Serde.Within (n + 1) (Serde.vecTree .str l) :=
  Serde.within_vec l fun _ => Serde.within_str _ _

theorem within_options (o : Options) : Serde.Within 4 o.tree := by
  unfold Options.tree
  refine Serde.within_obj (n := 3) ?_
  intro e he
  simp only [List.mem_cons, List.not_mem_nil, or_false] at he
  rcases he with rfl | rfl | rfl | rfl | rfl | rfl | rfl | rfl
  · exact Serde.within_str _ _
  · exact Serde.within_bool _ _
  · exact Serde.within_bool _ _
  · exact within_names 2 _
  · exact Serde.within_opt _ fun m => (Serde.within_sourceMap m).mono (by omega)
  · refine Serde.within_obj (n := 2) fun e he => ?_
    simp only [List.mem_cons, List.not_mem_nil, or_false] at he
    rcases he with rfl | rfl
    · exact Serde.within_opt _ fun m => Serde.within_str _ _
    · exact Serde.within_bool _ _
  · exact Serde.within_bool _ _
  · exact Serde.within_opt _ fun m => within_names 2 _

end Plugin

/-- C46, reading. The options are what the members of the JSON object say, in any order; what is not said has its
default; other members do not matter. -/
theorem C46_read {text : String} {fs : List (String × Data)} {o : Options} (hp : Json.parse text = some (.obj fs))
    (hn : IndexMap.NodupKeys fs) (h : SaysOptions fs o) : options (some text) = o := by
  simp [options, Options.parse, hp, h.read hn]

/-- C46, reading. Options that are written as JSON are read as they were. -/
theorem C46_written (o : Options) (hv : ∀ m, o.inputSourceMap = some m → m.version < 2 ^ 32) :
    options (some (Json.text o.tree)) = o := by
  obtain ⟨h1, h2⟩ := within_options o
  have hp := Json.parse_text o.tree h1 (by omega)
  refine C46_read (fs := _) hp ?_ ?_
  · show ["coverageVariable", "compact", "reportLogic", "ignoreClassMethods", "inputSourceMap", "instrumentLog",
      "debugInitialCoverageComment", "unstableExclude"].Nodup
    decide
  · refine ⟨.inl rfl, .inl rfl, .inl rfl, .inl rfl, .inl ?_, hv, .inl ⟨_, rfl, ?_, ?_⟩, .inl rfl, .inl ?_⟩
    · rw [nullable_eq]; rfl
    · show ["level", "enableTrace"].Nodup
      decide
    · refine ⟨.inl ?_, .inl rfl⟩
      rw [nullable_eq]; rfl
    · rw [nullable_eq]; rfl

/-- C46. A file that is not excluded is instrumented with the truthiness reporting, the ignored methods and the source map
of the options, under its own name; the coverage function is made for the resulting report. -/
theorem C46_instrumented {x : Externals} {fuel : Nat} {p p' : Process} {m : Metadata} {program : Node}
    {out : Output} {i : Injected} (hr : process x fuel p m program = .ok (out, p')) (hi : out.injected = some i) :
    ∃ cov, Visitor.instrument ⟨x.cc, m.comments, m.pos, (options m.config).reportLogic,
        (options m.config).ignoreClassMethods⟩ fuel (m.filename.getD "unknown.js") (options m.config).inputSourceMap
        program = .ok (out.program, cov) ∧ i.input.data = cov.inner ∧
      i.input.path = m.filename.getD "unknown.js" ∧
      i.input.coverageVariable = (options m.config).coverageVariable := by
  unfold process run at hr
  split at hr
  · cases hr; cases hi
  · split at hr
    · cases hr
    · unfold transform at hr
      simp only at hr
      split at hr
      · cases hr
      · next n cov h =>
        cases hr
        cases hi
        exact ⟨cov, h, rfl, rfl, rfl⟩

/-- C46. The report of a visited file has the name of the file and the source map of the options, and truthiness counts
if and only if they were asked for; the data is kept under the variable of the options. -/
theorem C46_report {x : Externals} {fuel : Nat} {p p' : Process} {m : Metadata} {program : Node}
    {out : Output} {i : Injected} (hr : process x fuel p m program = .ok (out, p')) (hi : out.injected = some i) :
    i.input.path = m.filename.getD "unknown.js" ∧ i.input.data.path = m.filename.getD "unknown.js" ∧
      i.input.coverageVariable = (options m.config).coverageVariable ∧
      i.input.data.inputSourceMap = (options m.config).inputSourceMap ∧
      i.input.data.bT.isSome = (options m.config).reportLogic := by
  obtain ⟨cov, h1, h2, h3, h4⟩ := C46_instrumented hr hi
  obtain ⟨n, h, o⟩ := outcome h1
  rw [h2]
  exact ⟨h3, o.finished.path, h4, o.finished.sm, o.bT_isSome⟩

/-- C46. Unless truthiness counts are asked for, no truthiness counter is put into the program. -/
theorem C46_no_truth {x : Externals} {fuel : Nat} {p p' : Process} {m : Metadata} {program : Node} (hc : Clean program)
    {out : Output} {i : Injected} (hr : process x fuel p m program = .ok (out, p')) (hi : out.injected = some i)
    (hl : (options m.config).reportLogic = false) (b a : Nat) : .bT b a ∉ out.program.sites := by
  obtain ⟨cov, h1, -⟩ := C46_instrumented hr hi
  obtain ⟨n, h, o⟩ := outcome h1
  intro hm
  rw [← List.count_pos_iff, o.sites_eq, List.count_pos_iff] at hm
  rcases o.steps.truth_mem b a (.inl hm) with (h2 | h2) | ⟨h2, -⟩
  · rw [clean_sites hc] at h2; cases h2
  · cases h2
  · rw [hl] at h2; cases h2

/-- Some members, in another order, and one that the plugin does not know. -/
def spelledOptions : List (String × Data) :=
  [("ignoreClassMethods", .arr [.str "m"]), ("sourceType", .str "module"), ("reportLogic", .bool true),
    ("coverageVariable", .str "$c")]

/-- The options that they stand for. -/
def spelledMeaning : Options :=
  { Options.default with ignoreClassMethods := ["m"], reportLogic := true, coverageVariable := "$c" }

theorem spelled_says : options (some (Json.text (.obj spelledOptions))) = spelledMeaning := by
  refine C46_read (fs := spelledOptions) (Json.parse_text _ ?_ ?_) ?_ ?_
  · exact by decide +kernel
  · exact by decide +kernel
  · show ["ignoreClassMethods", "sourceType", "reportLogic", "coverageVariable"].Nodup
    decide
  · exact ⟨.inl rfl, .inr ⟨rfl, rfl⟩, .inl rfl, .inl rfl, .inr ⟨rfl, rfl⟩, fun m h => (by cases h), .inr ⟨rfl, rfl⟩,
      .inr ⟨rfl, rfl⟩, .inr ⟨rfl, rfl⟩⟩

/-- With these options there are truthiness counts in the report of a script, and the variable is `$c`. -/
example : ∃ out i p', process plainExternals 20 .fresh (withConfig "a.js" (some (Json.text (.obj spelledOptions)))) oneCall =
    .ok (out, p') ∧ out.injected = some i ∧ i.input.data.path = "a.js" ∧ i.input.data.bT.isSome = true ∧
      i.input.coverageVariable = "$c" := by
  have h : (match run plainExternals 20 (withConfig "a.js" none) spelledMeaning oneCall .fresh with
    | .ok (out, _) => out.injected.isSome
    | .error _ => false) = true := by decide +kernel
  split at h
  · next out p' hr =>
    obtain ⟨i, hi⟩ := Option.isSome_iff_exists.1 h
    have hp : process plainExternals 20 .fresh (withConfig "a.js" (some (Json.text (.obj spelledOptions)))) oneCall =
        .ok (out, p') := by
      unfold process
      have : options (withConfig "a.js" (some (Json.text (.obj spelledOptions)))).config = spelledMeaning := spelled_says
      rw [this]
      exact hr
    obtain ⟨-, h2, h3, -, h5⟩ := C46_report hp hi
    have ho : options (withConfig "a.js" (some (Json.text (.obj spelledOptions)))).config = spelledMeaning := spelled_says
    rw [ho] at h3 h5
    exact ⟨out, i, p', hp, hi, h2, h5, h3⟩
  · cases h

end Verif
