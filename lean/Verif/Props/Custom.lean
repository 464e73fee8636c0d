import Verif.Model.Custom
import Verif.Props.Plugin
/-
C58: the plugin and the native transform do the same.
-/
namespace Verif
open Plugin

/-! ### Reading values -/

namespace Json

theorem deeper (fuel : Nat) : (∀ {d d' : Nat} {t r}, d ≤ d' → value fuel d t = some r → value fuel d' t = some r) ∧
    (∀ {d d' : Nat} {t r}, d ≤ d' → items fuel d t = some r → items fuel d' t = some r) ∧
    (∀ {d d' : Nat} {t r}, d ≤ d' → fields fuel d t = some r → fields fuel d' t = some r) := by
  induction fuel with
  | zero => refine ⟨?_, ?_, ?_⟩ <;> intro d d' t r _ h <;> cases h
  | succ fuel ih =>
    obtain ⟨iv, ii, ifs⟩ := ih
    refine ⟨?_, ?_, ?_⟩
    · intro d d' t r hd h
      unfold value at h ⊢
      cases hs : skip t with
      | nil => rw [hs] at h; cases h
      | cons c l =>
        rw [hs] at h
        dsimp only at h ⊢
        by_cases c1 : c = 'n'
        · rw [if_pos c1] at h ⊢; exact h
        rw [if_neg c1] at h ⊢
        by_cases c2 : c = 't'
        · rw [if_pos c2] at h ⊢; exact h
        rw [if_neg c2] at h ⊢
        by_cases c3 : c = 'f'
        · rw [if_pos c3] at h ⊢; exact h
        rw [if_neg c3] at h ⊢
        by_cases c4 : c = '-'
        · rw [if_pos c4] at h ⊢; exact h
        rw [if_neg c4] at h ⊢
        by_cases c5 : isDigit c = true
        · rw [if_pos c5] at h ⊢; exact h
        rw [if_neg c5] at h ⊢
        by_cases c6 : c = '"'
        · rw [if_pos c6] at h ⊢; exact h
        rw [if_neg c6] at h ⊢
        by_cases c7 : c = '['
        · rw [if_pos c7] at h ⊢
          by_cases c9 : d ≤ 1
          · rw [if_pos c9] at h; cases h
          rw [if_neg c9] at h
          rw [if_neg (by omega)]
          cases hl : skip l with
          | nil => rw [hl] at h; cases h
          | cons e l =>
            rw [hl] at h
            dsimp only at h ⊢
            by_cases c8 : e = ']'
            · rw [if_pos c8] at h ⊢; exact h
            rw [if_neg c8] at h ⊢
            obtain ⟨x, h1, h2⟩ := Option.map_eq_some_iff.1 h
            rw [ii (Nat.sub_le_sub_right hd 1) h1, ← h2]
            rfl
        rw [if_neg c7] at h ⊢
        by_cases c10 : c = '{'
        · rw [if_pos c10] at h ⊢
          by_cases c9 : d ≤ 1
          · rw [if_pos c9] at h; cases h
          rw [if_neg c9] at h
          rw [if_neg (by omega)]
          cases hl : skip l with
          | nil => rw [hl] at h; cases h
          | cons e l =>
            rw [hl] at h
            dsimp only at h ⊢
            by_cases c8 : e = '}'
            · rw [if_pos c8] at h ⊢; exact h
            rw [if_neg c8] at h ⊢
            obtain ⟨x, h1, h2⟩ := Option.map_eq_some_iff.1 h
            rw [ifs (Nat.sub_le_sub_right hd 1) h1, ← h2]
            rfl
        · rw [if_neg c10] at h; cases h
    · intro d d' t r hd h
      unfold items at h ⊢
      split at h
      · cases h
      · next v text hv =>
        rw [iv hd hv]
        dsimp only
        split at h
        · cases h
        · split at h
          · simp_all
          · split at h
            · obtain ⟨x, h1, h2⟩ := Option.map_eq_some_iff.1 h
              simp_all [ii hd h1]
            · cases h
    · intro d d' t r hd h
      unfold fields at h ⊢
      cases hs : skip t with
      | nil => rw [hs] at h; cases h
      | cons c l =>
        rw [hs] at h
        dsimp only at h ⊢
        by_cases c1 : c = '"'
        · rw [if_pos c1] at h ⊢
          cases hr : readStr [] l with
          | none => rw [hr] at h; cases h
          | some kl =>
            obtain ⟨k, l⟩ := kl
            rw [hr] at h
            dsimp only at h ⊢
            cases hl : skip l with
            | nil => rw [hl] at h; cases h
            | cons e l =>
              rw [hl] at h
              dsimp only at h ⊢
              by_cases c2 : e = ':'
              · rw [if_pos c2] at h ⊢
                cases hv : value fuel d l with
                | none => rw [hv] at h; cases h
                | some v =>
                  rw [hv] at h
                  rw [iv hd hv]
                  obtain ⟨v, rest⟩ := v
                  dsimp only at h ⊢
                  cases hrest : skip rest with
                  | nil => rw [hrest] at h; cases h
                  | cons f l =>
                    rw [hrest] at h
                    dsimp only at h ⊢
                    by_cases c3 : f = '}'
                    · rw [if_pos c3] at h ⊢; exact h
                    rw [if_neg c3] at h ⊢
                    by_cases c4 : f = ','
                    · rw [if_pos c4] at h ⊢
                      obtain ⟨x, h1, h2⟩ := Option.map_eq_some_iff.1 h
                      rw [ifs hd h1, ← h2]
                      rfl
                    · rw [if_neg c4] at h; cases h
              · rw [if_neg c2] at h; cases h
        · rw [if_neg c1] at h; cases h

end Json

/-- Well-formed options are read alike. -/
theorem Custom.options_of_parse {config : String} {o : Options} (h : Options.parse config = some o) : Custom.options config = some o := by
  obtain ⟨d, h1, h2⟩ := Option.bind_eq_some_iff.1 h
  unfold Json.parse at h1
  split at h1
  · cases h1
  · next v rest hv =>
    split at h1
    · cases h1
      unfold Custom.options
      rw [(Json.deeper _).1 (Nat.le_add_left 128 _) hv]
      exact h2
    · cases h1

theorem Plugin.createFnIdent_twice (file : String) (p : Process) : createFnIdent file (createFnIdent file p) = createFnIdent file p := by
  obtain ⟨a, b, c⟩ := p
  cases a <;> cases b <;> rfl

theorem Plugin.transform_again (x : Externals) (fuel : Nat) (m : Metadata) (o : Options) (source : Node) (p : Process) :
    transform x fuel m o source (createFnIdent m.file p) = transform x fuel m o source p := by
  unfold transform
  rw [createFnIdent_twice]

theorem Plugin.transform_process {x : Externals} {fuel : Nat} {m : Metadata} {o : Options} {source : Node} {p p' : Process} {out : Output}
    (h : transform x fuel m o source p = .ok (out, p')) : p' = createFnIdent m.file p := by
  unfold transform at h
  dsimp only at h
  split at h
  · cases h
  · cases h; rfl

/-- Setting up logging does not change what is emitted. -/
theorem Plugin.transform_logging {x : Externals} {fuel : Nat} {m : Metadata} {o : Options} {source : Node} {p q : Process}
    (h1 : p.covFn = q.covFn) (h2 : p.tempFn = q.tempFn) :
    (∃ e, transform x fuel m o source p = .error e ∧ transform x fuel m o source q = .error e) ∨
    ∃ out, transform x fuel m o source p = .ok (out, createFnIdent m.file p) ∧
      transform x fuel m o source q = .ok (out, createFnIdent m.file q) := by
  have h3 : (createFnIdent m.file p).covFn = (createFnIdent m.file q).covFn := by simp only [createFnIdent, h1]
  have h4 : (createFnIdent m.file p).tempFn = (createFnIdent m.file q).tempFn := by simp only [createFnIdent, h2]
  unfold transform
  dsimp only
  cases Visitor.instrument (context x m o) fuel m.file o.inputSourceMap source with
  | error e => exact .inl ⟨e, rfl, rfl⟩
  | ok r => exact .inr ⟨_, rfl, by rw [h3, h4]⟩

section
variable {x : Externals} {fuel : Nat} {p : Process} {filename config : String} {comments : Comments} {pos : BytePos → Location}
  {program : Node} {o : Options}

/-- C58. With well-formed options, a file that has a name and is not excluded, and where logging is not in the way, the native transform
gives what the plugin gives, with the same names of coverage functions afterwards, and fails exactly if the plugin panics. -/
theorem C58_same_partial (ho : Options.parse config = some o) (hn : filename ≠ "")
    (he : excluded x o.unstableExclude filename = false) (hu : p.logging = false ∨ o.Silent) :
    (∃ out p' q, process x fuel p ⟨some filename, some config, comments, pos⟩ program = .ok (out, p') ∧
      Custom.transformSync x fuel p filename config comments pos program = (.ok out, q) ∧
      q.covFn = p'.covFn ∧ q.tempFn = p'.tempFn) ∨
    ∃ e q, process x fuel p ⟨some filename, some config, comments, pos⟩ program = .error e ∧
      Custom.transformSync x fuel p filename config comments pos program = (.error (.panicked e), q) := by
  have h0 : options (some config) = o := by simp only [options, ho, Option.getD_some]
  have hfile : Custom.file filename = filename := if_neg hn
  obtain ⟨p1, h1, h2, h3⟩ : ∃ p1, initLog o.instrumentLog p = .ok p1 ∧ p1.covFn = p.covFn ∧ p1.tempFn = p.tempFn := by
    have := initLog_unhindered (p := p) (m := ⟨some filename, some config, comments, pos⟩) (by rw [Unhindered, h0]; exact hu)
    rwa [h0] at this
  have hp : process x fuel p ⟨some filename, some config, comments, pos⟩ program =
      transform x fuel ⟨some filename, some config, comments, pos⟩ o program p1 := by
    unfold process Plugin.run
    rw [h0, if_neg (by rw [show Metadata.file _ = filename from rfl, he]; decide), h1]
  have hc : Custom.transformSync x fuel p filename config comments pos program =
      match transform x fuel ⟨some filename, some config, comments, pos⟩ o program p with
      | .error e => (.error (.panicked e), createFnIdent filename p)
      | .ok (out, p) => (.ok out, p) := by
    unfold Custom.transformSync
    rw [Custom.options_of_parse ho]
    dsimp only
    rw [hfile]
    have := transform_again x fuel ⟨some filename, some config, comments, pos⟩ o program p
    rw [show (⟨some filename, some config, comments, pos⟩ : Metadata).file = filename from rfl] at this
    rw [this]
    cases transform x fuel ⟨some filename, some config, comments, pos⟩ o program p <;> rfl
  rw [hp, hc]
  rcases transform_logging (x := x) (fuel := fuel) (m := ⟨some filename, some config, comments, pos⟩) (o := o) (source := program)
    h2.symm h3.symm with ⟨e, h4, h5⟩ | ⟨out, h4, h5⟩
  · exact .inr ⟨e, _, h5, by rw [h4]⟩
  · refine .inl ⟨out, _, _, h5, by rw [h4], ?_, ?_⟩
    · simp only [createFnIdent, h2]
    · simp only [createFnIdent, h3]

/-- C58, options that are not well-formed: the native transform fails or reads the value at the beginning of the text, where the plugin uses
the options it has without any. -/
theorem C58_malformed (h : Malformed config) :
    process x fuel p ⟨some filename, some config, comments, pos⟩ program = process x fuel p ⟨some filename, none, comments, pos⟩ program ∧
    (Custom.options config = none → Custom.transformSync x fuel p filename config comments pos program = (.error .options, p)) := by
  constructor
  · have : options (some config) = options none := by simp only [options, show Options.parse config = none from h]; rfl
    unfold process
    rw [this]
    rfl
  · intro h1
    unfold Custom.transformSync
    rw [h1]

end

/-- C58 fails for files without a name: the reports are on different files. -/
theorem C58_unnamed_fails : ∃ a b i j p' q, process plainExternals 20 .fresh { withConfig "" (some "{}") with filename := none } oneCall =
      .ok (a, p') ∧ Custom.transformSync plainExternals 20 .fresh "" "{}" Build.plain.comments Build.plain.pos oneCall = (.ok b, q) ∧
    a.injected = some i ∧ b.injected = some j ∧ i.input.path = "unknown.js" ∧ j.input.path = "<anon>" := by
  have h : (match process plainExternals 20 .fresh { withConfig "" (some "{}") with filename := none } oneCall,
      Custom.transformSync plainExternals 20 .fresh "" "{}" Build.plain.comments Build.plain.pos oneCall with
    | .ok (⟨_, some i⟩, _), (.ok ⟨_, some j⟩, _) => decide (i.input.path = "unknown.js") && decide (j.input.path = "<anon>")
    | _, _ => false) = true := by decide +kernel
  split at h
  · next i p' _ j q h1 h2 =>
    rw [Bool.and_eq_true] at h
    exact ⟨_, _, i, j, p', q, h1, h2, rfl, rfl, of_decide_eq_true h.1, of_decide_eq_true h.2⟩
  · cases h

/-- Both give the same for a file, with options. -/
example : ∃ out p' q i, process plainExternals 20 .fresh (withConfig "b.js" (some "{\"reportLogic\":true,\"unstableExclude\":[\"x.js\"]}"))
      oneCall = .ok (out, p') ∧
    Custom.transformSync plainExternals 20 .fresh "b.js" "{\"reportLogic\":true,\"unstableExclude\":[\"x.js\"]}" Build.plain.comments
      Build.plain.pos oneCall = (.ok out, q) ∧ out.injected = some i ∧ out.program ≠ oneCall := by
  have ho : Options.parse "{\"reportLogic\":true,\"unstableExclude\":[\"x.js\"]}" =
      some { Options.default with reportLogic := true, unstableExclude := some ["x.js"] } := by decide +kernel
  have h : (match process plainExternals 20 .fresh (withConfig "b.js" (some "{\"reportLogic\":true,\"unstableExclude\":[\"x.js\"]}")) oneCall with
    | .ok (out, _) => out.injected.isSome && decide (out.program ≠ oneCall)
    | _ => false) = true := by decide +kernel
  rcases C58_same_partial (x := plainExternals) (fuel := 20) (p := .fresh) (filename := "b.js") (comments := Build.plain.comments)
      (pos := Build.plain.pos) (program := oneCall) ho (by decide) (by decide +kernel) (.inl rfl) with
    ⟨out, p', q, h1, h2, -⟩ | ⟨e, q, h1, -⟩
  · have h1' : process plainExternals 20 .fresh (withConfig "b.js" (some "{\"reportLogic\":true,\"unstableExclude\":[\"x.js\"]}")) oneCall = .ok (out, p') := h1
    rw [h1'] at h
    dsimp only at h
    rw [Bool.and_eq_true] at h
    obtain ⟨i, hi⟩ := Option.isSome_iff_exists.1 h.1
    exact ⟨out, p', q, i, h1, h2, hi, of_decide_eq_true h.2⟩
  · have h1' : process plainExternals 20 .fresh (withConfig "b.js" (some "{\"reportLogic\":true,\"unstableExclude\":[\"x.js\"]}")) oneCall = .error e := h1
    rw [h1'] at h
    cases h

/-- C58 fails for excluded files: the native transform instruments them. -/
theorem C58_excluded_fails : ∃ out q, process plainExternals 20 .fresh (withConfig "x.js" (some "{\"unstableExclude\":[\"x.js\"]}")) oneCall =
      .ok (⟨oneCall, none⟩, .fresh) ∧
    Custom.transformSync plainExternals 20 .fresh "x.js" "{\"unstableExclude\":[\"x.js\"]}" Build.plain.comments Build.plain.pos oneCall =
      (.ok out, q) ∧ out.program ≠ oneCall := by
  have h : (match Custom.transformSync plainExternals 20 .fresh "x.js" "{\"unstableExclude\":[\"x.js\"]}" Build.plain.comments Build.plain.pos
      oneCall with
    | (.ok out, _) => decide (out.program ≠ oneCall)
    | _ => false) = true := by decide +kernel
  split at h
  · next out q hs =>
    refine ⟨out, q, ?_, hs, of_decide_eq_true h⟩
    refine C25_excluded plainExternals_alternation 20 _ _ _ (patterns := ["x.js"]) ?_ ?_ ?_
    · show (options (some _)).unstableExclude = _
      have : options (some "{\"unstableExclude\":[\"x.js\"]}") = { Options.default with unstableExclude := some ["x.js"] } := by decide +kernel
      rw [this]
    · decide +kernel
    · exact ⟨_, List.mem_singleton.2 rfl, _, rfl, by decide +kernel⟩
  · cases h

/-- C58 fails for options of the wrong type: the plugin instruments with its defaults, the native transform does not. -/
theorem C58_malformed_fails : ∃ out p', process plainExternals 20 .fresh (withConfig "b.js" (some "{\"reportLogic\":1}")) oneCall = .ok (out, p') ∧
    out.program ≠ oneCall ∧
    Custom.transformSync plainExternals 20 .fresh "b.js" "{\"reportLogic\":1}" Build.plain.comments Build.plain.pos oneCall =
      (.error .options, .fresh) := by
  have h : (match process plainExternals 20 .fresh (withConfig "b.js" (some "{\"reportLogic\":1}")) oneCall with
    | .ok (out, _) => decide (out.program ≠ oneCall)
    | _ => false) = true := by decide +kernel
  split at h
  · next out p' hs =>
    refine ⟨out, p', hs, of_decide_eq_true h, ?_⟩
    exact (C58_malformed (x := plainExternals) (fuel := 20) (p := .fresh) (filename := "b.js") (comments := Build.plain.comments)
      (pos := Build.plain.pos) (program := oneCall) (config := "{\"reportLogic\":1}") (by unfold Malformed; decide +kernel)).2 (by decide +kernel)
  · cases h

/-- C58 fails for text after the options and for deeply nested unknown members: the native transform uses options that the plugin
drops for its defaults. -/
theorem C58_lenient_fails : (Custom.options "{\"reportLogic\":true};" = some { Options.default with reportLogic := true } ∧
      options (some "{\"reportLogic\":true};") = .default) ∧
    ∃ deep : String, Custom.options deep = some { Options.default with reportLogic := true } ∧ options (some deep) = .default := by
  refine ⟨by decide +kernel, String.ofList ("{\"x\":".toList ++ List.replicate 130 '[' ++ List.replicate 130 ']' ++
    ",\"reportLogic\":true}".toList), by decide +kernel, by decide +kernel⟩

end Verif
