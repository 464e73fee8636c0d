import Verif.Lemmas.Literal
import Verif.Lemmas.Template
import Verif.Props.Instrument
import Verif.Props.Runtime
/-
C31: the emitted object literal is the collected data.
-/
namespace Verif
open Js Template Build

/-- The fields of the emitted object. -/
def dataKeys (c : FileCoverage) : List String :=
  ["all", "path", "statementMap", "fnMap", "branchMap", "s", "f", "b"] ++ (if c.bT.isSome then ["bT"] else []) ++
    (if c.inputSourceMap.isSome then ["inputSourceMap"] else []) ++ ["_coverageSchema", "hash"]

/-- Reading the object gives the data, the schema key and the hash, and there is nothing else in it. -/
structure Denotes (strict : Bool) (magic hash : String) (c : FileCoverage) (fs : List (String × Data)) : Prop where
  data : (Data.obj fs).coverage strict = some c
  schema : (Data.obj fs).field "_coverageSchema" = some (.str magic)
  hash : (Data.obj fs).field "hash" = some (.str hash)
  rest : fs.map Prod.fst = dataKeys c

theorem denotes (strict : Bool) (magic hash : String) (c : FileCoverage)
    (hl : strict = true → ∀ b ∈ c.branchMap.values, b.locations ≠ []) :
    Denotes strict magic hash c (dataFields magic hash c) := by
  obtain ⟨h1, h2, h3⟩ := coverage_tree magic hash c strict hl
  exact ⟨h1, h2, h3, dataFields_keys magic hash c⟩

section
variable (w : World) (call : Value → List Value → Js.M Value) (env : List Nat)

/-- C31 for all coverage data, read leniently (a branch without `locations` is one without arms): in every scope
and every state, evaluating the emitted literal runs no user code, changes no existing object, and yields a new
object that is read back as the data it was made from. -/
theorem C31_reads_partial (magic hash : String) (c : FileCoverage) (hk : c.Keyed) (st : State) :
    ∃ h' v fs, Js.expr w call env (dataLit magic hash c) st = .ok ({ st with heap := h' }, v) ∧ st.heap <+: h' ∧
      Reads h' st.heap.length h'.length v (.obj fs) ∧ Denotes false magic hash c fs := by
  obtain ⟨h', v, h1, h2, h3⟩ := lit_expr w call env _ _ (denote_data magic hash c hk) st
  exact ⟨h', v, _, h1, h2, h3, denotes false magic hash c (by simp)⟩

/-- C31 for all coverage data whose branches have arms, read strictly. -/
theorem C31_reads_strictly_partial (magic hash : String) (c : FileCoverage) (hk : c.Keyed)
    (hl : ∀ b ∈ c.branchMap.values, b.locations ≠ []) (st : State) :
    ∃ h' v fs, Js.expr w call env (dataLit magic hash c) st = .ok ({ st with heap := h' }, v) ∧ st.heap <+: h' ∧
      Reads h' st.heap.length h'.length v (.obj fs) ∧ Denotes true magic hash c fs := by
  obtain ⟨h', v, h1, h2, h3⟩ := lit_expr w call env _ _ (denote_data magic hash c hk) st
  exact ⟨h', v, _, h1, h2, h3, denotes true magic hash c fun _ => hl⟩

/-- C31 for the data of every instrumented program, read strictly. -/
theorem C31_instrumented {cx : Ctx} {fuel : Nat} {path : String} {sm : Option SourceMap} {p p' : Node}
    {cov : SourceCoverage} (hr : Visitor.instrument cx fuel path sm p = .ok (p', cov)) (magic hash : String)
    (st : State) :
    ∃ h' v fs, Js.expr w call env (dataLit magic hash cov.inner) st = .ok ({ st with heap := h' }, v) ∧
      st.heap <+: h' ∧ Reads h' st.heap.length h'.length v (.obj fs) ∧ Denotes true magic hash cov.inner fs := by
  obtain ⟨n, h, o⟩ := outcome hr
  refine C31_reads_strictly_partial w call env magic hash _ o.finished.keyed ?_ st
  intro b hb
  obtain ⟨⟨k, b'⟩, h1, rfl⟩ := List.mem_map.1 hb
  have h2 := IndexMap.get_of_mem o.finished.keyed.branchMap h1
  rw [o.finished.branchMap] at h2
  obtain ⟨x, _, h3⟩ := Option.bind_eq_some_iff.1 h2
  split at h3
  · cases h3
  · next ha =>
    cases h3
    exact ha

end

theorem digits_plain (n : Nat) : ∀ x ∈ (toString n).toList, ¬ Special x := by
  intro x hx hs
  rw [Nat.toString_eq_repr, Nat.toList_repr] at hx
  have := Nat.isDigit_of_mem_toDigits (by decide) (by decide) hx
  rcases hs with rfl | rfl | rfl | rfl <;> exact absurd this (by decide)

/-- C31 for the printed program: the text of every string literal of the data object is read back as its value, if
the functions of the source are named by identifiers without quotes, backslashes and line ends. Schema key and
hash are decimal numerals. -/
theorem C31_printed_partial {cx : Ctx} {fuel : Nat} {path : String} {sm : Option SourceMap} {p p' : Node}
    {cov : SourceCoverage} (hr : Visitor.instrument cx fuel path sm p = .ok (p', cov)) (magic hash : Nat)
    (hn : ∀ x sp, (some x, sp) ∈ p.fns → ∀ a ∈ x.toList, ¬ Special a) :
    (dataLit (toString magic) (toString hash) cov.inner).printsAs = true := by
  obtain ⟨n, h, o⟩ := outcome hr
  refine data_printsAs _ _ _ (digits_plain _) (digits_plain _) fun f hf => ?_
  obtain ⟨⟨k, f'⟩, h1, rfl⟩ := List.mem_map.1 hf
  obtain ⟨name, ⟨sp, h2, _⟩, h3⟩ := C40_names hr k f' (IndexMap.get_of_mem o.finished.keyed.fnMap h1)
  rw [h3]
  cases name with
  | some x => exact hn x sp h2
  | none =>
    intro a ha hs
    simp only [Option.getD_none, String.toList_append, List.mem_append] at ha
    rcases ha with (ha | ha) | ha
    · rcases hs with rfl | rfl | rfl | rfl <;> exact absurd ha (by decide)
    · exact digits_plain k a ha hs
    · rcases hs with rfl | rfl | rfl | rfl <;> exact absurd ha (by decide)

/-- The sample meets the hypotheses of the theorems. -/
example : ∃ p' cov, run plain sample = .ok (p', cov) ∧ (dataLit (toString 17) (toString 23) cov.inner).printsAs = true ∧
    ∃ h' v fs, Js.expr noWorld (fun _ _ => pure .undef) [] (dataLit "17" "23" cov.inner) freshRealm
        = .ok ({ freshRealm with heap := h' }, v) ∧
      Reads h' 4 h'.length v (.obj fs) ∧ (Data.obj fs).coverage true = some cov.inner := by
  obtain ⟨p', cov, h1, _⟩ := sample_runs
  obtain ⟨h', v, fs, g1, _, g3, g4⟩ := C31_instrumented noWorld (fun _ _ => pure .undef) [] h1 "17" "23" freshRealm
  refine ⟨p', cov, h1, C31_printed_partial h1 17 23 ?_, h', v, fs, g1, g3, g4.data⟩
  have : sample.fns = [(some "f", at' 2), (none, at' 16), (some "m", at' 27)] := by decide +kernel
  rw [this]
  intro x sp hx
  simp only [List.mem_cons, Prod.mk.injEq, Option.some.injEq, List.not_mem_nil, or_false, reduceCtorEq, false_and,
    false_or] at hx
  rcases hx with ⟨rfl, _⟩ | ⟨rfl, _⟩ <;> decide

/-- Coverage data with a branch that has no arms, as `new_branch` leaves it before arms are added. -/
def armless : FileCoverage :=
  { FileCoverage.empty "a.js" false with
    branchMap := [(0, ⟨some ⟨⟨1, 0⟩, ⟨1, 5⟩⟩, .switch, [], some 1⟩)], b := [(0, [])] }

/-- C31 fails for data with a branch without arms: the emitted object has no `locations` for it, so a reader that
insists on them cannot read it back. -/
theorem C31_armless_fails (w : World) (call : Value → List Value → Js.M Value) (env : List Nat) (st : State) :
    armless.Keyed ∧ ∃ h' v fs, Js.expr w call env (dataLit "1" "2" armless) st = .ok ({ st with heap := h' }, v) ∧
      Reads h' st.heap.length h'.length v (.obj fs) ∧ (Data.obj fs).coverage true = none := by
  have hk : armless.Keyed := ⟨.nil, .nil, by decide, .nil, .nil, by decide, fun m hm => by cases hm⟩
  refine ⟨hk, ?_⟩
  obtain ⟨h', v, h1, _, h3⟩ := lit_expr w call env _ _ (denote_data "1" "2" armless hk) st
  exact ⟨h', v, _, h1, h3, by decide +kernel⟩

/-- C31 fails for the printed program if a name contains a quote: the literal ends early. -/
theorem C31_quote_fails : (dataLit "1" "2" { FileCoverage.empty "a.js" false with
    fnMap := [(0, ⟨"a\"b", ⟨⟨1, 0⟩, ⟨1, 5⟩⟩, ⟨⟨1, 0⟩, ⟨1, 5⟩⟩, 1⟩)], f := [(0, 0)] }).printsAs = false := by
  decide +kernel

end Verif
