import Verif.Lemmas.Halts
import Verif.Props.Instrument
/-
C36: instrumentation always ends, and aborts only on functions without a body.
-/
namespace Verif
open Node Visitor Build

/-- C36: for every program in which every function has a body, every source map, comments and options,
instrumentation ends with a program and coverage data. (`fuel` bounds the nesting of visits in the model:
from some bound on the result is always the same.) -/
theorem C36_ends (cx : Ctx) (path : String) (sm : Option SourceMap) (p : Node) (hb : p.bodied = true) :
    ∃ F p' cov, ∀ fuel, F ≤ fuel → instrument cx fuel path sm p = .ok (p', cov) :=
  Halts.instrument cx path sm p hb

/-- C36: there is one result. Two bounds that both suffice give the same result, whether or not that is
an abort. -/
theorem C36_unique (cx : Ctx) (path : String) (sm : Option SourceMap) (p : Node) (f g : Nat)
    (hf : instrument cx f path sm p ≠ .error .outOfFuel)
    (hg : instrument cx g path sm p ≠ .error .outOfFuel) :
    instrument cx f path sm p = instrument cx g path sm p := by
  rcases Nat.le_total f g with h | h
  · exact (instrument_stable cx h rfl hf).symm
  · exact instrument_stable cx h rfl hg

/-- C36: no bound leads to an abort if every function has a body. -/
theorem C36_no_abort (cx : Ctx) (fuel : Nat) (path : String) (sm : Option SourceMap) (p : Node)
    (hb : p.bodied = true) (e : Panic) (he : instrument cx fuel path sm p = .error e) :
    e = .outOfFuel := by
  obtain ⟨F, p', cov, h⟩ := C36_ends cx path sm p hb
  refine Classical.byContradiction fun hne => ?_
  have h1 := instrument_stable cx (Nat.le_max_left fuel F) he (by simpa using hne)
  rw [h _ (Nat.le_max_right fuel F)] at h1
  cases h1

/-- The hypothesis holds of the sample program, and the bound is met. -/
example : sample.bodied = true ∧ (∃ p' cov, run plain sample = .ok (p', cov)) :=
  ⟨by decide +kernel, by obtain ⟨p', cov, h, _⟩ := sample_runs; exact ⟨p', cov, h⟩⟩

/-- `declare function f();` aborts. -/
def bodyless : Node := Build.module [mk .fnDecl (at' 2) [ident 2 "f", function 2 [] absent]]

/-- The hypothesis is needed: a function without a body does abort. -/
theorem C36_bodyless_aborts : bodyless.bodied = false ∧
    ∀ fuel, 2 ≤ fuel → instrument plain fuel "/f.js" none bodyless = .error .noFunctionBody := by
  refine ⟨by decide +kernel, ?_⟩
  intro fuel hf
  refine instrument_stable plain hf ?_ (by simp)
  have : (match instrument plain 2 "/f.js" none bodyless with
    | .error e => decide (e = .noFunctionBody)
    | .ok _ => false) = true := by decide +kernel
  split at this
  · next e he => rw [he, of_decide_eq_true this]
  · cases this

end Verif
