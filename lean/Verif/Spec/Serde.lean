import Verif.Spec.Data
/-
The numbers of coverage data are 32 bit numbers in /repo (`u32`), the model has natural numbers. `Fits` says that
they are below `2 ^ 32`: it holds of all coverage data there is.
-/
namespace Verif

/-- range.rs:3-12: `line` and `column` are `u32`. -/
def Location.Fits (l : Location) : Prop := l.line < 2 ^ 32 ∧ l.column < 2 ^ 32

/-- range.rs:14-18. -/
def Range.Fits (r : Range) : Prop := r.start.Fits ∧ r.end.Fits

/-- types.rs:6-12: `line` is `u32`. -/
def Function.Fits (f : Function) : Prop := f.decl.Fits ∧ f.loc.Fits ∧ f.line < 2 ^ 32

/-- types.rs:36-44: `line` is `Option<u32>`. -/
def Branch.Fits (b : Branch) : Prop :=
  (∀ r ∈ b.loc, r.Fits) ∧ (∀ r ∈ b.locations, r.Fits) ∧ ∀ n ∈ b.line, n < 2 ^ 32

/-- types.rs:65-70: keys are `u32`. -/
def IndexMap.Fits {V : Type} (P : V → Prop) (m : IndexMap Nat V) : Prop := ∀ e ∈ m, e.1 < 2 ^ 32 ∧ P e.2

/-- file_coverage.rs:127-143, types.rs:65-70. -/
structure FileCoverage.Fits (c : FileCoverage) : Prop where
  statementMap : IndexMap.Fits Range.Fits c.statementMap
  fnMap : IndexMap.Fits Function.Fits c.fnMap
  branchMap : IndexMap.Fits Branch.Fits c.branchMap
  s : IndexMap.Fits (· < 2 ^ 32) c.s
  f : IndexMap.Fits (· < 2 ^ 32) c.f
  b : IndexMap.Fits (∀ n ∈ ·, n < 2 ^ 32) c.b
  bT : ∀ m ∈ c.bT, IndexMap.Fits (∀ n ∈ ·, n < 2 ^ 32) m
  inputSourceMap : ∀ m ∈ c.inputSourceMap, m.version < 2 ^ 32

end Verif
