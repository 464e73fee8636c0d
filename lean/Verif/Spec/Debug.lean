import Verif.Model.Types
/-
Reports whose counts are 32 bit numbers.
-/
namespace Verif

/-- All counts of a report are below 2^32. -/
structure FileCoverage.CountsFit (c : FileCoverage) : Prop where
  s : ∀ e ∈ c.s, e.2 < 2 ^ 32
  f : ∀ e ∈ c.f, e.2 < 2 ^ 32
  b : ∀ e ∈ c.b, ∀ n ∈ e.2, n < 2 ^ 32
  bT : ∀ m ∈ c.bT, ∀ e ∈ m, ∀ n ∈ e.2, n < 2 ^ 32

end Verif
