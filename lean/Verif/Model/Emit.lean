import Verif.Model.Serde
import Verif.Model.SipHash
import Verif.Model.Template
/-
The inputs of the emitted coverage function: create_coverage_data_object.rs:417-443, build.rs, coverage_visitor.rs:54-107.
-/
namespace Verif.Template

/-- build.rs:8-15 `COVERAGE_MAGIC_VALUE`; `CARGO_PKG_NAME` and `CARGO_PKG_VERSION_MAJOR` are those of
packages/swc-coverage-instrument/Cargo.toml. -/
def magicValue : String := toString (SipHash.hash "swc-coverage-instrument@0")

/-- create_coverage_data_object.rs:426-431: the hash of the serialised data. -/
def dataHash (c : FileCoverage) : String := toString (SipHash.hash (Serde.save c))

/-- coverage_visitor.rs:54-107 `get_coverage_templates`, create_coverage_fn_decl.rs:48-70: what the coverage
function of a file is made from. -/
def emit (covFn coverageVariable path : String) (c : FileCoverage) : Input where
  covFn := covFn
  coverageVariable := coverageVariable
  path := path
  magic := magicValue
  hash := dataHash c
  data := c

end Verif.Template
