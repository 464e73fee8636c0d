import Verif.Model.Plugin
/-
What the members of a JSON object say about the options of the plugin (README, `InstrumentationOptions`).
-/
namespace Verif.Plugin

/-- The member `k` of an object says `v`: its value is the form of `v`, or there is no such member and `v` is the default. -/
def Says {V : Type} (fs : List (String × Data)) (k : String) (form : V → Data) (dflt v : V) : Prop :=
  IndexMap.get fs k = some (form v) ∨ (IndexMap.get fs k = none ∧ v = dflt)

/-- An optional value: `null` is nothing. -/
def nullable {V : Type} (form : V → Data) : Option V → Data
  | none => .null
  | some v => form v

/-- A list of strings. -/
def names (l : List String) : Data := .arr (l.map .str)

/-- The object says that these are the log options. -/
structure SaysLog (fs : List (String × Data)) (o : LogOptions) : Prop where
  level : Says fs "level" (nullable .str) none o.level
  enableTrace : Says fs "enableTrace" .bool false o.enableTrace

/-- The object says that these are the options. Members with other names do not matter, nor does the order. -/
structure SaysOptions (fs : List (String × Data)) (o : Options) : Prop where
  coverageVariable : Says fs "coverageVariable" .str "__coverage__" o.coverageVariable
  compact : Says fs "compact" .bool false o.compact
  reportLogic : Says fs "reportLogic" .bool false o.reportLogic
  ignoreClassMethods : Says fs "ignoreClassMethods" names [] o.ignoreClassMethods
  inputSourceMap : Says fs "inputSourceMap" (nullable Serde.sourceMapTree) none o.inputSourceMap
  version : ∀ m, o.inputSourceMap = some m → m.version < 2 ^ 32
  instrumentLog : (∃ ls, IndexMap.get fs "instrumentLog" = some (.obj ls) ∧ IndexMap.NodupKeys ls ∧ SaysLog ls o.instrumentLog) ∨
    (IndexMap.get fs "instrumentLog" = none ∧ o.instrumentLog = ⟨none, false⟩)
  debugInitialCoverageComment : Says fs "debugInitialCoverageComment" .bool false o.debugInitialCoverageComment
  unstableExclude : Says fs "unstableExclude" (nullable names) none o.unstableExclude

end Verif.Plugin
