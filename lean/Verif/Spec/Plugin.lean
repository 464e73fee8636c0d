import Verif.Model.Plugin
/-
Words for the properties of the plugin.
-/
namespace Verif.Plugin

/-- `globAny` is alternation of `glob`, which reads one pattern: all patterns have to be well-formed, and a name
matches if it matches one of them. -/
structure Alternation (globAny : List String → Option (String → Bool)) (glob : String → Option (String → Bool)) :
    Prop where
  formed : ∀ ps, ps ≠ [] → (∀ q ∈ ps, (glob q).isSome) → ∃ f, globAny ps = some f ∧
    ∀ n, f n = true ↔ ∃ q ∈ ps, ∃ g, glob q = some g ∧ g n = true
  malformed : ∀ ps, (∃ q ∈ ps, glob q = none) → globAny ps = none

/-- The text is no well-formed set of options. -/
def Malformed (text : String) : Prop := Options.parse text = none

/-- The texts that ask for logging. -/
def LogLevel (l : String) : Prop := l = "trace" ∨ l = "debug" ∨ l = "info" ∨ l = "warn" ∨ l = "error"

/-- The options do not ask for logging. -/
def Options.Silent (o : Options) : Prop := ∀ l, o.instrumentLog.level = some l → ¬ LogLevel l

/-- No other run of the process can get in the way: logging has not been set up or is not asked for. -/
def Unhindered (p : Process) (m : Metadata) : Prop := p.logging = false ∨ (options m.config).Silent

/-- The file asks for logging: it is not excluded, and its options name a level. -/
def AsksForLog (x : Externals) (m : Metadata) : Prop :=
  excluded x (options m.config).unstableExclude m.file = false ∧
    ∃ l, (options m.config).instrumentLog.level = some l ∧ LogLevel l

end Verif.Plugin
