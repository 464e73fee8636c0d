import Verif.Model.Plugin
/-
The native transform: spec/swc-coverage-custom-transform/src/lib.rs and util.rs. It is the instrumenter as a pass of the swc
compiler, without the plugin. The options of the compiler are left out but for the name of the file; parsing, the other passes
and printing are swc's.
-/
namespace Verif
namespace Custom

/-- lib.rs:69-124, util.rs:25-40: what an error of `transform_sync` tells. -/
inductive Failure where
  /-- util.rs:61-77: the options could not be read -/
  | options
  /-- util.rs:25-38: a panic, caught -/
  | panicked (p : Panic)
deriving DecidableEq, Repr

/-- util.rs:53-73 `get_deserialized` for `InstrumentOptions`: unlike with `from_str` arrays and objects may be nested as deep as
one likes, and nobody looks at what follows the value. -/
def options (text : String) : Option Plugin.Options :=
  match Json.value text.toList.length (text.toList.length + 128) text.toList with
  | none => none
  | some (d, _) => Plugin.Options.read d

/-- lib.rs:88-92, 108: the name of the file, as `FileName` is displayed. -/
def file (filename : String) : String := if filename = "" then "<anon>" else filename

/-- lib.rs:67-124 `transform_sync`, and lib.rs:126-137 `coverage_instrument`. A panic does not end the process, and the cells
of create_coverage_fn_decl.rs:22-24 that the visitor has set keep their values. -/
def transformSync (x : Plugin.Externals) (fuel : Nat) (p : Plugin.Process) (filename config : String) (comments : Comments)
    (pos : BytePos → Location) (program : Node) : Except Failure Plugin.Output × Plugin.Process :=
  match options config with
  | none => (.error .options, p)
  | some o =>
    let p := Plugin.createFnIdent (file filename) p
    match Plugin.transform x fuel ⟨some (file filename), some config, comments, pos⟩ o program p with
    | .error e => (.error (.panicked e), p)
    | .ok (out, p) => (.ok out, p)

end Custom
end Verif
