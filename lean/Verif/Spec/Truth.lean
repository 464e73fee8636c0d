import Verif.Spec.Runtime
/-
Which values a truthiness counter is meant to count (the documentation of `reportLogic`: truthy values, except
empty arrays and empty plain objects).
-/
namespace Verif.Js

/-- An array without elements. -/
def emptyArray (h : List Obj) : Value → Bool
  | .ref a =>
    match h[a]? with
    | some ⟨.array, _, []⟩ => true
    | _ => false
  | _ => false

/-- An object directly below `Object.prototype` without own properties. -/
def emptyObject (h : List Obj) : Value → Bool
  | .ref a =>
    match h[a]? with
    | some ⟨_, some p, []⟩ => p == objectProto
    | _ => false
  | _ => false

/-- The values that are false where a condition is asked for (ECMA-262 7.1.2); of the primitive values that the model does not look into
(symbols, big integers) it is told whether they are. -/
def falsy : Value → Bool
  | .undef => true
  | .null => true
  | .bool false => true
  | .num 0 => true
  | .nan => true
  | .str "" => true
  | .prim _ false => true
  | _ => false

/-- The values that count as true. -/
def counted (h : List Obj) (v : Value) : Bool := !falsy v && !emptyArray h v && !emptyObject h v

/-- Looking at the value runs no user code: it is no proxy, and if it is a plain object it has no getters. -/
def Passive (h : List Obj) (v : Value) : Prop :=
  ∀ a, v = .ref a → ∃ o, h[a]? = some o ∧ (∀ t, o.cls ≠ .proxy t) ∧
    (o.proto = some objectProto → ∀ k g, (k, Cell.getter g) ∉ o.props)

/-- Objects and scopes have been created, and nothing that was there has changed. -/
def Extends (st st' : State) : Prop := st.heap <+: st'.heap ∧ st.frames <+: st'.frames

/-- The state with one more, empty scope (that of a call of the coverage function, which is never used again). -/
def State.scope (st : State) : State := { st with frames := st.frames ++ [[]] }

end Verif.Js

namespace Verif.Runtime
open Js

/-- A place of an instrumented file: the scope chain consists of scopes that exist, the coverage function of the
instance is visible, and `Array` and `Object` have not been redeclared. -/
structure Place (st : State) (env : List Nat) (inst : Instance) : Prop where
  scopes : ∀ i ∈ env, i < st.frames.length
  covFn : scopeOf st.frames env inst.2 = some inst.1
  array : scopeOf st.frames env "Array" = none
  object : scopeOf st.frames env "Object" = none

end Verif.Runtime
