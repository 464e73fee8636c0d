import Verif.Spec.Truth
/-
Lives of a realm: instrumented files are loaded, counters and truthiness wrappers are evaluated at places of loaded
files, and in between the code of the program does as it likes, provided it keeps its hands off the coverage code.
-/
namespace Verif.Runtime
open Js Template

/-- A realm in which instrumented files run: its state, the loaded instances, and the objects and the scopes that
the coverage code made for itself while the files were loaded. -/
structure Realm where
  st : State
  insts : List Instance
  own : Nat → Prop
  ownScopes : Nat → Prop

/-- A realm in which no file has been loaded. -/
def Realm.new (st : State) : Realm := ⟨st, [], fun _ => False, fun _ => False⟩

/-- The realm after a file was loaded: what was created belongs to the coverage code, except the scope of the file. -/
def Realm.loaded (r : Realm) (st : State) (inst : Instance) : Realm :=
  { st := st
    insts := r.insts ++ [inst]
    own := fun a => r.own a ∨ (r.st.heap.length ≤ a ∧ a < st.heap.length)
    ownScopes := fun i => r.ownScopes i ∨ (r.st.frames.length ≤ i ∧ i < st.frames.length ∧ i ≠ inst.1) }

/-- The realm in another state. -/
def Realm.in_ (r : Realm) (st : State) : Realm := { r with st := st }

/-- What the code of the program may do: create, change and log whatever it likes, except that it leaves alone the
objects and scopes of the coverage code, the coverage functions, and the coverage variable, and keeps
`Object.prototype` as a pristine realm has it. -/
structure Realm.Allows (gcv : String) (r : Realm) (st : State) : Prop where
  heap : r.st.heap.length ≤ st.heap.length
  frames : r.st.frames.length ≤ st.frames.length
  own : ∀ a, r.own a → st.heap[a]? = r.st.heap[a]?
  ownScopes : ∀ i, r.ownScopes i → st.frames[i]? = r.st.frames[i]?
  covFn : ∀ inst ∈ r.insts, ∀ v, (r.st.frames[inst.1]?.bind (·.get inst.2)) = some v →
    (st.frames[inst.1]?.bind (·.get inst.2)) = some v
  object : ∃ ps, st.heap[objectProto]? = some ⟨.plain, none, ps⟩ ∧ ps.get gcv = none ∧
    ∀ k c, ps.get k = some c → ∃ n, c = .data (.native n) ∧ nativeMember n "hash" = .undef
  global : ∀ ps, r.st.heap[globalObj]? = some ⟨.plain, some objectProto, ps⟩ →
    ∃ ps', st.heap[globalObj]? = some ⟨.plain, some objectProto, ps'⟩ ∧ ps'.get gcv = ps.get gcv

/-- `Lives w gcv r b r' es`: from the realm `r`, whose coverage data is that of the books `b`, the realm comes to
`r'`, and the coverage events on the way were `es`. Exceptions need no case of their own: a wrapper whose operand
throws is the call of its coverage function (an empty scope is created, which is code of the program as far as this
relation is concerned) and what the operand did until it threw. -/
inductive Lives (w : World) (gcv : String) : Realm → Books → Realm → List Event → Prop where
  | stay (r : Realm) (b : Books) : Lives w gcv r b r []
  | code {r r1 : Realm} {b : Books} {es : List Event} {st : State} (before : Lives w gcv r b r1 es)
      (allowed : r1.Allows gcv st) : Lives w gcv r b (r1.in_ st) es
  | load {r r1 : Realm} {b : Books} {es : List Event} {i : Input} {st : State} {f : Nat}
      (before : Lives w gcv r b r1 es) (proper : Proper gcv i)
      (run : Js.load w (prelude i) r1.st = .ok (st, f)) :
      Lives w gcv r b (r1.loaded st (f, i.covFn)) (es ++ [.load i])
  | hit {r r1 : Realm} {b : Books} {es : List Event} {k : Nat} {inst : Instance} {env : List Nat} {c : Counter}
      {st : State} {v : Value} (before : Lives w gcv r b r1 es) (instance_ : r1.insts[k]? = some inst)
      (place : scopeOf r1.st.frames env inst.2 = some inst.1) (cell : (b.after es).Allows gcv (.hit k c))
      (run : eval w env (counter inst.2 c) r1.st = .ok (st, v)) : Lives w gcv r b (r1.in_ st) (es ++ [.hit k c])
  | wrapper {r r1 r2 : Realm} {b : Books} {es more : List Event} {k : Nat} {inst : Instance} {env : List Nat}
      {branch arm : Nat} {operand : Expr} {st : State} {v v' : Value} (before : Lives w gcv r b r1 es)
      (instance_ : r1.insts[k]? = some inst) (place : Place r1.st env inst)
      (meanwhile : Lives w gcv (r1.in_ r1.st.scope) (b.after es) r2 more)
      (operand_ : eval w env operand r1.st.scope = .ok (r2.st, v)) (passive : Passive r2.st.heap v)
      (place' : Place r2.st env inst)
      (cell : (b.after (es ++ more)).Allows gcv (.hit k (.bT branch arm)))
      (run : eval w env (truthWrapper inst.2 (tempName inst.2) branch arm operand) r1.st = .ok (st, v')) :
      Lives w gcv r b (r2.in_ st)
        (es ++ more ++ if counted r2.st.heap v then [.hit k (.bT branch arm)] else [])

end Verif.Runtime
