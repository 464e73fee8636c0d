import Verif.Model.IndexMap
/-
The fragment of JavaScript in which the emitted coverage code is written, with an evaluator. This is not
code of /repo but the language of its output: every construct here occurs in one of the templates of
packages/swc-coverage-instrument/src/{coverage_template,instrument}. User code appears only as `extern`.

Simplifications: numbers are the natural numbers up to 2^53 and one value `nan`; objects are lists of own
enumerable string-keyed properties in the order of creation; prototypes are followed for reads only;
setters, symbols as keys and non-writable properties are left out.
-/
namespace Verif.Js

/-- Values. `prim` stands for the primitives without a constructor of their own (negative and fractional
numbers, big integers, symbols), of which only the truthiness matters; `native` for built-in functions. -/
inductive Value where
  | undef
  | null
  | bool (b : Bool)
  | num (n : Nat)
  | nan
  | str (s : String)
  | prim (tag : Nat) (truthy : Bool)
  | native (name : String)
  | ref (addr : Nat)
deriving DecidableEq, Repr

mutual
/-- Expressions of the templates. -/
inductive Expr where
  /-- `Lit::Str`: the value, and the `raw` text the printer is told to use for it -/
  | str (value : String) (raw : Option String)
  | num (n : Nat)
  | bool (b : Bool)
  | null
  | ident (x : String)
  /-- `{k: e, ...}` -/
  | obj (ps : Props)
  | arr (es : Exprs)
  /-- `o.p` -/
  | member (o : Expr) (p : String)
  /-- `o[i]` -/
  | index (o i : Expr)
  | call (f : Expr) (args : Exprs)
  /-- `new ((function(){}).constructor)(text)` -/
  | newFn (text : Expr)
  | assign (target value : Expr)
  /-- `target++` -/
  | incr (target : Expr)
  | and (l r : Expr)
  | or (l r : Expr)
  | not (e : Expr)
  /-- `l !== r` -/
  | ne (l r : Expr)
  | cond (test cons alt : Expr)
  | seq (es : Exprs)
  | paren (e : Expr)
  /-- `function () { body }` -/
  | fn (body : Stmts)
  /-- a piece of user code -/
  | extern (id : Nat)

/-- Properties of an object literal. -/
inductive Props where
  | nil
  | cons (k : String) (e : Expr) (ps : Props)

/-- Elements of an array literal, arguments, operands of the comma operator. -/
inductive Exprs where
  | nil
  | cons (e : Expr) (es : Exprs)

/-- Statements of the templates. -/
inductive Stmt where
  /-- `var x = e` -/
  | var (x : String) (e : Expr)
  | expr (e : Expr)
  | ifThen (c : Expr) (s : Stmt)
  | block (ss : Stmts)
  | ret (e : Expr)
  | fnDecl (name : String) (body : Stmts)

/-- Statement lists. -/
inductive Stmts where
  | nil
  | cons (s : Stmt) (ss : Stmts)
end

/-- A list of properties as `Props`. -/
def Props.ofList : List (String × Expr) → Props
  | [] => .nil
  | (k, e) :: l => .cons k e (ofList l)

/-- A list of expressions as `Exprs`. -/
def Exprs.ofList : List Expr → Exprs
  | [] => .nil
  | e :: l => .cons e (ofList l)

/-- A list of statements as `Stmts`. -/
def Stmts.ofList : List Stmt → Stmts
  | [] => .nil
  | s :: l => .cons s (ofList l)

/-- An own property: a value, or a getter running user code. -/
inductive Cell where
  | data (v : Value)
  | getter (id : Nat)
deriving DecidableEq, Repr

/-- Kinds of objects. -/
inductive Cls where
  | plain
  | array
  /-- a function with its scope chain -/
  | closure (body : Stmts) (env : List Nat)
  /-- an object whose prototype is computed by user code (a proxy) -/
  | proxy (trap : Nat)

/-- An object. -/
structure Obj where
  cls : Cls
  proto : Option Nat
  props : IndexMap String Cell

/-- The state of a realm: objects, scopes, and the pieces of user code run so far, latest last. -/
structure State where
  heap : List Obj
  frames : List (IndexMap String Value)
  log : List Nat

/-- Ways in which evaluation stops. -/
inductive Err where
  | typeError
  | referenceError
  | syntaxError
  /-- user code threw -/
  | thrown
  /-- not an error of the program: the bound on nested calls was too small -/
  | depth
deriving DecidableEq, Repr

/-- Computations. -/
def M (α : Type) : Type := State → Except Err (State × α)

namespace M

/-- Returning a value. -/
def pure {α : Type} (a : α) : M α := fun st => .ok (st, a)

/-- Sequencing. -/
def bind {α β : Type} (x : M α) (f : α → M β) : M β := fun st =>
  match x st with
  | .error e => .error e
  | .ok (st', a) => f a st'

/-- Stopping. -/
def fail {α : Type} (e : Err) : M α := fun _ => .error e

end M

instance : Monad M where
  pure := M.pure
  bind := M.bind

/-- The address of `Object.prototype`. -/
def objectProto : Nat := 0

/-- The address of the global object. -/
def globalObj : Nat := 1

/-- The address of `Array.prototype`. -/
def arrayProto : Nat := 2

/-- The address of `Function.prototype`. -/
def functionProto : Nat := 3

/-- ToBoolean. -/
def Value.truthy : Value → Bool
  | .undef => false
  | .null => false
  | .bool b => b
  | .num n => n ≠ 0
  | .nan => false
  | .str s => s ≠ ""
  | .prim _ t => t
  | .native _ => true
  | .ref _ => true

/-- ToPropertyKey, for the values used as keys. -/
def Value.key : Value → String
  | .undef => "undefined"
  | .null => "null"
  | .bool true => "true"
  | .bool false => "false"
  | .num n => toString n
  | .nan => "NaN"
  | .str s => s
  | .prim _ _ => "?"
  | .native n => n
  | .ref _ => "[object Object]"

/-- The largest integer `n` such that `n` and all its predecessors are doubles. -/
def maxInt : Nat := 2 ^ 53

/-- Adding one to a double: 2^53 + 1 is rounded back to 2^53. -/
def bump (n : Nat) : Nat := if n < maxInt then n + 1 else n

/-- `x + 1` for the `++` operator. -/
def Value.incr : Value → Value
  | .num n => .num (bump n)
  | .bool b => .num (if b then 2 else 1)
  | .null => .num 1
  | _ => .nan

/-- Allocates an object. -/
def alloc (o : Obj) : M Value := fun st =>
  .ok ({ st with heap := st.heap ++ [o] }, .ref st.heap.length)

/-- Looks a property up along the prototype chain. -/
def find (h : List Obj) : Nat → Nat → String → Option Cell
  | 0, _, _ => none
  | n + 1, a, k =>
    match h[a]? with
    | none => none
    | some o =>
      match o.props.get k with
      | some c => some c
      | none =>
        match o.proto with
        | none => none
        | some p => find h n p k

/-- The built-in functions and objects the templates mention. -/
def nativeMember : String → String → Value
  | "Array", "isArray" => .native "Array.isArray"
  | "Object", "getPrototypeOf" => .native "Object.getPrototypeOf"
  | "Object", "values" => .native "Object.values"
  | "Object", "prototype" => .ref objectProto
  | _, _ => .undef

/-- User code is a parameter. -/
abbrev World := Nat → M Value

/-- Running a piece of user code. -/
def extern (w : World) (id : Nat) : M Value := fun st => w id { st with log := st.log ++ [id] }

/-- The value of a property. -/
def readCell (w : World) : Option Cell → M Value
  | some (.data v) => pure v
  | some (.getter g) => extern w g
  | none => pure .undef

/-- The length of an array (all arrays here are dense). -/
def lengthOf (o : Obj) : Option Value :=
  match o.cls with
  | .array => some (.num o.props.length)
  | _ => none

/-- The prototype as a value. -/
def protoOf (o : Obj) : Value :=
  match o.proto with
  | some p => .ref p
  | none => .null

/-- `v.k`, `v[k]` on an object. -/
def getRef (w : World) (a : Nat) (k : String) : M Value := fun st =>
  match st.heap[a]? with
  | none => .error .typeError
  | some o =>
    if k = "__proto__" then .ok (st, protoOf o)
    else
      match (if k = "length" then lengthOf o else none) with
      | some v => .ok (st, v)
      | none => readCell w (find st.heap (st.heap.length + 1) a k) st

/-- `v.k`, `v[k]`. -/
def get (w : World) : Value → String → M Value
  | .undef, _ => M.fail .typeError
  | .null, _ => M.fail .typeError
  | .native n, k => pure (nativeMember n k)
  | .ref a, k => getRef w a k
  | .str s, k => pure (if k = "length" then .num s.length else .undef)
  | _, _ => pure .undef

/-- The object after `o[k] = v`. -/
def Obj.set (o : Obj) (k : String) (v : Value) : Obj :=
  if k = "__proto__" then
    match v with
    | .ref p => { o with proto := some p }
    | .null => { o with proto := none }
    | _ => o
  else { o with props := o.props.insert k (.data v) }

/-- `o[k] = v`. -/
def put : Value → String → Value → M Unit
  | .undef, _, _ => M.fail .typeError
  | .null, _, _ => M.fail .typeError
  | .ref a, k, v => fun st =>
    match st.heap[a]? with
    | none => .error .typeError
    | some o => .ok ({ st with heap := st.heap.set a (o.set k v) }, ())
  | _, _, _ => pure ()

/-- The scope a variable is bound in. -/
def scopeOf (fs : List (IndexMap String Value)) : List Nat → String → Option Nat
  | [], _ => none
  | i :: env, x =>
    match fs[i]? with
    | none => scopeOf fs env x
    | some f => if (f.get x).isSome then some i else scopeOf fs env x

/-- The value of a variable in a scope. -/
def frameGet (fs : List (IndexMap String Value)) (i : Nat) (x : String) : Option Value :=
  match fs[i]? with
  | none => none
  | some f => f.get x

/-- The value of a variable. -/
def getVar (w : World) (env : List Nat) (x : String) : M Value := fun st =>
  match scopeOf st.frames env x with
  | some i =>
    match frameGet st.frames i x with
    | some v => .ok (st, v)
    | none => .error .referenceError
  | none =>
    if x = "Array" then .ok (st, .native "Array")
    else if x = "Object" then .ok (st, .native "Object")
    else
      match find st.heap (st.heap.length + 1) globalObj x with
      | none => .error .referenceError
      | some c => readCell w (some c) st

/-- Binds a variable in a given scope. -/
def setFrame (i : Nat) (x : String) (v : Value) : M Unit := fun st =>
  match st.frames[i]? with
  | none => .error .referenceError
  | some f => .ok ({ st with frames := st.frames.set i (f.insert x v) }, ())

/-- `x = v`. -/
def setVar (env : List Nat) (x : String) (v : Value) : M Unit := fun st =>
  match scopeOf st.frames env x with
  | some i => setFrame i x v st
  | none => put (.ref globalObj) x v st

/-- `var x = v` in the innermost scope. -/
def declare (env : List Nat) (x : String) (v : Value) : M Unit :=
  match env with
  | [] => put (.ref globalObj) x v
  | i :: _ => setFrame i x v

/-- A new scope. -/
def newFrame : M Nat := fun st => .ok ({ st with frames := st.frames ++ [[]] }, st.frames.length)

/-- `Array.isArray`. -/
def isArray : Value → M Value
  | .ref a => fun st =>
    match st.heap[a]? with
    | some o =>
      match o.cls with
      | .array => .ok (st, .bool true)
      | _ => .ok (st, .bool false)
    | none => .ok (st, .bool false)
  | _ => pure (.bool false)

/-- `Object.getPrototypeOf`. The prototypes of primitives and of functions are objects of their own. -/
def getPrototypeOf (w : World) : Value → M Value
  | .undef => M.fail .typeError
  | .null => M.fail .typeError
  | .ref a => fun st =>
    match st.heap[a]? with
    | some o =>
      match o.cls with
      | .proxy t => extern w t st
      | _ => .ok (st, protoOf o)
    | none => .error .typeError
  | _ => pure (.native "prototype of a primitive")

/-- The values of the own properties, running getters in order. -/
def cellValues (w : World) : List (String × Cell) → M (List Value)
  | [] => pure []
  | (_, c) :: l => do
    let v ← readCell w (some c)
    let vs ← cellValues w l
    pure (v :: vs)

/-- The elements of an array as properties. -/
def elements : Nat → List Value → IndexMap String Cell
  | _, [] => []
  | i, v :: vs => (toString i, .data v) :: elements (i + 1) vs

/-- The own properties of a value (strings have their characters; the emitted code asks only for those of objects). -/
def ownProps : Value → M (List (String × Cell))
  | .undef => M.fail .typeError
  | .null => M.fail .typeError
  | .ref a => fun st =>
    match st.heap[a]? with
    | some o => .ok (st, o.props)
    | none => .error .typeError
  | .str s => pure (elements 0 (s.toList.map fun c => .str c.toString))
  | _ => pure []

/-- A new array. -/
def newArray (vs : List Value) : M Value := alloc ⟨.array, some arrayProto, elements 0 vs⟩

/-- `Object.values`. -/
def objectValues (w : World) (v : Value) : M Value := do
  let ps ← ownProps v
  let vs ← cellValues w ps
  newArray vs

/-- The first argument. -/
def arg0 : List Value → Value
  | [] => .undef
  | v :: _ => v

/-- Calls of built-in functions. -/
def callNative (w : World) : String → List Value → M Value
  | "Array.isArray", args => isArray (arg0 args)
  | "Object.getPrototypeOf", args => getPrototypeOf w (arg0 args)
  | "Object.values", args => objectValues w (arg0 args)
  | "Function: return this", _ => pure (.ref globalObj)
  | _, _ => M.fail .typeError

/-- The properties of an object literal; `__proto__: v` sets the prototype. -/
def literal : List (String × Value) → Obj → Obj
  | [], o => o
  | (k, v) :: l, o => literal l (o.set k v)

/-- A new object with the given properties. -/
def newObject (kvs : List (String × Value)) : M Value :=
  alloc (literal kvs ⟨.plain, some objectProto, []⟩)

/-- How a statement ends: normally, or returning a value. -/
abbrev Completion := Option Value

section
variable (w : World) (call : Value → List Value → M Value)

mutual
/-- Evaluates an expression in a scope chain. `call` calls a function. -/
def expr (env : List Nat) : Expr → M Value
  | .str s _ => pure (.str s)
  | .num n => pure (.num n)
  | .bool b => pure (.bool b)
  | .null => pure .null
  | .ident x => getVar w env x
  | .obj ps => do
    let kvs ← props env ps
    newObject kvs
  | .arr es => do
    let vs ← exprs env es
    newArray vs
  | .member o p => do
    let v ← expr env o
    get w v p
  | .index o i => do
    let v ← expr env o
    let k ← expr env i
    get w v k.key
  | .call f args => do
    let v ← expr env f
    let vs ← exprs env args
    call v vs
  | .newFn e => do
    let v ← expr env e
    if v = .str "return this" then pure (.native "Function: return this") else M.fail .syntaxError
  | .assign (.ident x) e => do
    let v ← expr env e
    setVar env x v
    pure v
  | .assign (.member o p) e => do
    let ov ← expr env o
    let v ← expr env e
    put ov p v
    pure v
  | .assign (.index o i) e => do
    let ov ← expr env o
    let k ← expr env i
    let v ← expr env e
    put ov k.key v
    pure v
  | .assign _ _ => M.fail .syntaxError
  | .incr (.index o i) => do
    let ov ← expr env o
    let k ← expr env i
    let old ← get w ov k.key
    put ov k.key old.incr
    pure old
  | .incr _ => M.fail .syntaxError
  | .and l r => do
    let v ← expr env l
    if v.truthy then expr env r else pure v
  | .or l r => do
    let v ← expr env l
    if v.truthy then pure v else expr env r
  | .not e => do
    let v ← expr env e
    pure (.bool (!v.truthy))
  | .ne l r => do
    let v ← expr env l
    let u ← expr env r
    pure (.bool (v ≠ u || v = .nan))
  | .cond c t e => do
    let v ← expr env c
    if v.truthy then expr env t else expr env e
  | .seq es => do
    let vs ← exprs env es
    pure (vs.getLastD .undef)
  | .paren e => expr env e
  | .fn body => alloc ⟨.closure body env, some functionProto, []⟩
  | .extern id => extern w id

/-- Evaluates the properties of an object literal in order. -/
def props (env : List Nat) : Props → M (List (String × Value))
  | .nil => pure []
  | .cons k e ps => do
    let v ← expr env e
    let kvs ← props env ps
    pure ((k, v) :: kvs)

/-- Evaluates expressions in order. -/
def exprs (env : List Nat) : Exprs → M (List Value)
  | .nil => pure []
  | .cons e es => do
    let v ← expr env e
    let vs ← exprs env es
    pure (v :: vs)
end

mutual
/-- Executes a statement. Function declarations have been hoisted. -/
def stmt (env : List Nat) : Stmt → M Completion
  | .var x e => do
    let v ← expr w call env e
    declare env x v
    pure none
  | .expr e => do
    let _ ← expr w call env e
    pure none
  | .ifThen c s => do
    let v ← expr w call env c
    if v.truthy then stmt env s else pure none
  | .block ss => stmts env ss
  | .ret e => do
    let v ← expr w call env e
    pure (some v)
  | .fnDecl _ _ => pure none

/-- Executes statements in order, up to a return. -/
def stmts (env : List Nat) : Stmts → M Completion
  | .nil => pure none
  | .cons s ss => do
    let c ← stmt env s
    match c with
    | some v => pure (some v)
    | none => stmts env ss
end

end

/-- Hoists one declaration into the innermost scope. -/
def hoistOne (env : List Nat) : Stmt → M Unit
  | .var x _ => declare env x .undef
  | .fnDecl x body => do
    let f ← alloc ⟨.closure body env, some functionProto, []⟩
    declare env x f
  | _ => pure ()

/-- Hoists the declarations of a body. (The template bodies declare variables at their top level only.) -/
def hoist (env : List Nat) : Stmts → M Unit
  | .nil => pure ()
  | .cons s ss => do
    hoistOne env s
    hoist env ss

/-- Runs a body in a new scope. -/
def body (w : World) (call : Value → List Value → M Value) (env : List Nat) (b : Stmts) : M Completion := do
  let i ← newFrame
  hoist (i :: env) b
  stmts w call (i :: env) b

/-- Calls a function whose nested calls are made by `inner`. -/
def callWith (w : World) (inner : Value → List Value → M Value) : Value → List Value → M Value
  | .native n, args => callNative w n args
  | .ref a, _ => fun st =>
    match st.heap[a]? with
    | some ⟨.closure b env, _, _⟩ => (do
        let c ← body w inner env b
        pure (c.getD .undef)) st
    | _ => .error .typeError
  | _, _ => M.fail .typeError

/-- Calls a function, with at most `d` nested calls of closures. -/
def call (w : World) : Nat → Value → List Value → M Value
  | 0 => fun _ _ => M.fail .depth
  | d + 1 => callWith w (call w d)

/-- Evaluates an expression of the templates. Their calls nest to depth two: the coverage function and the
`Function` constructor's product. -/
def eval (w : World) (env : List Nat) (e : Expr) : M Value := expr w (call w 2) env e

/-- Runs the statements of a file in a new scope; the scope is returned. -/
def load (w : World) (ss : Stmts) : M Nat := do
  let i ← newFrame
  hoist [i] ss
  let _ ← stmts w (call w 2) [i] ss
  pure i

end Verif.Js
