import Verif.Spec.Instrumented
import Verif.Model.Program
/-
What programs do.

Executing a program is a dialogue between the program text and an environment. When the execution of a node
begins, the environment is told so, and it is the environment that decides what happens next: it may demand the
execution of a part of any node that has been presented to it (of the node itself, or, for instance, the body of a function
that was presented earlier), it is told how that ended, it may demand further parts, and at last it
answers how the execution of the node ends. The environment thus plays the part of everything that is not changed by
instrumentation: the store, scopes, operators, calls, loops, exceptions, `switch`, classes, generators,
event loop, and also the outside world. It is not constrained in any way, so what is proved for all its
behaviours holds in particular for the one that follows the JavaScript specification.

Only what instrumentation touches is given a meaning here: statement lists run in order until one statement does
not end normally; a counter increment adds one to its cell and is otherwise invisible; `(counter, e)` is the increment followed
by `e`; the truthiness wrapper is explained at `Run.truth`; the body of `if`, a loop or `with` that is
not a block is the same as the block consisting of it, a missing `else` is an empty one, and an arrow function `=> e`
is `=> { return e }`.
-/
namespace Verif
namespace Sem
open Node

/-- How the execution of a node or statement list ends: normally, perhaps with a value; abruptly (exception, return,
break, continue); or the observation was cut off before the end. -/
inductive Outcome (V A : Type) where
  | normal (v : Option V)
  | abrupt (a : A)
  | cut

/-- `Outcome.normal`. -/
def Outcome.isNormal {V A : Type} : Outcome V A → Bool
  | .normal _ => true
  | _ => false

/-- An anonymous function or class, possibly in parentheses: JavaScript gives it the name of the
variable, field or parameter it initialises (`IsAnonymousFunctionDefinition`). -/
def isFnDef : Node → Bool
  | mk (.arrow _) _ _ => true
  | mk .fnExpr _ (ident :: _) => ident.isNone
  | mk .classExpr _ (ident :: _) => ident.isNone
  | mk .paren _ [e] => isFnDef e
  | _ => false

/-- The parts of a node that the environment can demand. The statements of a switch case are one part. -/
def kids : Node → List Node
  | mk .block _ _ | mk .module _ _ | mk .script _ _ => []
  | mk .switchCase _ (test :: ss) => [test, mk .block Span.dummy ss]
  | mk k _ cs => tidyBodies k cs

/-- The value of a directive. -/
def directive? : Node → Option String
  | mk .exprStmt _ [mk (.strLit v) _ _] => some v
  | _ => none

/-- The directives at the start of a statement list. -/
def directivesOf : List Node → List String
  | [] => []
  | s :: ss => match directive? s with
    | some v => v :: directivesOf ss
    | none => []

/-- The statement list that can start with directives: that of a program or of the body of a function. -/
def codeOf : Node → List Node
  | mk .module _ ss | mk .script _ ss => ss
  | mk (.function _) _ [_, _, mk .block _ ss] => ss
  | mk (.arrow _) _ [_, mk .block _ ss] => ss
  | mk .getterProp _ [_, mk .block _ ss] => ss
  | mk .setterProp _ [_, _, _, mk .block _ ss] => ss
  | _ => []

/-- Kinds of nodes that give names to anonymous functions among their parts. -/
def names : Kind → Bool
  | .cond | .bin _ => false
  | _ => true

/-- What the environment is told about a node when its execution begins: kind and position, the number
of its parts, which of them are anonymous functions to be named, and the directives of a program or function. -/
structure Face where
  kind : Kind
  span : Span
  parts : Nat
  fnDefs : List Bool
  directives : List String
deriving DecidableEq

/-- The face of a node. -/
def face (n : Node) : Face where
  kind := n.kind
  span := n.span
  parts := (kids n).length
  fnDefs := if names n.kind then (kids n).map isFnDef else []
  directives := directivesOf (codeOf n)

/-- What happens during an execution. `pick h j f`: the environment demands part `j` of the `h`-th node presented to it,
whose face is `f`;
`got`: it is told how the execution of the part, or of a statement list, ended; `answer`: it says how the execution of a
node ends. -/
inductive Ev (V A : Type) where
  | count (c : Counter)
  | present (f : Face)
  | pick (h j : Nat) (f : Face)
  | got (o : Outcome V A)
  | answer (o : Outcome V A)

/-- How a node is executed. -/
inductive Shape where
  /-- a counter increment -/
  | counter (c : Counter)
  /-- `(counter, e)` -/
  | wrap (c : Counter) (e : Node)
  /-- `counter, (temp = e, mid, temp)` -/
  | truth (c : Counter) (e mid : Node)
  /-- a statement list -/
  | list (ss : List Node)
  /-- anything else: as the environment says -/
  | plain

/-- The shape of a node. -/
def look : Node → Shape
  | mk .block _ ss => .list ss
  | mk .module _ ss => .list ss
  | mk .script _ ss => .list ss
  | mk (.counter c) _ _ => .counter c
  | mk .paren _ [mk .seq _ [mk (.counter c) _ _, e]] => .wrap c e
  | mk .seq _ [mk (.counter c) _ _, mk .seq _ [mk (.assign _) _ [mk (.temp true) _ _, e], mid, mk (.temp false) _ _]] =>
    .truth c e mid
  | _ => .plain

/-- Declarations whose functions exist from the start of the statement list. -/
def hoisted (ss : List Node) : List Node :=
  ss.filter fun s => s.kind = .fnDecl || s.kind = .exportDecl || s.kind = .exportDefault

/-- What can be executed: a node, a statement list, or the environment is to move. -/
inductive Task where
  | node (n : Node)
  | list (ss : List Node)
  | turn

/-- `Run st t tr o st'`: executing `t` when the nodes `st` have been presented can give the events
`tr`, end with `o`, and the nodes `st'` have then been presented. `solid v`: the value is truthy, not an empty array and not
an empty plain object. -/
inductive Run {V A : Type} (solid : V → Bool) :
    List Node → Task → List (Ev V A) → Outcome V A → List Node → Prop
  /-- the observation may stop at any time -/
  | cut (st t) : Run solid st t [] .cut st
  | counter {st n c v} : look n = .counter c → Run solid st (.node n) [.count c] (.normal v) st
  | wrap {st n c e tr o st'} : look n = .wrap c e → Run solid st (.node e) tr o st' →
      Run solid st (.node n) (.count c :: tr) o st'
  /-- The truthiness wrapper: if the operand ends normally, its value is looked at, the second counter
  incremented if it is solid, and the value is the value of the whole. It is assumed that looking at a value (`Array.isArray`,
  `Object.getPrototypeOf`, `Object.values`) runs no code of the program (no proxies, no accessors). -/
  | truth {st n c e mid tr v st'} : look n = .truth c e mid → Run solid st (.node e) tr (.normal v) st' →
      Run solid st (.node n)
        (.count c :: (tr ++ if v.any solid then mid.sites.map .count else [])) (.normal v) st'
  | truthEnd {st n c e mid tr o st'} : look n = .truth c e mid → Run solid st (.node e) tr o st' →
      o.isNormal = false → Run solid st (.node n) (.count c :: tr) o st'
  /-- a block or program: it is presented together with its function declarations, its statements are executed,
  and the environment has the last word -/
  | block {st n ss tr o st1 tr' o' st'} : look n = .list ss →
      Run solid (st ++ n :: hoisted ss) (.list ss) tr o st1 → o ≠ .cut → Run solid st1 .turn tr' o' st' →
      Run solid st (.node n) (.present (face n) :: (tr ++ .got o :: tr')) o' st'
  | blockCut {st n ss tr st'} : look n = .list ss → Run solid (st ++ n :: hoisted ss) (.list ss) tr .cut st' →
      Run solid st (.node n) (.present (face n) :: tr) .cut st'
  /-- any other node is presented -/
  | node {st n tr o st'} : look n = .plain → Run solid (st ++ [n]) .turn tr o st' →
      Run solid st (.node n) (.present (face n) :: tr) o st'
  | nil {st} : Run solid st (.list []) [] (.normal none) st
  /-- a counter statement -/
  | count {st sp c sp' cs ss tr o st'} : Run solid st (.list ss) tr o st' →
      Run solid st (.list (mk .exprStmt sp [mk (.counter c) sp' cs] :: ss)) (.count c :: tr) o st'
  /-- the declaration and the call of the coverage function -/
  | setup {st s ss tr o st'} : s.kind = .covDecl ∨ s.kind = .covCall → Run solid st (.list ss) tr o st' →
      Run solid st (.list (s :: ss)) tr o st'
  | next {st s ss tr v st1 tr' o st'} : isInjectedItem s = false → Run solid st (.node s) tr (.normal v) st1 →
      Run solid st1 (.list ss) tr' o st' → Run solid st (.list (s :: ss)) (tr ++ tr') o st'
  | stop {st s ss tr o st'} : isInjectedItem s = false → Run solid st (.node s) tr o st' → o.isNormal = false →
      Run solid st (.list (s :: ss)) tr o st'
  /-- the environment answers -/
  | answer {st o} : o ≠ .cut → Run solid st .turn [.answer o] o st
  /-- the environment demands part of a node that has been presented -/
  | pick {st h n j c tr o st1 tr' o' st'} : st[h]? = some n → (kids n)[j]? = some c →
      Run solid st (.node c) tr o st1 → o ≠ .cut → Run solid st1 .turn tr' o' st' →
      Run solid st .turn (.pick h j (face n) :: (tr ++ .got o :: tr')) o' st'
  | pickCut {st h n j c tr st'} : st[h]? = some n → (kids n)[j]? = some c →
      Run solid st (.node c) tr .cut st' → Run solid st .turn (.pick h j (face n) :: tr) .cut st'

/-- Executions of a program: the program itself, and then whatever the environment does with the nodes presented to it
(callbacks). -/
def Exec {V A : Type} (solid : V → Bool) (p : Node) (tr : List (Ev V A)) (o o' : Outcome V A) : Prop :=
  ∃ tr1 tr2 st1 st2, tr = tr1 ++ tr2 ∧ Run solid [] (.node p) tr1 o st1 ∧ Run solid st1 .turn tr2 o' st2

/-- An event that is a counter increment. -/
def Ev.isCount {V A : Type} : Ev V A → Bool
  | .count _ => true
  | _ => false

/-- The events that are not counter increments. -/
def visible {V A : Type} (tr : List (Ev V A)) : List (Ev V A) := tr.filter fun e => !e.isCount

/-- Nothing the environment is told about this node is different from what it would be told if the counters were
deleted: no anonymous function to be named is wrapped with a counter, and no counter is in front of
directives. -/
def faithfulAt (n : Node) : Bool :=
  (!(names n.kind && n.kind.wraps) || n.children.all fun c => isFnDef c == isFnDef (unwrap c)) &&
  decide (directivesOf (codeOf n) = directivesOf ((codeOf n).filter fun s => !isInjectedItem s))

mutual
/-- `faithfulAt` everywhere in a tree. -/
def faithful : Node → Bool
  | mk k sp cs => faithfulAt (mk k sp cs) && faithfulList cs

/-- `faithful` for a list. -/
def faithfulList : List Node → Bool
  | [] => true
  | c :: cs => faithful c && faithfulList cs
end

end Sem
end Verif
