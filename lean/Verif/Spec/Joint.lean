import Verif.Spec.EndToEnd
/-
Executions of instrumented programs in a realm: the dialogue of `Spec/Sem` between program and environment takes place in a
realm as in `Spec/Life`. Where the dialogue has a counter, the emitted code of the counter is evaluated; where it has a truthiness
wrapper, that is evaluated, and meanwhile the operand is executed; everything else is up to the environment, in the realm too:
the code of the program may do as it likes there, provided it keeps its hands off the coverage code, and other files may
be loaded and run.
-/
namespace Verif.Runtime
open Node Js Template Sem

/-- The counters that are hit by one instance. -/
def hitsOn (k : Nat) : List Event → List Counter
  | [] => []
  | .load _ :: es => hitsOn k es
  | .hit n c :: es => if n = k then c :: hitsOn k es else hitsOn k es

/-- Instance `k` evaluates a counter, at a place where its coverage function is visible. -/
def Counts (w : World) (k : Nat) (r : Realm) (c : Counter) (r' : Realm) : Prop :=
  ∃ inst env st v, r.insts[k]? = some inst ∧ scopeOf r.st.frames env inst.2 = some inst.1 ∧
    eval w env (counter inst.2 c) r.st = .ok (st, v) ∧ r' = r.in_ st

/-- `Performs w gcv k solid r b st t tr o st' r' es`: in the realm `r`, whose coverage data is that of the books `b`, the instance
`k` can execute `t` with the events `tr` and the outcome `o` (see `Sem.Run`, also for `st` and `st'`); the realm is then `r'`, and
the coverage events on the way, of this and of other instances, were `es`. -/
inductive Performs {V A : Type} (w : World) (gcv : String) (k : Nat) (solid : V → Bool) :
    Realm → Books → List Node → Task → List (Ev V A) → Sem.Outcome V A → List Node → Realm → List Event → Prop
  /-- other code runs before: code of the program, and of other instances -/
  | before {r b r1 es st t tr o st' r' es'} : Lives w gcv r b r1 es → hitsOn k es = [] →
      Performs w gcv k solid r1 (b.after es) st t tr o st' r' es' → Performs w gcv k solid r b st t tr o st' r' (es ++ es')
  /-- other code runs afterwards -/
  | behind {r b st t tr o st' r1 es r' es'} : Performs w gcv k solid r b st t tr o st' r1 es →
      Lives w gcv r1 (b.after es) r' es' → hitsOn k es' = [] → Performs w gcv k solid r b st t tr o st' r' (es ++ es')
  | cut {r b st t} : Performs w gcv k solid r b st t [] .cut st r []
  | counter {r b st n c v r'} : look n = .counter c → Counts w k r c r' →
      Performs w gcv k solid r b st (.node n) [.count c] (.normal v) st r' [.hit k c]
  | wrap {r b st n c e r1 tr o st' r' es} : look n = .wrap c e → Counts w k r c r1 →
      Performs w gcv k solid r1 (b.after [.hit k c]) st (.node e) tr o st' r' es →
      Performs w gcv k solid r b st (.node n) (.count c :: tr) o st' r' (.hit k c :: es)
  /-- The truthiness wrapper is evaluated, with the execution of the operand as the evaluation of the operand. The value is solid if it
  counts as true in the realm. -/
  | truth {r b st n c e mid branch arm r1 inst env operand tr v st' r2 es s u u'} : look n = .truth c e mid →
      mid.sites = [.bT branch arm] → Counts w k r c r1 → r1.insts[k]? = some inst → Place r1.st env inst →
      Performs w gcv k solid (r1.in_ r1.st.scope) (b.after [.hit k c]) st (.node e) tr (.normal v) st' r2 es →
      eval w env operand r1.st.scope = .ok (r2.st, u) → Passive r2.st.heap u → Place r2.st env inst →
      v.any solid = Js.counted r2.st.heap u →
      eval w env (truthWrapper inst.2 (tempName inst.2) branch arm operand) r1.st = .ok (s, u') →
      Performs w gcv k solid r b st (.node n) (.count c :: (tr ++ if v.any solid then [.count (.bT branch arm)] else []))
        (.normal v) st' (r2.in_ s) (.hit k c :: (es ++ if v.any solid then [.hit k (.bT branch arm)] else []))
  | truthEnd {r b st n c e mid r1 tr o st' r' es} : look n = .truth c e mid → Counts w k r c r1 →
      Performs w gcv k solid r1 (b.after [.hit k c]) st (.node e) tr o st' r' es → o.isNormal = false →
      Performs w gcv k solid r b st (.node n) (.count c :: tr) o st' r' (.hit k c :: es)
  | block {r b st n ss tr o st1 r1 es tr' o' st' r' es'} : look n = .list ss →
      Performs w gcv k solid r b (st ++ n :: hoisted ss) (.list ss) tr o st1 r1 es → o ≠ .cut →
      Performs w gcv k solid r1 (b.after es) st1 .turn tr' o' st' r' es' →
      Performs w gcv k solid r b st (.node n) (.present (face n) :: (tr ++ .got o :: tr')) o' st' r' (es ++ es')
  | blockCut {r b st n ss tr st' r' es} : look n = .list ss →
      Performs w gcv k solid r b (st ++ n :: hoisted ss) (.list ss) tr .cut st' r' es →
      Performs w gcv k solid r b st (.node n) (.present (face n) :: tr) .cut st' r' es
  | node {r b st n tr o st' r' es} : look n = .plain → Performs w gcv k solid r b (st ++ [n]) .turn tr o st' r' es →
      Performs w gcv k solid r b st (.node n) (.present (face n) :: tr) o st' r' es
  | nil {r b st} : Performs w gcv k solid r b st (.list []) [] (.normal none) st r []
  | count {r b st sp c sp' cs ss r1 tr o st' r' es} : Counts w k r c r1 →
      Performs w gcv k solid r1 (b.after [.hit k c]) st (.list ss) tr o st' r' es →
      Performs w gcv k solid r b st (.list (mk .exprStmt sp [mk (.counter c) sp' cs] :: ss)) (.count c :: tr) o st' r' (.hit k c :: es)
  | setup {r b st s ss tr o st' r' es} : s.kind = .covDecl ∨ s.kind = .covCall →
      Performs w gcv k solid r b st (.list ss) tr o st' r' es → Performs w gcv k solid r b st (.list (s :: ss)) tr o st' r' es
  | next {r b st s ss tr v st1 r1 es tr' o st' r' es'} : isInjectedItem s = false →
      Performs w gcv k solid r b st (.node s) tr (.normal v) st1 r1 es →
      Performs w gcv k solid r1 (b.after es) st1 (.list ss) tr' o st' r' es' →
      Performs w gcv k solid r b st (.list (s :: ss)) (tr ++ tr') o st' r' (es ++ es')
  | stop {r b st s ss tr o st' r' es} : isInjectedItem s = false → Performs w gcv k solid r b st (.node s) tr o st' r' es →
      o.isNormal = false → Performs w gcv k solid r b st (.list (s :: ss)) tr o st' r' es
  | answer {r b st o} : o ≠ .cut → Performs w gcv k solid r b st .turn [.answer o] o st r []
  | pick {r b st h n j c tr o st1 r1 es tr' o' st' r' es'} : st[h]? = some n → (kids n)[j]? = some c →
      Performs w gcv k solid r b st (.node c) tr o st1 r1 es → o ≠ .cut →
      Performs w gcv k solid r1 (b.after es) st1 .turn tr' o' st' r' es' →
      Performs w gcv k solid r b st .turn (.pick h j (face n) :: (tr ++ .got o :: tr')) o' st' r' (es ++ es')
  | pickCut {r b st h n j c tr st' r' es} : st[h]? = some n → (kids n)[j]? = some c →
      Performs w gcv k solid r b st (.node c) tr .cut st' r' es →
      Performs w gcv k solid r b st .turn (.pick h j (face n) :: tr) .cut st' r' es

/-- Instance `k` executes the program `p`, from the realm `r` on: the program itself, and then whatever the environment does with it. -/
def Executes {V A : Type} (w : World) (gcv : String) (k : Nat) (solid : V → Bool) (p : Node) (r : Realm) (b : Books)
    (tr : List (Ev V A)) (o o' : Sem.Outcome V A) (r' : Realm) (es : List Event) : Prop :=
  ∃ tr1 tr2 st1 st2 r1 es1 es2, tr = tr1 ++ tr2 ∧ es = es1 ++ es2 ∧
    Performs w gcv k solid r b [] (.node p) tr1 o st1 r1 es1 ∧ Performs w gcv k solid r1 (b.after es1) st1 .turn tr2 o' st2 r' es2

/-- In the life with the events `es`, from the state `st` of a realm in which nothing was loaded to the realm `r`, the file at `path` was
loaded as instance `k`, and that executed the program `p` to its end with the events `tr`. -/
def Ran {V A : Type} (w : World) (gcv : String) (st : State) (path : String) (solid : V → Bool) (p : Node) (r : Realm)
    (es : List Event) (k : Nat) (tr : List (Ev V A)) : Prop :=
  ∃ r1 es1 es2 o o', es = es1 ++ es2 ∧ Lives w gcv (.new st) .empty r1 es1 ∧ (pathsAfter [] es1)[k]? = some path ∧ hitsOn k es1 = [] ∧
    Executes w gcv k solid p r1 (Books.empty.after es1) tr o o' r es2 ∧ o ≠ .cut ∧ o' ≠ .cut

/-- The instances of the file at `path` that were loaded in a life. -/
def instancesOf (path : String) (es : List Event) : List Nat :=
  (List.range (pathsAfter [] es).length).filter fun k => decide ((pathsAfter [] es)[k]? = some path)

end Verif.Runtime
