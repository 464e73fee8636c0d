import Verif.Spec.Counts
import Verif.Model.Emit
import Verif.Spec.Life
import Verif.Spec.Serde
import Verif.Spec.Stringify
import Verif.Lemmas.Json
import Verif.Model.Serde
/-
From the source program to the report: a program is instrumented, the result is loaded in a realm (perhaps several
times, beside other files, and with the program doing as it likes), its coverage data is written by `JSON.stringify` and
loaded by istanbul-oxide.
-/
namespace Verif
open Node

namespace Sem
variable {V A : Type}

/-- An execution that was observed until its end. -/
def Complete (solid : V → Bool) (p : Node) (tr : List (Ev V A)) : Prop :=
  ∃ o o', Exec solid p tr o o' ∧ o ≠ .cut ∧ o' ≠ .cut

/-- What a report `c` that was loaded tells about executions of an instrumented program, whose report was `r` at first:
the tables are those of the instrumenter, with counts for the same things, and the counts are execution counts, of all executions together. -/
structure Tells (solid : V → Bool) (p' : Node) (r : FileCoverage) (trs : List (List (Ev V A))) (c : FileCoverage) : Prop where
  path : c.path = r.path
  all : c.all = r.all
  keyed : c.Keyed
  s : ∀ id, (c.s.get id).isSome = (r.s.get id).isSome
  f : ∀ id, (c.f.get id).isSome = (r.f.get id).isSome
  b : ∀ id, (c.b.get id).map List.length = (r.b.get id).map List.length
  bT : c.bT.isSome = r.bT.isSome
  truths : ∀ id, ((c.bT.getD []).get id).map List.length = ((r.bT.getD []).get id).map List.length
  ordered : c.Ordered
  statementMap : c.statementMap.Same r.statementMap
  fnMap : c.fnMap.Same r.fnMap
  branchMap : c.branchMap.Same r.branchMap
  inputSourceMap : c.inputSourceMap = r.inputSourceMap
  begun : ∀ k t, CountsBegun p' k t → r.count k = some 0 → c.count k = some (trs.map fun tr => began t (visible tr)).sum
  entered : ∀ k t j, CountsEntered p' k t j → r.count k = some 0 →
    c.count k = some (trs.map fun tr => entered t j (visible tr)).sum
  gave : ∀ k t, CountsSolid p' k t → r.count k = some 0 →
    c.count k = some (trs.map fun tr => gave solid t [] (visible tr)).sum

end Sem

open Runtime Js Template

/-- The increments of several executions, in any order. -/
def Mixed {V A : Type} (trs : List (List (Sem.Ev V A))) (l : List Counter) : Prop :=
  l.Perm (trs.map Sem.increments).flatten

/-- `Delivers w gcv st i P`: in a realm that starts in the state `st` the file `i` is loaded at some time, and all files with its path have
its hash. Whatever `JSON.stringify` then writes for the path, if the counters hit by instances of the file are `l` with
`Q l`, is loaded as a report with `P`. -/
def Delivers (w : World) (gcv : String) (st : State) (i : Input) (Q : List Counter → Prop) (P : FileCoverage → Prop) : Prop :=
  ∀ (r : Realm) (pre es : List Event), (∀ j, Event.load j ∈ pre → j.path ≠ i.path) → SameHash i.path i.hash es →
    Lives w gcv (.new st) .empty r (pre ++ .load i :: es) → NoHooks r.st.heap →
    Q (hitsOf i.path [] (pre ++ .load i :: es)) →
    ∃ ps a, registry gcv r.st = some ps ∧ ps.get i.path = some (.data (.ref a)) ∧
      ∀ o, Writes r.st.heap [] (.ref a) o → ∃ d c, o = some d ∧ Serde.coverage d = some c ∧
        (Json.whole d = true → Json.height d < 128 → Serde.load (Json.text d) = some c) ∧ P c

/-- Whenever executions of the instrumented program `p'`, with less than 2^32 increments of each counter in all, are what the instances
of the file did in a realm, the report that is delivered has the property `P` of these executions. -/
def Reported (w : World) (path : String) (p' : Node) (r : FileCoverage)
    (P : (V A : Type) → (V → Bool) → List (List (Sem.Ev V A)) → FileCoverage → Prop) : Prop :=
  ∀ (covFn gcv : String) (st : State), Pristine gcv st → ∀ (V A : Type) (solid : V → Bool) (trs : List (List (Sem.Ev V A))),
    (∀ tr ∈ trs, Sem.Complete solid p' tr) → (∀ k, (trs.map fun tr => Sem.counted k tr).sum < 2 ^ 32) →
    Delivers w gcv st (emit covFn gcv path r) (Mixed trs) (P V A solid trs)

/-- The report has a branch with the given type, range and arm. -/
def FileCoverage.HasArm (c : FileCoverage) (b i : Nat) (t : BranchType) (l arm : Range) : Prop :=
  ∃ br, c.branchMap.get b = some br ∧ br.branchType = t ∧ br.loc = some l ∧ br.locations[i]? = some arm

end Verif
