import Verif.Model.SourceCoverage
/-
What a history of registrations means, stated without the tables of the code: the n-th statement
registered has id n, the arms of a branch are the paths added to it in order, and so on.
-/
namespace Verif

/-- One call of the registration interface. -/
inductive RegOp where
  | statement (loc : Range)
  | function (name : Option String) (decl loc : Range)
  | branch (t : BranchType) (loc : Range) (logic : Bool)
  | path (branch : Nat) (loc : Range)
deriving DecidableEq, Repr

namespace RegOp

/-- Perform one call; the result is the returned id. -/
def run (c : SourceCoverage) : RegOp → Except Panic (SourceCoverage × Nat)
  | statement loc => .ok (c.newStatement loc)
  | function name decl loc => .ok (c.newFunction name decl loc)
  | branch t loc logic => .ok (c.newBranch t loc logic)
  | path k loc => c.addBranchPath k loc

/-- Perform a history of calls, collecting the returned ids. -/
def runAll (c : SourceCoverage) : List RegOp → Except Panic (SourceCoverage × List Nat)
  | [] => .ok (c, [])
  | op :: ops =>
    match op.run c with
    | .error e => .error e
    | .ok (c, id) =>
      match runAll c ops with
      | .error e => .error e
      | .ok (c, ids) => .ok (c, id :: ids)

/-- The statement locations of a history, in order. -/
def statements (h : List RegOp) : List Range :=
  h.filterMap fun | .statement l => some l | _ => none

/-- The functions of a history, in order. -/
def functions (h : List RegOp) : List (Option String × Range × Range) :=
  h.filterMap fun | .function n d l => some (n, d, l) | _ => none

/-- The branches of a history, in order. -/
def branches (h : List RegOp) : List (BranchType × Range × Bool) :=
  h.filterMap fun | .branch t l g => some (t, l, g) | _ => none

/-- The arms a history adds to branch `k`, in order. -/
def arms (h : List RegOp) (k : Nat) : List Range :=
  h.filterMap fun | .path k' l => if k' = k then some l else none | _ => none

/-- The id that must be returned by a call made after history `h`. -/
def expectedId (h : List RegOp) : RegOp → Nat
  | statement _ => (statements h).length
  | function .. => (functions h).length
  | branch .. => (branches h).length
  | path k _ => (arms h k).length

/-- Arms are only added to branches registered before. -/
def Legal (h : List RegOp) : Prop :=
  ∀ pre k l post, h = pre ++ path k l :: post → k < (branches pre).length

/-- The items of a list under the ids `0, 1, ...`. -/
def numbered {A B : Type} (g : Nat → A → B) (l : List A) : IndexMap Nat B :=
  l.zipIdx.map fun e => (e.2, g e.2 e.1)

/-- A logical branch registered with truthiness reporting. -/
def isTruth (x : BranchType × Range × Bool) : Bool := x.1 == .binaryExpr && x.2.2

/-- The report that a history must give. -/
def report (path : String) (reportLogic : Bool) (sm : Option SourceMap) (h : List RegOp) :
    FileCoverage where
  all := false
  path := path
  statementMap := numbered (fun _ l => l) (statements h)
  s := numbered (fun _ _ => 0) (statements h)
  fnMap := numbered (fun i x => ⟨x.1.getD ("(anonymous_" ++ toString i ++ ")"), x.2.1, x.2.2,
    x.2.2.start.line⟩) (functions h)
  f := numbered (fun _ _ => 0) (functions h)
  branchMap := numbered (fun i x => ⟨some x.2.1, x.1, arms h i, some x.2.1.start.line⟩) (branches h)
  b := numbered (fun i _ => (arms h i).map fun _ => 0) (branches h)
  bT := if reportLogic || (branches h).any isTruth then
      some (((branches h).zipIdx.filter fun e => isTruth e.1).map
        fun e => (e.2, (arms h e.2).map fun _ => 0))
    else none
  inputSourceMap := sm

end RegOp
end Verif
