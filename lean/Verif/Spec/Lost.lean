import Verif.Spec.Instrumented
import Verif.Spec.Provenance
/-
Which statement counters are lost: those asked for by the head of a switch statement.
-/
namespace Verif
namespace Node

mutual
/-- The places below `n` for which a counter is asked for before the statement that `n` is part of. -/
def asks : Node → List Span
  | mk k sp cs =>
    (if k.marks then [sp] else []) ++ (if k.inits then cs.map span else []) ++ asksList k true cs

/-- `asks` on the children that carry. -/
def asksList (k : Kind) (first : Bool) : List Node → List Span
  | [] => []
  | c :: cs => (if k.carries first then asks c else []) ++ asksList k false cs
end

mutual
/-- The places for which a counter is asked for by the discriminant or a case test of some switch statement. -/
def lostSpans : Node → List Span
  | mk k _ cs => (if k = .switchStmt then cs.flatMap asks else []) ++ lostSpansList cs

/-- `lostSpans` on lists. -/
def lostSpansList : List Node → List Span
  | [] => []
  | c :: cs => lostSpans c ++ lostSpansList cs
end

end Node
end Verif
