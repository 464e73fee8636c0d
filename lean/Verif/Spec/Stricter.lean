import Verif.Spec.Outline
import Verif.Spec.Hint
/-
Contexts that exclude more than others, and lists of entries of which there are fewer.
-/
namespace Verif

/-- The second context differs from the first at most in that more is excluded: at some places there is a hint to ignore what comes next, more
names of functions are listed, the file may be ignored, and operands may be looked at for their truthiness. -/
structure Ctx.Stricter (cx cx' : Ctx) : Prop where
  pos : cx'.pos = cx.pos
  hint : ∀ sp, cx'.hint sp = cx.hint sp ∨ cx'.hint sp = some .next
  file : ∀ sp, Hint.shouldIgnoreFile cx.cc cx.comments sp = true → Hint.shouldIgnoreFile cx'.cc cx'.comments sp = true
  methods : ∀ m ∈ cx.ignoreMethods, m ∈ cx'.ignoreMethods
  logic : cx.reportLogic = true → cx'.reportLogic = true

/-- The second list is the first with at most one text put in, which reads as a hint to ignore what comes next. -/
def WithNext (cc : CharClasses) (old new : List (List Char)) : Prop :=
  new = old ∨ ∃ a text b, old = a ++ b ∧ new = a ++ text :: b ∧ ReadsAs cc IgnoreScope.next.word text

/-- The comments are those of the first context, and hints to ignore what comes next. -/
def Comments.WithNext (cc : CharClasses) (old new : Comments) : Prop :=
  (∀ q, Verif.WithNext cc (old.leading q) (new.leading q)) ∧ new.trailing = old.trailing

/-- The same entry, maybe with fewer arms. -/
inductive Entry.Less : Entry → Entry → Prop where
  | same (e : Entry) : Less e e
  | arms {t : BranchType} {r : Range} {a a' : List Range} : a'.Sublist a → Less (.branch t r a') (.branch t r a)

/-- The first list has some of the elements of the second one, in the same order, up to a relation. -/
inductive Fewer {α β : Type} (R : α → β → Prop) : List α → List β → Prop where
  | nil : Fewer R [] []
  | drop {b : β} {l' : List α} {l : List β} : Fewer R l' l → Fewer R l' (b :: l)
  | keep {a : α} {b : β} {l' : List α} {l : List β} : R a b → Fewer R l' l → Fewer R (a :: l') (b :: l)

/-- The name of a function: the same, or both are called after their numbers. -/
def SameName (id id' : Nat) (f f' : Function) : Prop :=
  f'.name = f.name ∨ f'.name = "(anonymous_" ++ toString id' ++ ")" ∧ f.name = "(anonymous_" ++ toString id ++ ")"

end Verif
