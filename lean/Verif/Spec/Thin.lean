import Verif.Spec.Outline
/-
Programs without some of the statements in them that nothing is counted in.
-/
namespace Verif

/-- Kinds of which nothing is counted: imports, exports of names, types, empty statements and `debugger`, and what these consist of. -/
def Kind.traceless : Kind → Bool
  | ident _ | propIdent _ | strLit _ | none | list | debugger | other _ _ => true
  | _ => false

/-- Constructs with a list of statements in them. -/
def Kind.hasList : Kind → Bool
  | block | switchCase | module | script => true
  | _ => false

namespace Node

/-- There is nothing but such kinds in the construct. -/
def traceless (n : Node) : Bool := !n.any fun k => !k.traceless

/-- Leave out the statements at the places of `q`, if there is nothing to count in them. -/
def sift (q : Span → Bool) (ss : List Node) : List Node := ss.filter fun s => !(q s.span && s.traceless)

/-- The parts of a construct without such statements in its list. -/
def sifted (q : Span → Bool) : Kind → List Node → List Node
  | .block, ss | .module, ss | .script, ss => sift q ss
  | .switchCase, test :: ss => test :: sift q ss
  | _, cs => cs

mutual
/-- The program without the statements at the places of `q` that there is nothing to count in. -/
def thin (q : Span → Bool) : Node → Node
  | mk k sp cs => mk k sp (sifted q k (thins q cs))

/-- `thin` on several constructs. -/
def thins (q : Span → Bool) : List Node → List Node
  | [] => []
  | c :: cs => thin q c :: thins q cs
end

/-- Where an initialiser has a list of statements in it, it has a block in it, which the grammar guarantees. -/
def ListsInBlocks (p : Node) : Prop := ∀ m ∈ p.each, ∀ init ∈ initOf m, init.any Kind.hasList = true → init.any Kind.isBlock = true

end Node
end Verif
