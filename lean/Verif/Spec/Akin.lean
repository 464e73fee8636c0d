import Verif.Spec.Reached
import Verif.Spec.Hint
/-
Programs that differ in layout, names and constants, and reports that differ accordingly.
-/
namespace Verif

/-- Texts of string statements that are directives (IV:1). -/
def directiveTexts : List String := ["use strict", "use asm", "use strong"]

/-- How two programs may differ: their spans, their names, and whether their texts may differ. -/
structure Change where
  span : Span → Span → Prop
  name : String → String → Prop
  texts : Prop

/-- No difference. -/
def Change.none : Change := ⟨Eq, fun _ _ => False, False⟩

/-- The names are the same, or changed. -/
def Change.names (d : Change) (x y : String) : Prop := x = y ∨ d.name x y

/-- Kinds that differ in names, texts, operators that are not logical, the attributes of functions (`async`, generators), or in
`var` and `let`. -/
inductive Change.Kinds (d : Change) : Kind → Kind → Prop
  | refl (k : Kind) : d.Kinds k k
  | ident {x y : String} (h : d.name x y) : d.Kinds (.ident x) (.ident y)
  | prop {x y : String} (h : d.name x y) : d.Kinds (.propIdent x) (.propIdent y)
  | str (ht : d.texts) {v w : String} (h : v ∈ directiveTexts ↔ w ∈ directiveTexts) : d.Kinds (.strLit v) (.strLit w)
  | other (ht : d.texts) (c : Cat) (x y : String) : d.Kinds (.other c x) (.other c y)
  | op (ht : d.texts) (x y : String) : d.Kinds (.bin (.other x)) (.bin (.other y))
  | assign (ht : d.texts) (x y : String) : d.Kinds (.assign x) (.assign y)
  | arrow (ht : d.texts) (x y : String) : d.Kinds (.arrow x) (.arrow y)
  | function (ht : d.texts) (x y : String) : d.Kinds (.function x) (.function y)
  | var (ht : d.texts) {v w : VarKind} (h : v = .const ↔ w = .const) : d.Kinds (.varDecl v) (.varDecl w)

open Node in
/-- Two trees of the same form, which differ by `d`. With `truth`, the right one may have truthiness wrappers in place of plain
branch counters. -/
inductive Akin (d : Change) (truth : Bool) : Node → Node → Prop
  | node {k k' : Kind} {sp sp' : Span} {cs cs' : List Node} (hk : d.Kinds k k') (hs : d.span sp sp')
      (hc : List.Forall₂ (Akin d truth) cs cs') : Akin d truth (mk k sp cs) (mk k' sp' cs')
  | truth (ht : truth = true) {branch arm : Nat} {e e' : Node} (he : Akin d truth e e') :
      Akin d truth (wrapCounter (.b branch arm) e) (wrapTruth branch arm e')

/-- Reports with the same keys, counts, kinds of branches and numbers of arms, whose names differ by `d` and whose ranges are
related by `R`; with `truth`, truthiness counts do not matter. -/
structure AkinReports (d : Change) (R : Range → Range → Prop) (truth : Bool) (c c' : FileCoverage) : Prop where
  all : c.all = c'.all
  path : c.path = c'.path
  inputSourceMap : c.inputSourceMap = c'.inputSourceMap
  s : c.s = c'.s
  f : c.f = c'.f
  b : c.b = c'.b
  bT : truth = false → c.bT = c'.bT
  statementMap : List.Forall₂ (fun x y => x.1 = y.1 ∧ R x.2 y.2) c.statementMap c'.statementMap
  fnMap : List.Forall₂ (fun (x y : Nat × Function) => x.1 = y.1 ∧ d.names x.2.name y.2.name ∧ R x.2.decl y.2.decl ∧
    R x.2.loc y.2.loc ∧ x.2.line = x.2.loc.start.line ∧ y.2.line = y.2.loc.start.line) c.fnMap c'.fnMap
  branchMap : List.Forall₂ (fun (x y : Nat × Branch) => x.1 = y.1 ∧ x.2.branchType = y.2.branchType ∧
    (∃ r r', x.2.loc = some r ∧ y.2.loc = some r' ∧ R r r' ∧ x.2.line = some r.start.line ∧ y.2.line = some r'.start.line) ∧
    List.Forall₂ R x.2.locations y.2.locations) c.branchMap c'.branchMap

/-- The comment reads as one of the documented hints. -/
def IsHint (cc : CharClasses) (text : List Char) : Prop :=
  (∃ s : IgnoreScope, ReadsAs cc s.word text) ∨ ReadsAs cc "file".toList text

/-- Two lists of comments with the same hints in the same order, and any other comments. -/
inductive SameHints (cc : CharClasses) : List (List Char) → List (List Char) → Prop
  | nil : SameHints cc [] []
  | both (text : List Char) {l l' : List (List Char)} (h : SameHints cc l l') : SameHints cc (text :: l) (text :: l')
  | left {text : List Char} (hn : ¬ IsHint cc text) {l l' : List (List Char)} (h : SameHints cc l l') : SameHints cc (text :: l) l'
  | right {text : List Char} (hn : ¬ IsHint cc text) {l l' : List (List Char)} (h : SameHints cc l l') : SameHints cc l (text :: l')

namespace Node

mutual
/-- The tree with other spans. -/
def move (f : Span → Span) : Node → Node
  | mk k sp cs => mk k (f sp) (moveList f cs)
/-- The trees with other spans. -/
def moveList (f : Span → Span) : List Node → List Node
  | [] => []
  | c :: cs => move f c :: moveList f cs
end

/-- Kinds of nodes that no visit function is concerned with. -/
def _root_.Verif.Kind.passive : Kind → Bool
  | .paren | .seq | .assign _ | .strLit _ | .ident _ | .propIdent _ | .none | .list | .other _ _ | .bin (.other _)
  | .classExpr => true
  | _ => false

/-- There is nothing to instrument in the tree. -/
def Passive (n : Node) : Prop := n.any (fun k => !k.passive) = false

/-- The operands that get truthiness counters: those of logical operators, and default values. -/
def operands : Node → List Node
  | mk (.bin op) _ [l, r] => if op.isLogical then [l, r] else []
  | mk .assignPat _ [_, r] => [r]
  | _ => []

/-- In operands without logical operators there is nothing to instrument, and no initialiser is a tagged template. -/
def Calm (n : Node) : Prop :=
  ∀ m ∈ n.each, (∀ init, initOf m = some init → init.kind ≠ .taggedTpl) ∧
    ∀ e ∈ operands m, e.any Kind.isLogical = true ∨ Passive e

end Node
end Verif
