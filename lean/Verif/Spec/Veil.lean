import Verif.Spec.Hintable
/-
Programs that are the same except for code with an ignore-next hint.
-/
namespace Verif

/-- Lists that have related members except for some members that only one of them has. -/
inductive Thin (R : Node → Node → Prop) (D : Node → Prop) : List Node → List Node → Prop
  | nil : Thin R D [] []
  | keep {a b : Node} {as bs : List Node} (h : R a b) (t : Thin R D as bs) : Thin R D (a :: as) (b :: bs)
  | left {a : Node} {as bs : List Node} (h : D a) (t : Thin R D as bs) : Thin R D (a :: as) bs
  | right {b : Node} {as bs : List Node} (h : D b) (t : Thin R D as bs) : Thin R D as (b :: bs)

/-- Whether the parts of a node of kind `k` belong to an initialiser, if the node does so (`w`). What is inside a block does not
count as part of the initialiser that the block is in. -/
def Kind.inInit : Kind → Bool → Bool
  | .varDeclarator, _ | .classProp, _ | .privateProp, _ => true
  | .block, _ => false
  | _, w => w

/-- Whether the parts of a node of kind `k` belong to an operand of a logical expression or to a default value, if the node does
so (`l`). -/
def Kind.inOperand : Kind → Bool → Bool
  | .bin op, l => l || op.isLogical
  | .assignPat, _ => true
  | _, l => l

/-- A statement with an ignore-next hint; where it is part of an operand or a default value (`l`) there are no logical expressions in it. -/
def Spare (cx : Ctx) (l : Bool) (s : Node) : Prop := cx.hint s.span = some .next ∧ (l = true → s.any Kind.isLogical = false)

open Node in
/-- The same tree except inside constructs with an ignore-next hint, and except for statements of blocks and cases with such a hint, which
may be in one tree only (`os` says which statements belong together). Where the tree is part of an initialiser (`w`) there are blocks in these
constructs, and where it is part of an operand or a default value (`l`) there are no logical expressions in them. Blocks are no such constructs. -/
inductive Veil (cx : Ctx) : Bool → Bool → Node → Node → Prop
  | node {w l : Bool} {k : Kind} {sp : Span} {cs cs' : List Node} (hl : cs.length = cs'.length)
      (hc : ∀ (i : Nat) (c c' : Node), cs[i]? = some c → cs'[i]? = some c' → Veil cx (k.inInit w) (k.inOperand l) c c') :
      Veil cx w l (mk k sp cs) (mk k sp cs')
  | hinted {w l : Bool} {k : Kind} {sp : Span} {cs cs' : List Node} (hh : cx.hint sp = some .next) (hk : k ≠ .block)
      (h1 : (mk k sp cs).hintable = true) (h2 : (mk k sp cs').hintable = true)
      (hw : w = true → (mk k sp cs).any Kind.isBlock = true ∧ (mk k sp cs').any Kind.isBlock = true)
      (hg : l = true → (mk k sp cs).any Kind.isLogical = false ∧ (mk k sp cs').any Kind.isLogical = false) :
      Veil cx w l (mk k sp cs) (mk k sp cs')
  | block {w l : Bool} {sp : Span} {ss ss' : List Node} (os : List (Option Node × Option Node)) (h1 : ss = os.filterMap Prod.fst)
      (h2 : ss' = os.filterMap Prod.snd) (hc : ∀ a b, (some a, some b) ∈ os → Veil cx false l a b)
      (hd : ∀ a, (some a, none) ∈ os ∨ (none, some a) ∈ os → Spare cx l a) : Veil cx w l (mk .block sp ss) (mk .block sp ss')
  | case {l : Bool} {sp : Span} {t t' : Node} {ss ss' : List Node} (os : List (Option Node × Option Node)) (h1 : ss = os.filterMap Prod.fst)
      (h2 : ss' = os.filterMap Prod.snd) (ht : Veil cx false l t t') (hc : ∀ a b, (some a, some b) ∈ os → Veil cx false l a b)
      (hd : ∀ a, (some a, none) ∈ os ∨ (none, some a) ∈ os → Spare cx l a) :
      Veil cx false l (mk .switchCase sp (t :: ss)) (mk .switchCase sp (t' :: ss'))

/-- Programs that are the same except inside constructs with an ignore-next hint and for statements of blocks and cases with such a
hint. -/
def Veiled (cx : Ctx) (p q : Node) : Prop := Veil cx false false p q

/-- An item with an ignore-next hint at which hints are looked up. -/
def Spared (cx : Ctx) (i : Node) : Prop := cx.hint i.span = some .next ∧ i.hintable = true

/-- Items that are the same except for ignored code, and except for items with an ignore-next hint that may be in one program only. -/
def Items (cx : Ctx) (is is' : List Node) : Prop := Thin (Veiled cx) (Spared cx) is is'

end Verif
