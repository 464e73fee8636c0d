import Verif.Model.Js
import Verif.Model.Types
/-
Programs that mention the marker of coverage data, and what is left of coverage data when the texts of sources
that are not known are dropped.
-/
namespace Verif

namespace Js

mutual
/-- Does an object literal anywhere in the expression have the property `key` with the text `value`? -/
def Expr.mentions (key value : String) : Expr → Bool
  | .obj ps => ps.mentions key value
  | .arr es => es.mentions key value
  | .member o _ => o.mentions key value
  | .index o i => o.mentions key value || i.mentions key value
  | .call f args => f.mentions key value || args.mentions key value
  | .newFn t => t.mentions key value
  | .assign t v => t.mentions key value || v.mentions key value
  | .incr t => t.mentions key value
  | .and l r => l.mentions key value || r.mentions key value
  | .or l r => l.mentions key value || r.mentions key value
  | .not e => e.mentions key value
  | .ne l r => l.mentions key value || r.mentions key value
  | .cond t c a => t.mentions key value || c.mentions key value || a.mentions key value
  | .seq es => es.mentions key value
  | .paren e => e.mentions key value
  | .fn body => body.mentions key value
  | .str _ _ => false
  | .num _ => false
  | .bool _ => false
  | .null => false
  | .ident _ => false
  | .extern _ => false

/-- `Expr.mentions` for the properties of a literal. -/
def Props.mentions (key value : String) : Props → Bool
  | .nil => false
  | .cons k e ps =>
    (k == key && (match e with | .str v _ => v == value | _ => false)) || e.mentions key value || ps.mentions key value

/-- `Expr.mentions` for lists. -/
def Exprs.mentions (key value : String) : Exprs → Bool
  | .nil => false
  | .cons e es => e.mentions key value || es.mentions key value

/-- `Expr.mentions` for statements. -/
def Stmt.mentions (key value : String) : Stmt → Bool
  | .var _ e => e.mentions key value
  | .expr e => e.mentions key value
  | .ifThen c s => c.mentions key value || s.mentions key value
  | .block ss => ss.mentions key value
  | .ret e => e.mentions key value
  | .fnDecl _ body => body.mentions key value

/-- `Expr.mentions` for lists of statements. -/
def Stmts.mentions (key value : String) : Stmts → Bool
  | .nil => false
  | .cons s ss => s.mentions key value || ss.mentions key value
end

/-- Is there a declaration of the variable among these statements, not inside of them? -/
def Stmts.declares (x : String) : Stmts → Prop
  | .nil => False
  | .cons (.var y _) ss => y = x ∨ ss.declares x
  | .cons _ ss => ss.declares x

/-- One list of statements after the other. -/
def Stmts.append : Stmts → Stmts → Stmts
  | .nil, t => t
  | .cons a s, t => .cons a (append s t)

end Js

/-- A source map without the places of sources whose text is not known. -/
def SourceMap.withoutUnknown (m : SourceMap) : SourceMap :=
  { m with sourcesContent := m.sourcesContent.map (List.filter Option.isSome) }

/-- Coverage data with such a source map. -/
def FileCoverage.withoutUnknown (c : FileCoverage) : FileCoverage :=
  { c with inputSourceMap := c.inputSourceMap.map SourceMap.withoutUnknown }

/-- The text of every source is known. -/
def FileCoverage.TextsKnown (c : FileCoverage) : Prop :=
  ∀ m ∈ c.inputSourceMap, ∀ cs ∈ m.sourcesContent, none ∉ cs

end Verif
