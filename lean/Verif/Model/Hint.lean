/-
packages/swc-coverage-instrument/src/utils/hint_comments.rs
-/
namespace Verif

/-- The two character classes of the regular expressions: `\s` and `\w` (Unicode tables of the
`regex` crate; kept as parameters). -/
structure CharClasses where
  space : Char → Bool
  word : Char → Bool

/-- hint_comments.rs:84-89 `IgnoreScope`. -/
inductive IgnoreScope where
  | next | «if» | «else»
deriving DecidableEq, Repr

/-- Source position (`BytePos`; 0 is the dummy position). -/
abbrev BytePos := Nat

/-- `swc_common::Span`: start and end position. `Span.dummy` is `DUMMY_SP`. -/
structure Span where
  lo : BytePos
  hi : BytePos
deriving DecidableEq, Repr

/-- `DUMMY_SP`. -/
def Span.dummy : Span := ⟨0, 0⟩

/-- `Comments::get_leading` / `get_trailing`: the texts of the comments attached to a position.
(`None` and an empty vector are treated alike by the code.) -/
structure Comments where
  leading : BytePos → List (List Char)
  trailing : BytePos → List (List Char)

namespace Hint
variable (cc : CharClasses)

/-- `\s*`, greedy. -/
def skipSpace : List Char → List Char
  | [] => []
  | c :: cs => if cc.space c then skipSpace cs else c :: cs

/-- A literal prefix. -/
def literal : List Char → List Char → Option (List Char)
  | [], cs => some cs
  | _ :: _, [] => none
  | p :: ps, c :: cs => if p = c then literal ps cs else none

/-- `\s+`, greedy. -/
def someSpace : List Char → Option (List Char)
  | [] => none
  | c :: cs => if cc.space c then some (skipSpace cc cs) else none

/-- `(\W|$)`. -/
def boundary : List Char → Bool
  | [] => true
  | c :: _ => !cc.word c

/-- The common part of both patterns: `^\s*istanbul\s+ignore\s+`. -/
def hintPrefix (cs : List Char) : Option (List Char) :=
  match literal "istanbul".toList (skipSpace cc cs) with
  | none => none
  | some r1 =>
    match someSpace cc r1 with
    | none => none
    | some r2 =>
      match literal "ignore".toList r2 with
      | none => none
      | some r3 => someSpace cc r3

/-- One alternative of the capture group followed by `(\W|$)`. -/
def keyword (kw : List Char) (cs : List Char) : Bool :=
  match literal kw cs with
  | none => false
  | some rest => boundary cc rest

/-- hint_comments.rs:15-16 `COMMENT_FILE_REGEX.is_match`. -/
def isFileHint (text : List Char) : Bool :=
  match hintPrefix cc text with
  | none => false
  | some rest => keyword cc "file".toList rest

/-- hint_comments.rs:19-20 `COMMENT_RE.captures(..).get(1)`: the alternatives are tried in order. -/
def captureHint (text : List Char) : Option (List Char) :=
  match hintPrefix cc text with
  | none => none
  | some rest =>
    if keyword cc "if".toList rest then some "if".toList
    else if keyword cc "else".toList rest then some "else".toList
    else if keyword cc "next".toList rest then some "next".toList
    else none

/-- hint_comments.rs:48-82 `lookup_hint_comments` for a present span: comments leading the end
position first, then those leading the start position. -/
def lookup (comments : Comments) (sp : Span) : Option (List Char) :=
  match (comments.leading sp.hi).findSome? (captureHint cc) with
  | some h => some h
  | none => (comments.leading sp.lo).findSome? (captureHint cc)

/-- hint_comments.rs:91-107 `should_ignore`. -/
def shouldIgnore (comments : Comments) (sp : Span) : Option IgnoreScope :=
  match lookup cc comments sp with
  | none => none
  | some h =>
    if h = "next".toList then some .next
    else if h = "if".toList then some .if
    else if h = "else".toList then some .else
    else none

/-- hint_comments.rs:22-46 `should_ignore_file`; the span is that of the program. -/
def shouldIgnoreFile (comments : Comments) (sp : Span) : Bool :=
  [comments.leading sp.lo, comments.leading sp.hi, comments.trailing sp.lo, comments.trailing sp.hi].any
    fun cs => cs.any (isFileHint cc)

end Hint
end Verif
