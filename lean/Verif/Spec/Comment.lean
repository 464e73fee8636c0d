import Verif.Model.Types
/-
Reading the debug comment of an emitted program, as a JavaScript scanner and as `lastFileCoverage`
(/repo/spec/util/verifier.ts:77-91) do.
-/
namespace Verif.Comment

/-- What is before the first occurrence of `pat`, and what is after it. -/
def cut (pat : List Char) : List Char → Option (List Char × List Char)
  | [] => if pat = [] then some ([], []) else none
  | c :: l =>
    if pat.isPrefixOf (c :: l) then some ([], (c :: l).drop pat.length)
    else (cut pat l).map fun r => (c :: r.1, r.2)

/-- The end of a block comment. -/
def close : List Char := ['*', '/']

/-- What marks the debug comment. -/
def marker : List Char := "__coverage_data_json_comment__::".toList

/-- JavaScript: a block comment, from its two opening characters on; its text, and the program text after it. -/
def block : List Char → Option (List Char × List Char)
  | '/' :: '*' :: l => cut close l
  | _ => none

/-- The first line, and the others. -/
def lines : List Char → List Char × List (List Char)
  | [] => ([], [])
  | c :: l => if c = '\n' then ([], (lines l).1 :: (lines l).2) else (c :: (lines l).1, (lines l).2)

/-- `text.split(pat)[1]`. -/
def second (pat text : List Char) : Option (List Char) :=
  match cut pat text with
  | none => none
  | some (_, rest) =>
    match cut pat rest with
    | none => some rest
    | some (a, _) => some a

/-- verifier.ts:82-90: the text of the data in the emitted program. -/
def lastFileCoverage (code : List Char) : Option (List Char) :=
  match ((lines code).1 :: (lines code).2).find? fun l => (cut marker l).isSome with
  | none => none
  | some line =>
    match second marker line with
    | none => none
    | some rest => (cut close rest).map (·.1)

end Verif.Comment

namespace Verif

/-- The texts in the coverage data of a file. -/
def FileCoverage.texts (c : FileCoverage) : List String :=
  c.path :: c.fnMap.map (fun e => e.2.name) ++
    match c.inputSourceMap with
    | none => []
    | some m => m.mappings :: m.sources ++ m.names ++ m.file.toList ++ m.sourceRoot.toList ++
      (m.sourcesContent.getD []).filterMap id

end Verif
