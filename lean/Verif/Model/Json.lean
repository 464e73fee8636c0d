/-
Trees of plain data and their text form, as written by `serde_json::to_string` and read by
`serde_json::from_str` (a dependency of /repo, Cargo.toml:23; used in create_coverage_fn_decl.rs:83-89 for the
hash and the debug comment and in packages/swc-plugin-coverage/src/lib.rs:67 for the options).
-/
namespace Verif

/-- Trees of plain data: JSON values, and the plain values of JavaScript. A number that is not a natural
number is kept as its text, nothing in /repo looks at its value. -/
inductive Data where
  | null
  | bool (b : Bool)
  | num (n : Nat)
  | real (text : List Char)
  | str (s : String)
  | arr (l : List Data)
  | obj (fields : List (String × Data))

namespace Json

/-- A hexadecimal digit, lower case. -/
def hexDigit (n : Nat) : Char := if n < 10 then Char.ofNat (48 + n) else Char.ofNat (87 + n)

/-- serde_json `format_escaped_str_contents`, `ESCAPE`: how a character is written inside a string. -/
def escapeChar (c : Char) : List Char :=
  if c = '"' then ['\\', '"']
  else if c = '\\' then ['\\', '\\']
  else if c = Char.ofNat 8 then ['\\', 'b']
  else if c = Char.ofNat 12 then ['\\', 'f']
  else if c = '\n' then ['\\', 'n']
  else if c = '\r' then ['\\', 'r']
  else if c = '\t' then ['\\', 't']
  else if c.toNat < 32 then ['\\', 'u', '0', '0', hexDigit (c.toNat / 16), hexDigit (c.toNat % 16)]
  else [c]

/-- The inside of a string. -/
def escaped : List Char → List Char
  | [] => []
  | c :: l => escapeChar c ++ escaped l

/-- A string with its quotes. -/
def quoted (s : String) : List Char := '"' :: escaped s.toList ++ ['"']

mutual
/-- serde_json `to_string` (`CompactFormatter`): no white space. -/
def print : Data → List Char
  | .null => ['n', 'u', 'l', 'l']
  | .bool true => ['t', 'r', 'u', 'e']
  | .bool false => ['f', 'a', 'l', 's', 'e']
  | .num n => Nat.toDigits 10 n
  | .real t => t
  | .str s => quoted s
  | .arr l => '[' :: printItems l ++ [']']
  | .obj fs => '{' :: printFields fs ++ ['}']

/-- The elements of an array, separated by commas. -/
def printItems : List Data → List Char
  | [] => []
  | d :: l => print d ++ printMoreItems l

/-- The elements after the first one. -/
def printMoreItems : List Data → List Char
  | [] => []
  | d :: l => ',' :: print d ++ printMoreItems l

/-- The members of an object, separated by commas. -/
def printFields : List (String × Data) → List Char
  | [] => []
  | (k, d) :: l => quoted k ++ ':' :: print d ++ printMoreFields l

/-- The members after the first one. -/
def printMoreFields : List (String × Data) → List Char
  | [] => []
  | (k, d) :: l => ',' :: quoted k ++ ':' :: print d ++ printMoreFields l
end

/-- serde_json `parse_whitespace`. -/
def isSpace (c : Char) : Bool := c = ' ' || c = '\n' || c = '\t' || c = '\r'

/-- Skips white space. -/
def skip : List Char → List Char
  | [] => []
  | c :: l => if isSpace c then skip l else c :: l

/-- serde_json `parse_ident`: the rest of a keyword. -/
def keyword (d : Data) : List Char → List Char → Option (Data × List Char)
  | [], l => some (d, l)
  | _ :: _, [] => none
  | k :: ks, c :: l => if c = k then keyword d ks l else none

/-- A hexadecimal digit, either case. -/
def hexValue (c : Char) : Option Nat :=
  if '0' ≤ c && c ≤ '9' then some (c.toNat - 48)
  else if 'a' ≤ c && c ≤ 'f' then some (c.toNat - 87)
  else if 'A' ≤ c && c ≤ 'F' then some (c.toNat - 55)
  else none

/-- serde_json `decode_hex_escape`. -/
def hex4 (a b c d : Char) : Option Nat :=
  match hexValue a, hexValue b, hexValue c, hexValue d with
  | some a, some b, some c, some d => some (((a * 16 + b) * 16 + c) * 16 + d)
  | _, _, _, _ => none

/-- serde_json `parse_escape`: the escapes of one character. -/
def unescape (c : Char) : Option Char :=
  if c = '"' then some '"'
  else if c = '\\' then some '\\'
  else if c = '/' then some '/'
  else if c = 'b' then some (Char.ofNat 8)
  else if c = 'f' then some (Char.ofNat 12)
  else if c = 'n' then some '\n'
  else if c = 'r' then some '\r'
  else if c = 't' then some '\t'
  else none

/-- What the beginning of an escape sequence amounts to. -/
inductive Escape where
  | more
  | bad
  | char (c : Char)

/-- serde_json `parse_escape`, `parse_unicode_escape`: an escape sequence, from the backslash on. -/
def escape : List Char → Escape
  | [_, e] =>
    if e = 'u' then .more
    else
      match unescape e with
      | none => .bad
      | some c => .char c
  | [_, _, a, b, c, d] =>
    match hex4 a b c d with
    | none => .bad
    | some n =>
      if 0xDC00 ≤ n ∧ n ≤ 0xDFFF then .bad
      else if 0xD800 ≤ n ∧ n ≤ 0xDBFF then .more
      else .char (Char.ofNat n)
  | [_, _, _, _, _, _, x] => if x = '\\' then .more else .bad
  | [_, _, _, _, _, _, _, y] => if y = 'u' then .more else .bad
  | [_, _, a, b, c, d, _, _, e, f, g, h] =>
    match hex4 a b c d, hex4 e f g h with
    | some n, some m =>
      if 0xDC00 ≤ m ∧ m ≤ 0xDFFF then .char (Char.ofNat ((n - 0xD800) * 1024 + (m - 0xDC00) + 0x10000))
      else .bad
    | _, _ => .bad
  | _ => .more

/-- serde_json `parse_str_bytes`: the rest of a string after the opening quote, and the text after it. `pending`
is an escape sequence that has begun. -/
def readStr (pending : List Char) : List Char → Option (List Char × List Char)
  | [] => none
  | c :: l =>
    if pending ≠ [] then
      match escape (pending ++ [c]) with
      | .more => readStr (pending ++ [c]) l
      | .bad => none
      | .char d => (readStr [] l).map fun r => (d :: r.1, r.2)
    else if c = '"' then some ([], l)
    else if c = '\\' then readStr [c] l
    else if c.toNat < 32 then none
    else (readStr [] l).map fun r => (c :: r.1, r.2)

/-- A decimal digit. -/
def isDigit (c : Char) : Bool := c.isDigit

/-- The digits at the start of a text, and what is left. -/
def digits : List Char → List Char × List Char
  | [] => ([], [])
  | c :: l => if isDigit c then (c :: (digits l).1, (digits l).2) else ([], c :: l)

/-- serde_json `parse_decimal`: nothing, or a dot and digits. -/
def fraction : List Char → Option (List Char × List Char)
  | c :: l =>
    if c = '.' then
      match digits l with
      | ([], _) => none
      | (ds, l) => some ('.' :: ds, l)
    else some ([], c :: l)
  | [] => some ([], [])

/-- serde_json `parse_exponent`: nothing, or an exponent. -/
def exponent : List Char → Option (List Char × List Char)
  | c :: l =>
    if c = 'e' ∨ c = 'E' then
      match l with
      | [] => none
      | s :: l' =>
        match (if s = '+' ∨ s = '-' then digits l' else digits (s :: l')) with
        | ([], _) => none
        | (ds, r) => some (c :: (if s = '+' ∨ s = '-' then [s] else []) ++ ds, r)
    else some ([], c :: l)
  | [] => some ([], [])

/-- serde_json `parse_integer`, `parse_number`: a number without sign; a number with neither fraction nor
exponent is a natural number. -/
def number (l : List Char) : Option (Data × List Char) :=
  match digits l with
  | ([], _) => none
  | (d :: ds, l) =>
    if d = '0' ∧ ds ≠ [] then none
    else
      match fraction l with
      | none => none
      | some (fr, l) =>
        match exponent l with
        | none => none
        | some (ex, l) =>
          if fr = [] ∧ ex = [] then some (.num (Nat.ofDigitChars 10 (d :: ds) 0), l)
          else some (.real (d :: ds ++ fr ++ ex), l)

/-- A number with a sign. -/
def negative (l : List Char) : Option (Data × List Char) :=
  match number l with
  | some (.num n, l) => some (.real ('-' :: Nat.toDigits 10 n), l)
  | some (.real t, l) => some (.real ('-' :: t), l)
  | _ => none

mutual
/-- serde_json `deserialize_any`: one value, and the text after it. `depth` is `remaining_depth`: arrays and
objects may be nested 127 deep. `fuel` is a bound for the recursion, the length of the text is enough. -/
def value : (fuel depth : Nat) → List Char → Option (Data × List Char)
  | 0, _, _ => none
  | fuel + 1, depth, text =>
    match skip text with
    | [] => none
    | c :: l =>
      if c = 'n' then keyword .null ['u', 'l', 'l'] l
      else if c = 't' then keyword (.bool true) ['r', 'u', 'e'] l
      else if c = 'f' then keyword (.bool false) ['a', 'l', 's', 'e'] l
      else if c = '-' then negative l
      else if isDigit c then number (c :: l)
      else if c = '"' then (readStr [] l).map fun r => (.str (String.ofList r.1), r.2)
      else if c = '[' then
        if depth ≤ 1 then none
        else
          match skip l with
          | [] => none
          | d :: l =>
            if d = ']' then some (.arr [], l)
            else (items fuel (depth - 1) (d :: l)).map fun r => (.arr r.1, r.2)
      else if c = '{' then
        if depth ≤ 1 then none
        else
          match skip l with
          | [] => none
          | d :: l =>
            if d = '}' then some (.obj [], l)
            else (fields fuel (depth - 1) (d :: l)).map fun r => (.obj r.1, r.2)
      else none

/-- serde_json `SeqAccess`: elements, separated by commas, up to the bracket. -/
def items : (fuel depth : Nat) → List Char → Option (List Data × List Char)
  | 0, _, _ => none
  | fuel + 1, depth, text =>
    match value fuel depth text with
    | none => none
    | some (d, text) =>
      match skip text with
      | [] => none
      | c :: l =>
        if c = ']' then some ([d], l)
        else if c = ',' then (items fuel depth l).map fun r => (d :: r.1, r.2)
        else none

/-- serde_json `MapAccess`: members, separated by commas, up to the brace. -/
def fields : (fuel depth : Nat) → List Char → Option (List (String × Data) × List Char)
  | 0, _, _ => none
  | fuel + 1, depth, text =>
    match skip text with
    | [] => none
    | q :: l =>
      if q = '"' then
        match readStr [] l with
        | none => none
        | some (k, l) =>
          match skip l with
          | [] => none
          | c :: l =>
            if c = ':' then
              match value fuel depth l with
              | none => none
              | some (d, text) =>
                match skip text with
                | [] => none
                | c :: l =>
                  if c = '}' then some ([(String.ofList k, d)], l)
                  else if c = ',' then (fields fuel depth l).map fun r => ((String.ofList k, d) :: r.1, r.2)
                  else none
            else none
      else none
end

/-- serde_json `from_str`, `Deserializer::end`: a value and nothing after it but white space. -/
def parse (text : String) : Option Data :=
  match value text.toList.length 128 text.toList with
  | none => none
  | some (d, rest) => if skip rest = [] then some d else none

/-- serde_json `to_string`. -/
def text (d : Data) : String := String.ofList (print d)

end Json
end Verif
