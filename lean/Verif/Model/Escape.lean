import Verif.Model.Utf
/-
Printing strings as quoted, escaped literals and reading them back.  Characters are bytes (naturals):
34 '"', 39 '\'', 47 '/', 63 '?', 92 '\\', 98 'b', 102 'f', 110 'n', 114 'r', 116 't', 117 'u', 85 'U'.
-/
namespace Dynd

/-- `hexadecimal[v]`: /repo/src/dynd/type.cpp:560-564. -/
def hexDigit (v : Nat) : Nat := if v < 10 then 48 + v else 87 + v

/-- `hexadecimal_print(o, char)`: type.cpp:560-564. -/
def hexByte (v : Nat) : List Nat := [hexDigit (v >>> 4), hexDigit (v &&& 0x0f)]

/-- `hexadecimal_print(o, unsigned short)`: type.cpp:568-572. -/
def hex16 (v : Nat) : List Nat := hexByte ((v >>> 8) &&& 0xff) ++ hexByte (v &&& 0xff)

/-- `hexadecimal_print(o, unsigned int)`: type.cpp:574-580. -/
def hex32 (v : Nat) : List Nat :=
  hexByte ((v >>> 24) &&& 0xff) ++ hexByte ((v >>> 16) &&& 0xff) ++ hexByte ((v >>> 8) &&& 0xff) ++ hexByte (v &&& 0xff)

/-- `print_escaped_unicode_codepoint`: /repo/src/dynd/string_encodings.cpp:412-454. -/
def printEscapedCp (cp : Nat) (singleQuote : Bool) : List Nat :=
  if cp < 0x80 then
    if cp = 8 then [92, 98]
    else if cp = 12 then [92, 102]
    else if cp = 10 then [92, 110]
    else if cp = 13 then [92, 114]
    else if cp = 9 then [92, 116]
    else if cp = 92 then [92, 92]
    else if cp = 39 then (if singleQuote then [92, 39] else [39])
    else if cp = 34 then (if singleQuote then [34] else [92, 34])
    else if cp < 0x20 ∨ cp = 0x7f then [92, 117] ++ hex16 (cp % 65536)
    else [cp]
  else if cp < 0x10000 then [92, 117] ++ hex16 (cp % 65536)
  else [92, 85] ++ hex32 cp

/-- Loop of `print_escaped_utf8_string`: string_encodings.cpp:461-464. -/
def printEscapedLoop (singleQuote : Bool) : Nat → List Nat → Res (List Nat)
  | _, [] => .ok []
  | 0, _ :: _ => .ub
  | fuel + 1, us => do
    let (cp, rest) ← nextUtf8 us
    let r ← printEscapedLoop singleQuote fuel rest
    pure (printEscapedCp cp singleQuote ++ r)

/-- `print_escaped_utf8_string`: string_encodings.cpp:456-466. -/
def printEscapedUtf8 (us : List Nat) (singleQuote : Bool) : Res (List Nat) := do
  let q := if singleQuote then 39 else 34
  let r ← printEscapedLoop singleQuote us.length us
  pure ([q] ++ r ++ [q])

/-- Hexadecimal digit value, as tested in parse_util.cpp:166-174 and 101. -/
def hexVal (d : Nat) : Option Nat :=
  if 48 ≤ d ∧ d ≤ 57 then some (d - 48)
  else if 65 ≤ d ∧ d ≤ 70 then some (d - 65 + 10)
  else if 97 ≤ d ∧ d ≤ 102 then some (d - 97 + 10)
  else none

/-- Digit loop of `unescape_string`: /repo/src/dynd/parse_util.cpp:163-176: a wrong digit sets `cp = '?'`. -/
def hexFold (cp : Nat) : List Nat → Nat
  | [] => cp
  | d :: ds =>
    match hexVal d with
    | some v => hexFold ((cp * 16 + v) % 4294967296) ds
    | none => hexFold 63 ds

/-- `unescape_string`: /repo/src/dynd/parse_util.cpp:130-206.  `fuel` bounds the number of loop iterations. -/
def unescapeLoop : Nat → List Nat → Res (List Nat)
  | _, [] => .ok []
  | 0, _ :: _ => .ub
  | fuel + 1, c :: s =>
    if c = 92 then
      match s with
      | [] => .ok []
      | c :: s =>
        if c = 34 ∨ c = 92 ∨ c = 47 then do let r ← unescapeLoop fuel s; pure (c :: r)
        else if c = 98 then do let r ← unescapeLoop fuel s; pure (8 :: r)
        else if c = 102 then do let r ← unescapeLoop fuel s; pure (12 :: r)
        else if c = 110 then do let r ← unescapeLoop fuel s; pure (10 :: r)
        else if c = 114 then do let r ← unescapeLoop fuel s; pure (13 :: r)
        else if c = 116 then do let r ← unescapeLoop fuel s; pure (9 :: r)
        else if c = 117 then
          if s.length < 4 then .ok []
          else do
            let a ← utf8Append (hexFold 0 (s.take 4))
            let r ← unescapeLoop fuel (s.drop 4)
            pure (a ++ r)
        else if c = 85 then
          if s.length < 8 then .ok []
          else do
            let a ← utf8Append (hexFold 0 (s.take 8))
            let r ← unescapeLoop fuel (s.drop 8)
            pure (a ++ r)
        else do let r ← unescapeLoop fuel s; pure (63 :: r)
    else do let r ← unescapeLoop fuel s; pure (c :: r)

/-- `unescape_string`. -/
def unescape (s : List Nat) : Res (List Nat) := unescapeLoop s.length s

/-- Loop of `parse_doublequote_string_no_ws`: parse_util.cpp:72-127.  Result: text between the quotes, whether it
    contains escapes, and what follows the closing quote. -/
def scanQuoted : Nat → List Nat → Res (List Nat × Bool × List Nat)
  | _, [] => .throw .parse
  | 0, _ :: _ => .ub
  | fuel + 1, c :: s =>
    if c = 92 then
      match s with
      | [] => .throw .parse
      | d :: s =>
        if d = 34 ∨ d = 92 ∨ d = 47 ∨ d = 98 ∨ d = 102 ∨ d = 110 ∨ d = 114 ∨ d = 116 then do
          let (i, _, rest) ← scanQuoted fuel s
          pure (c :: d :: i, true, rest)
        else if d = 117 then
          if s.length < 4 then .throw .parse
          else if (s.take 4).all (fun d => (hexVal d).isSome) then do
            let (i, _, rest) ← scanQuoted fuel (s.drop 4)
            pure (c :: d :: s.take 4 ++ i, true, rest)
          else .throw .parse
        else if d = 85 then
          if s.length < 8 then .throw .parse
          else if (s.take 8).all (fun d => (hexVal d).isSome) then do
            let (i, _, rest) ← scanQuoted fuel (s.drop 8)
            pure (c :: d :: s.take 8 ++ i, true, rest)
          else .throw .parse
        else .throw .parse
    else if c = 34 then .ok ([], false, s)
    else do
      let (i, e, rest) ← scanQuoted fuel s
      pure (c :: i, e, rest)

/-- `parse_doublequote_string_no_ws`: parse_util.cpp:65-128; `none` when the next character is not a quote. -/
def parseDoublequote (s : List Nat) : Res (Option (List Nat × Bool × List Nat)) :=
  match s with
  | 34 :: s => do let r ← scanQuoted s.length s; pure (some r)
  | _ => .ok none

/-- How every caller reads a double-quoted string (e.g. /repo/src/dynd/json_parser.cpp:409-420): unescape only when
    the scanner reported escapes. -/
def readDoublequote (s : List Nat) : Res (Option (List Nat × List Nat)) := do
  match ← parseDoublequote s with
  | none => pure none
  | some (i, esc, rest) =>
    if esc then do let v ← unescape i; pure (some (v, rest))
    else pure (some (i, rest))

/-- Loop of `datashape::parse_quoted_string`: parse_util.cpp:425-487. -/
def dsQuotedLoop (q : Nat) : Nat → List Nat → Res (List Nat × List Nat)
  | _, [] => .throw .parse
  | 0, _ :: _ => .ub
  | fuel + 1, c :: s =>
    if c = 92 then
      match s with
      | [] => .throw .parse
      | c :: s =>
        if c = 34 ∨ c = 39 ∨ c = 92 ∨ c = 47 then do let (v, r) ← dsQuotedLoop q fuel s; pure (c :: v, r)
        else if c = 98 then do let (v, r) ← dsQuotedLoop q fuel s; pure (8 :: v, r)
        else if c = 102 then do let (v, r) ← dsQuotedLoop q fuel s; pure (12 :: v, r)
        else if c = 110 then do let (v, r) ← dsQuotedLoop q fuel s; pure (10 :: v, r)
        else if c = 114 then do let (v, r) ← dsQuotedLoop q fuel s; pure (13 :: v, r)
        else if c = 116 then do let (v, r) ← dsQuotedLoop q fuel s; pure (9 :: v, r)
        else if c = 117 then
          if s.length < 4 then .throw .parse
          else if (s.take 4).all (fun d => (hexVal d).isSome) then do
            let a ← utf8Append (hexFold 0 (s.take 4))
            let (v, r) ← dsQuotedLoop q fuel (s.drop 4)
            pure (a ++ v, r)
          else .throw .parse
        else .throw .parse
    else if c ≠ q then do let (v, r) ← dsQuotedLoop q fuel s; pure (c :: v, r)
    else .ok ([], s)

/-- `datashape::parse_quoted_string`: parse_util.cpp:414-488 (leading whitespace and comments not modelled). -/
def dsQuoted (s : List Nat) : Res (Option (List Nat × List Nat)) :=
  match s with
  | 39 :: s => do let r ← dsQuotedLoop 39 s.length s; pure (some r)
  | 34 :: s => do let r ← dsQuotedLoop 34 s.length s; pure (some r)
  | _ => .ok none

end Dynd
