import Verif.Model.Escape
import Verif.Model.Ints
import Verif.Model.Option
/-
Reading and writing JSON: `/repo/src/dynd/json_formatter.cpp`, `/repo/src/dynd/json_parser.cpp` and the helpers they
use from `/repo/include/dynd/parse_util.hpp` and `/repo/src/dynd/parse_util.cpp`.

Characters are bytes.  34 '"', 44 ',', 45 '-', 46 '.', 58 ':', 91 '[', 93 ']', 123 '{', 125 '}'.
The error mode is the default one (anything but `assign_error_nocheck`).  Where a parse error occurred is not carried by
the exception; `get_error_line_column`, which turns a position into a line and a column, is modelled at the end.
-/
namespace Dynd

/-! ### lexical helpers -/

/-- `skip_whitespace`: /repo/include/dynd/parse_util.hpp:213-220. -/
def jWs (s : List Nat) : List Nat := s.dropWhile isSpace

/-- `parse_token(begin, end, "...")`: parse_util.hpp:291-302 (and the one-character overload, 315-324).
    `none`: no match, nothing consumed. -/
def jTok (tok s : List Nat) : Option (List Nat) :=
  if tok.isPrefixOf (jWs s) then some ((jWs s).drop tok.length) else none

/-- The integer part of `json::parse_number`: /repo/src/dynd/parse_util.cpp:220-233. -/
def jInt : List Nat → Option (List Nat × List Nat)
  | [] => none
  | c :: s =>
    if c = 48 then some ([48], s)
    else if 49 ≤ c ∧ c ≤ 57 then some (c :: s.takeWhile isDig, s.dropWhile isDig)
    else none

/-- The fraction of `json::parse_number`: parse_util.cpp:234-246. -/
def jFrac : List Nat → Option (List Nat × List Nat)
  | [] => some ([], [])
  | c :: s =>
    if c = 46 then
      match s with
      | [] => none
      | d :: s => if isDig d then some (46 :: d :: s.takeWhile isDig, s.dropWhile isDig) else none
    else some ([], c :: s)

/-- The sign of an exponent: parse_util.cpp:252-257 (`none`: the text ends after the sign). -/
def jExpSign : List Nat → Option (List Nat × List Nat)
  | [] => none
  | c :: s => if c = 43 ∨ c = 45 then (if s = [] then none else some ([c], s)) else some ([], c :: s)

/-- The exponent of `json::parse_number`: parse_util.cpp:247-266. -/
def jExp : List Nat → Option (List Nat × List Nat)
  | [] => some ([], [])
  | c :: s =>
    if c = 101 ∨ c = 69 then
      match jExpSign s with
      | none => none
      | some (_, []) => none
      | some (g, d :: s) => if isDig d then some (c :: g ++ d :: s.takeWhile isDig, s.dropWhile isDig) else none
    else some ([], c :: s)

/-- Optional minus sign: parse_util.cpp:216-219. -/
def jMinus : List Nat → List Nat × List Nat
  | [] => ([], [])
  | c :: s => if c = 45 then ([45], s) else ([], c :: s)

/-- `json::parse_number`: parse_util.cpp:211-271.  The text of the number and what follows it. -/
def jNumber (s : List Nat) : Option (List Nat × List Nat) := do
  let (i, s2) ← jInt (jMinus s).2
  let (f, s3) ← jFrac s2
  let (e, s4) ← jExp s3
  pure ((jMinus s).1 ++ i ++ f ++ e, s4)

/-- "true" -/
def litTrue : List Nat := [116, 114, 117, 101]
/-- "false" -/
def litFalse : List Nat := [102, 97, 108, 115, 101]
/-- "null" -/
def litNull : List Nat := [110, 117, 108, 108]

/-! ### skipping and validating -/

/-- `if (!parse_token(begin, end, "...")) throw ...` -/
def needTok (tok s : List Nat) : Res (List Nat) :=
  match jTok tok s with
  | some r => .ok r
  | none => .throw .parse

mutual
/-- `skip_json_value`: /repo/src/dynd/json_parser.cpp:77-165.  `fuel` bounds recursion and iterations. -/
def skipVal : Nat → List Nat → Res (List Nat)
  | 0, _ => .ub
  | fuel + 1, s =>
    match jWs s with
    | [] => .throw .parse
    | c :: r =>
      if c = 123 then
        match jTok [125] r with
        | some r => .ok r
        | none => skipMembers fuel r
      else if c = 91 then
        match jTok [93] r with
        | some r => .ok r
        | none => skipElems fuel r
      else if c = 34 then do
        match ← parseDoublequote (c :: r) with
        | some (_, _, r) => pure r
        | none => .throw .parse
      else if c = 116 then needTok litTrue (c :: r)
      else if c = 102 then needTok litFalse (c :: r)
      else if c = 110 then needTok litNull (c :: r)
      else if c = 45 ∨ isDig c = true then
        match jNumber (c :: r) with
        | some (_, r) => .ok r
        | none => .throw .parse
      else .throw .parse
/-- The loop over the members of an object: json_parser.cpp:88-109. -/
def skipMembers : Nat → List Nat → Res (List Nat)
  | 0, _ => .ub
  | fuel + 1, s => do
    match ← parseDoublequote (jWs s) with
    | none => .throw .parse
    | some (_, _, s) =>
      let s ← needTok [58] s
      let s ← skipVal fuel s
      match jTok [44] s with
      | some s => skipMembers fuel s
      | none => needTok [125] s
/-- The loop over the elements of an array: json_parser.cpp:114-125. -/
def skipElems : Nat → List Nat → Res (List Nat)
  | 0, _ => .ub
  | fuel + 1, s => do
    let s ← skipVal fuel s
    match jTok [44] s with
    | some s => skipElems fuel s
    | none => needTok [93] s
end

/-- `skip_json_value` with fuel that is never exhausted. -/
def skipJson (s : List Nat) : Res (List Nat) := skipVal (2 * s.length + 2) s

/-- `validate_json`: json_parser.cpp:680-701. -/
def validateJson (s : List Nat) : Res Unit := do
  let r ← skipJson s
  if jWs r = [] then pure () else .throw .parse

/-! ### types and values -/

/-- The types JSON is read into and written from.  Names are UTF-8.  Floating point, complex, `int128` output,
    `fixed_string`, and `type` values are not modelled (except that reading `int128` raises). -/
inductive JTy where
  | bool
  | int (t : IntTy)
  | string
  | option (t : JTy)
  | struct (names : List (List Nat)) (tys : List JTy)
  | tuple (tys : List JTy)
  | fixed (n : Nat) (t : JTy)
  | var (t : JTy)

/-- The contents of memory holding a value.  An `option[T]` shares the memory of its `T` (the missing value is a
    distinguished `T`).  `undef`: memory not written yet. -/
inductive JVal where
  | undef
  | bool (b : Nat)
  | int (x : Int)
  | str (s : List Nat)
  | tup (vs : List JVal)
  | arr (vs : List JVal)

/-! ### writing -/

/-- `output_data`: the text written so far and the capacity of the buffer. json_formatter.cpp:18-21. -/
structure Out where
  data : List Nat
  cap : Nat

/-- `ensure_capacity`: json_formatter.cpp:23-37. -/
def Out.ensure (o : Out) (n : Nat) : Out :=
  if o.cap - o.data.length < n then
    { o with cap := if 2 * o.cap < o.data.length + n then o.data.length + n else 2 * o.cap }
  else o

/-- Storing bytes at `out_end`; past the end of the buffer is out of bounds. -/
def Out.store (o : Out) (bs : List Nat) : Res Out :=
  if o.data.length + bs.length ≤ o.cap then .ok { o with data := o.data ++ bs } else .ub

/-- `write`: json_formatter.cpp:39-64. -/
def Out.write (o : Out) (bs : List Nat) : Res Out := (o.ensure bs.length).store bs

/-- `print_escaped_unicode_codepoint`: json_formatter.cpp:89-130. -/
def fmtCp (cp : Nat) (o : Out) : Res Out :=
  if cp < 0x80 then
    if cp = 8 then o.write [92, 98]
    else if cp = 12 then o.write [92, 102]
    else if cp = 10 then o.write [92, 110]
    else if cp = 13 then o.write [92, 114]
    else if cp = 9 then o.write [92, 116]
    else if cp = 92 then o.write [92, 92]
    else if cp = 47 then o.write [92, 47]
    else if cp = 34 then o.write [92, 34]
    else if cp < 0x20 ∨ cp = 0x7f then o.write ([92, 117] ++ hex16 (cp % 65536))
    else o.write [cp % 256]
  else do
    let o := o.ensure 16
    let bs ← noerrorAppendUtf8 cp (o.cap - o.data.length)
    o.store bs

/-- Loop of `format_json_encoded_string` (UTF-8): json_formatter.cpp:154-157. -/
def fmtStrLoop : Nat → List Nat → Out → Res Out
  | _, [], o => .ok o
  | 0, _ :: _, _ => .ub
  | fuel + 1, us, o => do
    let (cp, rest) ← noerrorNextUtf8 us
    let o ← fmtCp cp o
    fmtStrLoop fuel rest o

/-- `format_json_encoded_string`: json_formatter.cpp:145-159. -/
def fmtStr (us : List Nat) (o : Out) : Res Out := do
  let o ← o.write [34]
  let o ← fmtStrLoop us.length us o
  o.write [34]

/-- `old_is_avail`: /repo/src/dynd/option.cpp:75-87, option_type.cpp:53-82; for `string` the `is_na` kernel. -/
def jIsAvail : JTy → JVal → Res Bool
  | .bool, .bool b => .ok (isAvailBuiltin .bool b)
  | .int t, .int x => .ok (isAvailBuiltin (.int t) x)
  | .string, .str _ => .ok true
  | .bool, _ => .ub
  | .int _, _ => .ub
  | .string, _ => .ub
  | _, _ => .throw .unmodelled

/-- The element loops of `format_json_dim` and of a struct written as a list: json_formatter.cpp:206-213, 240-246,
    257-263. -/
def fmtSeq : List (Out → Res Out) → Out → Res Out
  | [], o => .ok o
  | [f], o => f o
  | f :: fs, o => do
    let o ← f o
    let o ← o.write [44]
    fmtSeq fs o

/-- `"name":` followed by the value: json_formatter.cpp:219-222. -/
def fmtField (name : List Nat) (f : Out → Res Out) (o : Out) : Res Out := do
  let o ← fmtStr name o
  let o ← o.write [58]
  f o

/-- `[...]` or `{...}` -/
def fmtBracket (l r : Nat) (fs : List (Out → Res Out)) (o : Out) : Res Out := do
  let o ← o.write [l]
  let o ← fmtSeq fs o
  o.write [r]

mutual
/-- `format_json`: json_formatter.cpp:276-321 with the functions it dispatches to (70-90, 161-178, 198-273).  A value that
    is not of the type (or unwritten memory) is undefined. -/
def fj (sal : Bool) : JTy → JVal → Out → Res Out
  | .bool, v, o => match v with
    | .bool b => o.write (if b ≠ 0 then litTrue else litFalse)
    | _ => .ub
  | .int _, v, o => match v with
    | .int x => o.write (printInt x)
    | _ => .ub
  | .string, v, o => match v with
    | .str s => fmtStr s o
    | _ => .ub
  | .option t, v, o => do
    if ← jIsAvail t v then fj sal t v o else o.write litNull
  | .struct ns ts, v, o => match v with
    | .tup vs =>
      if vs.length ≠ ts.length ∨ ns.length ≠ ts.length then .ub
      else if sal then fmtBracket 91 93 (List.zipWith (fun f v => f v) (fjs sal ts) vs) o
      else fmtBracket 123 125 (List.zipWith fmtField ns (List.zipWith (fun f v => f v) (fjs sal ts) vs)) o
    | _ => .ub
  | .tuple _, _, _ => .throw .runtime
  | .fixed n t, v, o => match v with
    | .arr vs => if vs.length ≠ n then .ub else fmtBracket 91 93 (vs.map (fun v => fj sal t v)) o
    | _ => .ub
  | .var t, v, o => match v with
    | .arr vs => fmtBracket 91 93 (vs.map (fun v => fj sal t v)) o
    | _ => .ub
/-- The formatters of the fields. -/
def fjs (sal : Bool) : List JTy → List (JVal → Out → Res Out)
  | [] => []
  | t :: ts => (fun v => fj sal t v) :: fjs sal ts
end

/-- What a stream writes for a floating point number: the digits of a finite number (not modelled further) or the names
    `nan` and `inf` (C++ `num_put`, C `printf` with `%g`). -/
inductive FloatText where
  | digits (s : List Nat)
  | nan (neg : Bool)
  | inf (neg : Bool)

/-- `print_as<float32, float32>` and so on: /repo/src/dynd/type.cpp:776-822, called by `format_json_number`,
    json_formatter.cpp:83-87. -/
def streamFloat : FloatText → List Nat
  | .digits s => s
  | .nan neg => (if neg then [45] else []) ++ [110, 97, 110]
  | .inf neg => (if neg then [45] else []) ++ [105, 110, 102]

/-- The same for complex numbers: `operator<<`, /repo/include/dynd/complex.hpp:408-411. -/
def streamComplex (re im : FloatText) : List Nat :=
  [40] ++ streamFloat re ++ [32, 43, 32] ++ streamFloat im ++ [106, 41]

/-- `format_json_number` for the floating point and complex types: json_formatter.cpp:83-87, 302-306. -/
def fmtNumberText (s : List Nat) (o : Out) : Res Out := o.write s

/-- `format_json(n, struct_as_list)`: json_formatter.cpp:323-344. -/
def formatJson (sal : Bool) (t : JTy) (v : JVal) : Res (List Nat) := do
  let o ← fj sal t v ⟨[], 1024⟩
  pure o.data

/-! ### reading -/

/-- `parse_na`: /repo/src/dynd/parse_util.cpp:359-378. -/
def parseNa (s : List Nat) : Bool :=
  match s with
  | [] => true
  | [a, b] => decide (a = 78 ∧ b = 65)
  | [a, b, c, d] =>
    decide ((a = 78 ∨ a = 110) ∧ (b = 85 ∨ b = 117) ∧ (c = 76 ∨ c = 108) ∧ (d = 76 ∨ d = 108)) ||
    decide (a = 78 ∧ b = 111 ∧ c = 110 ∧ d = 101)
  | _ => false

/-- `string_to_number` for the integer types, error mode other than `nocheck`:
    /repo/include/dynd/parse_util.hpp:1198-1306.  `int128` has no case and raises. -/
def strToNum (t : IntTy) (s : List Nat) : Res Int :=
  if parseNa s then
    if t.signed then .ok t.min else .throw .typeError
  else
    let (neg, b) := takeMinus s
    if t.signed then
      if t.bits ≤ 64 then do
        let value ← parseU 64 b
        let o ← overflowCheck t.bits value neg
        if o then .throw .overflow
        else if neg then do
          let m ← i64 (-((⟨64, true⟩ : IntTy).cast value))
          pure (t.cast m)
        else pure (t.cast value)
      else .throw .runtime
    else do
      let value ← parseU (if t.bits ≤ 64 then 64 else t.bits) b
      if (neg ∧ value ≠ 0) ∨ (value : Int) > t.max then .throw .overflow
      else pure (value : Int)

/-- `c` is the lower-case letter `l` or its capital. -/
def ciEq (c l : Nat) : Bool := decide (c = l) || decide (c = l - 32)

/-- `parse<bool>(begin, end)`: /repo/include/dynd/parse_util.hpp:876-919. -/
def parseBool (s : List Nat) : Res Bool :=
  match s with
  | [c] =>
    if c = 48 ∨ c = 110 ∨ c = 78 ∨ c = 102 ∨ c = 70 then .ok false
    else if c = 49 ∨ c = 121 ∨ c = 89 ∨ c = 116 ∨ c = 84 then .ok true
    else .throw .invalidArg
  | [a, b, c, d] =>
    if ciEq a 116 && ciEq b 114 && ciEq c 117 && ciEq d 101 then .ok true else .throw .invalidArg
  | [a, b, c, d, e] =>
    if ciEq a 102 && ciEq b 97 && ciEq c 108 && ciEq d 115 && ciEq e 101 then .ok false else .throw .invalidArg
  | [a, b] =>
    if ciEq a 110 && ciEq b 111 then .ok false
    else if ciEq a 111 && ciEq b 110 then .ok true
    else .throw .invalidArg
  | [a, b, c] =>
    if ciEq a 111 && ciEq b 102 && ciEq c 102 then .ok false
    else if ciEq a 121 && ciEq b 101 && ciEq c 115 then .ok true
    else .throw .invalidArg
  | _ => .throw .invalidArg

/-- The byte of a `bool1`. -/
def boolByte (b : Bool) : Nat := if b then 1 else 0

/-- `try { … } catch (const std::exception &e) { throw json_parse_error(…) }` (and the same for `dynd_exception`). -/
def asParseError {α : Type} (x : Res α) : Res α :=
  match x with
  | .throw _ => .throw .parse
  | x => x

/-- A reader: the memory to fill and the text; the memory afterwards and the text left. -/
abbrev JP := JVal → List Nat → Res (JVal × List Nat)

/-- `parse_bool_json` (`option = false`): json_parser.cpp:341-397. -/
def boolP : JP := fun _ s =>
  match jTok litTrue s with
  | some r => .ok (.bool 1, r)
  | none =>
  match jTok litFalse s with
  | some r => .ok (.bool 0, r)
  | none =>
  match jTok litNull s with
  | some _ => .throw .parse
  | none =>
  match jNumber s with
  | some (n, r) =>
    if n = [48] then .ok (.bool 0, r)
    else if n = [49] then .ok (.bool 1, r)
    else .throw .parse
  | none => do
    match ← parseDoublequote s with
    | some (i, esc, r) =>
      let i ← if esc then unescape i else pure i
      let b ← parseBool i
      pure (.bool (boolByte b), r)
    | none => .throw .parse

/-- `parse_number_json` (`option = false`): /repo/include/dynd/parse_util.hpp:1397-1425.  A quoted number is converted
    from the raw text also when it contains escapes (the unescaped copy is not used). -/
def numP (t : IntTy) : JP := fun _ s =>
  match jNumber s with
  | some (n, r) => do
    let x ← strToNum t n
    pure (.int x, r)
  | none => do
    match ← parseDoublequote s with
    | some (i, esc, r) =>
      let x ← asParseError (do
        let _ ← if esc then unescape i else pure i
        strToNum t i)
      pure (.int x, r)
    | none => .throw .parse

/-- `parse_string_json`: json_parser.cpp:399-429. -/
def strP : JP := fun _ s => do
  match ← parseDoublequote (jWs s) with
  | some (i, esc, r) =>
    let v ← asParseError (do
      let i ← if esc then unescape i else pure i
      assignString false .utf8 false i)
    pure (.str v, r)
  | none => .throw .parse

/-- `old_assign_na`: /repo/src/dynd/option.cpp:65-73, option_type.cpp:13-51 (unsigned integers are left as they are). -/
def jAssignNa : JTy → JVal → Res JVal
  | .bool, _ => .ok (.bool (assignNaBuiltin .bool (0 : Nat)))
  | .int t, old => if t.signed then .ok (.int (assignNaBuiltin (.int t) (0 : Int))) else .ok old
  | .string, _ => .ok (.str [])
  | _, _ => .throw .unmodelled

/-- `set_option_from_utf8_string`: /repo/src/dynd/option.cpp:89-106. -/
def setOption (t : JTy) (old : JVal) (s : List Nat) : Res JVal :=
  match t with
  | .string => do
    let v ← assignString false .utf8 false s
    pure (.str v)
  | .bool =>
    if parseNa s then jAssignNa t old
    else do
      let b ← parseBool s
      pure (.bool (boolByte b))
  | .int it =>
    if parseNa s then jAssignNa t old
    else do
      let x ← strToNum it s
      pure (.int x)
  | _ => .throw .unmodelled

/-- The part of `parse_option_json` after the tests for `null` and for a quoted string: json_parser.cpp:516-540. -/
def optScalarP (t : JTy) (s : List Nat) : Res (JVal × List Nat) :=
  match t with
  | .bool =>
    match jTok litTrue s with
    | some r => .ok (.bool 1, r)
    | none =>
    match jTok litFalse s with
    | some r => .ok (.bool 0, r)
    | none =>
    match jNumber s with
    | some (n, r) =>
      if n = [49] then .ok (.bool 1, r)
      else if n = [48] then .ok (.bool 0, r)
      else .throw .parse
    | none => .throw .parse
  | .int it =>
    match jNumber s with
    | some (n, r) => do
      let x ← strToNum it n
      pure (.int x, r)
    | none => .throw .parse
  | _ => .throw .parse

/-- `parse_option_json`: json_parser.cpp:488-548, for options of `bool`, integers and `string`; an option of a dimension
    raises; other options are not modelled. -/
def optP (t : JTy) : JP := fun old s =>
  match t with
  | .fixed _ _ => .throw .runtime
  | .var _ => .throw .runtime
  | .struct _ _ => .throw .unmodelled
  | .tuple _ => .throw .unmodelled
  | .option _ => .throw .unmodelled
  | _ =>
    match jTok litNull (jWs s) with
    | some r => do
      let v ← jAssignNa t old
      pure (v, r)
    | none => do
      match ← parseDoublequote (jWs s) with
      | some (i, esc, r) =>
        let v ← asParseError (do
          let i ← if esc then unescape i else pure i
          setOption t old i)
        pure (v, r)
      | none => optScalarP t (jWs s)

/-- The loops of `parse_strided_dim_json` and `parse_tuple_json_from_list`: one reader and one piece of memory per element,
    separated by commas. json_parser.cpp:181-186, 309-315. -/
def seqP : List (JP × JVal) → List Nat → Res (List JVal × List Nat)
  | [], s => .ok ([], s)
  | [(p, o)], s => do
    let (v, s) ← p o s
    pure ([v], s)
  | (p, o) :: q, s => do
    let (v, s) ← p o s
    let s ← needTok [44] s
    let (vs, s) ← seqP q s
    pure (v :: vs, s)

/-- The elements of memory holding an array or a tuple of `n` elements. -/
def memElems (n : Nat) : JVal → List JVal
  | .arr vs => if vs.length = n then vs else List.replicate n .undef
  | .tup vs => if vs.length = n then vs else List.replicate n .undef
  | _ => List.replicate n .undef

/-- `parse_strided_dim_json`: json_parser.cpp:167-190. -/
def fixedP (n : Nat) (p : JP) : JP := fun old s => do
  let s ← needTok [91] s
  let (vs, s) ← seqP ((memElems n old).map (fun o => (p, o))) s
  let s ← needTok [93] s
  pure (.arr vs, s)

/-- Element loop of `parse_var_dim_json`: json_parser.cpp:208-222; `size` elements so far, `alloc` allocated.  Storing an
    element beyond the allocation is out of bounds. -/
def varLoop (p : JP) : Nat → Nat → Nat → List Nat → Res (List JVal × List Nat)
  | 0, _, _, _ => .ub
  | fuel + 1, size, alloc, s => do
    let alloc := if size = alloc then alloc * 2 else alloc
    if alloc < size + 1 then .ub
    else do
      let (v, s) ← p .undef s
      match jTok [44] s with
      | some s => do
        let (vs, s) ← varLoop p fuel (size + 1) alloc s
        pure (v :: vs, s)
      | none => do
        let s ← needTok [93] s
        pure ([v], s)

/-- `parse_var_dim_json`: json_parser.cpp:192-231. -/
def varP (p : JP) : JP := fun _ s => do
  let s ← needTok [91] s
  match jTok [93] s with
  | some s => pure (.arr [], s)
  | none => do
    let (vs, s) ← varLoop p (s.length + 1) 0 8 s
    pure (.arr vs, s)

/-- `get_field_index`: /repo/src/dynd/types/struct_type.cpp:28-35 (`none` is −1). -/
def jFieldIndex (ns : List (List Nat)) (name : List Nat) : Option Nat := ns.findIdx? (fun n => decide (n = name))

/-- Member loop of `parse_struct_json_from_object`: json_parser.cpp:252-284. -/
def objLoop (ns : List (List Nat)) (ps : List JP) :
    Nat → List JVal → List Bool → List Nat → Res (List JVal × List Bool × List Nat)
  | 0, _, _, _ => .ub
  | fuel + 1, vs, pop, s => do
    match ← parseDoublequote (jWs s) with
    | none => .throw .parse
    | some (raw, esc, s) => do
      let s ← needTok [58] s
      let name ← if esc then unescape raw else pure raw
      let (vs, pop, s) ← (match jFieldIndex ns name with
        | none => do
          let s ← skipJson s
          pure (vs, pop, s)
        | some i =>
          match ps[i]?, vs[i]? with
          | some p, some o => do
            let (v, s) ← p o s
            pure (vs.set i v, pop.set i true, s)
          | _, _ => .ub)
      match jTok [44] s with
      | some s => objLoop ns ps fuel vs pop s
      | none => do
        let s ← needTok [125] s
        pure (vs, pop, s)

/-- The loop over the fields that were not in the object: json_parser.cpp:286-301. -/
def fillMissing : List JTy → List JVal → List Bool → Res (List JVal)
  | t :: ts, v :: vs, b :: bs => do
    let v ← (if b then pure v else
      match t with
      | .option u => jAssignNa u v
      | _ => .throw .parse)
    let vs ← fillMissing ts vs bs
    pure (v :: vs)
  | _, _, _ => .ok []

/-- `parse_struct_json_from_object` after the `{`: json_parser.cpp:241-303. -/
def objP (ns : List (List Nat)) (ts : List JTy) (ps : List JP) : JP := fun old s => do
  let vs := memElems ts.length old
  let pop := List.replicate ts.length false
  match jTok [125] s with
  | some s => do
    let vs ← fillMissing ts vs pop
    pure (.tup vs, s)
  | none => do
    let (vs, pop, s) ← objLoop ns ps (s.length + 1) vs pop s
    let vs ← fillMissing ts vs pop
    pure (.tup vs, s)

/-- `parse_tuple_json_from_list` after the `[`: json_parser.cpp:299-323. -/
def listP (ps : List JP) : JP := fun old s => do
  let (vs, s) ← seqP (List.zip ps (memElems ps.length old)) s
  let s ← needTok [93] s
  pure (.tup vs, s)

/-- `parse_struct_json`: json_parser.cpp:325-332. -/
def structP (ns : List (List Nat)) (ts : List JTy) (ps : List JP) : JP := fun old s =>
  match jTok [123] s with
  | some s => objP ns ts ps old s
  | none =>
    match jTok [91] s with
    | some s => listP ps old s
    | none => .throw .parse

/-- `parse_tuple_json`: json_parser.cpp:334-339. -/
def tupleP (ps : List JP) : JP := fun old s =>
  match jTok [91] s with
  | some s => listP ps old s
  | none => .throw .parse

mutual
/-- `parse_json` (the recursive one): json_parser.cpp:550-603. -/
def pj : JTy → JP
  | .bool => fun old s => boolP old (jWs s)
  | .int t => fun old s => numP t old (jWs s)
  | .string => fun old s => strP old (jWs s)
  | .option t => fun old s => optP t old (jWs s)
  | .struct ns ts => fun old s => structP ns ts (pjs ts) old (jWs s)
  | .tuple ts => fun old s => tupleP (pjs ts) old (jWs s)
  | .fixed n t => fun old s => fixedP n (pj t) old (jWs s)
  | .var t => fun old s => varP (pj t) old (jWs s)
/-- The readers of the fields. -/
def pjs : List JTy → List JP
  | [] => []
  | t :: ts => pj t :: pjs ts
end

/-- `parse_json(out, begin, end, ectx)`: json_parser.cpp:703-735: `old` is the memory of `out`. -/
def parseJsonInto (t : JTy) (old : JVal) (s : List Nat) : Res JVal := do
  let (v, r) ← pj t old s
  if jWs r = [] then pure v else .throw .parse

/-- `parse_json(tp, begin, end, ectx)`: json_parser.cpp:737-747: into a new array. -/
def parseJson (t : JTy) (s : List Nat) : Res JVal := parseJsonInto t .undef s

/-! ### error positions -/

/-- What `get_error_line_column` stores: the line and column, counted from 1, the line before and the line itself. -/
structure ErrPos where
  line : Nat
  column : Int
  prev : List Nat
  cur : List Nat

/-- Loop of `get_error_line_column`: json_parser.cpp:615-636.  `base` is where `s` starts, `pos` the position sought, both
    relative to the start of the text, `line` the current line number, `cur` the line before. -/
def lineColLoop : Nat → Nat → Nat → List Nat → List Nat → Nat → Res ErrPos
  | 0, _, _, _, _, _ => .ub
  | fuel + 1, base, line, cur, s, pos =>
    if s = [] then .throw .runtime
    else
      let l := s.takeWhile (fun c => decide (c ≠ 10))
      if l.length = s.length then .ok ⟨line, (pos : Int) - base + 1, cur, s⟩
      else if pos < base + l.length + 1 then .ok ⟨line, (pos : Int) - base + 1, cur, l⟩
      else lineColLoop fuel (base + l.length + 1) (line + 1) l (s.drop (l.length + 1)) pos

/-- `get_error_line_column`: json_parser.cpp:610-640.  The error is the position in the text. -/
def errorLineColumn (s : List Nat) (pos : Nat) : Res ErrPos := lineColLoop (s.length + 1) 0 1 [] s pos

/-- `std::string::substr(pos, n)`: `out_of_range` when `pos` is past the end. -/
def stdSubstr (s : List Nat) (pos : Int) (n : Nat) : Res (List Nat) :=
  if 0 ≤ pos ∧ pos ≤ s.length then .ok ((s.drop pos.toNat).take n) else .throw .outOfRange

/-- `print_json_parse_error_marker`: json_parser.cpp:642-678.  The lines printed. -/
def errorMarker (e : ErrPos) : Res (List (List Nat)) :=
  if e.cur.length < 200 then
    .ok ((if 1 < e.line then [e.prev] else []) ++ [e.cur, List.replicate (e.column - 1).toNat 32 ++ [94]])
  else if e.column < 80 then do
    let t ← stdSubstr e.cur 0 80
    pure [t ++ [32, 46, 46, 46], List.replicate (e.column - 1).toNat 32 ++ [94]]
  else do
    let t ← stdSubstr e.cur (e.column - 60 - 1) 80
    pure [[32, 46, 46, 46, 32] ++ t ++ [32, 46, 46, 46], List.replicate 65 32 ++ [94]]

end Dynd
