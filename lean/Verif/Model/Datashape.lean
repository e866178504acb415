/-
Type descriptions ("datashapes"): printing a type (`operator<<`, the `print_type` functions) and reading one back
(`type_from_datashape`, the recursive descent parser of `src/dynd/types/datashape_parser.cpp`).

A text is a list of bytes.  A `std::string` inside a type is a Lean `String` whose characters are those bytes.
A parsing function gets the text from `begin` to `end` and returns what it found together with the text that is left;
`none` stands for the null type / `false`, with `begin` unmoved.  The position stored in an `internal_parse_error`
is not modelled, nor its translation into the final `type_error` (datashape_parser.cpp:942-985): every such error is
`.throw .parse`.  Not modelled (`.throw .unmodelled`): `State`, `array`, the CUDA types, `callable[...]`,
`Name[T]` (typevar_constructed), the text of a categorical type, and a power dimension without an element type.
-/
import Verif.Model.Types
import Verif.Model.Escape
import Verif.Model.Ints

namespace Dynd

/-- the bytes of a string literal / of a `std::string` -/
def str (s : String) : List Nat := s.toList.map Char.toNat
/-- `std::string(begin, end)` -/
def ofBytes (l : List Nat) : String := String.ofList (l.map Char.ofNat)

/-- `[a-zA-Z_]`, the first character of a name.  /repo/src/dynd/parse_util.cpp:29. -/
def nameStart (c : Nat) : Bool :=
  (decide (97 ≤ c) && decide (c ≤ 122)) || (decide (65 ≤ c) && decide (c ≤ 90)) || decide (c = 95)
/-- `[a-zA-Z0-9_]`.  /repo/src/dynd/parse_util.cpp:34-35. -/
def nameChar (c : Nat) : Bool := nameStart c || isDig c
/-- `isupper` in the C locale -/
def isUpperC (c : Nat) : Bool := decide (65 ≤ c) && decide (c ≤ 90)

/-- `is_simple_identifier_name`.  /repo/src/dynd/str_util.hpp:8-25. -/
def simpleName (s : List Nat) : Bool :=
  match s with
  | [] => false
  | c :: r => nameStart c && r.all nameChar

/-- `is_valid_typevar_name`.  /repo/src/dynd/types/typevar_type.cpp:101-118. -/
def validTypevar (s : List Nat) : Bool :=
  match s with
  | [] => false
  | c :: r => isUpperC c && r.all nameChar

/-! ### Printing -/

/-- Names of the integer widths, floats, complex numbers.  /repo/src/dynd/type.cpp:441-506. -/
def primText : BTy → List Nat
  | .void => str "void" | .bool => str "bool"
  | .int .w8 => str "int8" | .int .w16 => str "int16" | .int .w32 => str "int32" | .int .w64 => str "int64"
  | .int .w128 => str "int128"
  | .uint .w8 => str "uint8" | .uint .w16 => str "uint16" | .uint .w32 => str "uint32" | .uint .w64 => str "uint64"
  | .uint .w128 => str "uint128"
  | .flt .f16 => str "float16" | .flt .f32 => str "float32" | .flt .f64 => str "float64" | .flt .f128 => str "float128"
  | .cplx .c32 => str "complex[float32]" | .cplx .c64 => str "complex[float64]"

/-- `print_type` of the kinds.  /repo/include/dynd/types/any_kind_type.hpp:18, bool_kind_type.hpp:26,
    bytes_kind_type.hpp:26, string_kind_type.hpp:27, /repo/src/dynd/types/scalar_kind_type.cpp:22,
    int_kind_type.cpp:20, uint_kind_type.cpp:21, float_kind_type.cpp:20, complex_kind_type.cpp:20,
    fixed_bytes_kind_type.cpp:24, fixed_string_kind_type.cpp:24, categorical_kind_type.cpp:24. -/
def kindText : Kind → List Nat
  | .any => str "Any" | .scalar => str "Scalar" | .bool => str "Bool" | .int => str "Int" | .uint => str "UInt"
  | .float => str "Float" | .complex => str "Complex" | .bytes => str "Bytes" | .string => str "String"
  | .fixedBytes => str "FixedBytes" | .fixedString => str "FixedString" | .categorical => str "Categorical"

/-- `encoding_as_string`, encodings numbered as in the enum (0 ascii, 1 ucs2, 2 utf8, 3 utf16, 4 utf32).
    /repo/include/dynd/string_encodings.hpp:20-27,47-64. -/
def encText : Nat → List Nat
  | 0 => str "ascii" | 1 => str "ucs2" | 2 => str "utf8" | 3 => str "utf16" | 4 => str "utf32"
  | _ => str "unknown string encoding"

/-- `print_type` of the types without type arguments.  /repo/src/dynd/types/bytes_type.cpp:45-50,
    fixed_bytes_type.cpp:29-37, string_type.cpp:81, fixed_string_type.cpp:101-108, char_type.cpp:35-41,
    type_type.cpp:21; the categories printed by categorical_type.cpp:238-250 are not modelled. -/
def leafText : LeafTy → Res (List Nat)
  | .bytes a => .ok (str "bytes" ++ if a ≠ 1 then str "[align=" ++ decDigits a ++ str "]" else [])
  | .fixedBytes n a =>
    .ok (str "fixed_bytes[" ++ decDigits n ++ (if a ≠ 1 then str ", align=" ++ decDigits a else []) ++ str "]")
  | .string => .ok (str "string")
  | .fixedString n e =>
    .ok (str "fixed_string[" ++ decDigits n ++ (if e ≠ 2 then str ", '" ++ encText e ++ str "'" else []) ++ str "]")
  | .char e => .ok (str "char" ++ if e ≠ 4 then str "['" ++ encText e ++ str "']" else [])
  | .typeT => .ok (str "type")
  | .categorical _ => .throw .unmodelled

/-- A field or keyword name: bare when it is a simple identifier, otherwise quoted and escaped.
    /repo/src/dynd/types/struct_type.cpp:83-88, callable_type.cpp:69-74. -/
def nameText (nm : String) : Res (List Nat) :=
  if simpleName (str nm) then .ok (str nm) else printEscapedUtf8 (str nm) true

/-- The part of `pow_dimsym_type::print_type` before the `**`: the cases are the type ids `fixed_dim`, `var_dim`,
    `typevar_dim`; a `Fixed` base has the id `fixed_dim_kind` and prints nothing.
    /repo/src/dynd/types/pow_dimsym_type.cpp:20-37. -/
def powBaseText : Ty → List Nat
  | .fixedDim n el => if el.symbolic then str "Fixed" else printInt n
  | .varDim _ => str "var"
  | .typevarDim nm _ => str nm
  | _ => []

/-- One tag of a dim fragment.  /repo/src/dynd/types/dim_fragment_type.cpp:146-154. -/
def dimTagText (t : Int) : List Nat :=
  if t = -1 then str "var * " else if t = -2 then str "Fixed * " else str "fixed[" ++ printInt t ++ str "]"

mutual
/-- `operator<<(ostream, type)` and the `print_type` functions.  /repo/src/dynd/type.cpp:441-506,
    /repo/src/dynd/types/fixed_dim_type.cpp:31, fixed_dim_kind_type.cpp:29, var_dim_type.cpp:25, dim_kind_type.cpp:28,
    pointer_type.cpp:21, option_type.cpp:87, tuple_type.cpp:187-201, struct_type.cpp:76-96, callable_type.cpp:34-82,
    typevar_type.cpp:19-22, typevar_dim_type.cpp:23-26, ellipsis_dim_type.cpp:23-29, pow_dimsym_type.cpp:20-40,
    dim_fragment_type.cpp:143-156. -/
def printTy : Ty → Res (List Nat)
  | .prim b => .ok (primText b)
  | .leaf l => leafText l
  | .kind k => .ok (kindText k)
  | .fixedDim n el => do let e ← printTy el; pure (printInt n ++ str " * " ++ e)
  | .fixedDimKind el => do let e ← printTy el; pure (str "Fixed * " ++ e)
  | .varDim el => do let e ← printTy el; pure (str "var * " ++ e)
  | .dimKind el => do let e ← printTy el; pure (str "Dim * " ++ e)
  | .pointer t => do let e ← printTy t; pure (str "pointer[" ++ e ++ str "]")
  | .option t => do let e ← printTy t; pure (str "?" ++ e)
  | .tuple ts v => do
    let b ← printTys ts
    pure (str "(" ++ b ++ if v then str ", ...)" else str ")")
  | .struct ns ts v => do
    let b ← printFields ns ts
    pure (str "{" ++ b ++ if v then str ", ...}" else str "}")
  | .callable ret (.tuple ps pv) (.struct ns ks kv) => do
    let b ← printTys ps
    let k ← printFields ns ks
    let r ← printTy ret
    pure (str "(" ++ b
      ++ (if pv then (if ps.isEmpty then str "..." else str ", ...") else [])
      ++ (if ks.isEmpty then [] else (if !ps.isEmpty || pv then str ", " else []) ++ k)
      ++ (if !ks.isEmpty && kv then str ", ..." else [])
      ++ str ") -> " ++ r)
  | .callable _ _ _ => .ub
  | .typevar nm => .ok (str nm)
  | .typevarDim nm el => do let e ← printTy el; pure (str nm ++ str " * " ++ e)
  | .ellipsis nm el => do let e ← printTy el; pure (str nm ++ str "... * " ++ e)
  | .powDimsym base x el => do
    let e ← printTy el
    pure (powBaseText base ++ str "**" ++ str x ++ str " * " ++ e)
  | .dimFragment tags => .ok (str "dim_fragment[" ++ tags.flatMap dimTagText ++ str "void]")
/-- the fields of a tuple, separated by `", "` -/
def printTys : List Ty → Res (List Nat)
  | [] => .ok []
  | [t] => printTy t
  | t :: t' :: ts => do
    let e ← printTy t
    let r ← printTys (t' :: ts)
    pure (e ++ str ", " ++ r)
/-- the fields of a struct, separated by `", "`; there is a name for every field type -/
def printFields : List String → List Ty → Res (List Nat)
  | _, [] => .ok []
  | [], _ :: _ => .ub
  | nm :: _, [t] => do
    let n ← nameText nm
    let e ← printTy t
    pure (n ++ str ": " ++ e)
  | nm :: nms, t :: t' :: ts => do
    let n ← nameText nm
    let e ← printTy t
    let r ← printFields nms (t' :: ts)
    pure (n ++ str ": " ++ e ++ str ", " ++ r)
end

/-! ### Tokens -/

/-- `skip_whitespace_and_pound_comments`; the flag says that a comment is being skipped.
    /repo/include/dynd/parse_util.hpp:232-251. -/
def skipWsGo : Bool → List Nat → List Nat
  | _, [] => []
  | true, c :: s => skipWsGo (decide (c ≠ 10)) s
  | false, c :: s => if isSpace c then skipWsGo false s else if c = 35 then skipWsGo true s else c :: s
/-- `skip_whitespace_and_pound_comments` -/
def skipWs (s : List Nat) : List Nat := skipWsGo false s

/-- `parse_token_no_ws`.  /repo/include/dynd/parse_util.hpp:403-435. -/
def strip : List Nat → List Nat → Option (List Nat)
  | [], s => some s
  | a :: t, b :: s => if a = b then strip t s else none
  | _ :: _, [] => none

/-- `datashape::parse_token`.  /repo/include/dynd/parse_util.hpp:346-379. -/
def tok (t s : List Nat) : Option (List Nat) := strip t (skipWs s)

/-- a token whose absence is an `internal_parse_error` -/
def expect (t s : List Nat) : Res (List Nat) :=
  match tok t s with
  | some r => .ok r
  | none => .throw .parse

/-- `parse_name_no_ws`.  /repo/src/dynd/parse_util.cpp:24-42. -/
def scanName (s : List Nat) : Option (List Nat × List Nat) :=
  match s with
  | [] => none
  | c :: r => if nameStart c then some (c :: r.takeWhile nameChar, r.dropWhile nameChar) else none

/-- `parse_unsigned_int_no_ws`.  /repo/include/dynd/parse_util.hpp:555-584. -/
def scanUInt (s : List Nat) : Option (List Nat × List Nat) :=
  match s with
  | [] => none
  | c :: r =>
    if 49 ≤ c ∧ c ≤ 57 then some (c :: r.takeWhile isDig, r.dropWhile isDig)
    else if c = 48 then
      match r with
      | [] => some ([48], [])
      | d :: r' => if isDig d then none else some ([48], d :: r')
    else none

/-- `parse_name_or_number`.  /repo/src/dynd/types/datashape_parser.cpp:48-58. -/
def scanNameOrNum (s : List Nat) : Option (List Nat × List Nat) :=
  match scanName s with
  | some r => some r
  | none => scanUInt s

/-- `datashape::parse_number`, a missing number being an error for the callers that use this.
    /repo/include/dynd/parse_util.hpp:611-625. -/
def expectNumber (s : List Nat) : Res (List Nat × List Nat) :=
  match scanUInt (skipWs s) with
  | some r => .ok r
  | none => .throw .parse

/-- value of a digit string -/
def decValue (ds : List Nat) : Nat := ds.foldl (fun a c => 10 * a + (c - 48)) 0
/-- `atoi` of a digit string: undefined when the value does not fit an `int`. -/
def atoi (ds : List Nat) : Res Nat := if decValue ds ≤ 2147483647 then .ok (decValue ds) else .ub
/-- `atoll` of a digit string -/
def atoll (ds : List Nat) : Res Nat := if decValue ds ≤ 9223372036854775807 then .ok (decValue ds) else .ub

/-- `datashape::string_to_encoding`.  /repo/src/dynd/parse_util.cpp:494-508. -/
def encOf (s : List Nat) : Res Nat :=
  if s = str "A" ∨ s = str "ascii" ∨ s = str "us-ascii" then .ok 0
  else if s = str "U8" ∨ s = str "utf8" ∨ s = str "utf-8" ∨ s = str "utf_8" then .ok 2
  else if s = str "U16" ∨ s = str "utf16" ∨ s = str "utf-16" ∨ s = str "utf_16" then .ok 3
  else if s = str "U32" ∨ s = str "utf32" ∨ s = str "utf-32" ∨ s = str "utf_32" then .ok 4
  else if s = str "ucs2" ∨ s = str "ucs-2" ∨ s = str "ucs_2" then .ok 1
  else .throw .parse

/-! ### Type constructors that check their arguments -/

/-- alignments accepted by the bytes types -/
def smallPow2 (a : Nat) : Bool := a = 1 || a = 2 || a = 4 || a = 8 || a = 16
/-- `bytes_type` constructor.  /repo/include/dynd/types/bytes_type.hpp:26-34. -/
def mkBytes (a : Nat) : Res Ty := if smallPow2 a then .ok (.leaf (.bytes a)) else .throw .runtime
/-- `fixed_bytes_type` constructor.  /repo/include/dynd/types/fixed_bytes_type.hpp:17-38;
    `size & (align - 1)` is the remainder because `align` is a power of two. -/
def mkFixedBytes (n a : Nat) : Res Ty :=
  if a > n then .throw .runtime
  else if !smallPow2 a then .throw .runtime
  else if n % a ≠ 0 then .throw .runtime
  else .ok (.leaf (.fixedBytes n a))
/-- `char_type` constructor.  /repo/include/dynd/types/char_type.hpp:25-40. -/
def mkChar (e : Nat) : Res Ty := if e = 0 ∨ e = 1 ∨ e = 4 then .ok (.leaf (.char e)) else .throw .runtime
/-- `option_type` constructor.  /repo/include/dynd/types/option_type.hpp:78-88. -/
def mkOptionTy : Ty → Res Ty
  | .option _ => .throw .typeError
  | t => .ok (.option t)
/-- `ellipsis_dim_type` constructor with a name.  /repo/include/dynd/types/ellipsis_dim_type.hpp:22-38. -/
def mkEllipsis (n : List Nat) (el : Ty) : Res Ty :=
  if validTypevar n then .ok (.ellipsis (ofBytes n) el) else .throw .typeError

/-! ### The registry of type names -/

/-- What the registry stores for a name: `singleton_type`, `construct_type`, `parse_type_args`. -/
inductive Reg where
  | single (t : Ty) | bytes | char | fixedBytes | fixedString | fixed | option | pointer
  | dimDim | dimFixed | dimVar | callable | bare | outside
  deriving Repr

/-- The registered names.  /repo/src/dynd/type_registry.cpp:34-95, /repo/src/dynd/types/callable_type.cpp:19. -/
def registry : List (List Nat × Reg) := [
  (str "Any", .single (.kind .any)), (str "Scalar", .single (.kind .scalar)), (str "Bool", .single (.kind .bool)),
  (str "bool", .single (.prim .bool)), (str "Int", .single (.kind .int)), (str "int8", .single (.prim (.int .w8))),
  (str "int16", .single (.prim (.int .w16))), (str "int32", .single (.prim (.int .w32))),
  (str "int64", .single (.prim (.int .w64))), (str "int128", .single (.prim (.int .w128))),
  (str "UInt", .single (.kind .uint)), (str "uint8", .single (.prim (.uint .w8))),
  (str "uint16", .single (.prim (.uint .w16))), (str "uint32", .single (.prim (.uint .w32))),
  (str "uint64", .single (.prim (.uint .w64))), (str "uint128", .single (.prim (.uint .w128))),
  (str "Float", .single (.kind .float)), (str "float16", .single (.prim (.flt .f16))),
  (str "float32", .single (.prim (.flt .f32))), (str "float64", .single (.prim (.flt .f64))),
  (str "float128", .single (.prim (.flt .f128))), (str "Complex", .single (.kind .complex)),
  (str "complex32", .single (.prim (.cplx .c32))), (str "complex64", .single (.prim (.cplx .c64))),
  (str "void", .single (.prim .void)), (str "Dim", .dimDim), (str "Bytes", .single (.kind .bytes)),
  (str "FixedBytes", .single (.kind .fixedBytes)), (str "fixed_bytes", .fixedBytes), (str "bytes", .bytes),
  (str "String", .single (.kind .string)), (str "FixedString", .single (.kind .fixedString)),
  (str "fixed_string", .fixedString), (str "char", .char), (str "string", .single (.leaf .string)),
  (str "tuple", .bare), (str "struct", .bare), (str "Fixed", .dimFixed), (str "fixed", .fixed), (str "var", .dimVar),
  (str "Categorical", .single (.kind .categorical)), (str "categorical", .bare), (str "option", .option),
  (str "pointer", .pointer), (str "memory", .bare), (str "type", .single (.leaf .typeT)), (str "array", .outside),
  (str "callable", .callable), (str "Expr", .bare), (str "adapt", .bare), (str "expr", .bare),
  (str "cuda_host", .outside), (str "cuda_device", .outside), (str "State", .bare)]

/-- `builtin_types()`.  /repo/src/dynd/types/datashape_parser.cpp:32-46 (`complex` is intercepted earlier). -/
def builtinNames : List (List Nat × Ty) := [
  (str "int", .prim (.int .w32)), (str "intptr", .prim (.int .w64)), (str "uintptr", .prim (.uint .w64)),
  (str "size", .prim (.uint .w64)), (str "real", .prim (.flt .f64)), (str "complex64", .prim (.cplx .c32)),
  (str "complex128", .prim (.cplx .c64)), (str "complex", .prim (.cplx .c64))]

/-! ### The parser -/

/-- result of a type parser: a type and the remaining text, or the null type -/
abbrev PRes := Res (Option (Ty × List Nat))

/-- a null type is an `internal_parse_error` -/
def need (x : PRes) : Res (Ty × List Nat) := do
  match ← x with
  | some r => pure r
  | none => .throw .parse

/-- `bytes_type::parse_type_args`.  /repo/src/dynd/types/bytes_type.cpp:114-137. -/
def bytesArgs (s : List Nat) : PRes := do
  let s ← expect (str "[") s
  let s ← expect (str "align") s
  let s ← expect (str "=") s
  let (n, s) ← expectNumber s
  let s ← expect (str "]") s
  let a ← atoi n
  let t ← mkBytes a
  pure (some (t, s))

/-- `fixed_bytes_type::parse_type_args`.  /repo/src/dynd/types/fixed_bytes_type.cpp:72-106. -/
def fixedBytesArgs (s : List Nat) : PRes := do
  let s ← expect (str "[") s
  let (n, s) ← expectNumber s
  match tok (str "]") s with
  | some s => do
    let n ← atoi n
    let t ← mkFixedBytes n 1
    pure (some (t, s))
  | none => do
    let s ← expect (str ",") s
    let s ← expect (str "align") s
    let s ← expect (str "=") s
    let (a, s) ← expectNumber s
    let s ← expect (str "]") s
    let n ← atoi n
    let a ← atoi a
    let t ← mkFixedBytes n a
    pure (some (t, s))

/-- A quoted encoding name.  /repo/src/dynd/types/fixed_string_type.cpp:164-168, char_type.cpp:77-85. -/
def encArg (s : List Nat) : Res (Nat × List Nat) := do
  match ← dsQuoted (skipWs s) with
  | some (v, s) => do
    let e ← encOf v
    pure (e, s)
  | none => .throw .parse

/-- `fixed_string_type::parse_type_args`.  /repo/src/dynd/types/fixed_string_type.cpp:144-183. -/
def fixedStringArgs (s : List Nat) : PRes := do
  let s ← expect (str "[") s
  match scanUInt (skipWs s) with
  | some (n, s) => do
    let n ← atoi n
    if n = 0 then .throw .parse
    else
      match tok (str ",") s with
      | some s => do
        let (e, s) ← encArg s
        let s ← expect (str "]") s
        pure (some (.leaf (.fixedString n e), s))
      | none => do
        let s ← expect (str "]") s
        pure (some (.leaf (.fixedString n 2), s))
  | none => do
    let (e, s) ← encArg s
    let s ← expect (str "]") s
    pure (some (.leaf (.fixedString 0 e), s))

/-- `char_type::parse_type_args`.  /repo/src/dynd/types/char_type.cpp:70-96 (the empty encoding name is an error
    in both branches). -/
def charArgs (s : List Nat) : PRes := do
  let s ← expect (str "[") s
  let (e, s) ← encArg s
  let s ← expect (str "]") s
  let t ← mkChar e
  pure (some (t, s))

/-- `option_type::parse_type_args`, `pointer_type::parse_type_args`.  /repo/src/dynd/types/option_type.cpp:215-234,
    pointer_type.cpp:240-257. -/
def oneTypeArg (rec : List Nat → PRes) (mk : Ty → Res Ty) (s : List Nat) : PRes := do
  let s ← expect (str "[") s
  let (t, s) ← need (rec s)
  let s ← expect (str "]") s
  let r ← mk t
  pure (some (r, s))

/-- `fixed_dim_type::parse_type_args`.  /repo/src/dynd/types/fixed_dim_type.cpp:538-562. -/
def fixedArgs (rec : List Nat → PRes) (s : List Nat) : PRes := do
  let s ← expect (str "[") s
  let (n, s) ← expectNumber s
  let n ← atoll n
  let s ← expect (str "]") s
  let s ← expect (str "*") s
  let (el, s) ← need (rec s)
  pure (some (.fixedDim n el, s))

/-- `parse_type_args` of a registered name.  /repo/src/dynd/types/datashape_parser.cpp:777-788. -/
def regArgs (rec : List Nat → PRes) (s : List Nat) : Reg → PRes
  | .bytes => bytesArgs s
  | .char => charArgs s
  | .fixedBytes => fixedBytesArgs s
  | .fixedString => fixedStringArgs s
  | .fixed => fixedArgs rec s
  | .option => oneTypeArg rec mkOptionTy s
  | .pointer => oneTypeArg rec (fun t => .ok (.pointer t)) s
  | .callable | .outside => .throw .unmodelled
  | .single _ | .dimDim | .dimFixed | .dimVar | .bare => .throw .parse

/-- the singleton type of a registered name.  /repo/src/dynd/types/datashape_parser.cpp:788-793. -/
def regSingle (s : List Nat) : Reg → PRes
  | .single t => .ok (some (t, s))
  | .bytes => .ok (some (.leaf (.bytes 1), s))
  | .char => .ok (some (.leaf (.char 4), s))
  | .outside => .throw .unmodelled
  | _ => .throw .parse

/-- `parse_complex_parameters`.  /repo/src/dynd/types/datashape_parser.cpp:62-85. -/
def complexParams (rec : List Nat → PRes) (s : List Nat) : PRes :=
  match tok (str "[") s with
  | some b => do
    let (t, b) ← need (rec b)
    let b ← expect (str "]") b
    match t with
    | .prim (.flt .f32) => pure (some (.prim (.cplx .c32), b))
    | .prim (.flt .f64) => pure (some (.prim (.cplx .c64), b))
    | _ => .throw .parse
  | none => .ok (some (.prim (.cplx .c64), s))

/-- A name that is not followed by `**`, `*` or `...`.
    /repo/src/dynd/types/datashape_parser.cpp:761-817. -/
def dtypeNamed (rec : List Nat → PRes) (n s : List Nat) : PRes :=
  if n = str "complex" then complexParams rec s
  else if n = str "State" then .throw .unmodelled
  else
    match builtinNames.lookup n with
    | some t => .ok (some (t, s))
    | none =>
      match registry.lookup n with
      | some r => if (tok (str "[") s).isSome then regArgs rec s r else regSingle s r
      | none =>
        if isUpperC (n.headD 0) then
          match tok (str "[") s with
          | none => .ok (some (.typevar (ofBytes n), s))
          | some _ => .throw .unmodelled
        else .throw .parse

/-- A name or number followed by `*` and an element type.  /repo/src/dynd/types/datashape_parser.cpp:724-748. -/
def dimNamed (n : List Nat) (el : Ty) : Res Ty :=
  if isDig (n.headD 0) then do
    let k ← parseInt ⟨64, true⟩ n
    pure (.fixedDim k el)
  else
    match registry.lookup n with
    | some .dimDim => .ok (.dimKind el)
    | some .dimFixed => .ok (.fixedDimKind el)
    | some .dimVar => .ok (.varDim el)
    | some .callable => .throw .invalidArg
    | some _ => .throw .parse
    | none => if isUpperC (n.headD 0) then .ok (.typevarDim (ofBytes n) el) else .throw .parse

/-- The base of a dimensional power.  /repo/src/dynd/types/datashape_parser.cpp:680-691, 695-712. -/
def dsPowBase (n : List Nat) : Res (Ty → Ty) :=
  if isDig (n.headD 0) then do
    let k ← parseInt ⟨64, true⟩ n
    pure (Ty.fixedDim k)
  else if n = str "var" then .ok Ty.varDim
  else if n = str "Fixed" then .ok Ty.fixedDimKind
  else if isUpperC (n.headD 0) then .ok (Ty.typevarDim (ofBytes n))
  else .throw .parse

/-- `ndt::pow` for exponents from 1 up: the dimension repeated.  /repo/src/dynd/type.cpp:542-551. -/
def powTy (mk : Ty → Ty) (el : Ty) : Nat → Ty
  | 0 => el
  | k + 1 => mk (powTy mk el k)

/-- `parse_struct_item_general` (`quoted`) and `parse_struct_item_bare`.
    /repo/src/dynd/types/datashape_parser.cpp:367-393, 395-442. -/
def dsItem (rec : List Nat → PRes) (quoted : Bool) (s : List Nat) : Res (Option ((String × Ty) × List Nat)) := do
  let s := skipWs s
  let nm ← (match scanName s with
    | some r => .ok (some r)
    | none => if quoted then dsQuoted s else .ok none)
  match nm with
  | none => pure none
  | some (n, s) => do
    let s ← expect (str ":") s
    let (t, s) ← need (rec s)
    pure (some ((ofBytes n, t), s))

/-- The item loops of `parse_struct` (`close` is `}`, names may be quoted) and `parse_funcproto_kwds` (`close` is `)`):
    the items, whether the list ended in `...`, and the remaining text.
    /repo/src/dynd/types/datashape_parser.cpp:461-488, 503-530. -/
def dsFields (rec : List Nat → PRes) (quoted : Bool) (close : List Nat) :
    Nat → List Nat → Res (List (String × Ty) × Bool × List Nat)
  | 0, _ => .ub
  | f + 1, s =>
    match tok (str "...") s with
    | some s => do
      let s ← expect close s
      pure ([], true, s)
    | none => do
      match ← dsItem rec quoted s with
      | none => .throw .parse
      | some (x, s) =>
        match tok (str ",") s with
        | some s =>
          match tok close s with
          | some s => pure ([x], false, s)
          | none => do
            let (xs, v, s) ← dsFields rec quoted close f s
            pure (x :: xs, v, s)
        | none => do
          let s ← expect close s
          pure ([x], false, s)

/-- `struct_type(field_name_list, field_type_list, variadic)` -/
def mkStruct (xs : List (String × Ty)) (v : Bool) : Ty := .struct (xs.map Prod.fst) (xs.map Prod.snd) v

/-- `parse_struct`.  /repo/src/dynd/types/datashape_parser.cpp:445-493. -/
def parseStruct (rec : List Nat → PRes) (s : List Nat) : PRes :=
  match tok (str "{") s with
  | none => .ok none
  | some s =>
    match tok (str "}") s with
    | some s => .ok (some (.struct [] [] false, s))
    | none => do
      let (xs, v, s) ← dsFields rec true (str "}") (s.length + 1) s
      pure (some (mkStruct xs v, s))

/-- Look ahead for `NAME :` or `... , NAME :`: whether the positional part is variadic and where the keywords begin.
    /repo/src/dynd/types/datashape_parser.cpp:550-563.  (Without a following keyword, `..., ` sets `variadic` too, but
    then the text is rejected: the parse of the item starting with `...` requires a `*`.) -/
def kwdAhead (s : List Nat) : Option (Bool × List Nat) :=
  let vkb : Bool × List Nat × List Nat :=
    match tok (str "...") s with
    | some s1 =>
      match tok (str ",") s1 with
      | some s2 => (true, s2, s2)
      | none => (false, s, s1)
    | none => (false, s, s)
  match scanName (skipWs vkb.2.2) with
  | some (_, r) =>
    match tok (str ":") r with
    | some _ => some (vkb.1, vkb.2.1)
    | none => none
  | none => none

/-- The item loop of `parse_tuple_or_funcproto`: the positional types, the variadic flag, the keyword struct if
    keywords follow, and the remaining text.  /repo/src/dynd/types/datashape_parser.cpp:547-629. -/
def dsItems (rec : List Nat → PRes) : Nat → List Nat → Res (List Ty × Bool × Option Ty × List Nat)
  | 0, _ => .ub
  | f + 1, s =>
    match kwdAhead s with
    | some (v, s) => do
      let (xs, kv, s) ← dsFields rec false (str ")") (s.length + 1) s
      pure ([], v, some (mkStruct xs kv), s)
    | none =>
      match (tok (str "...") s).bind (tok (str ")")) with
      | some s => .ok ([], true, none, s)
      | none => do
        let (t, s) ← need (rec s)
        match tok (str ",") s with
        | some s =>
          match tok (str ")") s with
          | some s => pure ([t], false, none, s)
          | none => do
            let (ts, v, k, s) ← dsItems rec f s
            pure (t :: ts, v, k, s)
        | none => do
          let s ← expect (str ")") s
          pure ([t], false, none, s)

/-- `parse_tuple_or_funcproto`: keywords without `->` are dropped (lines 568-571), without keywords the keyword struct
    inherits the variadic flag of the positional part (callable_type.cpp:268-271).
    /repo/src/dynd/types/datashape_parser.cpp:535-657, /repo/src/dynd/types/callable_type.cpp:244-272. -/
def parseTuple (rec : List Nat → PRes) (s : List Nat) : PRes :=
  match tok (str "(") s with
  | none => .ok none
  | some s => do
    let (ts, v, k, s) ← (match tok (str ")") s with
      | some s => .ok ([], false, none, s)
      | none => dsItems rec (s.length + 1) s)
    match tok (str "->") s with
    | none => pure (some (.tuple ts (if k.isSome then false else v), s))
    | some s => do
      let (r, s) ← need (rec s)
      pure (some (.callable r (.tuple ts v) (k.getD (.struct [] [] v)), s))

/-- "struct", then "tuple or funcproto".  /repo/src/dynd/types/datashape_parser.cpp:831-838. -/
def structOrTuple (rec : List Nat → PRes) (s : List Nat) : PRes := do
  match ← parseStruct rec s with
  | some r => pure (some r)
  | none => parseTuple rec s

/-- After `base **`.  An exponent that is not followed by `*` leaves `result` null, and the parser goes on with a struct
    or tuple (lines 693, 831).  /repo/src/dynd/types/datashape_parser.cpp:667-723. -/
def powDim (rec : List Nat → PRes) (n s : List Nat) : PRes :=
  match scanNameOrNum s with
  | none => .throw .parse
  | some (x, s) =>
    if 49 ≤ x.headD 0 ∧ x.headD 0 ≤ 57 then do
      let e ← parseInt ⟨64, true⟩ x
      let s ← expect (str "*") s
      match ← rec s with
      | none => .throw .unmodelled
      | some (el, s) => do
        let mk ← dsPowBase n
        pure (some (powTy mk el e.toNat, s))
    else if isUpperC (x.headD 0) then
      match tok (str "*") s with
      | none => structOrTuple rec s
      | some s => do
        let mk ← dsPowBase n
        match ← rec s with
        | none => .throw .unmodelled
        | some (el, s) => pure (some (.powDimsym (mk (.prim .void)) (ofBytes x) el, s))
    else .throw .parse

/-- `parse_datashape_nooption` after a name or number.  /repo/src/dynd/types/datashape_parser.cpp:667-817. -/
def noOptNamed (rec : List Nat → PRes) (n b : List Nat) : PRes :=
  match tok (str "**") b with
  | some b => powDim rec n b
  | none =>
    match tok (str "*") b with
    | some b => do
      let (el, b) ← need (rec b)
      let t ← dimNamed n el
      pure (some (t, b))
    | none =>
      match tok (str "...") b with
      | some b => do
        let b ← expect (str "*") b
        let (el, b) ← need (rec b)
        let t ← mkEllipsis n el
        pure (some (t, b))
      | none => dtypeNamed rec n b

/-- `parse_datashape_nooption`.  /repo/src/dynd/types/datashape_parser.cpp:661-846. -/
def noOpt (rec : List Nat → PRes) (s0 : List Nat) : PRes :=
  let s := skipWs s0
  match scanNameOrNum s with
  | some (n, b) => noOptNamed rec n b
  | none =>
    match strip (str "...") s with
    | some b => do
      let b ← expect (str "*") b
      let (el, b) ← need (rec b)
      pure (some (.ellipsis "" el, b))
    | none => structOrTuple rec s

/-- `datashape::parse`.  The first argument bounds the nesting depth (the code recurses on the C++ stack without a
    bound); it is exhausted only if it is smaller than the text.  /repo/src/dynd/types/datashape_parser.cpp:851-866. -/
def parseTy : Nat → List Nat → PRes
  | 0, _ => .ub
  | f + 1, s =>
    match strip (str "?") (skipWs s) with
    | some b => do
      match ← noOpt (parseTy f) b with
      | none => pure none
      | some (t, b) => do
        let o ← mkOptionTy t
        pure (some (o, b))
    | none => noOpt (parseTy f) s

/-- `parse_stmt`, with the names already in the symbol table.  /repo/src/dynd/types/datashape_parser.cpp:868-918. -/
def parseStmt (fuel : Nat) (syms : List (List Nat)) (s : List Nat) :
    Res (Option (Ty × List Nat × List (List Nat))) :=
  match tok (str "type") s with
  | some [] => .ok (some (.leaf .typeT, [], syms))
  | some (c :: r) =>
    if isSpace c then
      match scanName (trimLeft (c :: r)) with
      | none =>
        match skipWs (trimLeft (c :: r)) with
        | [] => .ok (some (.leaf .typeT, [], syms))
        | _ :: _ => .throw .parse
      | some (n, b) => do
        let b ← expect (str "=") b
        let (t, b) ← need (parseTy fuel b)
        if (registry.lookup n).isSome then .throw .parse
        else if syms.contains n then .throw .parse
        else pure (some (t, b, n :: syms))
    else .ok none
  | none => do
    match ← parseTy fuel s with
    | none => pure none
    | some (t, b) => pure (some (t, b, syms))

/-- The loop of `parse_top`.  /repo/src/dynd/types/datashape_parser.cpp:926-939. -/
def parseTopLoop (fuel : Nat) : Nat → List (List Nat) → Ty → List Nat → Res Ty
  | 0, _, _, _ => .ub
  | k + 1, syms, t, s => do
    match ← parseStmt fuel syms s with
    | none =>
      match skipWs s with
      | [] => pure t
      | _ :: _ => .throw .parse
    | some (t', s, syms) => parseTopLoop fuel k syms t' s

/-- `type_from_datashape`, `parse_top`.  /repo/src/dynd/types/datashape_parser.cpp:921-940, 978-1003. -/
def typeFromDatashape (s : List Nat) : Res Ty := do
  match ← parseStmt (s.length + 1) [] s with
  | none => .throw .parse
  | some (t, b, syms) => parseTopLoop (s.length + 1) (s.length + 1) syms t b

end Dynd
