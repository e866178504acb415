import Verif.Model.Basic
/-
String encodings: code point decoders (`next_*`) and encoders (`append_*`).
A position in a string is the list of the units from there to the end, so reading at the end of the
range is `[]` (undefined behaviour).  Units are naturals: bytes for ASCII and UTF-8, 16-bit words for
UCS-2 and UTF-16, 32-bit words for UTF-32 (the `reinterpret_cast` of the byte pointer is not modelled).
-/
namespace Dynd

/-- `string_encoding_t`: /repo/include/dynd/string_encodings.hpp. -/
inductive Enc | ascii | ucs2 | utf8 | utf16 | utf32
  deriving DecidableEq, Repr

/-- `utf8::internal::is_lead_surrogate`: /repo/thirdparty/utf8/source/utf8/core.h:75-79. -/
def isLeadSurrogate (cp : Nat) : Bool := decide (cp ≥ 0xd800 ∧ cp ≤ 0xdbff)
/-- `is_trail_surrogate`: core.h:81-85. -/
def isTrailSurrogate (cp : Nat) : Bool := decide (cp ≥ 0xdc00 ∧ cp ≤ 0xdfff)
/-- `is_surrogate`: core.h:87-91. -/
def isSurrogate (cp : Nat) : Bool := decide (cp ≥ 0xd800 ∧ cp ≤ 0xdfff)
/-- `is_code_point_valid`: core.h:93-97. -/
def isCodePointValid (cp : Nat) : Bool := decide (cp ≤ 0x10ffff) && !isSurrogate cp

/-- `sequence_length`: core.h:99-113. -/
def sequenceLength (lead : Nat) : Nat :=
  if lead < 0x80 then 1
  else if lead >>> 5 = 0x6 then 2
  else if lead >>> 4 = 0xe then 3
  else if lead >>> 3 = 0x1e then 4
  else 0

/-- `is_overlong_sequence`: core.h:115-132. -/
def isOverlong (cp len : Nat) : Bool :=
  if cp < 0x80 then len != 1
  else if cp < 0x800 then len != 2
  else if cp < 0x10000 then len != 3
  else false

/-- `utf_error`: core.h:134. -/
inductive UtfErr | notEnoughRoom | invalidLead | incomplete | overlong | invalidCodePoint
  deriving DecidableEq, Repr

/-- `is_trail`: core.h:69-73. -/
def isTrail (oc : Nat) : Bool := oc >>> 6 == 0x2

/-- `increase_safely`: core.h:136-147.  The list starts at the current position; the result starts at the
    next one (kept also on error, because `noerror_next_utf8` leaves the iterator there). -/
def increaseSafely : List Nat → List Nat × Option UtfErr
  | [] => ([], some .notEnoughRoom)
  | _ :: [] => ([], some .notEnoughRoom)
  | _ :: b :: rest => if isTrail b then (b :: rest, none) else (b :: rest, some .incomplete)

/-- Value at the current position (never used at the end, see `increaseSafely`). -/
def cur : List Nat → Nat
  | [] => 0
  | b :: _ => b

/-- `get_sequence_1..4`: core.h:151-218.  Returns the final iterator and the code point or the error. -/
def getSequence (len : Nat) (it : List Nat) : List Nat × Except UtfErr Nat :=
  match len with
  | 1 => (it, .ok (cur it))
  | 2 =>
    match increaseSafely it with
    | (it1, some e) => (it1, .error e)
    | (it1, none) => (it1, .ok (((cur it <<< 6) &&& 0x7ff) + (cur it1 &&& 0x3f)))
  | 3 =>
    match increaseSafely it with
    | (it1, some e) => (it1, .error e)
    | (it1, none) =>
      match increaseSafely it1 with
      | (it2, some e) => (it2, .error e)
      | (it2, none) =>
        (it2, .ok (((cur it <<< 12) &&& 0xffff) + ((cur it1 <<< 6) &&& 0xfff) + (cur it2 &&& 0x3f)))
  | _ =>
    match increaseSafely it with
    | (it1, some e) => (it1, .error e)
    | (it1, none) =>
      match increaseSafely it1 with
      | (it2, some e) => (it2, .error e)
      | (it2, none) =>
        match increaseSafely it2 with
        | (it3, some e) => (it3, .error e)
        | (it3, none) =>
          (it3, .ok (((cur it <<< 18) &&& 0x1fffff) + ((cur it1 <<< 12) &&& 0x3ffff) +
            ((cur it2 <<< 6) &&& 0xfff) + (cur it3 &&& 0x3f)))

/-- `next_utf8` over `validate_next`: /repo/src/dynd/string_encodings.cpp:106-125, core.h:222-269. -/
def nextUtf8 : List Nat → Res (Nat × List Nat)
  | [] => .ub
  | b :: rest =>
    let len := sequenceLength b
    if len = 0 then .throw .encode
    else
      match getSequence len (b :: rest) with
      | (_, .error .notEnoughRoom) => .throw .runtime
      | (_, .error _) => .throw .encode
      | (it, .ok cp) =>
        if isCodePointValid cp then
          if !isOverlong cp len then .ok (cp, it.drop 1) else .throw .encode
        else .throw .encode

/-- `noerror_next_utf8`: /repo/src/dynd/string_encodings.cpp:127-169. -/
def noerrorNextUtf8 : List Nat → Res (Nat × List Nat)
  | [] => .ub
  | b :: rest =>
    let len := sequenceLength b
    if len = 0 then .ok (0x3f, b :: rest)
    else
      match getSequence len (b :: rest) with
      | (it, .error _) => .ok (0x3f, it)
      | (it, .ok cp) =>
        if isCodePointValid cp then
          if !isOverlong cp len then .ok (cp, it.drop 1) else .ok (0x3f, it)
        else .ok (0x3f, it)

/-- `utf8::append`: /repo/thirdparty/utf8/source/utf8/checked.h:72-97; each octet is cast to `uint8_t`. -/
def utf8Append (cp : Nat) : Res (List Nat) :=
  if !isCodePointValid cp then .throw .invalidCodePoint
  else if cp < 0x80 then .ok [cp % 256]
  else if cp < 0x800 then .ok [((cp >>> 6) ||| 0xc0) % 256, ((cp &&& 0x3f) ||| 0x80) % 256]
  else if cp < 0x10000 then
    .ok [((cp >>> 12) ||| 0xe0) % 256, (((cp >>> 6) &&& 0x3f) ||| 0x80) % 256, ((cp &&& 0x3f) ||| 0x80) % 256]
  else
    .ok [((cp >>> 18) ||| 0xf0) % 256, (((cp >>> 12) &&& 0x3f) ||| 0x80) % 256,
      (((cp >>> 6) &&& 0x3f) ||| 0x80) % 256, ((cp &&& 0x3f) ||| 0x80) % 256]

/-- `append_utf8`: string_encodings.cpp:171-185; `room` is `end - it` in units.  Returns the units written. -/
def appendUtf8 (cp room : Nat) : Res (List Nat) :=
  if room ≥ 6 then utf8Append cp
  else do
    let tmp ← utf8Append cp
    if tmp.length ≤ room then pure tmp else .throw .runtime

/-- `noerror_append_utf8`: string_encodings.cpp:187-203. -/
def noerrorAppendUtf8 (cp room : Nat) : Res (List Nat) :=
  if room ≥ 6 then utf8Append cp
  else do
    let tmp ← utf8Append cp
    if tmp.length ≤ room then pure tmp else pure (List.replicate room 0)

/-- `next_ascii`: string_encodings.cpp:39-46. -/
def nextAscii : List Nat → Res (Nat × List Nat)
  | [] => .ub
  | b :: rest => if b &&& 0x80 ≠ 0 then .throw .decode else .ok (b, rest)

/-- `noerror_next_ascii`: string_encodings.cpp:48-52. -/
def noerrorNextAscii : List Nat → Res (Nat × List Nat)
  | [] => .ub
  | b :: rest => .ok (if b &&& 0x80 = 0 then b else 0x3f, rest)

/-- `(cp & ~mask) != 0` on `uint32_t`: `~mask` has the 32-bit complement bits. -/
def maskedOut (cp mask : Nat) : Bool := (cp &&& (0xffffffff - mask)) != 0

/-- `append_ascii`: string_encodings.cpp:54-60; writing with no room left is out of bounds. -/
def appendAscii (cp room : Nat) : Res (List Nat) :=
  if maskedOut cp 0x7f then .throw .encode
  else if room = 0 then .ub else .ok [cp % 256]

/-- `noerror_append_ascii`: string_encodings.cpp:62-68. -/
def noerrorAppendAscii (cp room : Nat) : Res (List Nat) :=
  if room = 0 then .ub
  else if maskedOut cp 0x7f then .ok [0x3f] else .ok [cp % 256]

/-- `next_ucs2`: string_encodings.cpp:70-77. -/
def nextUcs2 : List Nat → Res (Nat × List Nat)
  | [] => .ub
  | u :: rest => if isSurrogate u then .throw .decode else .ok (u, rest)

/-- `noerror_next_ucs2`: string_encodings.cpp:79-86. -/
def noerrorNextUcs2 : List Nat → Res (Nat × List Nat)
  | [] => .ub
  | u :: rest => if isSurrogate u then .ok (0x3f, rest) else .ok (u, rest)

/-- `append_ucs2`: string_encodings.cpp:88-95. -/
def appendUcs2 (cp room : Nat) : Res (List Nat) :=
  if maskedOut cp 0xffff || isSurrogate cp then .throw .encode
  else if room = 0 then .ub else .ok [cp % 65536]

/-- `noerror_append_ucs2`: string_encodings.cpp:97-104. -/
def noerrorAppendUcs2 (cp room : Nat) : Res (List Nat) :=
  if room = 0 then .ub
  else if maskedOut cp 0xffff || isSurrogate cp then .ok [0x3f] else .ok [cp % 65536]

/-- `SURROGATE_OFFSET = 0x10000 - (0xd800 << 10) - 0xdc00` as `uint32_t`: core.h:53. -/
def surrogateOffset : Nat := (0x10000 + 2 * 4294967296 - (0xd800 <<< 10) - 0xdc00) % 4294967296

/-- `next_utf16`: string_encodings.cpp:213-234. -/
def nextUtf16 : List Nat → Res (Nat × List Nat)
  | [] => .ub
  | u :: rest =>
    if isLeadSurrogate u then
      match rest with
      | [] => .throw .decode
      | t :: rest' =>
        if isTrailSurrogate t then .ok (((u <<< 10) + t + surrogateOffset) % 4294967296, rest')
        else .throw .decode
    else if isTrailSurrogate u then .throw .decode
    else .ok (u, rest)

/-- `noerror_next_utf16`: string_encodings.cpp:236-257.  The bound test `it_raw <= end_raw + 2` (after the
    increment) always holds, so a lead surrogate at the end reads past the end. -/
def noerrorNextUtf16 : List Nat → Res (Nat × List Nat)
  | [] => .ub
  | u :: rest =>
    if isLeadSurrogate u then
      match rest with
      | [] => .ub
      | t :: rest' =>
        if isTrailSurrogate t then .ok (((u <<< 10) + t + surrogateOffset) % 4294967296, rest')
        else .ok (0x3f, rest')
    else if isTrailSurrogate u then .ok (0x3f, rest)
    else .ok (u, rest)

/-- `append_utf16`: string_encodings.cpp:259-273.  `LEAD_OFFSET = 0xd800 - (0x10000 >> 10)`. -/
def appendUtf16 (cp room : Nat) : Res (List Nat) :=
  if room = 0 then .ub
  else if cp > 0xffff then
    if room = 1 then .throw .runtime
    else .ok [((cp >>> 10) + (0xd800 - (0x10000 >>> 10))) % 65536, ((cp &&& 0x3ff) + 0xdc00) % 65536]
  else .ok [cp % 65536]

/-- `noerror_append_utf16`: string_encodings.cpp:275-293. -/
def noerrorAppendUtf16 (cp room : Nat) : Res (List Nat) :=
  if cp > 0xffff then
    if room > 1 then
      .ok [((cp >>> 10) + (0xd800 - (0x10000 >>> 10))) % 65536, ((cp &&& 0x3ff) + 0xdc00) % 65536]
    else .ok (List.replicate room 0)
  else if room = 0 then .ub else .ok [cp % 65536]

/-- `next_utf32`: string_encodings.cpp:295-302. -/
def nextUtf32 : List Nat → Res (Nat × List Nat)
  | [] => .ub
  | u :: rest => if !isCodePointValid u then .throw .decode else .ok (u, rest)

/-- `noerror_next_utf32`: string_encodings.cpp:304-311. -/
def noerrorNextUtf32 : List Nat → Res (Nat × List Nat)
  | [] => .ub
  | u :: rest => if !isCodePointValid u then .ok (0x3f, rest) else .ok (u, rest)

/-- `append_utf32` and `noerror_append_utf32`: string_encodings.cpp:313-325. -/
def appendUtf32 (cp room : Nat) : Res (List Nat) :=
  if room = 0 then .ub else .ok [cp]

/-- `get_next_unicode_codepoint_function`: string_encodings.cpp:328-344. -/
def nextFn (e : Enc) (nocheck : Bool) : List Nat → Res (Nat × List Nat) :=
  match e with
  | .ascii => if !nocheck then nextAscii else noerrorNextAscii
  | .ucs2 => if !nocheck then nextUcs2 else noerrorNextUcs2
  | .utf8 => if !nocheck then nextUtf8 else noerrorNextUtf8
  | .utf16 => if !nocheck then nextUtf16 else noerrorNextUtf16
  | .utf32 => if !nocheck then nextUtf32 else noerrorNextUtf32

/-- `get_append_unicode_codepoint_function`: string_encodings.cpp:346-362. -/
def appendFn (e : Enc) (nocheck : Bool) : Nat → Nat → Res (List Nat) :=
  match e with
  | .ascii => if !nocheck then appendAscii else noerrorAppendAscii
  | .ucs2 => if !nocheck then appendUcs2 else noerrorAppendUcs2
  | .utf8 => if !nocheck then appendUtf8 else noerrorAppendUtf8
  | .utf16 => if !nocheck then appendUtf16 else noerrorAppendUtf16
  | .utf32 => appendUtf32

/-- Loop of `string_range_as_utf8_string_templ`: string_encodings.cpp:364-373.  `fuel` bounds the number of
    iterations; running out of it (a loop that makes no progress) is `ub`. -/
def asUtf8Loop (next : List Nat → Res (Nat × List Nat)) : Nat → List Nat → Res (List Nat)
  | _, [] => .ok []
  | 0, _ :: _ => .ub
  | fuel + 1, us => do
    let (cp, rest) ← next us
    let bs ← utf8Append cp
    let r ← asUtf8Loop next fuel rest
    pure (bs ++ r)

/-- `string_range_as_utf8_string`: string_encodings.cpp:375-409. -/
def stringRangeAsUtf8 (e : Enc) (nocheck : Bool) (us : List Nat) : Res (List Nat) :=
  match e with
  | .ascii | .utf8 => .ok us
  | _ => asUtf8Loop (nextFn e nocheck) us.length us

/-- Copy loop of the fixed_string kernels: /repo/include/dynd/kernels/assignment_kernels.hpp:1379-1382 and
    /repo/src/dynd/types/fixed_string_type.cpp:65-68 (`stopAtNul = false`), assignment_kernels.hpp:1316-1326
    (`stopAtNul = true`).  Returns the units written and, unless a NUL stopped it, what is left of the
    source. -/
def fixedLoop (stopAtNul : Bool) (next : List Nat → Res (Nat × List Nat)) (append : Nat → Nat → Res (List Nat)) :
    Nat → List Nat → Nat → Res (List Nat × Option (List Nat))
  | 0, src, room => if src = [] ∨ room = 0 then .ok ([], some src) else .ub
  | fuel + 1, src, room =>
    if src = [] ∨ room = 0 then .ok ([], some src)
    else do
      let (cp, rest) ← next src
      if stopAtNul ∧ cp = 0 then pure ([], none)
      else do
        let bs ← append cp room
        if bs.length > room then .ub
        else do
          let (w, left) ← fixedLoop stopAtNul next append fuel rest (room - bs.length)
          pure (bs ++ w, left)

/-- Assignment to `fixed_string[n, dst]`: assignment_kernels.hpp:1296-1336 (from a fixed_string) and
    1358-1395 (from a string; same code in fixed_string_type.cpp:55-79).  The result is the `n` units of
    the destination. -/
def assignFixed (fromFixed : Bool) (se de : Enc) (nocheck : Bool) (n : Nat) (src : List Nat) : Res (List Nat) := do
  let (w, left) ← fixedLoop fromFixed (nextFn se nocheck) (appendFn de nocheck) src.length src n
  match left with
  | none => pure (w ++ List.replicate (n - w.length) 0)
  | some l =>
    if l ≠ [] then
      if !nocheck then .throw .runtime
      else pure (w ++ List.replicate (n - w.length) 0)
    else pure (w ++ List.replicate (n - w.length) 0)

/-- `fixed_string_type::get_string_range`: /repo/src/dynd/types/fixed_string_type.cpp:14-53: the units before
    the first NUL. -/
def fixedRange (data : List Nat) : List Nat := data.takeWhile (· ≠ 0)

/-- Growing copy loop: `string_type::set_from_utf8_string`, /repo/src/dynd/types/string_type.cpp:41-58
    (`stopAtNul = false`), and the string-from-fixed_string kernel, assignment_kernels.hpp:1035-1054
    (`stopAtNul = true`).  `cap` is `dst_end - dst_begin`, `out` what was written so far. -/
def growLoop (stopAtNul : Bool) (next : List Nat → Res (Nat × List Nat)) (append : Nat → Nat → Res (List Nat)) :
    Nat → List Nat → Nat → List Nat → Res (List Nat)
  | _, [], _, out => .ok out
  | 0, _ :: _, _, _ => .ub
  | fuel + 1, src, cap, out => do
    let (cp, rest) ← next src
    if stopAtNul ∧ cp = 0 then pure out
    else do
      let cap' := if cap - out.length ≥ 8 then cap else 2 * cap
      let bs ← append cp (cap' - out.length)
      if bs.length > cap' - out.length then .ub
      else growLoop stopAtNul next append fuel rest cap' (out ++ bs)

/-- `string_type::set_from_utf8_string`: string_type.cpp:24-62 (source UTF-8), and the string-from-fixed_string
    kernel: assignment_kernels.hpp:1019-1058.  Initial capacity `(n + 16) * 1124 / 1024`.  The destination
    encoding of a string is always UTF-8. -/
def assignString (fromFixed : Bool) (se : Enc) (nocheck : Bool) (src : List Nat) : Res (List Nat) :=
  growLoop fromFixed (nextFn se nocheck) (appendFn .utf8 nocheck) src.length src ((src.length + 16) * 1124 / 1024) []

end Dynd
