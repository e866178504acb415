/-
Integer conversion, integer parsing and integer printing
(`include/dynd/parse_util.hpp`, `include/dynd/assignment.hpp`,
`include/dynd/kernels/assignment_kernels.hpp`, `src/dynd/type.cpp`).

A builtin integer type is its width in bits and its signedness; its values are mathematical integers
in its range.  A string is a list of bytes (naturals).
-/
import Verif.Model.Basic

namespace Dynd

/-- A builtin integer type (`int8` … `uint64`, and the compiler's 128-bit types):
    /repo/include/dynd/type_registry / config.hpp typedefs.  `bits = 8 * sizeof(T)`. -/
structure IntTy where
  bits : Nat
  signed : Bool
  deriving DecidableEq, Repr

namespace IntTy
/-- `std::numeric_limits<T>::min()`. -/
def min (t : IntTy) : Int := if t.signed then -(2 ^ (t.bits - 1) : Nat) else 0
/-- `std::numeric_limits<T>::max()`. -/
def max (t : IntTy) : Int := if t.signed then (2 ^ (t.bits - 1) : Nat) - 1 else (2 ^ t.bits : Nat) - 1
/-- The widths that exist (whole, non-zero numbers of bytes). -/
def Valid (t : IntTy) : Prop := 8 ≤ t.bits
instance (t : IntTy) : Decidable t.Valid := by unfold Valid; infer_instance
/-- `x` is a value of type `t`. -/
def Has (t : IntTy) (x : Int) : Prop := t.min ≤ x ∧ x ≤ t.max
instance (t : IntTy) (x : Int) : Decidable (t.Has x) := by unfold Has; infer_instance
/-- `static_cast<T>(x)` for an integer `x`: reduction modulo `2^bits` into the range of `T`
    (two's complement; for out-of-range signed targets implementation-defined before C++20, all
    supported compilers reduce). -/
def cast (t : IntTy) (x : Int) : Int :=
  if t.signed then
    (x + (2 ^ (t.bits - 1) : Nat)) % ((2 ^ t.bits : Nat) : Int) - (2 ^ (t.bits - 1) : Nat)
  else x % ((2 ^ t.bits : Nat) : Int)
end IntTy

/-- `is_overflow<DstType>(SrcType src)`: the eight overloads selected by `sizeof` and signedness.
    /repo/include/dynd/parse_util.hpp:36-92.  `static_cast<SrcType>` of the limits is `s.cast`;
    the comparisons are made after the usual promotions, which preserve the values. -/
def isOverflow (d s : IntTy) (src : Int) : Bool :=
  match d.signed, s.signed with
  | true, true =>
    if d.bits < s.bits then decide (src < s.cast d.min) || decide (src > s.cast d.max) else false
  | true, false => decide (src > s.cast d.max)
  | false, true =>
    if d.bits < s.bits then decide (src < s.cast 0) || decide (s.cast d.max < src)
    else decide (src < s.cast 0)
  | false, false => if d.bits < s.bits then decide (s.cast d.max < src) else false

/-- `overflow_cast<RetType>(ArgType s)` for integer types (all four signedness combinations), the
    body of the int→int `assignment_kernel`s in modes `overflow`, `fractional` and `inexact`.
    /repo/include/dynd/assignment.hpp:359-420, kernels/assignment_kernels.hpp:522-620. -/
def overflowCast (d s : IntTy) (src : Int) : Res Int :=
  if isOverflow d s src then .throw .overflow else .ok (d.cast src)

/-- int→int assignment in mode `nocheck`: `static_cast`.
    /repo/include/dynd/kernels/assignment_kernels.hpp (generic nocheck kernel). -/
def nocheckCast (d : IntTy) (src : Int) : Int := d.cast src

/-- `overflow_cast<bool1>(ArgType s)` for an integer source.
    /repo/include/dynd/assignment.hpp:344-356. -/
def overflowCastBool (src : Int) : Res Bool :=
  if src = 0 then .ok false
  else if src = 1 then .ok true
  else .throw .overflow

/-- `'0' <= c && c <= '9'`. -/
def isDig (c : Nat) : Bool := decide (48 ≤ c) && decide (c ≤ 57)

/-- `while (begin < end && *begin == '0') ++begin;`
    /repo/include/dynd/parse_util.hpp:945-947, 962-964. -/
def dropZeros : List Nat → List Nat
  | [] => []
  | c :: r => if c = 48 then dropZeros r else c :: r

/-- One optional exponent digit: `if (begin < end && isdigit) exponent = 10*exponent + digit`.
    /repo/include/dynd/parse_util.hpp:965-970. -/
def expDigit (e : Nat) : List Nat → Nat × List Nat
  | [] => (e, [])
  | c :: r => if isDig c then (10 * e + (c - 48), r) else (e, c :: r)

/-- `for (i < exponent) { result = result * 10u; if (result < prev_result) throw …; prev = result; }`
    /repo/include/dynd/parse_util.hpp:975-986. -/
def mulPow10 (bits : Nat) : Nat → Nat → Res Nat
  | 0, result => .ok result
  | n + 1, result =>
    let result' := (result * 10) % 2 ^ bits
    if result' < result then .throw .overflow else mulPow10 bits n result'

/-- Optional `+`. /repo/include/dynd/parse_util.hpp:957-959. -/
def skipPlus : List Nat → List Nat
  | 43 :: r => r
  | s => s

/-- The part of `parse<unsigned T>` after an `e`/`E`. /repo/include/dynd/parse_util.hpp:954-993. -/
def parseExp (bits : Nat) (s : List Nat) (result : Nat) : Res Nat :=
  let s1 := skipPlus s
  match s1 with
  | [] => .throw .invalidArg
  | _ :: _ =>
    let s2 := dropZeros s1
    let (e1, s3) := expDigit 0 s2
    let (e2, s4) := expDigit e1 s3
    match s4 with
    | [] => mulPow10 bits e2 result
    | _ :: _ => .throw .invalidArg

/-- The loop of `parse<unsigned T>(begin, end)`.  `prev_result` always equals `result` at the head of
    the loop (both start at 0 and line 999 copies), so one accumulator suffices.  The arithmetic is
    modulo `2^bits` (for narrow `T` it is done in `unsigned int` and truncated, the same).
    /repo/include/dynd/parse_util.hpp:929-1003. -/
def parseULoop (bits : Nat) : List Nat → Nat → Res Nat
  | [], result => .ok result
  | c :: r, result =>
    if isDig c then
      let result' := (result * 10 + (c - 48)) % 2 ^ bits
      if result' < result then .throw .overflow else parseULoop bits r result'
    else if c = 46 then
      match dropZeros r with
      | [] => .ok result
      | _ :: _ => .throw .invalidArg
    else if c = 101 ∨ c = 69 then parseExp bits r result
    else .throw .invalidArg

/-- `parse<T>(begin, end)`, `T` unsigned with `bits` bits.  Throws `std::invalid_argument`,
    `std::out_of_range` (modelled as `overflow`), or the string cast error for the empty string.
    /repo/include/dynd/parse_util.hpp:925-1003. -/
def parseU (bits : Nat) (s : List Nat) : Res Nat :=
  match s with
  | [] => .throw .invalidArg
  | _ :: _ => parseULoop bits s 0

/-- Optional leading `-`. /repo/include/dynd/parse_util.hpp:1013-1017. -/
def takeMinus : List Nat → Bool × List Nat
  | 45 :: r => (true, r)
  | s => (false, s)

/-- `parse<T>(begin, end)`, `T` signed with `bits` bits. /repo/include/dynd/parse_util.hpp:1010-1032.
    The negation `-static_cast<T>(value)` is a signed operation, checked to stay in range. -/
def parseS (bits : Nat) (s : List Nat) : Res Int := do
  let t : IntTy := ⟨bits, true⟩
  let u : IntTy := ⟨bits, false⟩
  let (neg, s) := takeMinus s
  let value ← parseU bits s
  if neg && decide ((value : Int) = u.cast t.min) then .ok t.min
  else if isOverflow t u value then .throw .overflow
  else if neg then
    (if t.Has (-(t.cast value)) then .ok (-(t.cast value)) else .ub)
  else .ok (t.cast value)

/-- `parse<T>` for any builtin integer type. -/
def parseInt (t : IntTy) (s : List Nat) : Res Int :=
  if t.signed then parseS t.bits s else (fun n : Nat => (n : Int)) <$> parseU t.bits s

/-- `overflow_check<T>::is_overflow(uint64_t value, bool negative)`, `T` signed.
    /repo/include/dynd/parse_util.hpp:94-103.  `-static_cast<int64_t>(min)` is a signed negation, hence
    undefined for `T = int64_t`; `~max()` is sign-extended to 64 bits. -/
def overflowCheck (bits : Nat) (value : Nat) (negative : Bool) : Res Bool := do
  let t : IntTy := ⟨bits, true⟩
  let rest : Bool := decide (value &&& (2 ^ 64 - 1 - (t.max.toNat)) ≠ 0)
  if negative then do
    let m ← i64 (-t.min)
    if (value : Int) = m then pure false else pure rest
  else pure rest

/-- C-locale `isspace`.  (Passing a negative `char` is formally undefined; the model answers
    "no" for bytes ≥ 128, as all C libraries in use do.) -/
def isSpace (c : Nat) : Bool := decide (c = 32) || (decide (9 ≤ c) && decide (c ≤ 13))

/-- `trim_left_if`. /repo/include/dynd/kernels/assignment_kernels.hpp:47-56,67-69. -/
def trimLeft : List Nat → List Nat
  | [] => []
  | c :: r => if isSpace c then trimLeft r else c :: r

/-- `trim(s)`: right, then left. /repo/include/dynd/kernels/assignment_kernels.hpp:57-77. -/
def trim (s : List Nat) : List Nat := trimLeft (trimLeft s.reverse).reverse

/-- The string→signed-int assignment kernel, error mode other than `nocheck`.
    /repo/include/dynd/kernels/assignment_kernels.hpp:1163-1188 (after `get_utf8_string`). -/
def stringToSigned (bits : Nat) (s : List Nat) : Res Int := do
  let t : IntTy := ⟨bits, true⟩
  let s := trim s
  let (neg, s) := takeMinus s
  let value ← parseU 64 s
  let o ← overflowCheck bits value neg
  if o then .throw .overflow
  else if neg then do
    let m ← i64 (-((⟨64, true⟩ : IntTy).cast value))
    pure (t.cast m)
  else pure (t.cast value)

/-- The string→unsigned-int assignment kernel. /repo/include/dynd/kernels/assignment_kernels.hpp:1190-1196. -/
def stringToUnsigned (bits : Nat) (s : List Nat) : Res Nat := parseU bits s

/-- Digits of `n`, most significant first, prepended to `acc` (`ostream << unsigned`, base 10). -/
def decDigits (n : Nat) : List Nat :=
  if n < 10 then [48 + n] else decDigits (n / 10) ++ [48 + n % 10]
termination_by n

/-- `print_builtin_scalar` of an integer: the narrow types are widened and printed with
    `ostream <<` in decimal. /repo/src/dynd/type.cpp:776-814. -/
def printInt (x : Int) : List Nat :=
  if x < 0 then 45 :: decDigits x.natAbs else decDigits x.natAbs

end Dynd
