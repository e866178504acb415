/-
Half-precision conversion and comparison (`src/dynd/float16.cpp`, `include/dynd/float16.hpp`), on bit patterns
(naturals below `2^16`, `2^32`, `2^64`).
-/
import Verif.Model.Basic

namespace Dynd

/-- `(uint16_t)x`. -/
def u16 (x : Nat) : Nat := x % 65536
/-- `(uint32_t)x`. -/
def u32 (x : Nat) : Nat := x % 4294967296
/-- `(uint64_t)x`. -/
def u64 (x : Nat) : Nat := x % 18446744073709551616

/-- `float_to_halfbits` on the bits `f` of its argument. /repo/src/dynd/float16.cpp:17-140
    (`DYND_FLOAT16_ROUND_TIES_TO_EVEN = 1`, not CUDA).  Shifts are by less than 32 in every branch reached. -/
def floatToHalf (f : Nat) : Res Nat :=
  let hSgn := u16 ((f &&& 0x80000000) >>> 16)
  let fExp := f &&& 0x7f800000
  if fExp ≥ 0x47800000 then
    if fExp = 0x7f800000 then
      let fSig := f &&& 0x007fffff
      if fSig ≠ 0 then
        let ret := u16 (0x7c00 + (fSig >>> 13))
        let ret := if ret = 0x7c00 then ret + 1 else ret
        .ok (u16 (hSgn + ret))
      else .ok (u16 (hSgn + 0x7c00))
    else .ok (u16 (hSgn + 0x7c00))
  else if fExp ≤ 0x38000000 then
    if fExp < 0x33000000 then
      if f &&& 0x7fffffff ≠ 0 then .throw .runtime else .ok hSgn
    else
      let e := fExp >>> 23
      let fSig := 0x00800000 + (f &&& 0x007fffff)
      if fSig &&& (u32 (1 <<< (126 - e)) - 1) ≠ 0 then .throw .runtime
      else
        let fSig := fSig >>> (113 - e)
        let fSig := if fSig &&& 0x00003fff ≠ 0x00001000 then fSig + 0x00001000 else fSig
        let hSig := u16 (fSig >>> 13)
        .ok (u16 (hSgn + hSig))
  else
    let hExp := u16 ((fExp - 0x38000000) >>> 13)
    let fSig := f &&& 0x007fffff
    let fSig := if fSig &&& 0x00003fff ≠ 0x00001000 then fSig + 0x00001000 else fSig
    let hSig := u16 (fSig >>> 13)
    let hSig := u16 (hSig + hExp)
    if hSig = 0x7c00 then .throw .overflow else .ok (u16 (hSgn + hSig))

/-- `double_to_halfbits` on the bits `d` of its argument. /repo/src/dynd/float16.cpp:142-265. -/
def doubleToHalf (d : Nat) : Res Nat :=
  let hSgn := u16 ((d &&& 0x8000000000000000) >>> 48)
  let dExp := d &&& 0x7ff0000000000000
  if dExp ≥ 0x40f0000000000000 then
    if dExp = 0x7ff0000000000000 then
      let dSig := d &&& 0x000fffffffffffff
      if dSig ≠ 0 then
        let ret := u16 (0x7c00 + (dSig >>> 42))
        let ret := if ret = 0x7c00 then ret + 1 else ret
        .ok (u16 (hSgn + ret))
      else .ok (u16 (hSgn + 0x7c00))
    else .ok (u16 (hSgn + 0x7c00))
  else if dExp ≤ 0x3f00000000000000 then
    if dExp < 0x3e60000000000000 then
      if d &&& 0x7fffffffffffffff ≠ 0 then .throw .runtime else .ok hSgn
    else
      let e := dExp >>> 52
      let dSig := 0x0010000000000000 + (d &&& 0x000fffffffffffff)
      if dSig &&& (u64 (1 <<< (1051 - e)) - 1) ≠ 0 then .throw .runtime
      else
        let dSig := dSig >>> (1009 - e)
        let dSig := if dSig &&& 0x000007ffffffffff ≠ 0x0000020000000000 then dSig + 0x0000020000000000 else dSig
        let hSig := u16 (dSig >>> 42)
        .ok (u16 (hSgn + hSig))
  else
    let hExp := u16 ((dExp - 0x3f00000000000000) >>> 42)
    let dSig := d &&& 0x000fffffffffffff
    let dSig := if dSig &&& 0x000007ffffffffff ≠ 0x0000020000000000 then dSig + 0x0000020000000000 else dSig
    let hSig := u16 (dSig >>> 42)
    let hSig := u16 (hSig + hExp)
    if hSig = 0x7c00 then .throw .overflow else .ok (u16 (hSgn + hSig))

/-- `while ((h_sig & 0x0400u) == 0) { h_sig <<= 1; h_exp++; }` (with fuel).
    /repo/src/dynd/float16.cpp:287-291, 327-331. -/
def normLoop : Nat → Nat → Nat → Res (Nat × Nat)
  | 0, _, _ => .ub
  | fuel + 1, sig, e =>
    if sig &&& 0x0400 = 0 then normLoop fuel (u16 (sig <<< 1)) (e + 1) else .ok (sig, e)

/-- `halfbits_to_float`, as bits. /repo/src/dynd/float16.cpp:267-305. -/
def halfToFloat (h : Nat) : Res Nat :=
  let hExp := h &&& 0x7c00
  let fSgn := u32 ((h &&& 0x8000) <<< 16)
  if hExp = 0 then
    let hSig := h &&& 0x03ff
    if hSig = 0 then .ok fSgn
    else do
      let (hSig, hExp) ← normLoop 16 (u16 (hSig <<< 1)) hExp
      let fExp := u32 ((127 - 15 - hExp) <<< 23)
      let fSig := u32 ((hSig &&& 0x03ff) <<< 13)
      pure (u32 (fSgn + fExp + fSig))
  else if hExp = 0x7c00 then
    .ok (u32 (fSgn + 0x7f800000 + u32 ((h &&& 0x03ff) <<< 13)))
  else
    .ok (u32 (fSgn + u32 (((h &&& 0x7fff) + 0x1c000) <<< 13)))

/-- `halfbits_to_double`, as bits. /repo/src/dynd/float16.cpp:307-345. -/
def halfToDouble (h : Nat) : Res Nat :=
  let hExp := h &&& 0x7c00
  let dSgn := u64 ((h &&& 0x8000) <<< 48)
  if hExp = 0 then
    let hSig := h &&& 0x03ff
    if hSig = 0 then .ok dSgn
    else do
      let (hSig, hExp) ← normLoop 16 (u16 (hSig <<< 1)) hExp
      let dExp := u64 ((1023 - 15 - hExp) <<< 52)
      let dSig := u64 ((hSig &&& 0x03ff) <<< 42)
      pure (u64 (dSgn + dExp + dSig))
  else if hExp = 0x7c00 then
    .ok (u64 (dSgn + 0x7ff0000000000000 + u64 ((h &&& 0x03ff) <<< 42)))
  else
    .ok (u64 (dSgn + u64 (((h &&& 0x7fff) + 0xfc000) <<< 42)))

/-- `float16::signbit_`. /repo/include/dynd/float16.hpp:110. -/
def halfSign (a : Nat) : Bool := decide (a &&& 0x8000 ≠ 0)
/-- `float16::iszero`. /repo/include/dynd/float16.hpp:108. -/
def halfIsZero (a : Nat) : Bool := decide (a &&& 0x7fff = 0)
/-- `float16::isnan_`. /repo/include/dynd/float16.hpp:112. -/
def halfIsNan (a : Nat) : Bool := decide (a &&& 0x7c00 = 0x7c00) && decide (a &&& 0x03ff ≠ 0)
/-- `float16::isinf_`. /repo/include/dynd/float16.hpp:114. -/
def halfIsInf (a : Nat) : Bool := decide (a &&& 0x7fff = 0x7c00)
/-- `float16::isfinite_`. /repo/include/dynd/float16.hpp:116. -/
def halfIsFinite (a : Nat) : Bool := decide (a &&& 0x7c00 ≠ 0x7c00)

/-- `float16::less_nonan`. /repo/include/dynd/float16.hpp:135-154. -/
def lessNonan (a b : Nat) : Bool :=
  if halfSign a then
    if halfSign b then decide (a > b) else decide (a ≠ 0x8000) || decide (b ≠ 0)
  else
    if halfSign b then false else decide (a < b)

/-- `float16::less_equal_nonan`. /repo/include/dynd/float16.hpp:156-175. -/
def lessEqualNonan (a b : Nat) : Bool :=
  if halfSign a then
    if halfSign b then decide (a ≥ b) else true
  else
    if halfSign b then decide (a = 0) && decide (b = 0x8000) else decide (a ≤ b)

/-- `float16::operator!`. /repo/include/dynd/float16.hpp:205. -/
def halfNot (a : Nat) : Bool := decide (0x7fff ||| a = 0)
/-- `float16::operator bool`. /repo/include/dynd/float16.hpp:207. -/
def halfBool (a : Nat) : Bool := decide (0x7ff ||| a ≠ 0)

end Dynd
