/-
`dynd::float128` (`include/dynd/float128.hpp`, `src/dynd/float128.cpp`; config.hpp never defines DYND_HAS_FLOAT128), on
bit patterns.  Not modelled: the CUDA variants, the `std::common_type` specialisations.
-/
import Verif.Model.Half

namespace Dynd

/-- The two words of a `float128`.  float128.hpp:17-22. -/
structure Quad where
  hi : Nat
  lo : Nat
  deriving DecidableEq, Repr

/-- `leading_zerobits(uint8_t)`.  /repo/src/dynd/float128.cpp:16-20. -/
def leadZero8 (v : Nat) : Nat :=
  if v &&& 0xf0 ≠ 0 then (if v &&& 0xc0 ≠ 0 then (if v &&& 0x80 ≠ 0 then 0 else 1) else (if v &&& 0x20 ≠ 0 then 2 else 3))
  else (if v &&& 0x0c ≠ 0 then (if v &&& 0x08 ≠ 0 then 4 else 5) else (if v &&& 0x02 ≠ 0 then 6 else 7))

/-- `leading_zerobits(uint16_t)`.  float128.cpp:22-25. -/
def leadZero16 (v : Nat) : Nat :=
  if v &&& 0xff00 ≠ 0 then leadZero8 ((v >>> 8) % 256) else leadZero8 (v % 256) + 8

/-- `leading_zerobits(uint32_t)`.  float128.cpp:27-31. -/
def leadZero32 (v : Nat) : Nat :=
  if v &&& 0xffff0000 ≠ 0 then leadZero16 ((v >>> 16) % 65536) else leadZero16 (v % 65536) + 16

/-- `leading_zerobits(uint64_t)`.  float128.cpp:33-37. -/
def leadZero64 (v : Nat) : Nat :=
  if v &&& 0xffffffff00000000 ≠ 0 then leadZero32 ((v >>> 32) % 4294967296) else leadZero32 (v % 4294967296) + 32

/-- The sign handling of the signed constructors: the value is negated in its own type.  `signed char` and `short` are
    negated as `int` and converted back (modulo the width); negating the smallest `int` or `long long` overflows.
    float128.cpp:46-52, 79-85, 112-118, 146-152. -/
def quadNegate (w : Nat) (x : Int) : Res Int :=
  if x = -(2 ^ (w - 1) : Int) then (if w = 8 ∨ w = 16 then .ok x else .ub) else .ok (-x)

/-- The constructors from integers of 8, 16 and 32 bits; `value` is the value whose magnitude is used, of a `w`-bit
    type, `sgn` the sign word.  float128.cpp:53-57, 66-70, 86-90, 99-103, 119-123, 132-136. -/
def quadSmall (w lead shift : Nat) (sgn : Nat) (value : Int) : Quad :=
  let hi := u64 (sgn + u64 ((16838 + w - lead) <<< 48))
  { hi := u64 (hi + (u64 ((value % 2 ^ 64).toNat <<< (shift + lead)) &&& 0x0000ffffffffffff)), lo := 0 }

/-- `float128(signed char)`.  float128.cpp:40-58. -/
def quadOfInt8 (x : Int) : Res Quad := do
  if x = 0 then pure { hi := 0, lo := 0 }
  else do
    let v ← if x < 0 then quadNegate 8 x else pure x
    pure (quadSmall 8 (leadZero8 (v % 2 ^ 8).toNat) 41 (if x < 0 then 0x8000000000000000 else 0) v)

/-- `float128(unsigned char)`.  float128.cpp:60-71. -/
def quadOfUInt8 (x : Nat) : Quad := if x = 0 then { hi := 0, lo := 0 } else quadSmall 8 (leadZero8 x) 41 0 x

/-- `float128(short)`.  float128.cpp:73-91. -/
def quadOfInt16 (x : Int) : Res Quad := do
  if x = 0 then pure { hi := 0, lo := 0 }
  else do
    let v ← if x < 0 then quadNegate 16 x else pure x
    pure (quadSmall 16 (leadZero16 (v % 2 ^ 16).toNat) 33 (if x < 0 then 0x8000000000000000 else 0) v)

/-- `float128(unsigned short)`.  float128.cpp:93-104. -/
def quadOfUInt16 (x : Nat) : Quad := if x = 0 then { hi := 0, lo := 0 } else quadSmall 16 (leadZero16 x) 33 0 x

/-- `float128(int)`.  float128.cpp:106-124. -/
def quadOfInt32 (x : Int) : Res Quad := do
  if x = 0 then pure { hi := 0, lo := 0 }
  else do
    let v ← if x < 0 then quadNegate 32 x else pure x
    pure (quadSmall 32 (leadZero32 (v % 2 ^ 32).toNat) 17 (if x < 0 then 0x8000000000000000 else 0) v)

/-- `float128(unsigned int)`.  float128.cpp:126-137. -/
def quadOfUInt32 (x : Nat) : Quad := if x = 0 then { hi := 0, lo := 0 } else quadSmall 32 (leadZero32 x) 17 0 x

/-- `v << s` on `uint64_t`: a negative shift or one of 64 or more is undefined. -/
def shl64 (v : Nat) (s : Int) : Res Nat := if 0 ≤ s ∧ s < 64 then .ok (u64 (v <<< s.toNat)) else .ub

/-- The common part of the 64-bit constructors.  float128.cpp:153-156, 167-170. -/
def quadWide (sgn value : Nat) : Res Quad := do
  let lead := leadZero64 value
  let frac ← shl64 value (-15 + lead)
  let lo ← shl64 value (49 + lead)
  let hi := u64 (sgn + u64 ((16838 + 64 - lead) <<< 48))
  pure { hi := u64 (hi + (frac &&& 0x0000ffffffffffff)), lo := lo }

/-- `float128(long long)` (and `long`).  float128.cpp:139-158, float128.hpp:33. -/
def quadOfInt64 (x : Int) : Res Quad := do
  if x = 0 then pure { hi := 0, lo := 0 }
  else do
    let v ← if x < 0 then quadNegate 64 x else pure x
    quadWide (if x < 0 then 0x8000000000000000 else 0) (v % 2 ^ 64).toNat

/-- `float128(unsigned long long)` (and `unsigned long`).  float128.cpp:160-172, float128.hpp:34. -/
def quadOfUInt64 (x : Nat) : Res Quad := if x = 0 then .ok { hi := 0, lo := 0 } else quadWide 0 x

/-- `float128(bool)`.  float128.hpp:146. -/
def quadOfBool (b : Bool) : Quad := { lo := 0, hi := if b then 0x3fff000000000000 else 0 }

/-- `float128(bool1)`: an empty constructor; the words keep whatever the memory held.  float128.hpp:25. -/
def quadOfBool1 (old : Quad) (_ : Bool) : Quad := old

/-- The loop that normalises a subnormal.  float128.cpp:217-221. -/
def quadNorm : Nat → Nat → Nat → Res (Nat × Nat)
  | 0, _, _ => .ub
  | fuel + 1, sig, e =>
    if sig &&& 0x0010000000000000 = 0 then quadNorm fuel (u64 (sig <<< 1)) (u64 (e + 1)) else .ok (sig, e)

/-- `float128(double)` on the bits of its argument.  float128.cpp:194-239. -/
def quadOfDouble (d : Nat) : Res Quad :=
  let dExp := d &&& 0x7ff0000000000000
  let qSgn := d &&& 0x8000000000000000
  if dExp = 0 then
    let dSig := d &&& 0x000fffffffffffff
    if dSig = 0 then .ok { hi := qSgn, lo := 0 }
    else do
      let (dSig, dExp) ← quadNorm 64 (u64 (dSig <<< 1)) dExp
      let qExp := u64 ((u64 (16383 - 1023 + 2 ^ 64 - dExp)) <<< 48)
      let qSig := dSig &&& 0x000fffffffffffff
      pure { hi := u64 (qSgn + qExp + (qSig >>> 4)), lo := u64 (qSig <<< 60) }
  else if dExp = 0x7ff0000000000000 then
    let dSig := d &&& 0x000fffffffffffff
    .ok { hi := u64 (qSgn + 0x7ff0000000000000 + (dSig >>> 4)), lo := u64 (dSig <<< 60) }
  else
    .ok { hi := u64 (qSgn + (((d &&& 0x7fffffffffffffff) >>> 4) + 0x3c00000000000000)), lo := u64 (d <<< 60) }

/-- `float128(float16)`.  float128.cpp:192. -/
def quadOfHalf (h : Nat) : Res Quad := do
  let d ← halfToDouble h
  quadOfDouble d

/-- The conversions to other numbers, negation, `+`, `*`, `/`, `/=`, `floor` and every comparison operator: all go
    through a conversion that throws.  float128.hpp:42-144, 251, 261-384; the 128-bit integer constructors throw too,
    float128.cpp:174-190. -/
def quadConvert (_ : Quad) : Res Unit := .throw .runtime

/-- `iszero`, `signbit_`, `isnan_`, `isinf_`, `isfinite_`.  float128.hpp:148-160. -/
def quadIsZero (q : Quad) : Bool := q.hi &&& 0x7fffffffffffffff = 0 && q.lo = 0
def quadSign (q : Quad) : Bool := q.hi &&& 0x8000000000000000 ≠ 0
def quadIsNan (q : Quad) : Bool :=
  q.hi &&& 0x7fff000000000000 = 0x7fff000000000000 && (q.hi &&& 0x0000ffffffffffff ≠ 0 || q.lo ≠ 0)
def quadIsInf (q : Quad) : Bool := q.hi &&& 0x7fffffffffffffff = 0x7fff000000000000 && q.lo = 0
def quadIsFinite (q : Quad) : Bool := q.hi &&& 0x7fff000000000000 ≠ 0x7fff000000000000

/-- `operator!` and `operator bool`.  float128.hpp:253-255. -/
def quadNot (q : Quad) : Bool := (0x7fffffffffffffff &&& q.hi) ||| q.lo = 0
def quadBool (q : Quad) : Bool := (0x7fffffffffffffff &&& q.hi) ||| q.lo ≠ 0

/-- `less_nonan`.  float128.hpp:183-202. -/
def quadLess (a b : Quad) : Bool :=
  if quadSign a then
    if quadSign b then a.hi > b.hi || (a.hi = b.hi && a.lo > b.lo)
    else a.hi ≠ 0x8000000000000000 || a.lo ≠ 0 || b.hi ≠ 0 || b.lo ≠ 0
  else if quadSign b then false
  else a.hi < b.hi || (a.hi = b.hi && a.lo < b.lo)

/-- `less_equal_nonan`.  float128.hpp:204-223. -/
def quadLessEq (a b : Quad) : Bool :=
  if quadSign a then
    if quadSign b then a.hi > b.hi || (a.hi = b.hi && a.lo ≥ b.lo)
    else true
  else if quadSign b then a.hi = 0x8000000000000000 && a.lo = 0 && b.hi = 0 && b.lo = 0
  else a.hi < b.hi || (a.hi = b.hi && a.lo ≤ b.lo)

end Dynd
