/-
The library's own 128-bit integers, used when the compiler has none
(`include/dynd/int128.hpp`, `include/dynd/uint128.hpp`, `src/dynd/int128.cpp`, `src/dynd/uint128.cpp`).
-/
import Verif.Model.FloatCast
import Verif.Model.Half

namespace Dynd

/-- The two 64-bit words of an `int128` or a `uint128`.
    /repo/include/dynd/int128.hpp:16-21, uint128.hpp:21-26. -/
structure W128 where
  hi : Nat
  lo : Nat
  deriving DecidableEq, Repr

/-- `~x` on `uint64_t`. -/
def not64 (x : Nat) : Nat := 2 ^ 64 - 1 - x
/-- a `bool` used as a number -/
def b2n (b : Bool) : Nat := if b then 1 else 0
/-- `(int64_t)x`. -/
def sext64 (x : Nat) : Int := if x < 2 ^ 63 then x else (x : Int) - 2 ^ 64

namespace W128

/-- `int128::operator~`, `uint128::operator~`. int128.hpp:50, uint128.hpp:71. -/
def bnot (x : W128) : W128 := ⟨not64 x.hi, not64 x.lo⟩

/-- `operator+(const … &rhs)`. int128.hpp:114-118, uint128.hpp:93-97. -/
def add (x y : W128) : W128 :=
  let lo := u64 (x.lo + y.lo)
  ⟨u64 (x.hi + y.hi + b2n (decide (lo < x.lo))), lo⟩

/-- `uint128::operator+(uint64_t)`. uint128.hpp:99-103 (and, for smaller values, 105-109). -/
def addU64 (x : W128) (r : Nat) : W128 :=
  let lo := u64 (x.lo + r)
  ⟨u64 (x.hi + b2n (decide (lo < x.lo))), lo⟩

/-- `operator-(const … &rhs)`. int128.hpp:120-124, uint128.hpp:111-115. -/
def sub (x y : W128) : W128 :=
  let lo := u64 (x.lo + not64 y.lo + 1)
  ⟨u64 (x.hi + not64 y.hi + b2n (decide (lo < x.lo))), lo⟩

/-- `uint128::operator-(uint64_t)`. uint128.hpp:117-121. -/
def subU64 (x : W128) (r : Nat) : W128 :=
  let lo := u64 (x.lo + not64 r + 1)
  ⟨u64 (x.hi + 0xffffffffffffffff + b2n (decide (lo < x.lo))), lo⟩

/-- `int128::operator-()` and `negate()`. int128.hpp:88-95, 106-112. -/
def neg (x : W128) : W128 :=
  let lo := not64 x.lo
  let hi := not64 x.hi
  let lo_p1 := u64 (lo + 1)
  ⟨u64 (hi + b2n (decide (lo_p1 < lo))), lo_p1⟩

/-- `uint128::operator-()`: `!m_hi` where the low word is not zero. uint128.hpp:57-67. -/
def unegate (x : W128) : W128 :=
  if x.lo ≠ 0 then ⟨b2n (decide (x.hi = 0)), u64 (2 ^ 64 - x.lo)⟩ else ⟨u64 (2 ^ 64 - x.hi), 0⟩

/-- `int128::operator+=`: `m_hi + ~rhs.m_hi + carry`. int128.hpp:97-103. -/
def addAssign (x y : W128) : W128 :=
  let lo := u64 (x.lo + y.lo)
  ⟨u64 (x.hi + not64 y.hi + b2n (decide (lo < x.lo))), lo⟩

/-- `operator==`. int128.hpp:52, uint128.hpp:45. -/
def eqb (x y : W128) : Bool := decide (x.lo = y.lo) && decide (x.hi = y.hi)

/-- `int128::operator<`. int128.hpp:70-73. -/
def slt (x y : W128) : Bool :=
  decide (sext64 x.hi < sext64 y.hi) || (decide (x.hi = y.hi) && decide (x.lo < y.lo))
/-- `int128::operator<=`. int128.hpp:75-78. -/
def sle (x y : W128) : Bool :=
  decide (sext64 x.hi < sext64 y.hi) || (decide (x.hi = y.hi) && decide (x.lo ≤ y.lo))
/-- `uint128::operator<`. uint128.hpp:85. -/
def ult (x y : W128) : Bool := decide (x.hi < y.hi) || (decide (x.hi = y.hi) && decide (x.lo < y.lo))
/-- `uint128::operator<=`. uint128.hpp:87. -/
def ule (x y : W128) : Bool := decide (x.hi < y.hi) || (decide (x.hi = y.hi) && decide (x.lo ≤ y.lo))

/-- `int128::operator!`. int128.hpp:48. -/
def snot (x : W128) : Bool := decide (x.hi = 0) && decide (x.lo = 0)
/-- `uint128::operator!`. uint128.hpp:69. -/
def unot (x : W128) : Bool := decide (x.hi ≠ 0) && decide (x.lo ≠ 0)
/-- `explicit operator bool`. int128.hpp:155, uint128.hpp:134. -/
def toBool (x : W128) : Bool := decide (x.lo ≠ 0) || decide (x.hi ≠ 0)

/-- `uint128::operator*(uint32_t)`. /repo/src/dynd/uint128.cpp:77-89. -/
def mul32 (x : W128) (r : Nat) : W128 :=
  let loPartial := u64 ((x.lo &&& 0x00000000ffffffff) * r)
  let tmp := u64 (((x.lo &&& 0xffffffff00000000) >>> 32) * r)
  let lo := u64 (loPartial + u64 (tmp <<< 32))
  let hi := (tmp >>> 32) + b2n (decide (lo < loPartial))
  ⟨u64 (hi + u64 (x.hi * r)), lo⟩

/-- `int128::operator*(uint32_t)`: negative values by negation; recursion as fuel, exhausted for the minimum (as the
    comment in the source says). /repo/src/dynd/int128.cpp:79-97. -/
def smul32 : Nat → W128 → Nat → Res W128
  | 0, _, _ => .ub
  | fuel + 1, x, r =>
    if sext64 x.hi < 0 then do
      let p ← smul32 fuel (neg x) r
      pure (neg p)
    else .ok (mul32 x r)

/-- `uint128::divrem(uint32_t rhs, uint32_t &out_rem)` and `operator/(uint32_t)` (the same without the remainder).
    Division by zero is undefined. /repo/src/dynd/uint128.cpp:92-128. -/
def divrem32 (x : W128) (r : Nat) : Res (W128 × Nat) :=
  if r = 0 then .ub
  else
    let hiDiv := x.hi / r
    let hiRem := x.hi % r
    let midVal := u64 (hiRem <<< 32) ||| (x.lo >>> 32)
    let midDiv := midVal / r
    let midRem := midVal % r
    let lowVal := u64 (midRem <<< 32) ||| (x.lo &&& 0x00000000ffffffff)
    let lowDiv := lowVal / r
    .ok (⟨hiDiv, u64 (midDiv <<< 32) ||| lowDiv⟩, lowVal % r)

/-- The digit loop of `operator<<(ostream, uint128)`: `room` is the number of characters of the 40-character buffer
    still free before `idx`; writing outside it is undefined. /repo/src/dynd/uint128.cpp:139-147. -/
def digitLoop : Nat → W128 → List Nat → Res (List Nat)
  | 0, _, _ => .ub
  | room + 1, x, buf => do
    let (q, d) ← divrem32 x 10
    let buf := (d + 48) :: buf
    if q ≠ ⟨0, 0⟩ then digitLoop room q buf else pure buf

/-- `operator<<(ostream, uint128)`. /repo/src/dynd/uint128.cpp:131-148. -/
def uprint (x : W128) : Res (List Nat) :=
  if x = ⟨0, 0⟩ then .ok [48] else digitLoop 40 x []

/-- `operator<<(ostream, int128)`. /repo/src/dynd/int128.cpp:122-130. -/
def sprint (x : W128) : Res (List Nat) :=
  if slt x ⟨0, 0⟩ then do
    let s ← uprint (neg x)
    pure (45 :: s)
  else uprint x

/-- `int128(T value)` for a builtin integer of at most 64 bits. int128.hpp:28-38. -/
def sOfInt (v : Int) : W128 := ⟨if v < 0 then 0xffffffffffffffff else 0, (v % 2 ^ 64).toNat⟩
/-- `uint128(T value)` for a builtin integer of at most 64 bits: the high word is always zero. uint128.hpp:31-41. -/
def uOfInt (v : Int) : W128 := ⟨0, (v % 2 ^ 64).toNat⟩

/-- `m_lo + m_hi * 18446744073709551616.0` in `double`: both words are converted (rounded), the product is exact,
    the sum is rounded. uint128.hpp:138, int128.hpp:150. -/
def toF64 (x : W128) : Nat := rneNat 53 0 (rneNat 53 0 x.lo + rneNat 53 0 x.hi * 2 ^ 64)
/-- `int128::operator double()`. int128.hpp:144-153. -/
def stoF64 (x : W128) : ℚ := if slt x ⟨0, 0⟩ then (toF64 (neg x) : ℚ) else (toF64 x : ℚ)

end W128
end Dynd
