/-
Checked conversions from and to floating point (`include/dynd/assignment.hpp`), without `DYND_USE_FPSTATUS`
(which config.hpp defines only for 64-bit Windows).  Not modelled: `long double`/`float128`, the text of messages.
-/
import Verif.Model.Ints
import Verif.Props.Ieee
import Mathlib.Data.Rat.Floor

namespace Dynd

/-- What a floating point value is, up to the sign of zero and NaN payloads (nothing below observes them). -/
inductive FV where
  | nan
  | inf (neg : Bool)
  | fin (q : ℚ)
  deriving DecidableEq

/-- The value of a bit pattern of format `F`. -/
def Fmt.decode (F : Fmt) (b : Nat) : FV :=
  if F.ex b = F.expMax then (if F.sig b ≠ 0 then .nan else .inf (decide (F.sgn b = 1))) else .fin (F.val b)

/-- C++ `a < b` on floating point. -/
def FV.lt : FV → FV → Bool
  | .nan, _ => false
  | _, .nan => false
  | .inf true, .inf true => false
  | .inf true, _ => true
  | .inf false, _ => false
  | .fin _, .inf n => !n
  | .fin a, .fin b => decide (a < b)

/-- C++ `a == b` on floating point. -/
def FV.eq : FV → FV → Bool
  | .nan, _ => false
  | _, .nan => false
  | .inf a, .inf b => decide (a = b)
  | .fin a, .fin b => decide (a = b)
  | _, _ => false

/-- Round the natural `n` to a multiple of `2^k`, to nearest, ties to even. -/
def rneDrop (k n : Nat) : Nat :=
  let q := n / 2 ^ k
  let r := n % 2 ^ k
  if 2 * r > 2 ^ k ∨ (2 * r = 2 ^ k ∧ q % 2 = 1) then (q + 1) * 2 ^ k else q * 2 ^ k

/-- Round `n` to `p` significant bits, dropping at least `kmin` low bits, to nearest, ties to even: the default
    rounding of the hardware. -/
def rneNat (p kmin n : Nat) : Nat := rneDrop (max (n.log2 + 1 - p) kmin) n

/-- `static_cast<Float>(x)` for an integer `x` (of at most 128 bits: no overflow in binary32 or binary64).
    Hardware/compiler semantics: round to nearest even. -/
def Fmt.ofInt (F : Fmt) (x : Int) : ℚ :=
  if x < 0 then -(rneNat (F.m + 1) 0 x.natAbs : ℚ) else (rneNat (F.m + 1) 0 x.natAbs : ℚ)

/-- Truncation toward zero. -/
def ratTrunc (q : ℚ) : Int := if q < 0 then -⌊-q⌋ else ⌊q⌋

/-- `static_cast<Int>(s)` for floating point `s`: undefined unless the truncated value is representable
    ([conv.fpint]). -/
def fpToInt (t : IntTy) : FV → Res Int
  | .nan => .ub
  | .inf _ => .ub
  | .fin q => if t.Has (ratTrunc q) then .ok (ratTrunc q) else .ub

/-- `overflow_cast<Int>(Float s)`: `s < min || max < s` where the integer limits are converted to `Float`.
    /repo/include/dynd/assignment.hpp:246-260 (signed), 286-300 (unsigned, `min = 0`). -/
def overflowCastFI (F : Fmt) (t : IntTy) (s : FV) : Res Int :=
  if s.lt (.fin (F.ofInt t.min)) || FV.lt (.fin (F.ofInt t.max)) s then .throw .overflow
  else fpToInt t s

/-- `floor(s) != s`. -/
def floorNe : FV → Bool
  | .nan => true
  | .inf _ => false
  | .fin q => decide ((⌊q⌋ : ℚ) ≠ q)

/-- `fractional_cast<Int>(Float s)`; also `check_cast(…, inexact_check_t)` to signed integers, which calls it.
    /repo/include/dynd/assignment.hpp:513-533 (signed), 563-583 (unsigned), 611-616. -/
def fractionalCastFI (F : Fmt) (t : IntTy) (s : FV) : Res Int :=
  if s.lt (.fin (F.ofInt t.min)) || FV.lt (.fin (F.ofInt t.max)) s then .throw .overflow
  else if floorNe s then .throw .runtime
  else fpToInt t s

/-- `overflow_cast<bool1>(Float s)`: 0, 1 or an error. /repo/include/dynd/assignment.hpp:344-356. -/
def overflowCastFB (s : FV) : Res Bool :=
  if s.eq (.fin 0) then .ok false
  else if s.eq (.fin 1) then .ok true
  else .throw .overflow

/-- Complex → integer with overflow checking: a non-zero imaginary part is an error.
    /repo/include/dynd/assignment.hpp:262-284, 302-322. -/
def overflowCastCI (F : Fmt) (t : IntTy) (re im : FV) : Res Int :=
  if !im.eq (.fin 0) then .throw .runtime else overflowCastFI F t re

/-- Complex → integer with fractional checking. /repo/include/dynd/assignment.hpp:535-561, 585-609. -/
def fractionalCastCI (F : Fmt) (t : IntTy) (re im : FV) : Res Int :=
  if !im.eq (.fin 0) then .throw .runtime else fractionalCastFI F t re

/-- `check_cast<Float>(Int s, inexact_check_t)`: convert, convert back, compare.
    /repo/include/dynd/assignment.hpp:39-52 (unsigned), 228-242 (signed); the complex targets (24-36, 55-68) do the
    same on the real part. -/
def checkCastIF (F : Fmt) (t : IntTy) (s : Int) : Res FV := do
  let d : FV := .fin (F.ofInt s)
  let back ← fpToInt t d
  if back ≠ s then .throw .runtime else pure d

/-- `std::numeric_limits<G>::max()` in units of the smallest subnormal. -/
def Fmt.maxMag (G : Fmt) : Nat := (2 ^ (G.m + 1) - 1) * 2 ^ (G.expMax - 2)
/-- `std::numeric_limits<G>::max()`. -/
def Fmt.maxFinite (G : Fmt) : ℚ := (G.maxMag : ℚ) / 2 ^ G.unit

/-- `static_cast<G>(s)` of the `F` value with bits `b`: round to nearest even, to infinity from the rounding
    overflow threshold on. -/
def Fmt.convert (F G : Fmt) (b : Nat) : FV :=
  match F.decode b with
  | .nan => .nan
  | .inf n => .inf n
  | .fin _ =>
    let r : ℚ := (rneNat (G.m + 1) (F.unit - G.unit) (F.mag b) : ℚ) / 2 ^ F.unit
    if r > G.maxFinite then .inf (decide (F.sgn b = 1))
    else if F.sgn b = 1 then .fin (-r) else .fin r

/-- `isfinite(s) && (s < -max || s > max)`. -/
def finiteAbove (G : Fmt) : FV → Bool
  | .fin q => decide (q < -G.maxFinite) || decide (q > G.maxFinite)
  | _ => false

/-- `overflow_cast<G>(F s)`. /repo/include/dynd/assignment.hpp:324-341. -/
def overflowCastFF (F G : Fmt) (b : Nat) : Res FV :=
  if finiteAbove G (F.decode b) then .throw .overflow else .ok (F.convert G b)

/-- `check_cast<G>(F arg, inexact_check_t)`: `res != arg` is computed in the wider format, where both are exact.
    /repo/include/dynd/assignment.hpp:71-107. -/
def checkCastFF (F G : Fmt) (b : Nat) : Res FV :=
  if finiteAbove G (F.decode b) then .throw .runtime
  else
    let res := F.convert G b
    if !res.eq (F.decode b) then .throw .runtime else .ok res

end Dynd
