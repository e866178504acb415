/-
`dynd::complex<T>` for `T = float` and `T = double` (include/dynd/complex.hpp), on top of IEEE arithmetic rounding to
nearest, ties to even.  The arithmetic on `T` is the hardware's: a floating point operation yields the rounded value of
the exact one; operations are rounded one by one (no contraction into fused multiply-add, no excess precision).
`none` stands for every outcome that is not an ordinary finite number: an overflow, a result below the normal range or
a division by zero happened on the way; nothing is said about the value then.  The sign of zero is not modelled.
-/
import Mathlib.Data.Int.Log
import Mathlib.Data.Rat.Floor
import Verif.Model.Basic

namespace Dynd

/-- Round a nonnegative rational to an integer: nearest, ties to even. -/
def roundEven (m : ℚ) : Int :=
  if m - ⌊m⌋ < 1 / 2 then ⌊m⌋
  else if 1 / 2 < m - ⌊m⌋ then ⌊m⌋ + 1
  else if ⌊m⌋ % 2 = 0 then ⌊m⌋ else ⌊m⌋ + 1

/-- The weight of the last of the `p` significant bits of `x`. -/
def ulp (p : Nat) (x : ℚ) : ℚ := (2 : ℚ) ^ (Int.log 2 |x| - ((p : Int) - 1))

/-- Round to `p` significant bits, nearest, ties to even, exponents unbounded. -/
def nearestEven (p : Nat) (x : ℚ) : ℚ :=
  if x = 0 then 0
  else if x < 0 then -(roundEven (|x| / ulp p x) * ulp p x) else roundEven (|x| / ulp p x) * ulp p x

/-- Rounding of a floating point format with `p` bits of precision and exponents from `emin` to `emax`. -/
def fpRound (p : Nat) (emin emax : Int) (x : ℚ) : Option ℚ :=
  if x = 0 then some 0
  else if |x| < 2 ^ emin then none
  else if |nearestEven p x| < 2 ^ (emax + 1) then some (nearestEven p x) else none

/-- `float` (IEEE binary32). -/
def rnd32 : ℚ → Option ℚ := fpRound 24 (-126) 127
/-- `double` (IEEE binary64). -/
def rnd64 : ℚ → Option ℚ := fpRound 53 (-1022) 1023

/-- Floating point `a / b` with rounding `rnd`. -/
def fpDiv (rnd : ℚ → Option ℚ) (a b : ℚ) : Option ℚ := if b = 0 then none else rnd (a / b)

/-- `complex<T>` holding finite components.  /repo/include/dynd/complex.hpp:14-27. -/
structure CNum where
  re : ℚ
  im : ℚ
  deriving DecidableEq

/-- The right-hand side of a compound assignment is taken by reference: another object, or the assigned one. -/
inductive CRhs where
  | other (w : CNum)
  | self

/-- Reads the referenced complex number while the assigned object holds `z`. -/
def CRhs.get (z : CNum) : CRhs → CNum
  | .other w => w
  | .self => z

/-- A scalar right-hand side `const T &`: another object, or a component of the assigned number. -/
inductive SRhs where
  | other (t : ℚ)
  | ownReal
  | ownImag

/-- Reads the referenced scalar while the assigned object holds `z`. -/
def SRhs.get (z : CNum) : SRhs → ℚ
  | .other t => t
  | .ownReal => z.re
  | .ownImag => z.im

/-- `operator+=(const complex<T> &)`.  /repo/include/dynd/complex.hpp:42-47. -/
def cAddAssign (rnd : ℚ → Option ℚ) (z : CNum) (w : CRhs) : Option CNum := do
  let z ← (rnd (z.re + (w.get z).re)).map fun r => { z with re := r }
  (rnd (z.im + (w.get z).im)).map fun i => { z with im := i }

/-- `operator+=(const T &)`.  /repo/include/dynd/complex.hpp:49-53. -/
def cAddAssignS (rnd : ℚ → Option ℚ) (z : CNum) (t : SRhs) : Option CNum :=
  (rnd (z.re + t.get z)).map fun r => { z with re := r }

/-- `operator-=(const complex<T> &)`.  /repo/include/dynd/complex.hpp:55-60. -/
def cSubAssign (rnd : ℚ → Option ℚ) (z : CNum) (w : CRhs) : Option CNum := do
  let z ← (rnd (z.re - (w.get z).re)).map fun r => { z with re := r }
  (rnd (z.im - (w.get z).im)).map fun i => { z with im := i }

/-- `operator-=(const T &)`.  /repo/include/dynd/complex.hpp:62-66. -/
def cSubAssignS (rnd : ℚ → Option ℚ) (z : CNum) (t : SRhs) : Option CNum :=
  (rnd (z.re - t.get z)).map fun r => { z with re := r }

/-- `operator*=(const complex<T> &)`: both components are computed before the object is overwritten.
    /repo/include/dynd/complex.hpp:68-72. -/
def cMulAssign (rnd : ℚ → Option ℚ) (z : CNum) (w : CRhs) : Option CNum := do
  let w := w.get z
  let rr ← rnd (z.re * w.re)
  let ii ← rnd (z.im * w.im)
  let re ← rnd (rr - ii)
  let ri ← rnd (z.re * w.im)
  let ir ← rnd (w.re * z.im)
  let im ← rnd (ri + ir)
  pure ⟨re, im⟩

/-- `operator*=(const T &)`: one component after the other.  /repo/include/dynd/complex.hpp:74-79. -/
def cMulAssignS (rnd : ℚ → Option ℚ) (z : CNum) (t : SRhs) : Option CNum := do
  let z ← (rnd (z.re * t.get z)).map fun r => { z with re := r }
  (rnd (z.im * t.get z)).map fun i => { z with im := i }

/-- `operator/=(const complex<T> &)`.  /repo/include/dynd/complex.hpp:81-87. -/
def cDivAssign (rnd : ℚ → Option ℚ) (z : CNum) (w : CRhs) : Option CNum := do
  let w := w.get z
  let cc ← rnd (w.re * w.re)
  let dd ← rnd (w.im * w.im)
  let denom ← rnd (cc + dd)
  let rr ← rnd (z.re * w.re)
  let ii ← rnd (z.im * w.im)
  let n1 ← rnd (rr + ii)
  let re ← fpDiv rnd n1 denom
  let ir ← rnd (w.re * z.im)
  let ri ← rnd (z.re * w.im)
  let n2 ← rnd (ir - ri)
  let im ← fpDiv rnd n2 denom
  pure ⟨re, im⟩

/-- `operator/=(const T &)`: one component after the other.  /repo/include/dynd/complex.hpp:89-94. -/
def cDivAssignS (rnd : ℚ → Option ℚ) (z : CNum) (t : SRhs) : Option CNum := do
  let z ← (fpDiv rnd z.re (t.get z)).map fun r => { z with re := r }
  (fpDiv rnd z.im (t.get z)).map fun i => { z with im := i }

/-- `operator+(complex<T>, complex<T>)` (arguments by value).  /repo/include/dynd/complex.hpp:275-278. -/
def cAdd (rnd : ℚ → Option ℚ) (a b : CNum) : Option CNum := cAddAssign rnd a (.other b)
/-- `operator-(complex<T>, complex<T>)`.  /repo/include/dynd/complex.hpp:312-315. -/
def cSub (rnd : ℚ → Option ℚ) (a b : CNum) : Option CNum := cSubAssign rnd a (.other b)
/-- `operator*(complex<T>, complex<T>)`.  /repo/include/dynd/complex.hpp:349-352. -/
def cMul (rnd : ℚ → Option ℚ) (a b : CNum) : Option CNum := cMulAssign rnd a (.other b)
/-- `operator/(complex<T>, complex<T>)`.  /repo/include/dynd/complex.hpp:386-389. -/
def cDiv (rnd : ℚ → Option ℚ) (a b : CNum) : Option CNum := cDivAssign rnd a (.other b)

/-- `operator+(complex<T>, T)`.  /repo/include/dynd/complex.hpp:286-289. -/
def cAddS (rnd : ℚ → Option ℚ) (a : CNum) (t : ℚ) : Option CNum := cAddAssignS rnd a (.other t)
/-- `operator-(complex<T>, T)`.  /repo/include/dynd/complex.hpp:323-326. -/
def cSubS (rnd : ℚ → Option ℚ) (a : CNum) (t : ℚ) : Option CNum := cSubAssignS rnd a (.other t)
/-- `operator*(complex<T>, T)`.  /repo/include/dynd/complex.hpp:360-363. -/
def cMulS (rnd : ℚ → Option ℚ) (a : CNum) (t : ℚ) : Option CNum := cMulAssignS rnd a (.other t)
/-- `operator/(complex<T>, T)`.  /repo/include/dynd/complex.hpp:397-400. -/
def cDivS (rnd : ℚ → Option ℚ) (a : CNum) (t : ℚ) : Option CNum := cDivAssignS rnd a (.other t)

/-- `operator+(T, complex<T>)`.  /repo/include/dynd/complex.hpp:299-302. -/
def sAddC (rnd : ℚ → Option ℚ) (t : ℚ) (b : CNum) : Option CNum := (rnd (t + b.re)).map fun r => ⟨r, b.im⟩
/-- `operator-(T, complex<T>)`.  /repo/include/dynd/complex.hpp:336-339. -/
def sSubC (rnd : ℚ → Option ℚ) (t : ℚ) (b : CNum) : Option CNum := (rnd (t - b.re)).map fun r => ⟨r, -b.im⟩
/-- `operator*(T, complex<T>)`.  /repo/include/dynd/complex.hpp:373-376. -/
def sMulC (rnd : ℚ → Option ℚ) (t : ℚ) (b : CNum) : Option CNum := do
  let re ← rnd (t * b.re)
  let im ← rnd (t * b.im)
  pure ⟨re, im⟩
/-- `operator/(T, complex<T>)`.  /repo/include/dynd/complex.hpp:402-406. -/
def sDivC (rnd : ℚ → Option ℚ) (t : ℚ) (b : CNum) : Option CNum := do
  let cc ← rnd (b.re * b.re)
  let dd ← rnd (b.im * b.im)
  let denom ← rnd (cc + dd)
  let n1 ← rnd (t * b.re)
  let re ← fpDiv rnd n1 denom
  let n2 ← rnd (-t * b.im)
  let im ← fpDiv rnd n2 denom
  pure ⟨re, im⟩

/-- Unary `operator-`.  /repo/include/dynd/complex.hpp:265-268. -/
def cNeg (a : CNum) : CNum := ⟨-a.re, -a.im⟩
/-- `conj`.  /repo/include/dynd/complex.hpp:426-429. -/
def cConj (a : CNum) : CNum := ⟨a.re, -a.im⟩
/-- `explicit operator bool`.  /repo/include/dynd/complex.hpp:96. -/
def cBool (a : CNum) : Bool := decide (a.re ≠ 0) || decide (a.im ≠ 0)
/-- `operator==(complex, complex)`.  /repo/include/dynd/complex.hpp:221-224. -/
def cEq (a b : CNum) : Bool := decide (a.re = b.re) && decide (a.im = b.im)
/-- `operator==(complex, U)` and `operator==(T, complex)` for scalars (of the same type).
    /repo/include/dynd/complex.hpp:226-238. -/
def cEqS (a : CNum) (t : ℚ) : Bool := decide (a.re = t) && decide (a.im = 0)
/-- `operator!=(complex, complex)`.  /repo/include/dynd/complex.hpp:250-253. -/
def cNe (a b : CNum) : Bool := !cEq a b
/-- `operator!=(complex, U)` for scalars.  /repo/include/dynd/complex.hpp:255-258. -/
def cNeS (a : CNum) (t : ℚ) : Bool := decide (a.re = t) && decide (a.im = 0)

end Dynd
