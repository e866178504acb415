/-
Specification of IEEE-754 binary formats: what a bit pattern denotes.  Independent of the modelled code.
-/
import Mathlib.Tactic.SplitIfs
import Mathlib.Tactic.Ring
import Mathlib.Tactic.Linarith
import Mathlib.Tactic.ByContra
import Mathlib.Tactic.FieldSimp
import Mathlib.Tactic.LinearCombination
import Mathlib.Tactic.Positivity
import Mathlib.Algebra.Order.Field.Basic
import Mathlib.Algebra.Order.Field.Rat
import Mathlib.Algebra.Order.Ring.Rat
import Mathlib.Data.Rat.Cast.Order

namespace Dynd

/-- A binary interchange format: `m` significand bits, `w` exponent bits. -/
structure Fmt where
  m : Nat
  w : Nat
  deriving DecidableEq, Repr

namespace Fmt
/-- binary16 -/
def half : Fmt := ⟨10, 5⟩
/-- binary32 -/
def single : Fmt := ⟨23, 8⟩
/-- binary64 -/
def double : Fmt := ⟨52, 11⟩

variable (F : Fmt)
/-- number of bits of a pattern -/
def size : Nat := 1 + F.w + F.m
/-- sign bit -/
def sgn (b : Nat) : Nat := b / 2 ^ (F.m + F.w) % 2
/-- biased exponent field -/
def ex (b : Nat) : Nat := b / 2 ^ F.m % 2 ^ F.w
/-- significand field -/
def sig (b : Nat) : Nat := b % 2 ^ F.m
/-- exponent field all ones -/
def expMax : Nat := 2 ^ F.w - 1
/-- exponent bias -/
def bias : Nat := 2 ^ (F.w - 1) - 1
/-- not an infinity or NaN -/
def IsFinite (b : Nat) : Prop := F.ex b ≠ F.expMax
/-- a NaN -/
def IsNan (b : Nat) : Prop := F.ex b = F.expMax ∧ F.sig b ≠ 0
/-- an infinity -/
def IsInf (b : Nat) : Prop := F.ex b = F.expMax ∧ F.sig b = 0
/-- magnitude in units of the smallest subnormal: significand times a power of two.  (For the exponent field all
    ones this is a number larger than every finite magnitude, which is how infinities compare.) -/
def mag (b : Nat) : Nat := if F.ex b = 0 then F.sig b else (2 ^ F.m + F.sig b) * 2 ^ (F.ex b - 1)
/-- the smallest subnormal is `2 ^ -unit` -/
def unit : Nat := F.bias + F.m - 1
/-- magnitude with sign -/
def smag (b : Nat) : Int := if F.sgn b = 1 then -(F.mag b : Int) else F.mag b
/-- **the number denoted** by a finite bit pattern -/
def val (b : Nat) : ℚ := (F.smag b : ℚ) / 2 ^ F.unit

/-- bit pattern with the given fields -/
def pack (s e g : Nat) : Nat := s * 2 ^ (F.m + F.w) + e * 2 ^ F.m + g

variable {F}

theorem pack_fields {s e g : Nat} (hs : s < 2) (he : e < 2 ^ F.w) (hg : g < 2 ^ F.m) :
    F.sgn (F.pack s e g) = s ∧ F.ex (F.pack s e g) = e ∧ F.sig (F.pack s e g) = g := by
  have e1 : F.pack s e g = g + 2 ^ F.m * (s * 2 ^ F.w + e) := by
    unfold pack; rw [Nat.pow_add]; ring
  have p : 0 < 2 ^ F.m := Nat.pow_pos (by omega)
  have q : 0 < 2 ^ F.w := Nat.pow_pos (by omega)
  have d1 : F.pack s e g / 2 ^ F.m = e + 2 ^ F.w * s := by
    rw [e1, Nat.add_mul_div_left _ _ p, Nat.div_eq_of_lt hg]; ring
  refine ⟨?_, ?_, ?_⟩
  · unfold sgn
    rw [Nat.pow_add, ← Nat.div_div_eq_div_mul, d1, Nat.add_mul_div_left _ _ q, Nat.div_eq_of_lt he]; omega
  · unfold ex; rw [d1, Nat.add_mul_mod_self_left, Nat.mod_eq_of_lt he]
  · unfold sig; rw [e1, Nat.add_mul_mod_self_left, Nat.mod_eq_of_lt hg]

theorem pack_of_fields {b : Nat} (hb : b < 2 ^ F.size) : F.pack (F.sgn b) (F.ex b) (F.sig b) = b := by
  unfold pack sgn ex sig
  have hlt : b / 2 ^ (F.m + F.w) < 2 := by
    rw [Nat.div_lt_iff_lt_mul (Nat.pow_pos (by omega))]
    have : (2:Nat) ^ F.size = 2 * 2 ^ (F.m + F.w) := by unfold size; rw [Nat.pow_add, Nat.pow_add, Nat.pow_add]; ring
    omega
  rw [Nat.mod_eq_of_lt hlt, Nat.pow_add, ← Nat.div_div_eq_div_mul]
  have h1 := Nat.div_add_mod b (2 ^ F.m)
  have h2 := Nat.div_add_mod (b / 2 ^ F.m) (2 ^ F.w)
  calc b / 2 ^ F.m / 2 ^ F.w * (2 ^ F.m * 2 ^ F.w) + b / 2 ^ F.m % 2 ^ F.w * 2 ^ F.m + b % 2 ^ F.m
      = 2 ^ F.m * (2 ^ F.w * (b / 2 ^ F.m / 2 ^ F.w) + b / 2 ^ F.m % 2 ^ F.w) + b % 2 ^ F.m := by ring
    _ = b := by rw [h2, h1]

theorem sgn_lt (b : Nat) : F.sgn b < 2 := Nat.mod_lt _ (by omega)
theorem ex_lt (b : Nat) : F.ex b < 2 ^ F.w := Nat.mod_lt _ (Nat.pow_pos (by omega))
theorem sig_lt (b : Nat) : F.sig b < 2 ^ F.m := Nat.mod_lt _ (Nat.pow_pos (by omega))

theorem pack_lt {s e g : Nat} (hs : s < 2) (he : e < 2 ^ F.w) (hg : g < 2 ^ F.m) : F.pack s e g < 2 ^ F.size := by
  have e1 : F.pack s e g = g + 2 ^ F.m * (s * 2 ^ F.w + e) := by
    unfold pack; rw [Nat.pow_add]; ring
  have e2 : (2:Nat) ^ F.size = 2 ^ F.m * (2 * 2 ^ F.w) := by
    unfold size; rw [Nat.pow_add, Nat.pow_add]; ring
  have h1 : s * 2 ^ F.w ≤ 1 * 2 ^ F.w := Nat.mul_le_mul_right _ (by omega)
  have h2 : 2 ^ F.m * (s * 2 ^ F.w + e + 1) ≤ 2 ^ F.m * (2 * 2 ^ F.w) := Nat.mul_le_mul_left _ (by omega)
  rw [e1, e2]
  rw [Nat.mul_add _ _ 1] at h2
  omega

example : half.val 0x3c00 = 1 := by simp [val, smag, mag, sgn, ex, sig, unit, bias, half]; norm_num
example : single.val 0x40490000 = 201 / 64 := by simp [val, smag, mag, sgn, ex, sig, unit, bias, single]; norm_num
example : half.val 0x8001 = -(1 / 2 ^ 24) := by simp [val, smag, mag, sgn, ex, sig, unit, bias, half]; norm_num
end Fmt
end Dynd
