/-
C28 (half → float/double → half round trip), C29 (rounding of float/double → half), C30 (comparisons of halves).
-/
import Verif.Model.Half
import Verif.Props.Ieee

namespace Dynd
open Fmt

/-! ## Bit fields as arithmetic -/

theorem and_field (x k w : Nat) : x &&& (2 ^ k * (2 ^ w - 1)) = x / 2 ^ k % 2 ^ w * 2 ^ k := by
  apply Nat.eq_of_testBit_eq
  intro i
  rw [Nat.testBit_and, Nat.testBit_two_pow_mul, Nat.mul_comm (x / 2 ^ k % 2 ^ w), Nat.testBit_two_pow_mul]
  by_cases hi : i ≥ k
  · rw [Nat.testBit_two_pow_sub_one, Nat.testBit_mod_two_pow, Nat.testBit_div_two_pow]
    simp [hi, Bool.and_comm]
  · simp [hi]

theorem and_low (x w : Nat) : x &&& (2 ^ w - 1) = x % 2 ^ w := Nat.and_two_pow_sub_one_eq_mod x w

theorem ok_congr {α : Type} {a b : α} (h : a = b) : Res.ok a = Res.ok b := by rw [h]

/-- Round-half-to-even of a significand with `sh` bits to drop, as the code does it. -/
def rneSig (sh g : Nat) : Nat :=
  (if g % 2 ^ (sh + 1) ≠ 2 ^ (sh - 1) then g + 2 ^ (sh - 1) else g) / 2 ^ sh

/-- The common arithmetic form of `float_to_halfbits` and `double_to_halfbits`, for a format `F` wider than half.
    (Proof device: both literal models are shown equal to instances of it.) -/
def toHalfA (F : Fmt) (b : Nat) : Res Nat :=
  let s := F.sgn b
  let e := F.ex b
  let g := F.sig b
  let sh := F.m - 10
  if F.bias + 16 ≤ e then
    if e = F.expMax then
      if g ≠ 0 then .ok (s * 32768 + (31744 + (if g / 2 ^ sh = 0 then 1 else g / 2 ^ sh)))
      else .ok (s * 32768 + 31744)
    else .ok (s * 32768 + 31744)
  else if e ≤ F.bias - 15 then
    if e < F.bias - 25 then
      if e ≠ 0 ∨ g ≠ 0 then .throw .runtime else .ok (s * 32768)
    else
      if (2 ^ F.m + g) % 2 ^ (F.bias - 14 + sh - e) ≠ 0 then .throw .runtime
      else .ok (s * 32768 + (2 ^ F.m + g) / 2 ^ (F.bias - 14 + sh - e))
  else
    let h := rneSig sh g + (e - (F.bias - 15)) * 1024
    if h = 31744 then .throw .overflow else .ok (s * 32768 + h)

theorem single_fields (f : Nat) : single.sgn f = f / 2147483648 % 2 ∧ single.ex f = f / 8388608 % 256 ∧
    single.sig f = f % 8388608 ∧ single.bias = 127 ∧ single.expMax = 255 ∧ single.m = 23 :=
  ⟨rfl, rfl, rfl, rfl, rfl, rfl⟩

theorem double_fields (f : Nat) : double.sgn f = f / 9223372036854775808 % 2 ∧ double.ex f = f / 4503599627370496 % 2048 ∧
    double.sig f = f % 4503599627370496 ∧ double.bias = 1023 ∧ double.expMax = 2047 ∧ double.m = 52 :=
  ⟨rfl, rfl, rfl, rfl, rfl, rfl⟩

theorem half_fields (f : Nat) : half.sgn f = f / 32768 % 2 ∧ half.ex f = f / 1024 % 32 ∧
    half.sig f = f % 1024 ∧ half.bias = 15 ∧ half.expMax = 31 ∧ half.m = 10 :=
  ⟨rfl, rfl, rfl, rfl, rfl, rfl⟩

/-- the subnormal branch drops only zero bits: the "rounding" step there is harmless -/
theorem subnormal_step {M sh e0 x e : Nat} (hsh : 1 ≤ sh) (he : e ≤ e0)
    (hdiv : x % 2 ^ (e0 + 1 + sh - e) = 0) :
    (if x / 2 ^ (e0 + 1 - e) % 2 ^ (sh + 1) ≠ 2 ^ (sh - 1) then x / 2 ^ (e0 + 1 - e) + 2 ^ (sh - 1)
      else x / 2 ^ (e0 + 1 - e)) / 2 ^ sh = x / 2 ^ (e0 + 1 + sh - e) := by
  have _ := M
  obtain ⟨q, hq⟩ := Nat.dvd_of_mod_eq_zero hdiv
  have e1 : e0 + 1 + sh - e = (e0 + 1 - e) + sh := by omega
  have e2 : x / 2 ^ (e0 + 1 - e) = q * 2 ^ sh := by
    rw [hq, e1, Nat.pow_add, Nat.mul_assoc, Nat.mul_div_cancel_left _ (Nat.pow_pos (by omega)), Nat.mul_comm]
  have e3 : x / 2 ^ (e0 + 1 + sh - e) = q := by
    rw [hq, Nat.mul_div_cancel_left _ (Nat.pow_pos (by omega))]
  rw [e2, e3]
  have hp : (2:Nat) ^ sh = 2 * 2 ^ (sh - 1) := by
    obtain ⟨k, rfl⟩ : ∃ k, sh = k + 1 := ⟨sh - 1, by omega⟩
    simp [Nat.pow_succ, Nat.mul_comm]
  have p : 0 < 2 ^ (sh - 1) := Nat.pow_pos (by omega)
  split_ifs with h
  · rw [Nat.add_comm, Nat.mul_comm q, Nat.add_mul_div_left _ _ (by omega), Nat.div_eq_of_lt (by omega)]; omega
  · exact Nat.mul_div_cancel _ (by omega)

theorem floatToHalf_eq {f : Nat} (hf : f < 2 ^ 32) : floatToHalf f = toHalfA single f := by
  obtain ⟨hs, he, hg, hb, hx, hm⟩ := single_fields f
  have a1 : f &&& 0x80000000 = f / 2147483648 % 2 * 2147483648 := and_field f 31 1
  have a2 : f &&& 0x7f800000 = f / 8388608 % 256 * 8388608 := and_field f 23 8
  have a3 : f &&& 0x007fffff = f % 8388608 := and_low f 23
  have a4 : f &&& 0x7fffffff = f % 2147483648 := and_low f 31
  have a5 : ∀ x, x &&& 0x3fff = x % 16384 := fun x => and_low x 14
  unfold floatToHalf toHalfA
  simp only [hs, he, hg, hb, hx, hm, a1, a2, a3, a4, a5, Nat.shiftRight_eq_div_pow]
  simp only [show 127 + 16 = 143 from rfl, show 127 - 15 = 112 from rfl, show 127 - 25 = 102 from rfl,
    show 23 - 10 = 13 from rfl, show (2:Nat) ^ 16 = 65536 from rfl, show (2:Nat) ^ 13 = 8192 from rfl,
    show (2:Nat) ^ 23 = 8388608 from rfl, show 127 - 14 + 13 = 126 from rfl]
  generalize hE : f / 8388608 % 256 = e
  generalize hG : f % 8388608 = g
  have hg' : g < 8388608 := by omega
  have he' : e < 256 := by omega
  have hsg : u16 (f / 2147483648 % 2 * 2147483648 / 65536) = f / 2147483648 % 2 * 32768 := by unfold u16; omega
  rw [hsg]
  generalize hS : f / 2147483648 % 2 = s
  have hs' : s < 2 := by omega
  by_cases c1 : 143 ≤ e
  · rw [if_pos (show e * 8388608 ≥ 0x47800000 by omega), if_pos c1]
    by_cases c2 : e = 255
    · rw [if_pos (show e * 8388608 = 0x7f800000 by omega), if_pos c2]
      by_cases c3 : g ≠ 0
      · rw [if_pos c3, if_pos c3]
        have hr : u16 (31744 + g / 8192) = 31744 + g / 8192 := by unfold u16; omega
        rw [hr]
        by_cases c4 : g / 8192 = 0
        · rw [if_pos (by omega), if_pos c4]; apply ok_congr; unfold u16; omega
        · rw [if_neg (by omega), if_neg c4]; apply ok_congr; unfold u16; omega
      · rw [if_neg c3, if_neg c3]; apply ok_congr; unfold u16; omega
    · rw [if_neg (show ¬ e * 8388608 = 0x7f800000 by omega), if_neg c2]; apply ok_congr; unfold u16; omega
  · rw [if_neg (show ¬ e * 8388608 ≥ 0x47800000 by omega), if_neg c1]
    by_cases c2 : e ≤ 112
    · rw [if_pos (show e * 8388608 ≤ 0x38000000 by omega), if_pos c2]
      by_cases c3 : e < 102
      · rw [if_pos (show e * 8388608 < 0x33000000 by omega), if_pos c3]
        by_cases c4 : e ≠ 0 ∨ g ≠ 0
        · rw [if_pos (by omega), if_pos c4]
        · rw [if_neg (by omega), if_neg c4]
      · rw [if_neg (show ¬ e * 8388608 < 0x33000000 by omega), if_neg c3]
        rw [Nat.mul_div_cancel _ (by omega : 0 < 8388608)]
        have hsl : u32 (1 <<< (126 - e)) - 1 = 2 ^ (126 - e) - 1 := by
          rw [Nat.shiftLeft_eq, Nat.one_mul]
          unfold u32
          rw [Nat.mod_eq_of_lt]
          have : (2:Nat) ^ (126 - e) ≤ 2 ^ 24 := Nat.pow_le_pow_right (by omega) (by omega)
          omega
        rw [hsl, and_low]
        by_cases c4 : (8388608 + g) % 2 ^ (126 - e) ≠ 0
        · rw [if_pos c4, if_pos c4]
        · rw [if_neg c4, if_neg c4]
          have hst := subnormal_step (M := 0) (sh := 13) (e0 := 112) (x := 8388608 + g) (e := e) (by omega) c2
            (by rw [show 112 + 1 + 13 = 126 from rfl]; omega)
          rw [show 112 + 1 + 13 - e = 126 - e by omega, show 112 + 1 - e = 113 - e by omega,
            show (2:Nat) ^ (13 + 1) = 16384 from rfl, show (2:Nat) ^ (13 - 1) = 0x1000 from rfl,
            show (2:Nat) ^ 13 = 8192 from rfl] at hst
          rw [hst]
          have hlt : (8388608 + g) / 2 ^ (126 - e) ≤ (8388608 + g) / 2 ^ 14 :=
            Nat.div_le_div_left (Nat.pow_le_pow_right (by omega) (by omega)) (by decide)
          apply ok_congr; unfold u16; omega
    · rw [if_neg (show ¬ e * 8388608 ≤ 0x38000000 by omega), if_neg c2]
      have hst : rneSig 13 g = (if g % 16384 ≠ 0x1000 then g + 0x1000 else g) / 8192 := rfl
      rw [← hst]
      have hle : rneSig 13 g ≤ 1024 := by rw [hst]; split_ifs <;> omega
      have h2 : u16 ((e * 8388608 - 0x38000000) / 8192) = (e - 112) * 1024 := by unfold u16; omega
      have h1 : u16 (rneSig 13 g) = rneSig 13 g := by unfold u16; omega
      rw [h2, h1]
      have h3 : u16 (rneSig 13 g + (e - 112) * 1024) = rneSig 13 g + (e - 112) * 1024 := by unfold u16; omega
      rw [h3]
      by_cases c3 : rneSig 13 g + (e - 112) * 1024 = 31744
      · rw [if_pos c3, if_pos c3]
      · rw [if_neg c3, if_neg c3]; apply ok_congr; unfold u16; omega

theorem doubleToHalf_eq {f : Nat} (hf : f < 2 ^ 64) : doubleToHalf f = toHalfA double f := by
  obtain ⟨hs, he, hg, hb, hx, hm⟩ := double_fields f
  have a1 : f &&& 0x8000000000000000 = f / 9223372036854775808 % 2 * 9223372036854775808 := and_field f 63 1
  have a2 : f &&& 0x7ff0000000000000 = f / 4503599627370496 % 2048 * 4503599627370496 := and_field f 52 11
  have a3 : f &&& 0x000fffffffffffff = f % 4503599627370496 := and_low f 52
  have a4 : f &&& 0x7fffffffffffffff = f % 9223372036854775808 := and_low f 63
  have a5 : ∀ x, x &&& 0x000007ffffffffff = x % 8796093022208 := fun x => and_low x 43
  unfold doubleToHalf toHalfA
  simp only [hs, he, hg, hb, hx, hm, a1, a2, a3, a4, a5, Nat.shiftRight_eq_div_pow]
  simp only [show 1023 + 16 = 1039 from rfl, show 1023 - 15 = 1008 from rfl, show 1023 - 25 = 998 from rfl,
    show 52 - 10 = 42 from rfl, show (2:Nat) ^ 48 = 281474976710656 from rfl, show (2:Nat) ^ 42 = 4398046511104 from rfl,
    show (2:Nat) ^ 52 = 4503599627370496 from rfl, show 1023 - 14 + 42 = 1051 from rfl]
  generalize hE : f / 4503599627370496 % 2048 = e
  generalize hG : f % 4503599627370496 = g
  have hg' : g < 4503599627370496 := by omega
  have he' : e < 2048 := by omega
  have hsg : u16 (f / 9223372036854775808 % 2 * 9223372036854775808 / 281474976710656)
      = f / 9223372036854775808 % 2 * 32768 := by unfold u16; omega
  rw [hsg]
  generalize hS : f / 9223372036854775808 % 2 = s
  have hs' : s < 2 := by omega
  by_cases c1 : 1039 ≤ e
  · rw [if_pos (show e * 4503599627370496 ≥ 0x40f0000000000000 by omega), if_pos c1]
    by_cases c2 : e = 2047
    · rw [if_pos (show e * 4503599627370496 = 0x7ff0000000000000 by omega), if_pos c2]
      by_cases c3 : g ≠ 0
      · rw [if_pos c3, if_pos c3]
        have hr : u16 (31744 + g / 4398046511104) = 31744 + g / 4398046511104 := by unfold u16; omega
        rw [hr]
        by_cases c4 : g / 4398046511104 = 0
        · rw [if_pos (by omega), if_pos c4]; apply ok_congr; unfold u16; omega
        · rw [if_neg (by omega), if_neg c4]; apply ok_congr; unfold u16; omega
      · rw [if_neg c3, if_neg c3]; apply ok_congr; unfold u16; omega
    · rw [if_neg (show ¬ e * 4503599627370496 = 0x7ff0000000000000 by omega), if_neg c2]; apply ok_congr; unfold u16; omega
  · rw [if_neg (show ¬ e * 4503599627370496 ≥ 0x40f0000000000000 by omega), if_neg c1]
    by_cases c2 : e ≤ 1008
    · rw [if_pos (show e * 4503599627370496 ≤ 0x3f00000000000000 by omega), if_pos c2]
      by_cases c3 : e < 998
      · rw [if_pos (show e * 4503599627370496 < 0x3e60000000000000 by omega), if_pos c3]
        by_cases c4 : e ≠ 0 ∨ g ≠ 0
        · rw [if_pos (by omega), if_pos c4]
        · rw [if_neg (by omega), if_neg c4]
      · rw [if_neg (show ¬ e * 4503599627370496 < 0x3e60000000000000 by omega), if_neg c3]
        rw [Nat.mul_div_cancel _ (by omega : 0 < 4503599627370496)]
        have hsl : u64 (1 <<< (1051 - e)) - 1 = 2 ^ (1051 - e) - 1 := by
          rw [Nat.shiftLeft_eq, Nat.one_mul]
          unfold u64
          rw [Nat.mod_eq_of_lt]
          have : (2:Nat) ^ (1051 - e) ≤ 2 ^ 53 := Nat.pow_le_pow_right (by omega) (by omega)
          omega
        rw [hsl, and_low]
        by_cases c4 : (4503599627370496 + g) % 2 ^ (1051 - e) ≠ 0
        · rw [if_pos c4, if_pos c4]
        · rw [if_neg c4, if_neg c4]
          have hst := subnormal_step (M := 0) (sh := 42) (e0 := 1008) (x := 4503599627370496 + g) (e := e) (by omega) c2
            (by rw [show 1008 + 1 + 42 = 1051 from rfl]; omega)
          rw [show 1008 + 1 + 42 - e = 1051 - e by omega, show 1008 + 1 - e = 1009 - e by omega,
            show (2:Nat) ^ (42 + 1) = 8796093022208 from rfl, show (2:Nat) ^ (42 - 1) = 0x0000020000000000 from rfl,
            show (2:Nat) ^ 42 = 4398046511104 from rfl] at hst
          rw [hst]
          have hlt : (4503599627370496 + g) / 2 ^ (1051 - e) ≤ (4503599627370496 + g) / 2 ^ 43 :=
            Nat.div_le_div_left (Nat.pow_le_pow_right (by omega) (by omega)) (by decide)
          apply ok_congr; unfold u16; omega
    · rw [if_neg (show ¬ e * 4503599627370496 ≤ 0x3f00000000000000 by omega), if_neg c2]
      have hst : rneSig 42 g = (if g % 8796093022208 ≠ 0x0000020000000000 then g + 0x0000020000000000 else g) / 4398046511104 := rfl
      rw [← hst]
      have hle : rneSig 42 g ≤ 1024 := by rw [hst]; split_ifs <;> omega
      have h2 : u16 ((e * 4503599627370496 - 0x3f00000000000000) / 4398046511104) = (e - 1008) * 1024 := by unfold u16; omega
      have h1 : u16 (rneSig 42 g) = rneSig 42 g := by unfold u16; omega
      rw [h2, h1]
      have h3 : u16 (rneSig 42 g + (e - 1008) * 1024) = rneSig 42 g + (e - 1008) * 1024 := by unfold u16; omega
      rw [h3]
      by_cases c3 : rneSig 42 g + (e - 1008) * 1024 = 31744
      · rw [if_pos c3, if_pos c3]
      · rw [if_neg c3, if_neg c3]; apply ok_congr; unfold u16; omega

/-! ## Widening -/

/-- Normalisation of a subnormal half: shift left until bit 10 is set. -/
theorem normLoop_spec {fuel j x e : Nat} (hj : j ≤ 10) (h1 : 2 ^ j ≤ x) (h2 : x < 2 ^ (j + 1)) (hf : 11 ≤ fuel + j) :
    normLoop fuel x e = .ok (x * 2 ^ (10 - j), e + (10 - j)) := by
  induction fuel generalizing j x e with
  | zero => omega
  | succ n ih =>
    have a : x &&& 0x0400 = x / 1024 % 2 * 1024 := and_field x 10 1
    have hle : (2:Nat) ^ (j + 1) ≤ 2 ^ 11 := Nat.pow_le_pow_right (by omega) (by omega)
    simp only [normLoop, a]
    by_cases hx : j = 10
    · subst hx
      rw [if_neg (by omega)]; simp
    · have hle' : (2:Nat) ^ (j + 1) ≤ 2 ^ 10 := Nat.pow_le_pow_right (by omega) (by omega)
      have e1 : u16 (x <<< 1) = 2 * x := by rw [Nat.shiftLeft_eq]; unfold u16; omega
      rw [if_pos (by omega), e1, ih (j := j + 1) (by omega) (by rw [Nat.pow_succ]; omega)
        (by rw [Nat.pow_succ]; omega) (by omega)]
      have e2 : 10 - j = (10 - (j + 1)) + 1 := by omega
      rw [e2, Nat.pow_succ]
      congr 2
      · ring
      · omega

/-- Arithmetic form of widening into the format `F`. -/
def widenA (F : Fmt) (h : Nat) : Nat :=
  let s := half.sgn h
  let e := half.ex h
  let g := half.sig h
  let sh := F.m - 10
  if e = 0 then
    if g = 0 then F.pack s 0 0
    else F.pack s (F.bias - 24 + Nat.log2 g) ((g * 2 ^ (10 - Nat.log2 g) - 1024) * 2 ^ sh)
  else if e = 31 then F.pack s F.expMax (g * 2 ^ sh)
  else F.pack s (e + (F.bias - 15)) (g * 2 ^ sh)

theorem log2_facts {g : Nat} (h0 : g ≠ 0) (hg : g < 1024) :
    Nat.log2 g ≤ 9 ∧ 2 ^ Nat.log2 g ≤ g ∧ g < 2 ^ (Nat.log2 g + 1) := by
  refine ⟨?_, Nat.log2_self_le h0, Nat.lt_log2_self⟩
  have : Nat.log2 g < 10 := (Nat.log2_lt h0).2 (by simpa using hg)
  omega

theorem shifted_facts {g : Nat} (h0 : g ≠ 0) (hg : g < 1024) :
    1024 ≤ g * 2 ^ (10 - Nat.log2 g) ∧ g * 2 ^ (10 - Nat.log2 g) < 2048 := by
  obtain ⟨h1, h2, h3⟩ := log2_facts h0 hg
  have e1 : (2:Nat) ^ 10 = 2 ^ Nat.log2 g * 2 ^ (10 - Nat.log2 g) := by rw [← Nat.pow_add]; congr 1; omega
  have e2 : (2:Nat) ^ 11 = 2 ^ (Nat.log2 g + 1) * 2 ^ (10 - Nat.log2 g) := by rw [← Nat.pow_add]; congr 1; omega
  have p : 0 < 2 ^ (10 - Nat.log2 g) := Nat.pow_pos (by omega)
  constructor
  · rw [show 1024 = 2 ^ 10 from rfl, e1]; exact Nat.mul_le_mul_right _ h2
  · rw [show 2048 = 2 ^ 11 from rfl, e2]; exact Nat.mul_lt_mul_of_pos_right h3 p

theorem normLoop_half {g : Nat} (h0 : g ≠ 0) (hg : g < 1024) :
    normLoop 16 (u16 (g <<< 1)) 0 = .ok (g * 2 ^ (10 - Nat.log2 g), 9 - Nat.log2 g) := by
  obtain ⟨h1, h2, h3⟩ := log2_facts h0 hg
  have e1 : u16 (g <<< 1) = 2 * g := by rw [Nat.shiftLeft_eq]; unfold u16; omega
  rw [e1, normLoop_spec (j := Nat.log2 g + 1) (by omega) (by rw [Nat.pow_succ]; omega) (by rw [Nat.pow_succ]; omega)
    (by omega)]
  have e2 : 10 - Nat.log2 g = (10 - (Nat.log2 g + 1)) + 1 := by omega
  rw [e2, Nat.pow_succ]
  congr 2
  · ring
  · omega

theorem halfToFloat_eq {h : Nat} (hh : h < 2 ^ 16) : halfToFloat h = .ok (widenA single h) := by
  obtain ⟨hs, he, hg, -, -, -⟩ := half_fields h
  obtain ⟨-, -, -, hb, hx, hm⟩ := single_fields h
  have a1 : h &&& 0x7c00 = h / 1024 % 32 * 1024 := and_field h 10 5
  have a2 : h &&& 0x8000 = h / 32768 % 2 * 32768 := and_field h 15 1
  have a3 : ∀ x, x &&& 0x03ff = x % 1024 := fun x => and_low x 10
  have a4 : h &&& 0x7fff = h % 32768 := and_low h 15
  unfold halfToFloat widenA
  simp only [hs, he, hg, hb, hx, a1, a2, a3, a4, Nat.shiftLeft_eq, Fmt.pack]
  simp only [show single.m = 23 from rfl, show single.w = 8 from rfl, show 23 - 10 = 13 from rfl, show 23 + 8 = 31 from rfl,
    show (2:Nat) ^ 13 = 8192 from rfl, show (2:Nat) ^ 31 = 2147483648 from rfl, show (2:Nat) ^ 23 = 8388608 from rfl,
    show (2:Nat) ^ 16 = 65536 from rfl, show 127 - 24 = 103 from rfl, show 127 - 15 = 112 from rfl]
  generalize hS : h / 32768 % 2 = s
  generalize hE : h / 1024 % 32 = e
  generalize hG : h % 1024 = g
  have hfs : u32 (s * 32768 * 65536) = s * 2147483648 := by unfold u32; omega
  rw [hfs]
  by_cases c1 : e = 0
  · rw [if_pos (by omega), if_pos c1]
    by_cases c2 : g = 0
    · rw [if_pos c2, if_pos c2]; simp
    · rw [if_neg c2, if_neg c2]
      have hn := normLoop_half c2 (by omega)
      rw [Nat.shiftLeft_eq] at hn
      rw [c1, Nat.zero_mul, hn]
      obtain ⟨l1, l2⟩ := shifted_facts c2 (show g < 1024 by omega)
      obtain ⟨l3, -, -⟩ := log2_facts c2 (show g < 1024 by omega)
      simp only [Res.bind_ok, Res.pure_eq]
      apply ok_congr
      unfold u32; omega
  · rw [if_neg (by omega), if_neg c1]
    by_cases c2 : e = 31
    · rw [if_pos (by omega), if_pos c2]; apply ok_congr; unfold u32; omega
    · rw [if_neg (by omega), if_neg c2]; apply ok_congr; unfold u32; omega

theorem halfToDouble_eq {h : Nat} (hh : h < 2 ^ 16) : halfToDouble h = .ok (widenA double h) := by
  obtain ⟨hs, he, hg, -, -, -⟩ := half_fields h
  obtain ⟨-, -, -, hb, hx, hm⟩ := double_fields h
  have a1 : h &&& 0x7c00 = h / 1024 % 32 * 1024 := and_field h 10 5
  have a2 : h &&& 0x8000 = h / 32768 % 2 * 32768 := and_field h 15 1
  have a3 : ∀ x, x &&& 0x03ff = x % 1024 := fun x => and_low x 10
  have a4 : h &&& 0x7fff = h % 32768 := and_low h 15
  unfold halfToDouble widenA
  simp only [hs, he, hg, hb, hx, a1, a2, a3, a4, Nat.shiftLeft_eq, Fmt.pack]
  simp only [show double.m = 52 from rfl, show double.w = 11 from rfl, show 52 - 10 = 42 from rfl, show 52 + 11 = 63 from rfl,
    show (2:Nat) ^ 42 = 4398046511104 from rfl, show (2:Nat) ^ 63 = 9223372036854775808 from rfl,
    show (2:Nat) ^ 52 = 4503599627370496 from rfl,
    show (2:Nat) ^ 48 = 281474976710656 from rfl, show 1023 - 24 = 999 from rfl, show 1023 - 15 = 1008 from rfl]
  generalize hS : h / 32768 % 2 = s
  generalize hE : h / 1024 % 32 = e
  generalize hG : h % 1024 = g
  have hfs : u64 (s * 32768 * 281474976710656) = s * 9223372036854775808 := by unfold u64; omega
  rw [hfs]
  by_cases c1 : e = 0
  · rw [if_pos (by omega), if_pos c1]
    by_cases c2 : g = 0
    · rw [if_pos c2, if_pos c2]; simp
    · rw [if_neg c2, if_neg c2]
      have hn := normLoop_half c2 (by omega)
      rw [Nat.shiftLeft_eq] at hn
      rw [c1, Nat.zero_mul, hn]
      obtain ⟨l1, l2⟩ := shifted_facts c2 (show g < 1024 by omega)
      obtain ⟨l3, -, -⟩ := log2_facts c2 (show g < 1024 by omega)
      simp only [Res.bind_ok, Res.pure_eq]
      apply ok_congr
      unfold u64; omega
  · rw [if_neg (by omega), if_neg c1]
    by_cases c2 : e = 31
    · rw [if_pos (by omega), if_pos c2]; apply ok_congr; unfold u64; omega
    · rw [if_neg (by omega), if_neg c2]; apply ok_congr; unfold u64; omega

/-- The formats wider than half that we use: at least one extra significand bit and room for all half exponents. -/
def Wide (F : Fmt) : Prop := 11 ≤ F.m ∧ 6 ≤ F.w

theorem wide_single : Wide single := by unfold Wide single; decide
theorem wide_double : Wide double := by unfold Wide double; decide

theorem wide_bias {F : Fmt} (hF : Wide F) : 31 ≤ F.bias ∧ F.expMax = 2 * F.bias + 1 ∧ 2 ^ F.w = F.expMax + 1 ∧
    F.unit = 24 + (F.bias + (F.m - 10) - 15) := by
  obtain ⟨h1, h2⟩ := hF
  have hp : (2:Nat) ^ 5 ≤ 2 ^ (F.w - 1) := Nat.pow_le_pow_right (by omega) (by omega)
  have e : (2:Nat) ^ F.w = 2 * 2 ^ (F.w - 1) := by
    obtain ⟨k, hk⟩ : ∃ k, F.w = k + 1 := ⟨F.w - 1, by omega⟩
    rw [hk]; simp [Nat.pow_succ, Nat.mul_comm]
  simp only [Fmt.bias, Fmt.expMax, Fmt.unit]
  omega

/-- The fields of the widened pattern. -/
theorem widenA_fields {F : Fmt} (hF : Wide F) (h : Nat) :
    F.sgn (widenA F h) = half.sgn h ∧ widenA F h < 2 ^ F.size ∧
    (half.ex h = 0 → half.sig h = 0 → F.ex (widenA F h) = 0 ∧ F.sig (widenA F h) = 0) ∧
    (half.ex h = 0 → half.sig h ≠ 0 → F.ex (widenA F h) = F.bias - 24 + Nat.log2 (half.sig h) ∧
      F.sig (widenA F h) = (half.sig h * 2 ^ (10 - Nat.log2 (half.sig h)) - 1024) * 2 ^ (F.m - 10)) ∧
    (half.ex h = 31 → F.ex (widenA F h) = F.expMax ∧ F.sig (widenA F h) = half.sig h * 2 ^ (F.m - 10)) ∧
    (half.ex h ≠ 0 → half.ex h ≠ 31 → F.ex (widenA F h) = half.ex h + (F.bias - 15) ∧
      F.sig (widenA F h) = half.sig h * 2 ^ (F.m - 10)) := by
  obtain ⟨b1, b2, b3, b4⟩ := wide_bias hF
  have hs : half.sgn h < 2 := sgn_lt h
  have he : half.ex h < 32 := ex_lt h
  have hg : half.sig h < 1024 := sig_lt h
  have p : 0 < 2 ^ (F.m - 10) := Nat.pow_pos (by omega)
  have pm : (2:Nat) ^ F.m = 1024 * 2 ^ (F.m - 10) := by
    rw [show 1024 = 2 ^ 10 from rfl, ← Nat.pow_add]; congr 1; have := hF.1; omega
  have pm0 : 0 < 2 ^ F.m := Nat.pow_pos (by omega)
  have hmul : ∀ x, x < 1024 → x * 2 ^ (F.m - 10) < 2 ^ F.m := fun x hx => by
    rw [pm]; exact Nat.mul_lt_mul_of_pos_right hx p
  unfold widenA
  simp only
  by_cases c1 : half.ex h = 0
  · by_cases c2 : half.sig h = 0
    · rw [if_pos c1, if_pos c2]
      obtain ⟨f1, f2, f3⟩ := pack_fields (F := F) (e := 0) (g := 0) hs (by omega) pm0
      refine ⟨f1, pack_lt hs (by omega) pm0, ?_, ?_, ?_, ?_⟩ <;> intros <;> first | omega | exact ⟨f2, f3⟩
    · rw [if_pos c1, if_neg c2]
      obtain ⟨l1, l2⟩ := shifted_facts c2 hg
      obtain ⟨l3, -, -⟩ := log2_facts c2 hg
      have hgg := hmul (half.sig h * 2 ^ (10 - Nat.log2 (half.sig h)) - 1024) (by omega)
      obtain ⟨f1, f2, f3⟩ := pack_fields (F := F) (e := F.bias - 24 + Nat.log2 (half.sig h)) hs (by omega) hgg
      refine ⟨f1, pack_lt hs (by omega) hgg, ?_, ?_, ?_, ?_⟩ <;> intros <;> first | omega | exact ⟨f2, f3⟩
  · rw [if_neg c1]
    have hgg := hmul _ hg
    by_cases c2 : half.ex h = 31
    · rw [if_pos c2]
      obtain ⟨f1, f2, f3⟩ := pack_fields (F := F) (e := F.expMax) hs (by omega) hgg
      refine ⟨f1, pack_lt hs (by omega) hgg, ?_, ?_, ?_, ?_⟩ <;> intros <;> first | omega | exact ⟨f2, f3⟩
    · rw [if_neg c2]
      obtain ⟨f1, f2, f3⟩ := pack_fields (F := F) (e := half.ex h + (F.bias - 15)) hs (by omega) hgg
      refine ⟨f1, pack_lt hs (by omega) hgg, ?_, ?_, ?_, ?_⟩ <;> intros <;> first | omega | exact ⟨f2, f3⟩

/-- The widened magnitude, in units of the wide format. -/
theorem widenA_mag {F : Fmt} (hF : Wide F) (h : Nat) (hfin : half.ex h ≠ 31) :
    F.mag (widenA F h) = half.mag h * 2 ^ (F.bias + (F.m - 10) - 15) := by
  obtain ⟨b1, b2, b3, b4⟩ := wide_bias hF
  obtain ⟨-, -, w1, w2, w3, w4⟩ := widenA_fields hF h
  have hg : half.sig h < 1024 := sig_lt h
  have pm : (2:Nat) ^ F.m = 1024 * 2 ^ (F.m - 10) := by
    rw [show 1024 = 2 ^ 10 from rfl, ← Nat.pow_add]; congr 1; have := hF.1; omega
  unfold Fmt.mag
  by_cases c1 : half.ex h = 0
  · by_cases c2 : half.sig h = 0
    · obtain ⟨e1, e2⟩ := w1 c1 c2
      rw [e1, e2, if_pos rfl, if_pos c1, c2]; simp
    · obtain ⟨e1, e2⟩ := w2 c1 c2
      obtain ⟨l1, l2⟩ := shifted_facts c2 hg
      obtain ⟨l3, -, -⟩ := log2_facts c2 hg
      rw [e1, e2, if_neg (by omega), if_pos c1, pm]
      generalize half.sig h = g at *
      generalize Nat.log2 g = l at *
      have : 1024 * 2 ^ (F.m - 10) + (g * 2 ^ (10 - l) - 1024) * 2 ^ (F.m - 10) = g * 2 ^ (10 - l) * 2 ^ (F.m - 10) := by
        rw [← Nat.add_mul, show 1024 + (g * 2 ^ (10 - l) - 1024) = g * 2 ^ (10 - l) by omega]
      rw [this, Nat.mul_assoc, Nat.mul_assoc, ← Nat.pow_add, ← Nat.pow_add]
      congr 2; omega
  · obtain ⟨e1, e2⟩ := w4 c1 hfin
    rw [e1, e2, if_neg (by omega), if_neg c1, pm, ← Nat.add_mul, Nat.mul_assoc, ← Nat.pow_add]
    rw [show (2:Nat) ^ half.m = 1024 from rfl, Nat.mul_assoc, ← Nat.pow_add]
    congr 2; omega

theorem widenA_smag {F : Fmt} (hF : Wide F) (h : Nat) (hfin : half.ex h ≠ 31) :
    F.smag (widenA F h) = half.smag h * 2 ^ (F.bias + (F.m - 10) - 15) := by
  obtain ⟨w0, -⟩ := widenA_fields hF h
  unfold Fmt.smag
  rw [w0, widenA_mag hF h hfin]
  split_ifs <;> push_cast <;> ring

theorem widenA_val {F : Fmt} (hF : Wide F) (h : Nat) (hfin : half.ex h ≠ 31) : F.val (widenA F h) = half.val h := by
  obtain ⟨b1, b2, b3, b4⟩ := wide_bias hF
  unfold Fmt.val
  rw [widenA_smag hF h hfin, b4, show half.unit = 24 from rfl, pow_add]
  push_cast
  have p : (2:ℚ) ^ (F.bias + (F.m - 10) - 15) ≠ 0 := pow_ne_zero _ (by norm_num)
  field_simp

/-- **C28 (value), float32.** Widening a half to `float` succeeds for every bit pattern, preserves sign, NaN-ness and
    infinity, and every finite half keeps its value. -/
theorem half_to_float_exact (h : Nat) (hh : h < 2 ^ 16) : ∃ f, halfToFloat h = .ok f ∧ f < 2 ^ 32 ∧
    single.sgn f = half.sgn h ∧ (half.IsNan h ↔ single.IsNan f) ∧ (half.IsInf h ↔ single.IsInf f) ∧
    (half.IsFinite h → single.val f = half.val h) := by
  refine ⟨_, halfToFloat_eq hh, ?_⟩
  obtain ⟨w0, w00, w1, w2, w3, w4⟩ := widenA_fields wide_single h
  have hg : half.sig h < 1024 := sig_lt h
  have hx : half.expMax = 31 := rfl
  have hx' : single.expMax = 255 := rfl
  have hb : single.bias = 127 := rfl
  have hm : (2:Nat) ^ (single.m - 10) = 8192 := rfl
  refine ⟨w00, w0, ?_, ?_, fun hf => widenA_val wide_single h hf⟩
  all_goals
    simp only [Fmt.IsNan, Fmt.IsInf, hx, hx']
    rw [hb, hm] at w2 w4
    rw [hx', hm] at w3
    by_cases c1 : half.ex h = 0
    · by_cases c2 : half.sig h = 0
      · have := w1 c1 c2; omega
      · have := w2 c1 c2
        have := (log2_facts c2 hg).1
        omega
    · by_cases c2 : half.ex h = 31
      · have := w3 c2; omega
      · have := w4 c1 c2
        have : half.ex h < 32 := ex_lt h
        omega

/-- **C28 (value), float64.** -/
theorem half_to_double_exact (h : Nat) (hh : h < 2 ^ 16) : ∃ f, halfToDouble h = .ok f ∧ f < 2 ^ 64 ∧
    double.sgn f = half.sgn h ∧ (half.IsNan h ↔ double.IsNan f) ∧ (half.IsInf h ↔ double.IsInf f) ∧
    (half.IsFinite h → double.val f = half.val h) := by
  refine ⟨_, halfToDouble_eq hh, ?_⟩
  obtain ⟨w0, w00, w1, w2, w3, w4⟩ := widenA_fields wide_double h
  have hg : half.sig h < 1024 := sig_lt h
  have hx : half.expMax = 31 := rfl
  have hx' : double.expMax = 2047 := rfl
  have hb : double.bias = 1023 := rfl
  have hm : (2:Nat) ^ (double.m - 10) = 4398046511104 := rfl
  refine ⟨w00, w0, ?_, ?_, fun hf => widenA_val wide_double h hf⟩
  all_goals
    simp only [Fmt.IsNan, Fmt.IsInf, hx, hx']
    rw [hb, hm] at w2 w4
    rw [hx', hm] at w3
    by_cases c1 : half.ex h = 0
    · by_cases c2 : half.sig h = 0
      · have := w1 c1 c2; omega
      · have := w2 c1 c2
        have := (log2_facts c2 hg).1
        omega
    · by_cases c2 : half.ex h = 31
      · have := w3 c2; omega
      · have := w4 c1 c2
        have : half.ex h < 32 := ex_lt h
        omega

theorem toHalfA_widenA {F : Fmt} (hF : Wide F) {h : Nat} (hh : h < 2 ^ 16) : toHalfA F (widenA F h) = .ok h := by
  obtain ⟨b1, b2, b3, b4⟩ := wide_bias hF
  obtain ⟨w0, -, w1, w2, w3, w4⟩ := widenA_fields hF h
  have hrec : half.pack (half.sgn h) (half.ex h) (half.sig h) = h := pack_of_fields hh
  have hrec' : half.sgn h * 32768 + half.ex h * 1024 + half.sig h = h := hrec
  clear hrec
  clear hh
  have he : half.ex h < 32 := ex_lt h
  have hg : half.sig h < 1024 := sig_lt h
  have p : 0 < 2 ^ (F.m - 10) := Nat.pow_pos (by omega)
  have pm : (2:Nat) ^ F.m = 1024 * 2 ^ (F.m - 10) := by
    rw [show 1024 = 2 ^ 10 from rfl, ← Nat.pow_add]; congr 1; have := hF.1; omega
  unfold toHalfA
  simp only [w0]
  generalize half.sgn h = s at *
  generalize half.ex h = e at *
  generalize half.sig h = g at *
  by_cases c1 : e = 0
  · by_cases c2 : g = 0
    · obtain ⟨k1, k2⟩ := w1 c1 c2
      rw [k1, k2, if_neg (by omega), if_pos (by omega), if_pos (by omega), if_neg (by simp)]
      apply ok_congr; linarith only [hrec', c1, c2]
    · obtain ⟨k1, k2⟩ := w2 c1 c2
      obtain ⟨l1, l2⟩ := shifted_facts c2 hg
      obtain ⟨l3, -, -⟩ := log2_facts c2 hg
      rw [k1, k2, if_neg (by omega), if_pos (by omega), if_neg (by omega), pm]
      have hx : 1024 * 2 ^ (F.m - 10) + (g * 2 ^ (10 - Nat.log2 (g)) - 1024) * 2 ^ (F.m - 10)
          = g * 2 ^ (F.bias - 14 + (F.m - 10) - (F.bias - 24 + Nat.log2 (g))) := by
        rw [← Nat.add_mul, show 1024 + (g * 2 ^ (10 - Nat.log2 (g)) - 1024)
          = g * 2 ^ (10 - Nat.log2 (g)) by omega, Nat.mul_assoc, ← Nat.pow_add]
        congr 2; omega
      rw [hx, if_neg (by simp), Nat.mul_div_cancel _ (Nat.pow_pos (by omega))]
      apply ok_congr; linarith only [hrec', c1, c2]
  · by_cases c2 : e = 31
    · obtain ⟨k1, k2⟩ := w3 c2
      rw [k1, k2, if_pos (by omega), if_pos rfl]
      by_cases c3 : g = 0
      · rw [if_neg (by rw [c3]; simp)]; apply ok_congr; linarith only [hrec', c1, c2, c3]
      · have : g * 2 ^ (F.m - 10) ≠ 0 := Nat.mul_ne_zero c3 (by omega)
        rw [if_pos this, Nat.mul_div_cancel _ p, if_neg c3]; apply ok_congr; linarith only [hrec', c1, c2]
    · obtain ⟨k1, k2⟩ := w4 c1 c2
      rw [k1, k2, if_neg (by omega), if_neg (by omega)]
      have hp : (2:Nat) ^ (F.m - 10) = 2 * 2 ^ (F.m - 10 - 1) := by
        obtain ⟨k, hk⟩ : ∃ k, F.m - 10 = k + 1 := ⟨F.m - 10 - 1, by have := hF.1; omega⟩
        rw [hk]; simp [Nat.pow_succ, Nat.mul_comm]
      have p' : 0 < 2 ^ (F.m - 10 - 1) := Nat.pow_pos (by omega)
      have hr : rneSig (F.m - 10) (g * 2 ^ (F.m - 10)) = g := by
        unfold rneSig
        split_ifs
        · rw [Nat.add_comm, Nat.mul_comm, Nat.add_mul_div_left _ _ p, Nat.div_eq_of_lt (by omega)]; omega
        · exact Nat.mul_div_cancel _ p
      rw [hr, if_neg (by omega)]; rw [Nat.add_sub_cancel]; apply ok_congr; linarith only [hrec', c1, c2]

/-- **C28 (round trip).** Every one of the 65536 half patterns — zeros, subnormals, infinities and NaN payloads
    included — survives the trip through `float` and through `double`. -/
theorem half_round_trip (h : Nat) (hh : h < 2 ^ 16) :
    (halfToFloat h >>= floatToHalf) = .ok h ∧ (halfToDouble h >>= doubleToHalf) = .ok h := by
  rw [halfToFloat_eq hh, halfToDouble_eq hh]
  simp only [Res.bind_ok]
  rw [floatToHalf_eq (widenA_fields wide_single h).2.1, doubleToHalf_eq (widenA_fields wide_double h).2.1]
  exact ⟨toHalfA_widenA wide_single hh, toHalfA_widenA wide_double hh⟩

example : halfToFloat 0x0001 = .ok 0x33800000 ∧ floatToHalf 0x33800000 = .ok 1 ∧ halfToFloat 0xfe01 = .ok 0xffc02000 := by
  decide

/-! ## C29: rounding -/

/-- Rounding half to even: error at most half a unit, and on a tie the result is even. -/
theorem rneSig_spec {sh g : Nat} (hsh : 1 ≤ sh) :
    2 * (rneSig sh g * 2 ^ sh) ≤ 2 * g + 2 ^ sh ∧ 2 * g ≤ 2 * (rneSig sh g * 2 ^ sh) + 2 ^ sh ∧
    ((2 * (rneSig sh g * 2 ^ sh) = 2 * g + 2 ^ sh ∨ 2 * g = 2 * (rneSig sh g * 2 ^ sh) + 2 ^ sh) →
      rneSig sh g % 2 = 0) := by
  have hp : (2:Nat) ^ sh = 2 * 2 ^ (sh - 1) := by
    obtain ⟨k, rfl⟩ : ∃ k, sh = k + 1 := ⟨sh - 1, by omega⟩
    simp [Nat.pow_succ, Nat.mul_comm]
  have hm : g % 2 ^ (sh + 1) = g % 2 ^ sh + 2 ^ sh * (g / 2 ^ sh % 2) := by
    rw [Nat.pow_succ, Nat.mod_mul]
  unfold rneSig
  rw [hm]
  generalize hu : 2 ^ (sh - 1) = u at *
  rw [hp]
  have u0 : 0 < u := by rw [← hu]; exact Nat.pow_pos (by omega)
  have hdm := Nat.div_add_mod g (2 * u)
  have hlt : g % (2 * u) < 2 * u := Nat.mod_lt _ (by omega)
  generalize hq : g / (2 * u) = q at *
  generalize hr : g % (2 * u) = r at *
  have par : q % 2 = 0 ∨ q % 2 = 1 := by omega
  -- value of the quotient with the half unit added
  have hadd : (g + u) / (2 * u) = if r < u then q else q + 1 := by
    split_ifs with hc
    · rw [← hdm, Nat.add_assoc, Nat.mul_add_div (by omega), Nat.div_eq_of_lt (by omega), Nat.add_zero]
    · have : g + u = 2 * u * (q + 1) + (r - u) := by rw [Nat.mul_add]; omega
      rw [this, Nat.mul_add_div (by omega), Nat.div_eq_of_lt (by omega)]
  have e1 : q * (2 * u) = 2 * u * q := by ring
  have e2 : (q + 1) * (2 * u) = 2 * u * q + 2 * u := by ring
  rcases par with hpar | hpar
  · rw [hpar, Nat.mul_zero, Nat.add_zero]
    by_cases c : r = u
    · rw [if_neg (by omega), hq, e1]; omega
    · rw [if_pos (by omega), hadd]
      split_ifs
      · rw [e1]; omega
      · rw [e2]; omega
  · rw [hpar, Nat.mul_one, if_pos (by omega), hadd]
    split_ifs
    · rw [e1]; omega
    · rw [e2]; omega

/-- Nearest multiple: among all integers that are multiples of `U` or at most `1024 U`, `k U` is nearest to `N`. -/
theorem nearest_core {U N k Z : Int} (hU : 0 < U) (hN : 1024 * U ≤ N) (hk : 1024 ≤ k)
    (h1 : 2 * (k * U) ≤ 2 * N + U) (h2 : 2 * N ≤ 2 * (k * U) + U)
    (htie : (2 * (k * U) = 2 * N + U ∨ 2 * N = 2 * (k * U) + U) → k % 2 = 0)
    (hZ : (∃ z, Z = z * U) ∨ Z ≤ 1024 * U) :
    |k * U - N| ≤ |Z - N| ∧ (|k * U - N| = |Z - N| → Z = k * U ∨ k % 2 = 0) := by
  have mult : ∀ z : Int, |k * U - N| ≤ |z * U - N| ∧ (|k * U - N| = |z * U - N| → z = k ∨ k % 2 = 0) := by
    intro z
    rcases lt_trichotomy z k with h | h | h
    · have : z * U ≤ (k - 1) * U := Int.mul_le_mul_of_nonneg_right (by omega) (by omega)
      have e : (k - 1) * U = k * U - U := by ring
      rw [abs_le', abs_sub_comm (z * U)]
      have a1 : N - z * U ≤ |N - z * U| := le_abs_self _
      refine ⟨⟨by omega, by omega⟩, fun heq => .inr (htie ?_)⟩
      have a2 : |N - z * U| = N - z * U := abs_of_nonneg (by omega)
      have a3 : |k * U - N| = k * U - N ∨ |k * U - N| = -(k * U - N) := abs_choice _
      omega
    · subst h; exact ⟨le_refl _, fun _ => .inl rfl⟩
    · have : (k + 1) * U ≤ z * U := Int.mul_le_mul_of_nonneg_right (by omega) (by omega)
      have e : (k + 1) * U = k * U + U := by ring
      rw [abs_le']
      have a1 : z * U - N ≤ |z * U - N| := le_abs_self _
      refine ⟨⟨by omega, by omega⟩, fun heq => .inr (htie ?_)⟩
      have a2 : |z * U - N| = z * U - N := abs_of_nonneg (by omega)
      have a3 : |k * U - N| = k * U - N ∨ |k * U - N| = -(k * U - N) := abs_choice _
      omega
  rcases hZ with ⟨z, rfl⟩ | hZ
  · refine ⟨(mult z).1, fun h => ?_⟩
    rcases (mult z).2 h with h | h
    · exact .inl (by rw [h])
    · exact .inr h
  · obtain ⟨m1, m2⟩ := mult 1024
    have a1 : |1024 * U - N| = N - 1024 * U := by rw [abs_sub_comm]; exact abs_of_nonneg (by omega)
    have a2 : |Z - N| = N - Z := by rw [abs_sub_comm]; exact abs_of_nonneg (by omega)
    rw [a1] at m1 m2
    rw [a2]
    refine ⟨by omega, fun h => ?_⟩
    rcases m2 (by omega) with h' | h'
    · left; rw [← h']; omega
    · exact .inr h'

/-- `h` is a nearest half to the number `x`, and if another half is equally near then `h`'s significand is even. -/
def NearestEven (h : Nat) (x : ℚ) : Prop :=
  half.IsFinite h ∧ ∀ h', h' < 2 ^ 16 → half.IsFinite h' →
    |half.val h - x| ≤ |half.val h' - x| ∧
    (|half.val h - x| = |half.val h' - x| → half.val h' = half.val h ∨ half.sig h % 2 = 0)

theorem pow2_scale (a b : Int) (n : Nat) : ((a : ℚ) / 2 ^ n - (b : ℚ) / 2 ^ n) = ((a - b : Int) : ℚ) / 2 ^ n := by
  push_cast; ring

theorem abs_pow2_scale (a : Int) (n : Nat) : |(a : ℚ) / 2 ^ n| = ((|a| : Int) : ℚ) / 2 ^ n := by
  rw [abs_div, abs_of_pos (pow_pos (by norm_num : (0:ℚ) < 2) n)]; push_cast; rfl

set_option maxHeartbeats 1000000 in
/-- The arithmetic form rounds correctly in the normal range. -/
theorem toHalfA_normal {F : Fmt} (hF : Wide F) {b : Nat} (he1 : F.bias - 15 < F.ex b) (he2 : F.ex b < F.bias + 16) :
    (∃ h, toHalfA F b = .ok h ∧ h < 2 ^ 16 ∧ half.sgn h = F.sgn b ∧ NearestEven h (F.val b)) ∨
    (toHalfA F b = .throw .overflow ∧ 65520 ≤ |F.val b|) := by
  obtain ⟨b1, b2, b3, b4⟩ := wide_bias hF
  have hs : F.sgn b < 2 := sgn_lt b
  have hg : F.sig b < 2 ^ F.m := sig_lt b
  have pm : (2:Nat) ^ F.m = 1024 * 2 ^ (F.m - 10) := by
    rw [show 1024 = 2 ^ 10 from rfl, ← Nat.pow_add]; congr 1; have := hF.1; omega
  have p : 0 < 2 ^ (F.m - 10) := Nat.pow_pos (by omega)
  obtain ⟨r1, r2, r3⟩ := rneSig_spec (sh := F.m - 10) (g := F.sig b) (by have := hF.1; omega)
  generalize hk : rneSig (F.m - 10) (F.sig b) = k at *
  have hk1024 : k ≤ 1024 := by
    by_contra hc
    have : 1025 * 2 ^ (F.m - 10) ≤ k * 2 ^ (F.m - 10) := Nat.mul_le_mul_right _ (by omega)
    omega
  have hval : F.val b = (F.smag b : ℚ) / 2 ^ F.unit := rfl
  have hmag : F.mag b = (2 ^ F.m + F.sig b) * 2 ^ (F.ex b - 1) := by
    unfold Fmt.mag; rw [if_neg (by omega)]
  have hA : toHalfA F b = if k + (F.ex b - (F.bias - 15)) * 1024 = 31744 then .throw .overflow
      else .ok (F.sgn b * 32768 + (k + (F.ex b - (F.bias - 15)) * 1024)) := by
    unfold toHalfA
    simp only
    rw [if_neg (by omega), if_neg (by omega), hk]
  -- everything in units of the wide format
  set D := F.bias + (F.m - 10) - 15 with hD
  set U : Int := 2 ^ (F.m - 10) * 2 ^ (F.ex b - 1) with hUdef
  have hU : 0 < U := by positivity
  have hN : (F.mag b : Int) = (2 ^ F.m + F.sig b : Nat) * 2 ^ (F.ex b - 1) := by rw [hmag]; push_cast; ring
  by_cases hov : k + (F.ex b - (F.bias - 15)) * 1024 = 31744
  · right
    refine ⟨by rw [hA, if_pos hov], ?_⟩
    have hk : k = 1024 := by omega
    have hee : F.ex b = F.bias + 15 := by omega
    rw [hval, abs_pow2_scale]
    have habs : |F.smag b| = (F.mag b : Int) := by
      unfold Fmt.smag; split_ifs
      · rw [abs_neg]; exact abs_of_nonneg (by omega)
      · exact abs_of_nonneg (by omega)
    rw [habs, le_div_iff₀ (by positivity)]
    -- 65520 * 2^unit ≤ mag
    have hmagge : 65520 * 2 ^ F.unit ≤ F.mag b := by
      have e1 : 2 ^ F.unit * 65520 = (4095 * 2 ^ (F.m - 10 - 1)) * 2 ^ (F.ex b - 1) := by
        rw [show 65520 = 4095 * 2 ^ 4 from rfl, Nat.mul_comm, Nat.mul_assoc, Nat.mul_assoc, ← Nat.pow_add, ← Nat.pow_add]
        congr 2; have := hF.1; omega
      have hp : (2:Nat) ^ (F.m - 10) = 2 * 2 ^ (F.m - 10 - 1) := by
        obtain ⟨j, hj⟩ : ∃ j, F.m - 10 = j + 1 := ⟨F.m - 10 - 1, by have := hF.1; omega⟩
        rw [hj]; simp [Nat.pow_succ, Nat.mul_comm]
      rw [Nat.mul_comm, e1, hmag]
      apply Nat.mul_le_mul_right
      rw [hk] at r1
      omega
    exact_mod_cast hmagge
  · left
    refine ⟨_, by rw [hA, if_neg hov], ?_⟩
    -- the fields of the result
    have hfields : half.sgn (F.sgn b * 32768 + (k + (F.ex b - (F.bias - 15)) * 1024)) = F.sgn b ∧
        half.ex (F.sgn b * 32768 + (k + (F.ex b - (F.bias - 15)) * 1024)) =
          F.ex b - (F.bias - 15) + (if k = 1024 then 1 else 0) ∧
        half.sig (F.sgn b * 32768 + (k + (F.ex b - (F.bias - 15)) * 1024)) = (if k = 1024 then 0 else k) := by
      obtain ⟨f1, f2, f3, -, -, -⟩ := half_fields (F.sgn b * 32768 + (k + (F.ex b - (F.bias - 15)) * 1024))
      rw [f1, f2, f3]
      split_ifs with hc <;> omega
    generalize hh : F.sgn b * 32768 + (k + (F.ex b - (F.bias - 15)) * 1024) = h at hfields
    obtain ⟨f1, f2, f3⟩ := hfields
    have hx : half.expMax = 31 := rfl
    have hfin : half.IsFinite h := by
      unfold Fmt.IsFinite; rw [hx, f2]; split_ifs <;> omega
    refine ⟨by omega, f1, hfin, ?_⟩
    -- magnitude of the result in wide units
    have hmagh : half.mag h * 2 ^ D = (1024 + k) * 2 ^ (F.m - 10) * 2 ^ (F.ex b - 1) := by
      unfold Fmt.mag
      rw [f2, f3, show (2:Nat) ^ half.m = 1024 from rfl]
      rw [if_neg (by omega)]
      rw [Nat.mul_assoc, Nat.mul_assoc, ← Nat.pow_add, ← Nat.pow_add]
      split_ifs with hc
      · subst hc
        rw [show 1024 + 1024 = 1024 * 2 from rfl, Nat.add_zero, Nat.mul_assoc, ← Nat.pow_succ']
        congr 2; omega
      · congr 2; omega
    set σ : Int := if F.sgn b = 1 then -1 else 1 with hσ
    have hσσ : σ * σ = 1 := by rw [hσ]; split_ifs <;> rfl
    have habsσ : |σ| = 1 := by rw [hσ]; split_ifs <;> rfl
    have hsm : F.smag b = σ * F.mag b := by
      unfold Fmt.smag; rw [hσ]; split_ifs <;> ring
    have hsmh : half.smag h * 2 ^ D = σ * ((1024 + (k:Int)) * U) := by
      have : (half.mag h : Int) * 2 ^ D = (1024 + (k:Int)) * U := by
        have := congrArg (Nat.cast (R := Int)) hmagh
        rw [hUdef]; push_cast at this ⊢; rw [this]; ring
      unfold Fmt.smag; rw [f1, hσ]; split_ifs <;> rw [← this] <;> ring
    intro h' hh' hfin'
    have he' : half.ex h' < 31 := by
      have : half.ex h' < 32 := ex_lt h'
      unfold Fmt.IsFinite at hfin'; rw [hx] at hfin'; omega
    -- the competitor in wide units
    set Z : Int := σ * (half.smag h' * 2 ^ D) with hZdef
    have hZ : (∃ z, Z = z * U) ∨ Z ≤ 1024 * U := by
      by_cases hc : F.ex b - (F.bias - 15) ≤ half.ex h'
      · left
        have : ∃ z : Int, (half.mag h' : Int) * 2 ^ D = z * U := by
          unfold Fmt.mag
          rw [if_neg (by omega)]
          refine ⟨(2 ^ half.m + half.sig h' : Nat) * 2 ^ (half.ex h' - (F.ex b - (F.bias - 15))), ?_⟩
          rw [hUdef]
          push_cast
          have : (2:Int) ^ (half.ex h' - 1) * 2 ^ D = 2 ^ (half.ex h' - (F.ex b - (F.bias - 15))) * (2 ^ (F.m - 10) * 2 ^ (F.ex b - 1)) := by
            rw [← pow_add, ← pow_add, ← pow_add]; congr 1; omega
          linear_combination ((2:Int) ^ half.m + half.sig h') * this
        obtain ⟨z, hz⟩ := this
        have hss : ∃ τ : Int, half.smag h' = τ * half.mag h' := by
          unfold Fmt.smag; split_ifs
          · exact ⟨-1, by ring⟩
          · exact ⟨1, by ring⟩
        obtain ⟨τ, hτ⟩ := hss
        exact ⟨σ * τ * z, by rw [hZdef, hτ]; linear_combination (σ * τ) * hz⟩
      · right
        have hb1 : half.mag h' * 2 ^ D ≤ 1024 * (2 ^ (F.m - 10) * 2 ^ (F.ex b - 1)) := by
          have hm1 : half.mag h' ≤ 1024 * 2 ^ (F.ex b - (F.bias - 15) - 1) := by
            have hg' : half.sig h' < 1024 := sig_lt h'
            unfold Fmt.mag
            split_ifs with hz
            · have : 1024 * 1 ≤ 1024 * 2 ^ (F.ex b - (F.bias - 15) - 1) := Nat.mul_le_mul_left _ (Nat.pow_pos (by omega))
              omega
            · rw [show (2:Nat) ^ half.m = 1024 from rfl]
              calc (1024 + half.sig h') * 2 ^ (half.ex h' - 1) ≤ (1024 * 2) * 2 ^ (half.ex h' - 1) :=
                    Nat.mul_le_mul_right _ (by omega)
                _ = 1024 * 2 ^ (half.ex h') := by
                    rw [Nat.mul_assoc, ← Nat.pow_succ']; congr 2; omega
                _ ≤ _ := Nat.mul_le_mul_left _ (Nat.pow_le_pow_right (by omega) (by omega))
          calc half.mag h' * 2 ^ D ≤ (1024 * 2 ^ (F.ex b - (F.bias - 15) - 1)) * 2 ^ D := Nat.mul_le_mul_right _ hm1
            _ = _ := by rw [Nat.mul_assoc, ← Nat.pow_add, ← Nat.pow_add]; congr 2; omega
        have hb2 : (half.mag h' : Int) * 2 ^ D ≤ 1024 * U := by rw [hUdef]; exact_mod_cast hb1
        have hnn : 0 ≤ (half.mag h' : Int) * 2 ^ D := by positivity
        have : Z = (half.mag h' : Int) * 2 ^ D ∨ Z = -((half.mag h' : Int) * 2 ^ D) := by
          rw [hZdef, hσ]; unfold Fmt.smag
          split_ifs
          · left; ring
          · right; ring
          · right; ring
          · left; ring
        have hU2 : 0 ≤ 1024 * U := by omega
        rcases this with h | h <;> rw [h] <;> omega
    have r1' : 2 * ((1024 + (k:Int)) * U) ≤ 2 * F.mag b + U := by
      rw [hN]
      have : (2 * (k * 2 ^ (F.m - 10)) : Int) ≤ 2 * F.sig b + 2 ^ (F.m - 10) := by exact_mod_cast r1
      have pp : (0:Int) ≤ 2 ^ (F.ex b - 1) := by positivity
      have := mul_le_mul_of_nonneg_right this pp
      have pmI : (2:Int) ^ F.m = 1024 * 2 ^ (F.m - 10) := by exact_mod_cast pm
      push_cast; rw [hUdef, pmI]; linarith only [this]
    have r2' : 2 * (F.mag b : Int) ≤ 2 * ((1024 + (k:Int)) * U) + U := by
      rw [hN]
      have : (2 * F.sig b : Int) ≤ 2 * (k * 2 ^ (F.m - 10)) + 2 ^ (F.m - 10) := by exact_mod_cast r2
      have pp : (0:Int) ≤ 2 ^ (F.ex b - 1) := by positivity
      have := mul_le_mul_of_nonneg_right this pp
      have pmI : (2:Int) ^ F.m = 1024 * 2 ^ (F.m - 10) := by exact_mod_cast pm
      push_cast; rw [hUdef, pmI]; linarith only [this]
    have hNge : 1024 * U ≤ (F.mag b : Int) := by
      rw [hN, hUdef]
      have pmI : (2:Int) ^ F.m = 1024 * 2 ^ (F.m - 10) := by exact_mod_cast pm
      have pp : (0:Int) ≤ F.sig b * 2 ^ (F.ex b - 1) := by positivity
      push_cast; rw [pmI]; linarith only [pp]
    have htie' : (2 * ((1024 + (k:Int)) * U) = 2 * F.mag b + U ∨ 2 * (F.mag b : Int) = 2 * ((1024 + (k:Int)) * U) + U) →
        (1024 + (k:Int)) % 2 = 0 := by
      intro ht
      have pp : (0:Int) < 2 ^ (F.ex b - 1) := by positivity
      have pmI : (2:Int) ^ F.m = 1024 * 2 ^ (F.m - 10) := by exact_mod_cast pm
      rw [hN, hUdef] at ht
      push_cast at ht
      rw [pmI] at ht
      have : k % 2 = 0 := by
        apply r3
        rcases ht with ht | ht
        · left
          have h3 : ((2 * (k * 2 ^ (F.m - 10)) : Int)) * 2 ^ (F.ex b - 1) = (2 * F.sig b + 2 ^ (F.m - 10)) * 2 ^ (F.ex b - 1) := by
            linear_combination ht
          have h4 := mul_right_cancel₀ (ne_of_gt pp) h3
          exact_mod_cast h4
        · right
          have h3 : (2 * F.sig b : Int) * 2 ^ (F.ex b - 1) = (2 * (k * 2 ^ (F.m - 10)) + 2 ^ (F.m - 10)) * 2 ^ (F.ex b - 1) := by
            linear_combination ht
          have h4 := mul_right_cancel₀ (ne_of_gt pp) h3
          exact_mod_cast h4
      omega
    obtain ⟨n1, n2⟩ := nearest_core hU hNge (by omega) r1' r2' htie' hZ
    -- back to rationals
    have conv : ∀ y : Nat, half.val y = ((half.smag y * 2 ^ D : Int) : ℚ) / 2 ^ F.unit := by
      intro y
      unfold Fmt.val
      rw [b4, show half.unit = 24 from rfl, pow_add]
      push_cast
      have pq : (2:ℚ) ^ D ≠ 0 := pow_ne_zero _ (by norm_num)
      field_simp
    have d1 : |half.smag h * 2 ^ D - F.smag b| = |(1024 + (k:Int)) * U - F.mag b| := by
      rw [hsmh, hsm, ← mul_sub, abs_mul, habsσ, one_mul]
    have d2 : |half.smag h' * 2 ^ D - F.smag b| = |Z - F.mag b| := by
      have : half.smag h' * 2 ^ D = σ * Z := by rw [hZdef, ← mul_assoc, hσσ, one_mul]
      rw [this, hsm, ← mul_sub, abs_mul, habsσ, one_mul]
    rw [conv h, conv h', hval, pow2_scale, pow2_scale, abs_pow2_scale, abs_pow2_scale, d1, d2]
    have pq : (0:ℚ) < 2 ^ F.unit := by positivity
    constructor
    · rw [div_le_div_iff_of_pos_right pq]; exact_mod_cast n1
    · intro heq
      have : ((|(1024 + (k:Int)) * U - F.mag b| : Int) : ℚ) = ((|Z - F.mag b| : Int) : ℚ) :=
        (div_left_inj' (ne_of_gt pq)).1 heq
      rcases n2 (by exact_mod_cast this) with h3 | h3
      · left
        have : half.smag h' * 2 ^ D = half.smag h * 2 ^ D := by
          rw [hsmh, ← h3, hZdef, ← mul_assoc, hσσ, one_mul]
        rw [this]
      · right
        rw [f3]; split_ifs <;> omega

/-- Below the normal range the conversion is exact or raises, and it raises only if no half has that value. -/
theorem toHalfA_small {F : Fmt} (hF : Wide F) {b : Nat} (he : F.ex b ≤ F.bias - 15) :
    (∃ h, toHalfA F b = .ok h ∧ h < 2 ^ 16 ∧ half.sgn h = F.sgn b ∧ half.IsFinite h ∧ half.val h = F.val b) ∨
    (toHalfA F b = .throw .runtime ∧ ∀ h, h < 2 ^ 16 → half.IsFinite h → half.val h ≠ F.val b) := by
  obtain ⟨b1, b2, b3, b4⟩ := wide_bias hF
  have hm11 := hF.1
  have hs : F.sgn b < 2 := sgn_lt b
  have hg : F.sig b < 2 ^ F.m := sig_lt b
  have pm : (2:Nat) ^ F.m = 1024 * 2 ^ (F.m - 10) := by
    rw [show 1024 = 2 ^ 10 from rfl, ← Nat.pow_add]; congr 1; omega
  set D := F.bias + (F.m - 10) - 15 with hD
  have pD : 0 < 2 ^ D := Nat.pow_pos (by omega)
  -- a half has this value iff its magnitude scales to ours (and the signs agree unless zero)
  have conv : ∀ y : Nat, half.val y = ((half.smag y * 2 ^ D : Int) : ℚ) / 2 ^ F.unit := by
    intro y
    unfold Fmt.val
    rw [b4, show half.unit = 24 from rfl, pow_add]
    push_cast
    have pq : (2:ℚ) ^ D ≠ 0 := pow_ne_zero _ (by norm_num)
    field_simp
  have veq : ∀ y : Nat, half.val y = F.val b ↔ half.smag y * 2 ^ D = F.smag b := by
    intro y
    rw [conv y]
    unfold Fmt.val
    rw [div_left_inj' (pow_ne_zero _ (by norm_num))]
    exact_mod_cast Iff.rfl
  have habs : ∀ y : Nat, half.smag y * 2 ^ D = F.smag b → half.mag y * 2 ^ D = F.mag b := by
    intro y hy
    have h1 : |half.smag y * 2 ^ D| = |F.smag b| := by rw [hy]
    rw [abs_mul] at h1
    have a1 : |half.smag y| = (half.mag y : Int) := by
      unfold Fmt.smag; split_ifs
      · rw [abs_neg]; exact abs_of_nonneg (by omega)
      · exact abs_of_nonneg (by omega)
    have a2 : |F.smag b| = (F.mag b : Int) := by
      unfold Fmt.smag; split_ifs
      · rw [abs_neg]; exact abs_of_nonneg (by omega)
      · exact abs_of_nonneg (by omega)
    have a3 : |(2:Int) ^ D| = 2 ^ D := abs_of_nonneg (by positivity)
    rw [a1, a2, a3] at h1
    exact_mod_cast h1
  have back : ∀ y : Nat, half.sgn y = F.sgn b → half.mag y * 2 ^ D = F.mag b → half.smag y * 2 ^ D = F.smag b := by
    intro y h1 h2
    have h3 : (half.mag y : Int) * 2 ^ D = F.mag b := by exact_mod_cast h2
    unfold Fmt.smag; rw [h1]; split_ifs
    · rw [← h3]; ring
    · exact h3
  have hx : half.expMax = 31 := rfl
  -- magnitudes of halves are integers: multiples of 2^D on our scale
  have nodvd : ¬ 2 ^ D ∣ F.mag b → ∀ h, h < 2 ^ 16 → half.IsFinite h → half.val h ≠ F.val b := by
    intro hnd h _ _ hv
    exact hnd ⟨half.mag h, by rw [Nat.mul_comm]; exact (habs h ((veq h).1 hv)).symm⟩
  -- a half made of the sign and a magnitude of at most 1024 units
  have mk : ∀ q : Nat, q ≤ 1024 → half.sgn (F.sgn b * 32768 + q) = F.sgn b ∧ half.mag (F.sgn b * 32768 + q) = q ∧
      half.IsFinite (F.sgn b * 32768 + q) := by
    intro q hq
    obtain ⟨f1, f2, f3, -, -, -⟩ := half_fields (F.sgn b * 32768 + q)
    have e1 : half.ex (F.sgn b * 32768 + q) = q / 1024 := by rw [f2]; omega
    have e2 : half.sig (F.sgn b * 32768 + q) = q % 1024 := by rw [f3]; omega
    refine ⟨by rw [f1]; omega, ?_, ?_⟩
    · unfold Fmt.mag
      rw [e1, e2, show (2:Nat) ^ half.m = 1024 from rfl]
      split_ifs with hc
      · omega
      · have : q = 1024 := by omega
        subst this; rfl
    · unfold Fmt.IsFinite; rw [hx, e1]; omega
  unfold toHalfA
  simp only
  rw [if_neg (by omega), if_pos he]
  by_cases c1 : F.ex b < F.bias - 25
  · rw [if_pos c1]
    by_cases c2 : F.ex b ≠ 0 ∨ F.sig b ≠ 0
    · right
      refine ⟨by rw [if_pos c2], nodvd ?_⟩
      -- the magnitude is positive and smaller than one unit of half
      have hpos : 0 < F.mag b := by
        unfold Fmt.mag; split_ifs with hz
        · omega
        · exact Nat.mul_pos (by omega) (Nat.pow_pos (by omega))
      have hlt : F.mag b < 2 ^ D := by
        unfold Fmt.mag; split_ifs with hz
        · have : (2:Nat) ^ F.m ≤ 2 ^ D := Nat.pow_le_pow_right (by omega) (by omega)
          omega
        · calc (2 ^ F.m + F.sig b) * 2 ^ (F.ex b - 1) < (2 ^ F.m + 2 ^ F.m) * 2 ^ (F.ex b - 1) :=
                Nat.mul_lt_mul_of_pos_right (by omega) (Nat.pow_pos (by omega))
            _ = 2 ^ (F.m + 1 + (F.ex b - 1)) := by rw [Nat.pow_add, Nat.pow_succ]; ring
            _ ≤ 2 ^ D := Nat.pow_le_pow_right (by omega) (by omega)
      intro hd
      exact absurd (Nat.le_of_dvd hpos hd) (by omega)
    · left
      obtain ⟨m1, m2, m3⟩ := mk 0 (by omega)
      rw [Nat.add_zero] at m1 m2 m3
      refine ⟨_, by rw [if_neg c2], by omega, m1, m3, (veq _).2 (back _ m1 ?_)⟩
      rw [m2]
      unfold Fmt.mag
      rw [if_pos (by omega)]; omega
  · rw [if_neg c1]
    have hmag : F.mag b = (2 ^ F.m + F.sig b) * 2 ^ (F.ex b - 1) := by
      unfold Fmt.mag; rw [if_neg (by omega)]
    have hsplit : (2:Nat) ^ D = 2 ^ (F.bias - 14 + (F.m - 10) - F.ex b) * 2 ^ (F.ex b - 1) := by
      rw [← Nat.pow_add]; congr 1; omega
    have pn : 0 < (2:Nat) ^ (F.bias - 14 + (F.m - 10) - F.ex b) := Nat.pow_pos (by omega)
    have pe : 0 < (2:Nat) ^ (F.ex b - 1) := Nat.pow_pos (by omega)
    by_cases c2 : (2 ^ F.m + F.sig b) % 2 ^ (F.bias - 14 + (F.m - 10) - F.ex b) ≠ 0
    · right
      refine ⟨by rw [if_pos c2], nodvd ?_⟩
      rw [hmag, hsplit]
      intro hd
      exact c2 (Nat.mod_eq_zero_of_dvd (Nat.dvd_of_mul_dvd_mul_right pe hd))
    · left
      have hdv : 2 ^ (F.bias - 14 + (F.m - 10) - F.ex b) ∣ 2 ^ F.m + F.sig b := Nat.dvd_of_mod_eq_zero (by omega)
      have hq : (2 ^ F.m + F.sig b) / 2 ^ (F.bias - 14 + (F.m - 10) - F.ex b) ≤ 1024 := by
        have h1 : (2 ^ F.m + F.sig b) / 2 ^ (F.bias - 14 + (F.m - 10) - F.ex b) ≤ (2 ^ F.m + F.sig b) / 2 ^ (F.m - 10 + 1) :=
          Nat.div_le_div_left (Nat.pow_le_pow_right (by omega) (by omega)) (Nat.pow_pos (by omega))
        have h2 : (2 ^ F.m + F.sig b) / 2 ^ (F.m - 10 + 1) < 1025 := by
          rw [Nat.div_lt_iff_lt_mul (Nat.pow_pos (by omega)), Nat.pow_succ]
          omega
        omega
      obtain ⟨m1, m2, m3⟩ := mk _ hq
      refine ⟨_, by rw [if_neg c2], by omega, m1, m3, (veq _).2 (back _ m1 ?_)⟩
      rw [m2, hsplit, ← Nat.mul_assoc, Nat.div_mul_cancel hdv, hmag]

/-- At and above `2^16` the conversion yields the infinity of the same sign; infinities and NaNs are preserved. -/
theorem toHalfA_large {F : Fmt} (hF : Wide F) {b : Nat} (he : F.bias + 16 ≤ F.ex b) :
    ∃ h, toHalfA F b = .ok h ∧ h < 2 ^ 16 ∧ half.sgn h = F.sgn b ∧ (F.IsNan b → half.IsNan h) ∧
      (¬ F.IsNan b → half.IsInf h) := by
  obtain ⟨b1, b2, b3, b4⟩ := wide_bias hF
  have hs : F.sgn b < 2 := sgn_lt b
  have hg : F.sig b < 2 ^ F.m := sig_lt b
  have pm : (2:Nat) ^ F.m = 1024 * 2 ^ (F.m - 10) := by
    rw [show 1024 = 2 ^ 10 from rfl, ← Nat.pow_add]; congr 1; have := hF.1; omega
  have p : 0 < 2 ^ (F.m - 10) := Nat.pow_pos (by omega)
  have hx : half.expMax = 31 := rfl
  have mk : ∀ q, q < 1024 → half.sgn (F.sgn b * 32768 + (31744 + q)) = F.sgn b ∧
      half.ex (F.sgn b * 32768 + (31744 + q)) = 31 ∧ half.sig (F.sgn b * 32768 + (31744 + q)) = q := by
    intro q hq
    obtain ⟨f1, f2, f3, -, -, -⟩ := half_fields (F.sgn b * 32768 + (31744 + q))
    rw [f1, f2, f3]; omega
  unfold toHalfA Fmt.IsNan Fmt.IsInf
  simp only [hx]
  rw [if_pos he]
  obtain ⟨i1, i2, i3⟩ := mk 0 (by omega)
  by_cases c1 : F.ex b = F.expMax
  · rw [if_pos c1]
    by_cases c2 : F.sig b ≠ 0
    · rw [if_pos c2]
      have hq : F.sig b / 2 ^ (F.m - 10) < 1024 := by
        rw [Nat.div_lt_iff_lt_mul p]; omega
      generalize hqq : (if F.sig b / 2 ^ (F.m - 10) = 0 then 1 else F.sig b / 2 ^ (F.m - 10)) = q
      have hq' : q < 1024 ∧ q ≠ 0 := by rw [← hqq]; split_ifs <;> omega
      obtain ⟨m1, m2, m3⟩ := mk q hq'.1
      exact ⟨_, rfl, by omega, m1, fun _ => ⟨m2, by rw [m3]; exact hq'.2⟩, fun h => absurd ⟨c1, c2⟩ h⟩
    · rw [if_neg c2]
      exact ⟨_, rfl, by omega, i1, fun h => absurd h.2 c2, fun _ => ⟨i2, i3⟩⟩
  · rw [if_neg c1]
    exact ⟨_, rfl, by omega, i1, fun h => absurd h.1 c1, fun _ => ⟨i2, i3⟩⟩

/-- The classes of wide numbers, by value: exponent fields against magnitude thresholds. -/
theorem val_class {F : Fmt} (hF : Wide F) {b : Nat} :
    (F.ex b ≤ F.bias - 15 ↔ |F.val b| < 1 / 2 ^ 14) ∧ (F.bias + 16 ≤ F.ex b ↔ 65536 ≤ |F.val b|) := by
  obtain ⟨b1, b2, b3, b4⟩ := wide_bias hF
  have hm11 := hF.1
  have hg : F.sig b < 2 ^ F.m := sig_lt b
  have habs : |F.val b| = (F.mag b : ℚ) / 2 ^ F.unit := by
    have h1 : F.val b = (F.smag b : ℚ) / 2 ^ F.unit := rfl
    have h2 : |F.smag b| = (F.mag b : Int) := by
      unfold Fmt.smag; split_ifs
      · rw [abs_neg]; exact abs_of_nonneg (by omega)
      · exact abs_of_nonneg (by omega)
    rw [h1, abs_pow2_scale, h2, Int.cast_natCast]
  rw [habs]
  have pu : (0:ℚ) < 2 ^ F.unit := by positivity
  -- thresholds in units
  have lo : ∀ E, 1 ≤ E → (F.ex b < E ↔ F.mag b < 2 ^ F.m * 2 ^ (E - 1)) := by
    intro E hE
    unfold Fmt.mag
    have pE : 0 < (2:Nat) ^ (E - 1) := Nat.pow_pos (by omega)
    have pm0 : 0 < (2:Nat) ^ F.m := Nat.pow_pos (by omega)
    by_cases hz : F.ex b = 0
    · rw [if_pos hz]
      have : 2 ^ F.m * 1 ≤ 2 ^ F.m * 2 ^ (E - 1) := Nat.mul_le_mul_left _ pE
      constructor <;> intro <;> omega
    · rw [if_neg hz]
      constructor
      · intro h
        calc (2 ^ F.m + F.sig b) * 2 ^ (F.ex b - 1) < (2 ^ F.m * 2) * 2 ^ (F.ex b - 1) :=
              Nat.mul_lt_mul_of_pos_right (by omega) (Nat.pow_pos (by omega))
          _ = 2 ^ F.m * 2 ^ (F.ex b - 1 + 1) := by rw [Nat.pow_succ]; ring
          _ ≤ 2 ^ F.m * 2 ^ (E - 1) := Nat.mul_le_mul_left _ (Nat.pow_le_pow_right (by omega) (by omega))
      · intro h
        by_contra hc
        have h1 : 2 ^ F.m * 2 ^ (E - 1) ≤ 2 ^ F.m * 2 ^ (F.ex b - 1) :=
          Nat.mul_le_mul_left _ (Nat.pow_le_pow_right (by omega) (by omega))
        have h2 : 2 ^ F.m * 2 ^ (F.ex b - 1) ≤ (2 ^ F.m + F.sig b) * 2 ^ (F.ex b - 1) :=
          Nat.mul_le_mul_right _ (by omega)
        omega
  constructor
  · rw [← Nat.lt_succ_iff, Nat.succ_eq_add_one, lo _ (by omega), div_lt_div_iff₀ pu (by positivity), one_mul]
    have e1 : (2:Nat) ^ F.unit = 2 ^ F.m * 2 ^ (F.bias - 15 + 1 - 1) * 2 ^ 14 := by
      rw [← Nat.pow_add, ← Nat.pow_add]; congr 1; omega
    have e2 : (2:ℚ) ^ F.unit = ((2 ^ F.m * 2 ^ (F.bias - 15 + 1 - 1) : Nat) : ℚ) * 2 ^ 14 := by exact_mod_cast e1
    rw [e2, mul_lt_mul_iff_left₀ (by positivity)]
    exact_mod_cast Iff.rfl
  · have h1 := lo (F.bias + 16) (by omega)
    have h2 : F.bias + 16 ≤ F.ex b ↔ 2 ^ F.m * 2 ^ (F.bias + 16 - 1) ≤ F.mag b := by omega
    rw [h2, le_div_iff₀ pu]
    have e1 : (2:Nat) ^ F.m * 2 ^ (F.bias + 16 - 1) = 65536 * 2 ^ F.unit := by
      rw [show 65536 = 2 ^ 16 from rfl, ← Nat.pow_add, ← Nat.pow_add]; congr 1; omega
    rw [e1]
    exact_mod_cast Iff.rfl

/-- What a conversion `conv` of format-`F` patterns to halves must do, by value:
    * below `2^-14`: exact, or raises when no half has that value;
    * from `2^-14` up to `2^16`: the nearest half, ties to even, or raises an overflow error when the value is so large
      (at least 65520) that rounding would leave the finite range;
    * from `2^16` on, and infinities: the infinity of the same sign;
    * NaN: a NaN. -/
def CorrectToHalf (F : Fmt) (conv : Nat → Res Nat) : Prop :=
  ∀ b, b < 2 ^ F.size →
    (F.IsNan b → ∃ h, conv b = .ok h ∧ half.IsNan h ∧ half.sgn h = F.sgn b) ∧
    (F.IsInf b → ∃ h, conv b = .ok h ∧ half.IsInf h ∧ half.sgn h = F.sgn b) ∧
    (F.IsFinite b → |F.val b| < 1 / 2 ^ 14 →
      (∃ h, conv b = .ok h ∧ half.IsFinite h ∧ half.sgn h = F.sgn b ∧ half.val h = F.val b) ∨
      ((conv b).Throws ∧ ∀ h, h < 2 ^ 16 → half.IsFinite h → half.val h ≠ F.val b)) ∧
    (F.IsFinite b → 1 / 2 ^ 14 ≤ |F.val b| → |F.val b| < 65536 →
      (∃ h, conv b = .ok h ∧ half.sgn h = F.sgn b ∧ NearestEven h (F.val b)) ∨
      (conv b = .throw .overflow ∧ 65520 ≤ |F.val b|)) ∧
    (F.IsFinite b → 65536 ≤ |F.val b| → ∃ h, conv b = .ok h ∧ half.IsInf h ∧ half.sgn h = F.sgn b)

theorem toHalfA_correct {F : Fmt} (hF : Wide F) : CorrectToHalf F (toHalfA F) := by
  intro b _
  obtain ⟨b1, b2, b3, b4⟩ := wide_bias hF
  obtain ⟨v1, v2⟩ := val_class hF (b := b)
  refine ⟨fun hn => ?_, fun hi => ?_, fun _ hv => ?_, fun _ h1 h2 => ?_, fun hf hv => ?_⟩
  · obtain ⟨h, e1, _, e3, e4, _⟩ := toHalfA_large hF (b := b) (by rw [hn.1]; omega)
    exact ⟨h, e1, e4 hn, e3⟩
  · obtain ⟨h, e1, _, e3, _, e5⟩ := toHalfA_large hF (b := b) (by rw [hi.1]; omega)
    exact ⟨h, e1, e5 (fun hn => hn.2 hi.2), e3⟩
  · rcases toHalfA_small hF (v1.2 hv) with ⟨h, e1, _, e3, e4, e5⟩ | ⟨e1, e2⟩
    · exact .inl ⟨h, e1, e4, e3, e5⟩
    · exact .inr ⟨⟨_, e1⟩, e2⟩
  · have c1 : F.bias - 15 < F.ex b := by
      by_contra hc
      exact absurd (v1.1 (by omega)) (not_lt.2 h1)
    have c2 : F.ex b < F.bias + 16 := by
      by_contra hc
      exact absurd (v2.1 (by omega)) (not_le.2 h2)
    rcases toHalfA_normal hF c1 c2 with ⟨h, e1, _, e3, e4⟩ | h
    · exact .inl ⟨h, e1, e3, e4⟩
    · exact .inr h
  · obtain ⟨h, e1, _, e3, _, e5⟩ := toHalfA_large hF (b := b) (v2.2 hv)
    exact ⟨h, e1, e5 (fun hn => hf hn.1), e3⟩

/-- **C29, float32 → float16**, all `2^32` bit patterns. -/
theorem float_to_half_correct : CorrectToHalf single floatToHalf := by
  intro b hb
  rw [floatToHalf_eq hb]
  exact toHalfA_correct wide_single b hb

/-- **C29, float64 → float16**, all `2^64` bit patterns. -/
theorem double_to_half_correct : CorrectToHalf double doubleToHalf := by
  intro b hb
  rw [doubleToHalf_eq hb]
  exact toHalfA_correct wide_double b hb

/-- 1.0 + half an ulp of half rounds to even (1.0); 3.14159 → 0x4248; 65519 → 65504; 65520 raises. -/
example : floatToHalf 0x3f801000 = .ok 0x3c00 ∧ floatToHalf 0x3f803000 = .ok 0x3c02 ∧ floatToHalf 0x40490fdb = .ok 0x4248 ∧
    floatToHalf 0x477fef00 = .ok 0x7bff ∧ floatToHalf 0x477ff000 = .throw .overflow ∧ floatToHalf 0x47800000 = .ok 0x7c00 ∧
    floatToHalf 0x33000000 = .throw .runtime ∧ doubleToHalf 0x3ff0000000000000 = .ok 0x3c00 := by decide

/-! ## C30: comparisons -/

theorem halfSign_eq {a : Nat} (ha : a < 2 ^ 16) : halfSign a = decide (half.sgn a = 1) := by
  have a2 : a &&& 0x8000 = a / 32768 % 2 * 32768 := and_field a 15 1
  unfold halfSign
  rw [a2, (half_fields a).1, decide_eq_decide]; omega

/-- On patterns without sign, the numeric order of magnitudes is the order of the bit patterns. -/
theorem half_mag_mono {x y : Nat} (hx : x < 32768) (hy : y < 32768) : x < y ↔ half.mag x < half.mag y := by
  have key : ∀ {x y : Nat}, x < 32768 → y < 32768 → x < y → half.mag x < half.mag y := by
    intro x y hx hy h
    unfold Fmt.mag
    obtain ⟨-, e1, e2, -, -, -⟩ := half_fields x
    obtain ⟨-, e3, e4, -, -, -⟩ := half_fields y
    rw [e1, e2, e3, e4, show (2:Nat) ^ half.m = 1024 from rfl]
    have q1 : x / 1024 % 32 = x / 1024 := by omega
    have q2 : y / 1024 % 32 = y / 1024 := by omega
    rw [q1, q2]
    have p1 : 0 < (2:Nat) ^ (x / 1024 - 1) := Nat.pow_pos (by omega)
    have p2 : 0 < (2:Nat) ^ (y / 1024 - 1) := Nat.pow_pos (by omega)
    by_cases hc : x / 1024 = y / 1024
    · rw [← hc]
      split_ifs with hz
      · omega
      · exact Nat.mul_lt_mul_of_pos_right (by omega) p1
    · have hlt : x / 1024 < y / 1024 := by omega
      rw [if_neg (show ¬ y / 1024 = 0 by omega)]
      have h2 : 1024 * 2 ^ (y / 1024 - 1) ≤ (1024 + y % 1024) * 2 ^ (y / 1024 - 1) := Nat.mul_le_mul_right _ (by omega)
      split_ifs with hz
      · have : 1024 * 1 ≤ 1024 * 2 ^ (y / 1024 - 1) := Nat.mul_le_mul_left _ p2
        omega
      · have h3 : (1024 + x % 1024) * 2 ^ (x / 1024 - 1) < (1024 * 2) * 2 ^ (x / 1024 - 1) :=
          Nat.mul_lt_mul_of_pos_right (by omega) p1
        have h4 : (1024 * 2) * 2 ^ (x / 1024 - 1) ≤ 1024 * 2 ^ (y / 1024 - 1) := by
          rw [Nat.mul_assoc, ← Nat.pow_succ']
          exact Nat.mul_le_mul_left _ (Nat.pow_le_pow_right (by omega) (by omega))
        omega
  constructor
  · exact key hx hy
  · intro h
    rcases Nat.lt_trichotomy x y with h1 | h1 | h1
    · exact h1
    · subst h1; omega
    · have := key hy hx h1; omega

theorem half_mag_abs {x : Nat} : half.mag x = half.mag (x % 32768) := by
  obtain ⟨-, e1, e2, -, -, -⟩ := half_fields x
  obtain ⟨-, e3, e4, -, -, -⟩ := half_fields (x % 32768)
  have q1 : half.ex x = half.ex (x % 32768) := by rw [e1, e3]; omega
  have q2 : half.sig x = half.sig (x % 32768) := by rw [e2, e4]; omega
  unfold Fmt.mag
  rw [q1, q2]

theorem half_mag_zero {x : Nat} (hx : x < 32768) : half.mag x = 0 ↔ x = 0 := by
  have h0 : half.mag 0 = 0 := by decide
  constructor
  · intro h
    by_contra hne
    have := (half_mag_mono (x := 0) (y := x) (by omega) hx).1 (by omega)
    omega
  · intro h; rw [h, h0]

theorem half_val_lt {a b : Nat} : half.val a < half.val b ↔ half.smag a < half.smag b := by
  unfold Fmt.val
  rw [div_lt_div_iff_of_pos_right (by positivity)]
  exact_mod_cast Iff.rfl

theorem half_val_le {a b : Nat} : half.val a ≤ half.val b ↔ half.smag a ≤ half.smag b := by
  unfold Fmt.val
  rw [div_le_div_iff_of_pos_right (by positivity)]
  exact_mod_cast Iff.rfl

theorem half_smag_lt {a b : Nat} (ha : a < 2 ^ 16) (hb : b < 2 ^ 16) :
    lessNonan a b = true ↔ half.smag a < half.smag b := by
  have ma := half_mag_abs (x := a)
  have mb := half_mag_abs (x := b)
  have za := half_mag_zero (x := a % 32768) (by omega)
  have zb := half_mag_zero (x := b % 32768) (by omega)
  have mono := half_mag_mono (x := a % 32768) (y := b % 32768) (by omega) (by omega)
  have mono' := half_mag_mono (x := b % 32768) (y := a % 32768) (by omega) (by omega)
  obtain ⟨sa, -, -, -, -, -⟩ := half_fields a
  obtain ⟨sb, -, -, -, -, -⟩ := half_fields b
  unfold lessNonan Fmt.smag
  rw [halfSign_eq ha, halfSign_eq hb, ma, mb, sa, sb]
  generalize half.mag (a % 32768) = m1 at *
  generalize half.mag (b % 32768) = m2 at *
  simp only [decide_eq_true_eq]
  clear sa sb ma mb
  split_ifs <;> simp only [decide_eq_true_eq, Bool.or_eq_true, Bool.false_eq_true, false_iff] <;> omega

theorem half_smag_le {a b : Nat} (ha : a < 2 ^ 16) (hb : b < 2 ^ 16) :
    lessEqualNonan a b = true ↔ half.smag a ≤ half.smag b := by
  have ma := half_mag_abs (x := a)
  have mb := half_mag_abs (x := b)
  have za := half_mag_zero (x := a % 32768) (by omega)
  have zb := half_mag_zero (x := b % 32768) (by omega)
  have mono := half_mag_mono (x := a % 32768) (y := b % 32768) (by omega) (by omega)
  have mono' := half_mag_mono (x := b % 32768) (y := a % 32768) (by omega) (by omega)
  obtain ⟨sa, -, -, -, -, -⟩ := half_fields a
  obtain ⟨sb, -, -, -, -, -⟩ := half_fields b
  unfold lessEqualNonan Fmt.smag
  rw [halfSign_eq ha, halfSign_eq hb, ma, mb, sa, sb]
  generalize half.mag (a % 32768) = m1 at *
  generalize half.mag (b % 32768) = m2 at *
  simp only [decide_eq_true_eq]
  clear sa sb ma mb
  split_ifs <;> simp only [decide_eq_true_eq, Bool.and_eq_true, true_iff] <;> omega

/-- **C30 (order).** For all pairs of halves (NaNs excluded by the functions' contract; infinities compare beyond every
    finite number), `less_nonan` and `less_equal_nonan` are `<` and `≤` of the numbers denoted; in particular the two
    zeros are equal. -/
theorem half_order_exact (a b : Nat) (ha : a < 2 ^ 16) (hb : b < 2 ^ 16) :
    (lessNonan a b = true ↔ half.val a < half.val b) ∧ (lessEqualNonan a b = true ↔ half.val a ≤ half.val b) :=
  ⟨by rw [half_val_lt]; exact half_smag_lt ha hb, by rw [half_val_le]; exact half_smag_le ha hb⟩

/-- **C30 (classification).** The predicates say what they mean. -/
theorem half_class_exact (a : Nat) (ha : a < 2 ^ 16) :
    (halfIsNan a = true ↔ half.IsNan a) ∧ (halfIsInf a = true ↔ half.IsInf a) ∧ (halfIsFinite a = true ↔ half.IsFinite a) ∧
    (halfIsZero a = true ↔ half.val a = 0) ∧ (halfSign a = true ↔ half.sgn a = 1) := by
  have a1 : a &&& 0x7c00 = a / 1024 % 32 * 1024 := and_field a 10 5
  have a3 : a &&& 0x03ff = a % 1024 := and_low a 10
  have a4 : a &&& 0x7fff = a % 32768 := and_low a 15
  obtain ⟨-, e1, e2, -, -, -⟩ := half_fields a
  have hx : half.expMax = 31 := rfl
  refine ⟨?_, ?_, ?_, ?_, ?_⟩
  · unfold halfIsNan Fmt.IsNan
    rw [a1, a3, e1, e2, hx]; simp only [Bool.and_eq_true, decide_eq_true_eq]; omega
  · unfold halfIsInf Fmt.IsInf
    rw [a4, e1, e2, hx]; simp only [decide_eq_true_eq]; omega
  · unfold halfIsFinite Fmt.IsFinite
    rw [a1, e1, hx]; simp only [decide_eq_true_eq]; omega
  · unfold halfIsZero
    rw [a4]
    have hz := half_mag_zero (x := a % 32768) (by omega)
    rw [← half_mag_abs] at hz
    have : half.val a = 0 ↔ half.smag a = 0 := by
      unfold Fmt.val
      rw [div_eq_zero_iff]
      constructor
      · rintro (h | h)
        · exact_mod_cast h
        · exact absurd h (pow_ne_zero _ (by norm_num))
      · intro h; left; exact_mod_cast h
    rw [this, decide_eq_true_eq, ← hz]
    unfold Fmt.smag
    split_ifs <;> omega
  · rw [halfSign_eq ha]; simp

/-- IEEE comparison of two doubles (as the hardware does it): false on NaN, otherwise by value. -/
def DoubleLt (x y : Nat) : Prop := ¬ double.IsNan x ∧ ¬ double.IsNan y ∧ double.val x < double.val y
/-- IEEE equality of two doubles. -/
def DoubleEq (x y : Nat) : Prop := ¬ double.IsNan x ∧ ¬ double.IsNan y ∧ double.val x = double.val y

/-- **C30 (operators).** `operator<` and `operator==` on halves widen both sides to `double` and compare there
    (/repo/include/dynd/float16.hpp:215-277); for finite halves this is the order and equality of the numbers denoted. -/
theorem half_operators_exact (a b : Nat) (ha : a < 2 ^ 16) (hb : b < 2 ^ 16) (fa : half.IsFinite a) (fb : half.IsFinite b) :
    ∃ x y, halfToDouble a = .ok x ∧ halfToDouble b = .ok y ∧
      (DoubleLt x y ↔ half.val a < half.val b) ∧ (DoubleEq x y ↔ half.val a = half.val b) := by
  obtain ⟨x, hx, -, -, nx, -, vx⟩ := half_to_double_exact a ha
  obtain ⟨y, hy, -, -, ny, -, vy⟩ := half_to_double_exact b hb
  have na : ¬ double.IsNan x := fun h => fa (nx.2 h).1
  have nb : ¬ double.IsNan y := fun h => fb (ny.2 h).1
  refine ⟨x, y, hx, hy, ?_, ?_⟩
  · unfold DoubleLt; rw [vx fa, vy fb]; exact ⟨fun h => h.2.2, fun h => ⟨na, nb, h⟩⟩
  · unfold DoubleEq; rw [vx fa, vy fb]; exact ⟨fun h => h.2.2, fun h => ⟨na, nb, h⟩⟩

/-- **C30 is violated for truth values:** every half, zero included, converts to `true`, and `operator!` never holds. -/
theorem half_bool_violated (a : Nat) : halfBool a = true ∧ halfNot a = false := by
  unfold halfBool halfNot
  have h1 : ∀ m : Nat, m ≠ 0 → m ||| a ≠ 0 := by
    intro m hm h
    apply hm
    apply Nat.eq_of_testBit_eq
    intro i
    have := congrArg (fun n => Nat.testBit n i) h
    simp only [Nat.testBit_or, Nat.zero_testBit, Bool.or_eq_false_iff] at this
    rw [this.1, Nat.zero_testBit]
  constructor
  · rw [decide_eq_true_eq]; exact h1 _ (by decide)
  · rw [decide_eq_false_iff_not]; exact h1 _ (by decide)

example : lessNonan 0x8000 0x0000 = false ∧ lessEqualNonan 0x0000 0x8000 = true ∧ lessNonan 0xbc00 0x3c00 = true ∧
    halfIsZero 0x8000 = true ∧ halfBool 0 = true := by decide

end Dynd
