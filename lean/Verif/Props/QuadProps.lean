/-
C115: 128-bit floating point numbers made from other numbers have their value; the predicates say what they mean.
-/
import Verif.Model.Quad
import Verif.Props.HalfProps
import Verif.Props.PromoteProps

namespace Dynd
open Fmt

/-- The bit pattern of a `float128`. -/
def Quad.bits (q : Quad) : Nat := q.hi * 2 ^ 64 + q.lo

/-- Both words are 64-bit words. -/
def Quad.Ok (q : Quad) : Prop := q.hi < 2 ^ 64 ∧ q.lo < 2 ^ 64

theorem quad_fields (f : Nat) : quad.sgn f = f / 170141183460469231731687303715884105728 % 2 ∧
    quad.ex f = f / 5192296858534827628530496329220096 % 32768 ∧
    quad.sig f = f % 5192296858534827628530496329220096 ∧ quad.bias = 16383 ∧ quad.expMax = 32767 ∧ quad.m = 112 :=
  ⟨rfl, rfl, rfl, rfl, rfl, rfl⟩

theorem quad_pack (s e g : Nat) : quad.pack s e g =
    s * 170141183460469231731687303715884105728 + e * 5192296858534827628530496329220096 + g := rfl

/-! ## Order and predicates -/

theorem quad_mag_mono {x y : Nat} (hx : x < 170141183460469231731687303715884105728)
    (hy : y < 170141183460469231731687303715884105728) : x < y ↔ quad.mag x < quad.mag y := by
  have key : ∀ {x y : Nat}, x < 170141183460469231731687303715884105728 →
      y < 170141183460469231731687303715884105728 → x < y → quad.mag x < quad.mag y := by
    intro x y hx hy h
    unfold Fmt.mag
    obtain ⟨-, e1, e2, -, -, -⟩ := quad_fields x
    obtain ⟨-, e3, e4, -, -, -⟩ := quad_fields y
    rw [e1, e2, e3, e4, show (2:Nat) ^ quad.m = 5192296858534827628530496329220096 from rfl]
    have q1 : x / 5192296858534827628530496329220096 % 32768 = x / 5192296858534827628530496329220096 := by omega
    have q2 : y / 5192296858534827628530496329220096 % 32768 = y / 5192296858534827628530496329220096 := by omega
    rw [q1, q2]
    have d1 := Nat.div_add_mod x 5192296858534827628530496329220096
    have d2 := Nat.div_add_mod y 5192296858534827628530496329220096
    have m1 := Nat.mod_lt x (show 5192296858534827628530496329220096 > 0 by omega)
    have m2 := Nat.mod_lt y (show 5192296858534827628530496329220096 > 0 by omega)
    generalize x / 5192296858534827628530496329220096 = ex at *
    generalize y / 5192296858534827628530496329220096 = ey at *
    generalize x % 5192296858534827628530496329220096 = gx at *
    generalize y % 5192296858534827628530496329220096 = gy at *
    have p1 : 0 < (2:Nat) ^ (ex - 1) := Nat.pow_pos (by omega)
    have p2 : 0 < (2:Nat) ^ (ey - 1) := Nat.pow_pos (by omega)
    by_cases hc : ex = ey
    · rw [← hc]
      split_ifs with hz
      · omega
      · exact Nat.mul_lt_mul_of_pos_right (by omega) p1
    · have hlt : ex < ey := by omega
      rw [if_neg (show ¬ ey = 0 by omega)]
      have h2 : 5192296858534827628530496329220096 * 2 ^ (ey - 1) ≤
          (5192296858534827628530496329220096 + gy) * 2 ^ (ey - 1) := Nat.mul_le_mul_right _ (by omega)
      split_ifs with hz
      · have : 5192296858534827628530496329220096 * 1 ≤ 5192296858534827628530496329220096 * 2 ^ (ey - 1) :=
          Nat.mul_le_mul_left _ p2
        omega
      · have h3 : (5192296858534827628530496329220096 + gx) * 2 ^ (ex - 1) <
            (5192296858534827628530496329220096 * 2) * 2 ^ (ex - 1) := Nat.mul_lt_mul_of_pos_right (by omega) p1
        have h4 : (5192296858534827628530496329220096 * 2) * 2 ^ (ex - 1) ≤
            5192296858534827628530496329220096 * 2 ^ (ey - 1) := by
          rw [Nat.mul_assoc, ← Nat.pow_succ']
          exact Nat.mul_le_mul_left _ (Nat.pow_le_pow_right (by omega) (by omega))
        omega
  constructor
  · exact key hx hy
  · intro h
    rcases Nat.lt_trichotomy x y with h1 | h1 | h1
    · exact h1
    · subst h1; omega
    · have := key hy hx h1; omega

theorem quad_mag_abs {x : Nat} : quad.mag x = quad.mag (x % 170141183460469231731687303715884105728) := by
  obtain ⟨-, e1, e2, -, -, -⟩ := quad_fields x
  obtain ⟨-, e3, e4, -, -, -⟩ := quad_fields (x % 170141183460469231731687303715884105728)
  have q1 : quad.ex x = quad.ex (x % 170141183460469231731687303715884105728) := by rw [e1, e3]; omega
  have q2 : quad.sig x = quad.sig (x % 170141183460469231731687303715884105728) := by rw [e2, e4]; omega
  unfold Fmt.mag
  rw [q1, q2]

theorem quad_mag_zero {x : Nat} (hx : x < 170141183460469231731687303715884105728) : quad.mag x = 0 ↔ x = 0 := by
  have h0 : quad.mag 0 = 0 := by decide
  constructor
  · intro h
    by_contra hne
    have := (quad_mag_mono (x := 0) (y := x) (by omega) hx).1 (by omega)
    omega
  · intro h; rw [h, h0]

theorem fmt_val_lt (F : Fmt) {a b : Nat} : F.val a < F.val b ↔ F.smag a < F.smag b := by
  unfold Fmt.val
  rw [div_lt_div_iff_of_pos_right (by positivity)]
  exact_mod_cast Iff.rfl

theorem fmt_val_le (F : Fmt) {a b : Nat} : F.val a ≤ F.val b ↔ F.smag a ≤ F.smag b := by
  unfold Fmt.val
  rw [div_le_div_iff_of_pos_right (by positivity)]
  exact_mod_cast Iff.rfl

theorem quadSign_eq {q : Quad} (h : q.Ok) : quadSign q = decide (9223372036854775808 ≤ q.hi) := by
  have a2 : q.hi &&& 0x8000000000000000 = q.hi / 9223372036854775808 % 2 * 9223372036854775808 := and_field q.hi 63 1
  obtain ⟨h1, -⟩ := h
  unfold quadSign
  rw [a2, decide_eq_decide]; omega

theorem quad_sgn {q : Quad} (h : q.Ok) : quad.sgn q.bits = 1 ↔ 9223372036854775808 ≤ q.hi := by
  obtain ⟨h1, h2⟩ := h
  rw [(quad_fields _).1]; unfold Quad.bits; omega

/-- **C115** (order): on numbers and infinities, `less_nonan` is `<`. -/
theorem quad_less_exact (a b : Quad) (ha : a.Ok) (hb : b.Ok) :
    quadLess a b = true ↔ quad.val a.bits < quad.val b.bits := by
  rw [fmt_val_lt]
  have ma := quad_mag_abs (x := a.bits)
  have mb := quad_mag_abs (x := b.bits)
  have za := quad_mag_zero (x := a.bits % 170141183460469231731687303715884105728) (by omega)
  have zb := quad_mag_zero (x := b.bits % 170141183460469231731687303715884105728) (by omega)
  have mono := quad_mag_mono (x := a.bits % 170141183460469231731687303715884105728)
    (y := b.bits % 170141183460469231731687303715884105728) (by omega) (by omega)
  have mono' := quad_mag_mono (x := b.bits % 170141183460469231731687303715884105728)
    (y := a.bits % 170141183460469231731687303715884105728) (by omega) (by omega)
  unfold quadLess Fmt.smag
  simp only [quadSign_eq ha, quadSign_eq hb, quad_sgn ha, quad_sgn hb, ma, mb]
  generalize quad.mag (a.bits % 170141183460469231731687303715884105728) = m1 at *
  generalize quad.mag (b.bits % 170141183460469231731687303715884105728) = m2 at *
  obtain ⟨h1, h2⟩ := ha
  obtain ⟨h3, h4⟩ := hb
  unfold Quad.bits at *
  simp only [decide_eq_true_eq]
  split_ifs <;> simp only [decide_eq_true_eq, Bool.or_eq_true, Bool.and_eq_true, Bool.false_eq_true, false_iff,
    decide_not, Bool.not_eq_true', decide_eq_false_iff_not] <;> omega

/-- **C115** (order), the part that holds: `less_equal_nonan` is `≤` except for a positive and a negative zero. -/
theorem quad_less_eq_partial (a b : Quad) (ha : a.Ok) (hb : b.Ok)
    (h0 : ¬ (a = ⟨0, 0⟩ ∧ b = ⟨0x8000000000000000, 0⟩)) :
    quadLessEq a b = true ↔ quad.val a.bits ≤ quad.val b.bits := by
  rw [fmt_val_le]
  have h0' : ¬ (a.hi = 0 ∧ a.lo = 0 ∧ b.hi = 9223372036854775808 ∧ b.lo = 0) := by
    rintro ⟨h1, h2, h3, h4⟩
    apply h0
    cases a; cases b
    simp only at h1 h2 h3 h4
    subst h1 h2 h3 h4
    exact ⟨rfl, rfl⟩
  have ma := quad_mag_abs (x := a.bits)
  have mb := quad_mag_abs (x := b.bits)
  have za := quad_mag_zero (x := a.bits % 170141183460469231731687303715884105728) (by omega)
  have zb := quad_mag_zero (x := b.bits % 170141183460469231731687303715884105728) (by omega)
  have mono := quad_mag_mono (x := a.bits % 170141183460469231731687303715884105728)
    (y := b.bits % 170141183460469231731687303715884105728) (by omega) (by omega)
  have mono' := quad_mag_mono (x := b.bits % 170141183460469231731687303715884105728)
    (y := a.bits % 170141183460469231731687303715884105728) (by omega) (by omega)
  unfold quadLessEq Fmt.smag
  simp only [quadSign_eq ha, quadSign_eq hb, quad_sgn ha, quad_sgn hb, ma, mb]
  generalize quad.mag (a.bits % 170141183460469231731687303715884105728) = m1 at *
  generalize quad.mag (b.bits % 170141183460469231731687303715884105728) = m2 at *
  obtain ⟨h1, h2⟩ := ha
  obtain ⟨h3, h4⟩ := hb
  clear h0
  unfold Quad.bits at *
  simp only [decide_eq_true_eq]
  split_ifs <;> simp only [decide_eq_true_eq, Bool.or_eq_true, Bool.and_eq_true, true_iff, Bool.not_eq_true'] <;> omega

/-- **C115, violated** (order): zero is not less than or equal to minus zero. -/
theorem quad_less_eq_violated : quadLessEq ⟨0, 0⟩ ⟨0x8000000000000000, 0⟩ = false ∧
    quad.val (Quad.bits ⟨0, 0⟩) = 0 ∧ quad.val (Quad.bits ⟨0x8000000000000000, 0⟩) = 0 := by
  refine ⟨by decide, ?_, ?_⟩ <;>
    simp [Fmt.val, Fmt.smag, Fmt.mag, Fmt.ex, Fmt.sig, Quad.bits, Fmt.quad]

theorem val_zero_iff (F : Fmt) (b : Nat) : F.val b = 0 ↔ F.mag b = 0 := by
  have : F.val b = 0 ↔ F.smag b = 0 := by
    unfold Fmt.val
    rw [div_eq_zero_iff]
    constructor
    · rintro (h | h)
      · exact_mod_cast h
      · exact absurd h (pow_ne_zero _ (by norm_num))
    · intro h; left; exact_mod_cast h
  rw [this]
  unfold Fmt.smag
  split_ifs <;> omega

/-- **C115** (predicates): the predicates say what they mean, and the truth value of a number is whether it is not
    zero. -/
theorem quad_class_exact (q : Quad) (h : q.Ok) :
    (quadIsNan q = true ↔ quad.IsNan q.bits) ∧ (quadIsInf q = true ↔ quad.IsInf q.bits) ∧
    (quadIsFinite q = true ↔ quad.IsFinite q.bits) ∧ (quadIsZero q = true ↔ quad.val q.bits = 0) ∧
    (quadSign q = true ↔ quad.sgn q.bits = 1) ∧ (quadBool q = true ↔ quad.val q.bits ≠ 0) ∧
    (quadNot q = true ↔ quad.val q.bits = 0) := by
  have a1 : q.hi &&& 0x7fff000000000000 = q.hi / 281474976710656 % 32768 * 281474976710656 := and_field q.hi 48 15
  have a3 : q.hi &&& 0x0000ffffffffffff = q.hi % 281474976710656 := and_low q.hi 48
  have a4 : q.hi &&& 0x7fffffffffffffff = q.hi % 9223372036854775808 := and_low q.hi 63
  have a5 : 0x7fffffffffffffff &&& q.hi = q.hi % 9223372036854775808 := by rw [Nat.and_comm]; exact a4
  obtain ⟨-, e1, e2, -, -, -⟩ := quad_fields q.bits
  have hx : quad.expMax = 32767 := rfl
  have hz : quad.val q.bits = 0 ↔ q.hi % 9223372036854775808 = 0 ∧ q.lo = 0 := by
    rw [val_zero_iff, quad_mag_abs, quad_mag_zero (by omega)]
    obtain ⟨h1, h2⟩ := h
    unfold Quad.bits; omega
  have ho : (q.hi % 9223372036854775808 ||| q.lo) = 0 ↔ q.hi % 9223372036854775808 = 0 ∧ q.lo = 0 := by
    rw [Nat.or_eq_zero_iff]
  have hs := quad_sgn h
  have hq := quadSign_eq h
  obtain ⟨h1, h2⟩ := h
  unfold Quad.bits at e1 e2
  refine ⟨?_, ?_, ?_, ?_, ?_, ?_, ?_⟩
  · unfold quadIsNan Fmt.IsNan Quad.bits
    rw [a1, a3, e1, e2, hx]; simp only [Bool.and_eq_true, Bool.or_eq_true, decide_eq_true_eq]; omega
  · unfold quadIsInf Fmt.IsInf Quad.bits
    rw [a4, e1, e2, hx]; simp only [Bool.and_eq_true, decide_eq_true_eq]; omega
  · unfold quadIsFinite Fmt.IsFinite Quad.bits
    rw [a1, e1, hx]; simp only [decide_eq_true_eq]; omega
  · unfold quadIsZero
    rw [a4, hz]; simp only [Bool.and_eq_true, decide_eq_true_eq]
  · rw [hs, hq]; simp
  · unfold quadBool
    simp only [a5, ne_eq, hz, ho, decide_eq_true_eq]
  · unfold quadNot
    rw [a5, hz, decide_eq_true_eq, ho]

/-! ## From floating point -/

theorem quadNorm_spec {fuel j x e : Nat} (hj : j ≤ 52) (h1 : 2 ^ j ≤ x) (h2 : x < 2 ^ (j + 1)) (hf : 53 ≤ fuel + j)
    (he : e + 52 < 2 ^ 64 + j) : quadNorm fuel x e = .ok (x * 2 ^ (52 - j), e + (52 - j)) := by
  induction fuel generalizing j x e with
  | zero => omega
  | succ n ih =>
    have a : x &&& 0x0010000000000000 = x / 4503599627370496 % 2 * 4503599627370496 := and_field x 52 1
    have hle : (2:Nat) ^ (j + 1) ≤ 2 ^ 53 := Nat.pow_le_pow_right (by omega) (by omega)
    simp only [quadNorm, a]
    by_cases hx : j = 52
    · subst hx
      rw [if_neg (by omega)]; simp
    · have hle' : (2:Nat) ^ (j + 1) ≤ 2 ^ 52 := Nat.pow_le_pow_right (by omega) (by omega)
      have e1 : u64 (x <<< 1) = 2 * x := by rw [Nat.shiftLeft_eq]; unfold u64; omega
      have e0 : u64 (e + 1) = e + 1 := by unfold u64; omega
      rw [if_pos (by omega), e1, e0, ih (j := j + 1) (by omega) (by rw [Nat.pow_succ]; omega)
        (by rw [Nat.pow_succ]; omega) (by omega) (by omega)]
      have e2 : 52 - j = (52 - (j + 1)) + 1 := by omega
      rw [e2, Nat.pow_succ]
      congr 2
      · ring
      · omega

theorem log2_facts52 {g : Nat} (h0 : g ≠ 0) (hg : g < 2 ^ 52) :
    Nat.log2 g ≤ 51 ∧ 2 ^ Nat.log2 g ≤ g ∧ g < 2 ^ (Nat.log2 g + 1) := by
  refine ⟨?_, Nat.log2_self_le h0, Nat.lt_log2_self⟩
  have : Nat.log2 g < 52 := (Nat.log2_lt h0).2 hg
  omega

theorem shifted_facts52 {g : Nat} (h0 : g ≠ 0) (hg : g < 2 ^ 52) :
    2 ^ 52 ≤ g * 2 ^ (52 - Nat.log2 g) ∧ g * 2 ^ (52 - Nat.log2 g) < 2 ^ 53 := by
  obtain ⟨h1, h2, h3⟩ := log2_facts52 h0 hg
  have e1 : (2:Nat) ^ 52 = 2 ^ Nat.log2 g * 2 ^ (52 - Nat.log2 g) := by rw [← Nat.pow_add]; congr 1; omega
  have e2 : (2:Nat) ^ 53 = 2 ^ (Nat.log2 g + 1) * 2 ^ (52 - Nat.log2 g) := by rw [← Nat.pow_add]; congr 1; omega
  have p : 0 < 2 ^ (52 - Nat.log2 g) := Nat.pow_pos (by omega)
  constructor
  · rw [e1]; exact Nat.mul_le_mul_right _ h2
  · rw [e2]; exact Nat.mul_lt_mul_of_pos_right h3 p

/-- The fields of the result of `float128(double)`. -/
theorem quadOfDouble_eq {d : Nat} (hd : d < 2 ^ 64) : ∃ q, quadOfDouble d = .ok q ∧ q.Ok ∧
    q.bits = if double.ex d = 0 then
        (if double.sig d = 0 then quad.pack (double.sgn d) 0 0
         else quad.pack (double.sgn d) (15309 + Nat.log2 (double.sig d))
          ((double.sig d * 2 ^ (52 - Nat.log2 (double.sig d)) - 2 ^ 52) * 2 ^ 60))
      else if double.ex d = 2047 then quad.pack (double.sgn d) 32752 (double.sig d * 2 ^ 60)
      else quad.pack (double.sgn d) (double.ex d + 15360) (double.sig d * 2 ^ 60) := by
  have a1 : d &&& 0x8000000000000000 = d / 9223372036854775808 % 2 * 9223372036854775808 := and_field d 63 1
  have a2 : d &&& 0x7ff0000000000000 = d / 4503599627370496 % 2048 * 4503599627370496 := and_field d 52 11
  have a3 : ∀ x, x &&& 0x000fffffffffffff = x % 4503599627370496 := fun x => and_low x 52
  have a4 : d &&& 0x7fffffffffffffff = d % 9223372036854775808 := and_low d 63
  obtain ⟨hs, he, hg, -, -, -⟩ := double_fields d
  rw [hs, he, hg]
  unfold quadOfDouble
  simp only [a1, a2, a3, a4]
  by_cases hz : d / 4503599627370496 % 2048 = 0
  · rw [if_pos (by omega), if_pos hz]
    by_cases h0 : d % 4503599627370496 = 0
    · rw [if_pos h0, if_pos h0]
      refine ⟨_, rfl, ⟨?_, ?_⟩, ?_⟩
      · simp only; omega
      · simp only; omega
      · rw [quad_pack]; unfold Quad.bits; simp only; omega
    · rw [if_neg h0, if_neg h0]
      generalize hgg : d % 4503599627370496 = g at *
      have hlt : g < 2 ^ 52 := by omega
      obtain ⟨l1, l2, l3⟩ := log2_facts52 h0 hlt
      obtain ⟨s1, s2⟩ := shifted_facts52 h0 hlt
      have e1 : u64 (g <<< 1) = 2 * g := by rw [Nat.shiftLeft_eq]; unfold u64; omega
      have en : quadNorm 64 (2 * g) (d / 4503599627370496 % 2048 * 4503599627370496) =
          .ok (g * 2 ^ (52 - Nat.log2 g), 51 - Nat.log2 g) := by
        rw [hz, quadNorm_spec (j := Nat.log2 g + 1) (by omega) (by rw [Nat.pow_succ]; omega)
          (by rw [Nat.pow_succ]; omega) (by omega) (by omega)]
        have e2 : 52 - Nat.log2 g = (52 - (Nat.log2 g + 1)) + 1 := by omega
        rw [e2, Nat.pow_succ]
        congr 2
        · ring
        · omega
      rw [e1, en]
      refine ⟨_, rfl, ?_⟩
      generalize hm : g * 2 ^ (52 - Nat.log2 g) = m at *
      generalize hL : Nat.log2 g = L at *
      have q1 : u64 (16383 - 1023 + 2 ^ 64 - (51 - L)) = 15309 + L := by unfold u64; omega
      have q2 : u64 ((15309 + L) <<< 48) = (15309 + L) * 281474976710656 := by
        rw [Nat.shiftLeft_eq]; unfold u64; omega
      have q3 : (m % 4503599627370496) >>> 4 = (m - 4503599627370496) / 16 := by
        rw [Nat.shiftRight_eq_div_pow]; omega
      have q4 : u64 ((m % 4503599627370496) <<< 60) = (m - 4503599627370496) % 16 * 1152921504606846976 := by
        rw [Nat.shiftLeft_eq]; unfold u64; omega
      simp only [q1, q2, q3, q4]
      have q5 : u64 (d / 9223372036854775808 % 2 * 9223372036854775808 + (15309 + L) * 281474976710656 +
          (m - 4503599627370496) / 16) = d / 9223372036854775808 % 2 * 9223372036854775808 +
          (15309 + L) * 281474976710656 + (m - 4503599627370496) / 16 := by unfold u64; omega
      refine ⟨⟨by simp only; rw [q5]; omega, by simp only; omega⟩, ?_⟩
      rw [quad_pack]; unfold Quad.bits; simp only; rw [q5]; omega
  · rw [if_neg (by omega), if_neg hz]
    by_cases hi : d / 4503599627370496 % 2048 = 2047
    · rw [if_pos (by omega), if_pos hi]
      have q3 : (d % 4503599627370496) >>> 4 = d % 4503599627370496 / 16 := by rw [Nat.shiftRight_eq_div_pow]
      have q4 : u64 ((d % 4503599627370496) <<< 60) = d % 16 * 1152921504606846976 := by
        rw [Nat.shiftLeft_eq]; unfold u64; omega
      rw [q3, q4]
      have q5 : u64 (d / 9223372036854775808 % 2 * 9223372036854775808 + 0x7ff0000000000000 +
          d % 4503599627370496 / 16) = d / 9223372036854775808 % 2 * 9223372036854775808 + 0x7ff0000000000000 +
          d % 4503599627370496 / 16 := by unfold u64; omega
      refine ⟨_, rfl, ⟨by simp only; rw [q5]; omega, by simp only; omega⟩, ?_⟩
      rw [quad_pack]; unfold Quad.bits; simp only; rw [q5]; omega
    · rw [if_neg (by omega), if_neg hi]
      have q3 : (d % 9223372036854775808) >>> 4 = d % 9223372036854775808 / 16 := by rw [Nat.shiftRight_eq_div_pow]
      have q4 : u64 (d <<< 60) = d % 16 * 1152921504606846976 := by
        rw [Nat.shiftLeft_eq]; unfold u64; omega
      rw [q3, q4]
      have q5 : u64 (d / 9223372036854775808 % 2 * 9223372036854775808 +
          (d % 9223372036854775808 / 16 + 0x3c00000000000000)) = d / 9223372036854775808 % 2 * 9223372036854775808 +
          (d % 9223372036854775808 / 16 + 0x3c00000000000000) := by unfold u64; omega
      refine ⟨_, rfl, ⟨by simp only; rw [q5]; omega, by simp only; omega⟩, ?_⟩
      rw [quad_pack]; unfold Quad.bits; simp only; rw [q5]; omega

/-! ### Values -/

theorem val_sign_mag (F : Fmt) (b : Nat) :
    F.val b = (if F.sgn b = 1 then -1 else 1) * (F.mag b : ℚ) / 2 ^ F.unit := by
  unfold Fmt.val Fmt.smag
  split_ifs <;> push_cast <;> ring

theorem quad_pack_fields {s e g : Nat} (hs : s < 2) (he : e < 32768) (hg : g < 2 ^ 112) :
    quad.sgn (quad.pack s e g) = s ∧ quad.ex (quad.pack s e g) = e ∧ quad.sig (quad.pack s e g) = g :=
  pack_fields (F := quad) hs he hg

theorem quad_pack_mag {s e g : Nat} (hs : s < 2) (he : e < 32768) (hg : g < 2 ^ 112) :
    quad.mag (quad.pack s e g) = if e = 0 then g else (2 ^ 112 + g) * 2 ^ (e - 1) := by
  obtain ⟨-, h2, h3⟩ := quad_pack_fields hs he hg
  unfold Fmt.mag
  rw [h2, h3]
  rfl

theorem quad_of_mag {q d k u : Nat} (F : Fmt) (hu : F.unit = u) (hk : 16494 = u + k) (hs : quad.sgn q = F.sgn d)
    (hm : quad.mag q = F.mag d * 2 ^ k) : quad.val q = F.val d := by
  rw [val_sign_mag, val_sign_mag, hs, hm, hu, show quad.unit = u + k from hk, pow_add]
  push_cast
  have h1 : (2:ℚ) ^ k ≠ 0 := pow_ne_zero _ (by norm_num)
  have h2 : (2:ℚ) ^ u ≠ 0 := pow_ne_zero _ (by norm_num)
  field_simp

theorem mul_pow_pow {g i j n : Nat} (h : i + j = n) : g * 2 ^ i * 2 ^ j = g * 2 ^ n := by
  rw [Nat.mul_assoc, ← Nat.pow_add, h]

/-- **C115** (from `double`): a finite `double` becomes the `float128` with the same value and sign. -/
theorem quad_of_double_exact (d : Nat) (hd : d < 2 ^ 64) (hf : double.IsFinite d) :
    ∃ q, quadOfDouble d = .ok q ∧ q.Ok ∧ quad.IsFinite q.bits ∧ quad.sgn q.bits = double.sgn d ∧
      quad.val q.bits = double.val d := by
  obtain ⟨q, hq, ho, hb⟩ := quadOfDouble_eq hd
  refine ⟨q, hq, ho, ?_⟩
  have hs := sgn_lt (F := double) d
  have he : double.ex d < 2048 := ex_lt (F := double) d
  have hg : double.sig d < 2 ^ 52 := sig_lt (F := double) d
  have hmx : double.ex d ≠ 2047 := hf
  have hm : double.mag d = if double.ex d = 0 then double.sig d
    else (2 ^ 52 + double.sig d) * 2 ^ (double.ex d - 1) := rfl
  obtain ⟨K, hK⟩ : ∃ K, K = 15420 := ⟨_, rfl⟩
  have key : ∀ e g, quad.pack (double.sgn d) e g = q.bits → e < 32767 → g < 2 ^ 112 →
      (if e = 0 then g else (2 ^ 112 + g) * 2 ^ (e - 1)) = double.mag d * 2 ^ K →
      quad.IsFinite q.bits ∧ quad.sgn q.bits = double.sgn d ∧ quad.val q.bits = double.val d := by
    intro e g hp h1 h2 h3
    obtain ⟨f1, f2, f3⟩ := quad_pack_fields (s := double.sgn d) (e := e) (g := g) hs (by omega) h2
    have f4 := quad_pack_mag (s := double.sgn d) (e := e) (g := g) hs (by omega) h2
    rw [hp] at f1 f2 f3 f4
    refine ⟨?_, f1, quad_of_mag double (u := 1074) (k := K) rfl (by omega) f1 (by rw [f4, h3])⟩
    unfold Fmt.IsFinite
    rw [f2, show quad.expMax = 32767 from rfl]; omega
  by_cases hz : double.ex d = 0
  · rw [if_pos hz] at hb hm
    by_cases h0 : double.sig d = 0
    · rw [if_pos h0] at hb
      exact key 0 0 hb.symm (by omega) (by positivity) (by rw [hm, h0]; simp)
    · rw [if_neg h0] at hb
      obtain ⟨l1, l2, l3⟩ := log2_facts52 h0 hg
      obtain ⟨s1, s2⟩ := shifted_facts52 h0 hg
      refine key _ _ hb.symm (by omega) (by omega) ?_
      rw [if_neg (by omega), hm]
      have e1 : 2 ^ 112 + (double.sig d * 2 ^ (52 - Nat.log2 (double.sig d)) - 2 ^ 52) * 2 ^ 60 =
          double.sig d * 2 ^ (52 - Nat.log2 (double.sig d)) * 2 ^ 60 := by omega
      rw [e1, mul_pow_pow rfl, mul_pow_pow (n := K) (by omega)]
  · rw [if_neg hz] at hb hm
    rw [if_neg hmx] at hb
    refine key _ _ hb.symm (by omega) (by omega) ?_
    rw [if_neg (by omega), hm]
    have e1 : 2 ^ 112 + double.sig d * 2 ^ 60 = (2 ^ 52 + double.sig d) * 2 ^ 60 := by omega
    rw [e1, mul_pow_pow (n := double.ex d - 1 + K) (by omega), mul_pow_pow rfl]

/-- **C115, violated** (from `double`): infinities and NaNs become finite numbers. -/
theorem quad_of_double_special_violated (d : Nat) (hd : d < 2 ^ 64) (hf : double.IsInf d ∨ double.IsNan d) :
    ∃ q, quadOfDouble d = .ok q ∧ quad.IsFinite q.bits := by
  obtain ⟨q, hq, ho, hb⟩ := quadOfDouble_eq hd
  refine ⟨q, hq, ?_⟩
  have hs := sgn_lt (F := double) d
  have hg : double.sig d < 2 ^ 52 := sig_lt (F := double) d
  have hx : double.ex d = 2047 := by
    rcases hf with h | h <;> exact h.1
  rw [if_neg (by omega), if_pos hx] at hb
  obtain ⟨f1, f2, f3⟩ := quad_pack_fields (s := double.sgn d) (e := 32752) (g := double.sig d * 2 ^ 60) hs (by omega)
    (by omega)
  unfold Fmt.IsFinite
  rw [hb, f2]
  decide

/-- **C115** (from `float16`): a finite half becomes the `float128` with the same value and sign. -/
theorem quad_of_half_exact (h : Nat) (hh : h < 2 ^ 16) (hf : half.IsFinite h) :
    ∃ q, quadOfHalf h = .ok q ∧ q.Ok ∧ quad.IsFinite q.bits ∧ quad.sgn q.bits = half.sgn h ∧
      quad.val q.bits = half.val h := by
  obtain ⟨d, hd, hlt, hs, hn, hi, hv⟩ := half_to_double_exact h hh
  have hfd : double.IsFinite d := by
    intro he
    by_cases h0 : double.sig d = 0
    · exact hf (hi.2 ⟨he, h0⟩).1
    · exact hf (hn.2 ⟨he, h0⟩).1
  obtain ⟨q, hq, ho, h1, h2, h3⟩ := quad_of_double_exact d hlt hfd
  refine ⟨q, ?_, ho, h1, by rw [h2, hs], by rw [h3, hv hf]⟩
  show (halfToDouble h).bind _ = _
  rw [hd]
  exact hq

/-! ## From integers -/

theorem leadZero8_spec {v : Nat} (h0 : v ≠ 0) (hv : v < 2 ^ 8) :
    leadZero8 v < 8 ∧ 2 ^ (7 - leadZero8 v) ≤ v ∧ v < 2 ^ (8 - leadZero8 v) := by
  have key : ∀ v : Fin 256, v.1 ≠ 0 → leadZero8 v < 8 ∧ 2 ^ (7 - leadZero8 v) ≤ v.1 ∧ v.1 < 2 ^ (8 - leadZero8 v) := by
    decide +kernel
  exact key ⟨v, hv⟩ h0

theorem lead_up {w v : Nat} {f : Nat → Nat} (hw : 0 < w)
    (hf : ∀ {v}, v ≠ 0 → v < 2 ^ w → f v < w ∧ 2 ^ (w - 1 - f v) ≤ v ∧ v < 2 ^ (w - f v))
    (h0 : v ≠ 0) (hv : v < 2 ^ (2 * w)) (l : Nat)
    (hl : l = if v / 2 ^ w ≠ 0 then f (v / 2 ^ w) else f (v % 2 ^ w) + w) :
    l < 2 * w ∧ 2 ^ (2 * w - 1 - l) ≤ v ∧ v < 2 ^ (2 * w - l) := by
  have pw : 0 < 2 ^ w := Nat.pow_pos (by omega)
  have hdm := Nat.div_add_mod v (2 ^ w)
  by_cases hz : v / 2 ^ w = 0
  · rw [if_neg (by omega)] at hl
    have hlt : v < 2 ^ w := by
      rcases Nat.lt_or_ge v (2 ^ w) with h | h
      · exact h
      · have := Nat.div_pos h pw; omega
    rw [Nat.mod_eq_of_lt hlt] at hl
    obtain ⟨a, b, c⟩ := hf h0 hlt
    refine ⟨by omega, ?_, ?_⟩
    · rw [show 2 * w - 1 - l = w - 1 - f v by omega]; exact b
    · rw [show 2 * w - l = w - f v by omega]; exact c
  · rw [if_pos hz] at hl
    have hq : v / 2 ^ w < 2 ^ w := by
      rw [Nat.div_lt_iff_lt_mul pw, ← Nat.pow_add]
      rw [show w + w = 2 * w by omega]; exact hv
    obtain ⟨a, b, c⟩ := hf hz hq
    rw [hl]
    refine ⟨by omega, ?_, ?_⟩
    · rw [show 2 * w - 1 - f (v / 2 ^ w) = (w - 1 - f (v / 2 ^ w)) + w by omega, Nat.pow_add]
      exact Nat.le_trans (Nat.mul_le_mul_right _ b) (by rw [Nat.mul_comm]; omega)
    · rw [show 2 * w - f (v / 2 ^ w) = (w - f (v / 2 ^ w)) + w by omega, Nat.pow_add]
      have h1 : (v / 2 ^ w + 1) * 2 ^ w ≤ 2 ^ (w - f (v / 2 ^ w)) * 2 ^ w := Nat.mul_le_mul_right _ c
      have h2 : v % 2 ^ w < 2 ^ w := Nat.mod_lt _ pw
      have h3 : (v / 2 ^ w + 1) * 2 ^ w = 2 ^ w * (v / 2 ^ w) + 2 ^ w := by ring
      omega

theorem leadZero16_spec {v : Nat} (h0 : v ≠ 0) (hv : v < 2 ^ 16) :
    leadZero16 v < 16 ∧ 2 ^ (15 - leadZero16 v) ≤ v ∧ v < 2 ^ (16 - leadZero16 v) := by
  refine lead_up (w := 8) (f := leadZero8) (by omega) leadZero8_spec h0 hv _ ?_
  have a : v &&& 0xff00 = v / 256 % 256 * 256 := and_field v 8 8
  unfold leadZero16
  rw [a, Nat.shiftRight_eq_div_pow]
  have e : v / 2 ^ 8 % 256 = v / 2 ^ 8 := by omega
  rw [e]
  by_cases hz : v / 2 ^ 8 = 0
  · rw [if_neg (by omega), if_neg (by omega)]; rfl
  · rw [if_pos (by omega), if_pos (by omega)]

theorem leadZero32_spec {v : Nat} (h0 : v ≠ 0) (hv : v < 2 ^ 32) :
    leadZero32 v < 32 ∧ 2 ^ (31 - leadZero32 v) ≤ v ∧ v < 2 ^ (32 - leadZero32 v) := by
  refine lead_up (w := 16) (f := leadZero16) (by omega) leadZero16_spec h0 hv _ ?_
  have a : v &&& 0xffff0000 = v / 65536 % 65536 * 65536 := and_field v 16 16
  unfold leadZero32
  rw [a, Nat.shiftRight_eq_div_pow]
  have e : v / 2 ^ 16 % 65536 = v / 2 ^ 16 := by omega
  rw [e]
  by_cases hz : v / 2 ^ 16 = 0
  · rw [if_neg (by omega), if_neg (by omega)]; rfl
  · rw [if_pos (by omega), if_pos (by omega)]

theorem leadZero64_spec {v : Nat} (h0 : v ≠ 0) (hv : v < 2 ^ 64) :
    leadZero64 v < 64 ∧ 2 ^ (63 - leadZero64 v) ≤ v ∧ v < 2 ^ (64 - leadZero64 v) := by
  refine lead_up (w := 32) (f := leadZero32) (by omega) leadZero32_spec h0 hv _ ?_
  have a : v &&& 0xffffffff00000000 = v / 4294967296 % 4294967296 * 4294967296 := and_field v 32 32
  unfold leadZero64
  rw [a, Nat.shiftRight_eq_div_pow]
  have e : v / 2 ^ 32 % 4294967296 = v / 2 ^ 32 := by omega
  rw [e]
  by_cases hz : v / 2 ^ 32 = 0
  · rw [if_neg (by omega), if_neg (by omega)]; rfl
  · rw [if_pos (by omega), if_pos (by omega)]

/-- The number made from the magnitude `v` (a `w`-bit value with `l` leading zeros): 2^456 times too large. -/
theorem quadSmall_val {w l v s : Nat} (x : Int) (hx : (x % 2 ^ 64).toNat = v) (hl : l < w) (hw : w ≤ 32)
    (h1 : 2 ^ (w - 1 - l) ≤ v) (h2 : v < 2 ^ (w - l)) (hs : s < 2) :
    (quadSmall w l (49 - w) (s * 9223372036854775808) x).Ok ∧
    quad.IsFinite (quadSmall w l (49 - w) (s * 9223372036854775808) x).bits ∧
    quad.val (quadSmall w l (49 - w) (s * 9223372036854775808) x).bits = (if s = 1 then -1 else 1) * (v : ℚ) * 2 ^ 456 := by
  have a3 : ∀ x, x &&& 0x0000ffffffffffff = x % 281474976710656 := fun x => and_low x 48
  obtain ⟨k, rfl⟩ : ∃ k, w = l + k + 1 := ⟨w - l - 1, by omega⟩
  rw [show l + k + 1 - 1 - l = k by omega] at h1
  rw [show l + k + 1 - l = k + 1 by omega] at h2
  unfold quadSmall
  simp only [hx]
  rw [show 16838 + (l + k + 1) - l = 16839 + k by omega, show 49 - (l + k + 1) + l = 48 - k by omega]
  have e48 : (2:Nat) ^ 48 = 2 ^ k * 2 ^ (48 - k) := by rw [← Nat.pow_add]; congr 1; omega
  have p : 0 < (2:Nat) ^ (48 - k) := Nat.pow_pos (by omega)
  have m1 : 2 ^ 48 ≤ v * 2 ^ (48 - k) := by rw [e48]; exact Nat.mul_le_mul_right _ h1
  have m2 : v * 2 ^ (48 - k) < 2 ^ 49 := by
    have : (2:Nat) ^ 49 = 2 ^ (k + 1) * 2 ^ (48 - k) := by rw [← Nat.pow_add]; congr 1; omega
    rw [this]; exact Nat.mul_lt_mul_of_pos_right h2 p
  rw [Nat.shiftLeft_eq, Nat.shiftLeft_eq, a3]
  generalize hm : v * 2 ^ (48 - k) = m at *
  have q1 : u64 m % 281474976710656 = m - 281474976710656 := by unfold u64; omega
  have q2 : u64 ((16839 + k) * 2 ^ 48) = (16839 + k) * 281474976710656 := by unfold u64; omega
  have q3 : u64 (u64 (s * 9223372036854775808 + (16839 + k) * 281474976710656) + (m - 281474976710656)) =
      s * 9223372036854775808 + (16839 + k) * 281474976710656 + (m - 281474976710656) := by unfold u64; omega
  rw [q1, q2]
  have hb : Quad.bits ⟨s * 9223372036854775808 + (16839 + k) * 281474976710656 + (m - 281474976710656), 0⟩ =
      quad.pack s (16839 + k) ((m - 281474976710656) * 2 ^ 64) := by
    rw [quad_pack]; unfold Quad.bits; simp only; omega
  obtain ⟨f1, f2, f3⟩ := quad_pack_fields (s := s) (e := 16839 + k) (g := (m - 281474976710656) * 2 ^ 64) hs (by omega)
    (by omega)
  have f4 := quad_pack_mag (s := s) (e := 16839 + k) (g := (m - 281474976710656) * 2 ^ 64) hs (by omega) (by omega)
  refine ⟨⟨by simp only; rw [q3]; omega, by simp only; omega⟩, ?_, ?_⟩
  · unfold Fmt.IsFinite
    rw [q3, hb, f2, show quad.expMax = 32767 from rfl]; omega
  · obtain ⟨K, hK⟩ : ∃ K, K = 16494 := ⟨_, rfl⟩
    rw [if_neg (by omega)] at f4
    rw [q3, hb, val_sign_mag, f1, f4, show quad.unit = K from hK.symm]
    have e1 : 2 ^ 112 + (m - 281474976710656) * 2 ^ 64 = m * 2 ^ 64 := by omega
    have e2 : m * 2 ^ 64 * 2 ^ (16839 + k - 1) = v * 2 ^ 456 * 2 ^ K := by
      rw [← hm, mul_pow_pow rfl, mul_pow_pow (n := 456 + K) (by omega), mul_pow_pow rfl]
    rw [e1, e2]
    push_cast
    have h2 : (2:ℚ) ^ K ≠ 0 := pow_ne_zero _ (by norm_num)
    field_simp

theorem quad_zero_val : quad.val (Quad.bits ⟨0, 0⟩) = 0 := quad_less_eq_violated.2.1

theorem quadSmall_int8 {x v : Int} (h0 : x ≠ 0) (hv : v = if x < 0 then -x else x) (h1 : v < 128) :
    quad.val (quadSmall 8 (leadZero8 (v % 2 ^ 8).toNat) 41 (if x < 0 then 0x8000000000000000 else 0) v).bits =
      (x : ℚ) * 2 ^ 456 := by
  obtain ⟨n, hn⟩ : ∃ n : Nat, v = n := ⟨v.toNat, by split_ifs at hv <;> omega⟩
  have hz : n ≠ 0 := by split_ifs at hv <;> omega
  have hlt : n < 128 := by omega
  have e1 : (v % 2 ^ 8).toNat = n := by rw [hn]; omega
  have e2 : (v % 2 ^ 64).toNat = n := by rw [hn]; omega
  obtain ⟨l1, l2, l3⟩ := leadZero8_spec hz (show n < 2 ^ 8 by omega)
  rw [e1]
  by_cases hx : x < 0
  · rw [if_pos hx] at hv ⊢
    have := (quadSmall_val (s := 1) v e2 l1 (by omega) l2 l3 (by omega)).2.2
    have hc : (x : ℚ) = -(n : ℚ) := by
      have : x = -(n : Int) := by omega
      rw [this]; push_cast; rfl
    rw [if_pos rfl] at this
    rw [hc]
    refine this.trans ?_
    ring
  · rw [if_neg hx] at hv ⊢
    have := (quadSmall_val (s := 0) v e2 l1 (by omega) l2 l3 (by omega)).2.2
    have hc : (x : ℚ) = (n : ℚ) := by
      have : x = (n : Int) := by omega
      rw [this]; push_cast; rfl
    rw [if_neg (by omega)] at this
    rw [hc]
    refine this.trans ?_
    ring

theorem quadSmall_uint8 {x : Nat} (h0 : x ≠ 0) (h1 : x < 2 ^ 8) :
    quad.val (quadSmall 8 (leadZero8 x) 41 0 x).bits = (x : ℚ) * 2 ^ 456 := by
  obtain ⟨l1, l2, l3⟩ := leadZero8_spec h0 h1
  have := (quadSmall_val (s := 0) (x : Int) (v := x) (by omega) l1 (by omega) l2 l3 (by omega)).2.2
  rw [if_neg (by omega)] at this
  refine this.trans ?_
  ring

theorem quadSmall_int16 {x v : Int} (h0 : x ≠ 0) (hv : v = if x < 0 then -x else x) (h1 : v < 32768) :
    quad.val (quadSmall 16 (leadZero16 (v % 2 ^ 16).toNat) 33 (if x < 0 then 0x8000000000000000 else 0) v).bits =
      (x : ℚ) * 2 ^ 456 := by
  obtain ⟨n, hn⟩ : ∃ n : Nat, v = n := ⟨v.toNat, by split_ifs at hv <;> omega⟩
  have hz : n ≠ 0 := by split_ifs at hv <;> omega
  have hlt : n < 32768 := by omega
  have e1 : (v % 2 ^ 16).toNat = n := by rw [hn]; omega
  have e2 : (v % 2 ^ 64).toNat = n := by rw [hn]; omega
  obtain ⟨l1, l2, l3⟩ := leadZero16_spec hz (show n < 2 ^ 16 by omega)
  rw [e1]
  by_cases hx : x < 0
  · rw [if_pos hx] at hv ⊢
    have := (quadSmall_val (s := 1) v e2 l1 (by omega) l2 l3 (by omega)).2.2
    have hc : (x : ℚ) = -(n : ℚ) := by
      have : x = -(n : Int) := by omega
      rw [this]; push_cast; rfl
    rw [if_pos rfl] at this
    rw [hc]
    refine this.trans ?_
    ring
  · rw [if_neg hx] at hv ⊢
    have := (quadSmall_val (s := 0) v e2 l1 (by omega) l2 l3 (by omega)).2.2
    have hc : (x : ℚ) = (n : ℚ) := by
      have : x = (n : Int) := by omega
      rw [this]; push_cast; rfl
    rw [if_neg (by omega)] at this
    rw [hc]
    refine this.trans ?_
    ring

theorem quadSmall_uint16 {x : Nat} (h0 : x ≠ 0) (h1 : x < 2 ^ 16) :
    quad.val (quadSmall 16 (leadZero16 x) 33 0 x).bits = (x : ℚ) * 2 ^ 456 := by
  obtain ⟨l1, l2, l3⟩ := leadZero16_spec h0 h1
  have := (quadSmall_val (s := 0) (x : Int) (v := x) (by omega) l1 (by omega) l2 l3 (by omega)).2.2
  rw [if_neg (by omega)] at this
  refine this.trans ?_
  ring

theorem quadSmall_int32 {x v : Int} (h0 : x ≠ 0) (hv : v = if x < 0 then -x else x) (h1 : v < 2147483648) :
    quad.val (quadSmall 32 (leadZero32 (v % 2 ^ 32).toNat) 17 (if x < 0 then 0x8000000000000000 else 0) v).bits =
      (x : ℚ) * 2 ^ 456 := by
  obtain ⟨n, hn⟩ : ∃ n : Nat, v = n := ⟨v.toNat, by split_ifs at hv <;> omega⟩
  have hz : n ≠ 0 := by split_ifs at hv <;> omega
  have hlt : n < 2147483648 := by omega
  have e1 : (v % 2 ^ 32).toNat = n := by rw [hn]; omega
  have e2 : (v % 2 ^ 64).toNat = n := by rw [hn]; omega
  obtain ⟨l1, l2, l3⟩ := leadZero32_spec hz (show n < 2 ^ 32 by omega)
  rw [e1]
  by_cases hx : x < 0
  · rw [if_pos hx] at hv ⊢
    have := (quadSmall_val (s := 1) v e2 l1 (by omega) l2 l3 (by omega)).2.2
    have hc : (x : ℚ) = -(n : ℚ) := by
      have : x = -(n : Int) := by omega
      rw [this]; push_cast; rfl
    rw [if_pos rfl] at this
    rw [hc]
    refine this.trans ?_
    ring
  · rw [if_neg hx] at hv ⊢
    have := (quadSmall_val (s := 0) v e2 l1 (by omega) l2 l3 (by omega)).2.2
    have hc : (x : ℚ) = (n : ℚ) := by
      have : x = (n : Int) := by omega
      rw [this]; push_cast; rfl
    rw [if_neg (by omega)] at this
    rw [hc]
    refine this.trans ?_
    ring

theorem quadSmall_uint32 {x : Nat} (h0 : x ≠ 0) (h1 : x < 2 ^ 32) :
    quad.val (quadSmall 32 (leadZero32 x) 17 0 x).bits = (x : ℚ) * 2 ^ 456 := by
  obtain ⟨l1, l2, l3⟩ := leadZero32_spec h0 h1
  have := (quadSmall_val (s := 0) (x : Int) (v := x) (by omega) l1 (by omega) l2 l3 (by omega)).2.2
  rw [if_neg (by omega)] at this
  refine this.trans ?_
  ring

/-- **C115, violated** (from integers): every integer of 8 bits becomes 2^456 times itself. -/
theorem quad_of_int8_violated (x : Int) (h1 : -128 ≤ x) (h2 : x ≤ 127) :
    ∃ q, quadOfInt8 x = .ok q ∧ quad.val q.bits = (x : ℚ) * 2 ^ 456 := by
  by_cases h0 : x = 0
  · subst h0
    exact ⟨⟨0, 0⟩, rfl, by rw [quad_zero_val]; simp⟩
  · by_cases hm : x = -128
    · subst hm
      refine ⟨_, rfl, ?_⟩
      have := (quadSmall_val (w := 8) (l := 0) (v := 128) (s := 1) (128 : Int) (by decide) (by omega) (by omega)
        (by omega) (by omega) (by omega)).2.2
      refine (Eq.trans (congrArg (fun q => quad.val (Quad.bits q)) (by decide)) this).trans ?_
      norm_num
    · refine ⟨_, ?_, quadSmall_int8 h0 rfl (by split_ifs <;> omega)⟩
      unfold quadOfInt8 quadNegate
      rw [if_neg h0]
      by_cases hx : x < 0
      · rw [if_pos hx, if_pos hx, if_neg (by omega), if_pos hx]; rfl
      · rw [if_neg hx, if_neg hx, if_neg hx]; rfl

/-- **C115, violated** (from integers): every integer of 16 bits becomes 2^456 times itself. -/
theorem quad_of_int16_violated (x : Int) (h1 : -32768 ≤ x) (h2 : x ≤ 32767) :
    ∃ q, quadOfInt16 x = .ok q ∧ quad.val q.bits = (x : ℚ) * 2 ^ 456 := by
  by_cases h0 : x = 0
  · subst h0
    exact ⟨⟨0, 0⟩, rfl, by rw [quad_zero_val]; simp⟩
  · by_cases hm : x = -32768
    · subst hm
      refine ⟨_, rfl, ?_⟩
      have := (quadSmall_val (w := 16) (l := 0) (v := 32768) (s := 1) (32768 : Int) (by decide) (by omega) (by omega)
        (by omega) (by omega) (by omega)).2.2
      refine (Eq.trans (congrArg (fun q => quad.val (Quad.bits q)) (by decide)) this).trans ?_
      norm_num
    · refine ⟨_, ?_, quadSmall_int16 h0 rfl (by split_ifs <;> omega)⟩
      unfold quadOfInt16 quadNegate
      rw [if_neg h0]
      by_cases hx : x < 0
      · rw [if_pos hx, if_pos hx, if_neg (by omega), if_pos hx]; rfl
      · rw [if_neg hx, if_neg hx, if_neg hx]; rfl

/-- **C115, violated** (from integers): every integer of 32 bits but the smallest becomes 2^456 times itself; the
    smallest is undefined. -/
theorem quad_of_int32_violated (x : Int) (h1 : -2147483648 ≤ x) (h2 : x ≤ 2147483647) :
    if x = -2147483648 then quadOfInt32 x = .ub
    else ∃ q, quadOfInt32 x = .ok q ∧ quad.val q.bits = (x : ℚ) * 2 ^ 456 := by
  by_cases hm : x = -2147483648
  · rw [if_pos hm]; subst hm; rfl
  · rw [if_neg hm]
    by_cases h0 : x = 0
    · subst h0
      exact ⟨⟨0, 0⟩, rfl, by rw [quad_zero_val]; simp⟩
    · refine ⟨_, ?_, quadSmall_int32 h0 rfl (by split_ifs <;> omega)⟩
      unfold quadOfInt32 quadNegate
      rw [if_neg h0]
      by_cases hx : x < 0
      · rw [if_pos hx, if_pos hx, if_neg (by omega), if_pos hx]; rfl
      · rw [if_neg hx, if_neg hx, if_neg hx]; rfl

/-- **C115, violated** (from integers): unsigned integers of 8, 16 and 32 bits become 2^456 times themselves. -/
theorem quad_of_unsigned_violated (x : Nat) :
    (x < 2 ^ 8 → quad.val (quadOfUInt8 x).bits = (x : ℚ) * 2 ^ 456) ∧
    (x < 2 ^ 16 → quad.val (quadOfUInt16 x).bits = (x : ℚ) * 2 ^ 456) ∧
    (x < 2 ^ 32 → quad.val (quadOfUInt32 x).bits = (x : ℚ) * 2 ^ 456) := by
  unfold quadOfUInt8 quadOfUInt16 quadOfUInt32
  by_cases h0 : x = 0
  · subst h0
    refine ⟨fun _ => ?_, fun _ => ?_, fun _ => ?_⟩ <;> rw [if_pos rfl, quad_zero_val] <;> simp
  · simp only [if_neg h0]
    exact ⟨quadSmall_uint8 h0, quadSmall_uint16 h0, quadSmall_uint32 h0⟩

theorem quadWide_ub {s v : Nat} (h0 : v ≠ 0) (hv : v < 2 ^ 64) : quadWide s v = .ub := by
  obtain ⟨l1, -, -⟩ := leadZero64_spec h0 hv
  unfold quadWide
  simp only []
  generalize leadZero64 v = l at *
  by_cases h : (15 : Nat) ≤ l
  · have e1 : shl64 v (-15 + l) = .ok (u64 (v <<< (-15 + (l : Int)).toNat)) := by
      unfold shl64; rw [if_pos (by omega)]
    have e2 : shl64 v (49 + l) = .ub := by unfold shl64; rw [if_neg (by omega)]
    rw [e1, e2]; rfl
  · have e1 : shl64 v (-15 + l) = .ub := by unfold shl64; rw [if_neg (by omega)]
    rw [e1]; rfl

/-- **C115, violated** (from integers): converting any 64-bit integer but zero is undefined. -/
theorem quad_of_int64_violated :
    (∀ x : Int, -9223372036854775808 ≤ x → x ≤ 9223372036854775807 → x ≠ 0 → quadOfInt64 x = .ub) ∧
    (∀ x : Nat, x < 2 ^ 64 → x ≠ 0 → quadOfUInt64 x = .ub) ∧
    quadOfInt64 0 = .ok ⟨0, 0⟩ ∧ quadOfUInt64 0 = .ok ⟨0, 0⟩ := by
  refine ⟨fun x h1 h2 h0 => ?_, fun x h1 h0 => ?_, rfl, rfl⟩
  · unfold quadOfInt64
    rw [if_neg h0]
    by_cases hx : x < 0
    · rw [if_pos hx, if_pos hx]
      unfold quadNegate
      by_cases hm : x = -9223372036854775808
      · rw [if_pos (by omega), if_neg (by omega)]; rfl
      · rw [if_neg (by omega)]
        exact quadWide_ub (by omega) (by omega)
    · rw [if_neg hx, if_neg hx]
      exact quadWide_ub (by omega) (by omega)
  · unfold quadOfUInt64
    rw [if_neg h0]
    exact quadWide_ub h0 h1

/-- **C115** (from truth values): `bool` becomes 0 or 1; `bool1` becomes whatever the memory held. -/
theorem quad_of_bool : (∀ b : Bool, quad.val (quadOfBool b).bits = if b then 1 else 0) ∧
    (∀ old b, quadOfBool1 old b = old) := by
  refine ⟨fun b => ?_, fun _ _ => rfl⟩
  cases b
  · exact quad_zero_val
  · obtain ⟨K, hK⟩ : ∃ K, K = 16382 := ⟨_, rfl⟩
    have hb : (quadOfBool true).bits = quad.pack 0 (K + 1) 0 := by subst hK; decide
    obtain ⟨f1, -, -⟩ := quad_pack_fields (s := 0) (e := K + 1) (g := 0) (by omega) (by omega) (by omega)
    have f4 := quad_pack_mag (s := 0) (e := K + 1) (g := 0) (by omega) (by omega) (by omega)
    rw [if_neg (by omega)] at f4
    rw [hb, val_sign_mag, f1, f4, show quad.unit = K + 112 from by subst hK; rfl, pow_add]
    rw [show K + 1 - 1 = K by omega]
    have h2 : (2:ℚ) ^ K ≠ 0 := pow_ne_zero _ (by norm_num)
    rw [if_neg (by omega), if_pos rfl]
    push_cast
    field_simp
    norm_num

/-- **C115, violated** (arithmetic and comparison): every operator throws, whatever the numbers. -/
theorem quad_operators_violated (q : Quad) : quadConvert q = .throw .runtime := rfl

/-! Concrete cases. -/

example : quadOfDouble 0x3ff8000000000000 = .ok ⟨0x3fff800000000000, 0⟩ := by decide
example : quadOfDouble 1 = .ok ⟨0x3bcd000000000000, 0⟩ := by decide
example : quadOfDouble 0x7ff0000000000000 = .ok ⟨0x7ff0000000000000, 0⟩ := by decide
example : double.IsFinite 0x3ff8000000000000 ∧ double.IsInf 0x7ff0000000000000 := by
  constructor
  · unfold Fmt.IsFinite; decide
  · unfold Fmt.IsInf; decide
example : quadOfInt8 1 = .ok ⟨0x41c7000000000000, 0⟩ := by decide
example : quadLess ⟨0x3fff000000000000, 0⟩ ⟨0x3fff000000000000, 1⟩ = true := by decide

end Dynd
