/-
Complex numbers (C104): what `dynd::complex` arithmetic computes, compared with Mathlib's field `ℂ`.
-/
import Verif.Model.Complex
import Mathlib.Analysis.Complex.Norm
import Mathlib.Tactic.Linarith
import Mathlib.Tactic.FieldSimp
import Mathlib.Tactic.Ring
import Mathlib.Tactic.Positivity
import Mathlib.Algebra.Order.Field.Power
import Mathlib.Tactic.NormNum

namespace Dynd

/-! ### Specification -/

/-- The complex number a `dynd::complex` stands for. -/
noncomputable def CNum.toC (z : CNum) : ℂ := ⟨(z.re : ℝ), (z.im : ℝ)⟩

/-- What is asked of the rounding of the component type: relative error at most `ε`, symmetric, exact on 0 and 1,
    and rounded numbers are not rounded again. -/
structure IsRounding (rnd : ℚ → Option ℚ) (ε : ℚ) : Prop where
  close : ∀ x y, rnd x = some y → |y - x| ≤ ε * |x|
  odd : ∀ x, rnd (-x) = (rnd x).map fun y => -y
  zero : rnd 0 = some 0
  one : rnd 1 = some 1
  idem : ∀ x y, rnd x = some y → rnd y = some y

/-- `x` is an integer of at most `p` bits times a power of two. -/
def BinaryDigits (p : Nat) (x : ℚ) : Prop := ∃ (k e : Int), |k| ≤ 2 ^ p ∧ x = k * 2 ^ e

/-! ### IEEE rounding meets the specification -/

theorem roundEven_close (m : ℚ) : |(roundEven m : ℚ) - m| ≤ 1 / 2 := by
  have h1 := Int.floor_le m
  have h2 := Int.lt_floor_add_one m
  unfold roundEven
  rw [abs_le]
  split
  · constructor <;> linarith
  · split
    · push_cast; constructor <;> linarith
    · split
      · constructor <;> linarith
      · push_cast; constructor <;> linarith

theorem roundEven_int (k : Int) : roundEven (k : ℚ) = k := by
  unfold roundEven
  simp

theorem ulp_pos (p : Nat) (x : ℚ) : 0 < ulp p x := by unfold ulp; positivity

theorem ulp_neg (p : Nat) (x : ℚ) : ulp p (-x) = ulp p x := by simp [ulp]

/-- A nonzero number has at least `2^(p-1)` units in the last place. -/
theorem ulp_le (p : Nat) (x : ℚ) (hx : x ≠ 0) : ulp p x * 2 ^ ((p : Int) - 1) ≤ |x| := by
  unfold ulp
  rw [← zpow_add₀ (by norm_num)]
  have h := Int.zpow_log_le_self (b := 2) (r := |x|) (by norm_num) (abs_pos.2 hx)
  have e : Int.log 2 |x| - ((p : Int) - 1) + ((p : Int) - 1) = Int.log 2 |x| := by ring
  rw [e]; exact_mod_cast h

theorem nearestEven_neg (p : Nat) (x : ℚ) : nearestEven p (-x) = -nearestEven p x := by
  unfold nearestEven
  rw [ulp_neg, abs_neg]
  by_cases h0 : x = 0
  · simp [h0]
  · by_cases hn : x < 0
    · have h3 : ¬ (-x < 0) := by linarith
      simp [h0, hn, h3]
    · have h3 : 0 < x := lt_of_le_of_ne (not_lt.1 hn) (Ne.symm h0)
      simp [h0, hn, h3]

/-- Rounding to nearest is within half a unit in the last place. -/
theorem nearestEven_close (p : Nat) (x : ℚ) : |nearestEven p x - x| ≤ (2 : ℚ) ^ (-(p : Int)) * |x| := by
  by_cases h0 : x = 0
  · simp [nearestEven, h0]
  have hu := ulp_pos p x
  have hul := ulp_le p x h0
  have key : abs ((roundEven (|x| / ulp p x) : ℚ) * ulp p x - |x|) ≤ (2 : ℚ) ^ (-(p : Int)) * |x| := by
    have h := roundEven_close (|x| / ulp p x)
    have e : (roundEven (|x| / ulp p x) : ℚ) * ulp p x - |x| = ((roundEven (|x| / ulp p x) : ℚ) - |x| / ulp p x) * ulp p x := by
      rw [sub_mul, div_mul_cancel₀ _ (ne_of_gt hu)]
    rw [e, abs_mul, abs_of_pos hu]
    have h2 : |(roundEven (|x| / ulp p x) : ℚ) - |x| / ulp p x| * ulp p x ≤ 1 / 2 * ulp p x :=
      mul_le_mul_of_nonneg_right h hu.le
    have h3 : (2 : ℚ) ^ (-(p : Int)) * (ulp p x * 2 ^ ((p : Int) - 1)) ≤ (2 : ℚ) ^ (-(p : Int)) * |x| :=
      mul_le_mul_of_nonneg_left hul (by positivity)
    have h4 : (2 : ℚ) ^ (-(p : Int)) * (ulp p x * 2 ^ ((p : Int) - 1)) = 1 / 2 * ulp p x := by
      have : (2 : ℚ) ^ (-(p : Int)) * 2 ^ ((p : Int) - 1) = 1 / 2 := by
        rw [← zpow_add₀ (by norm_num), show -(p : Int) + ((p : Int) - 1) = -1 by ring]; norm_num
      calc _ = ((2 : ℚ) ^ (-(p : Int)) * 2 ^ ((p : Int) - 1)) * ulp p x := by ring
        _ = _ := by rw [this]
    linarith
  unfold nearestEven
  rw [if_neg h0]
  split
  · rename_i hn
    have e : -((roundEven (|x| / ulp p x) : ℚ) * ulp p x) - x = -((roundEven (|x| / ulp p x) : ℚ) * ulp p x - |x|) := by
      rw [abs_of_neg hn]; ring
    rw [e, abs_neg]; exact key
  · rename_i hn
    have e : |x| = x := abs_of_nonneg (not_lt.1 hn)
    calc |(roundEven (|x| / ulp p x) : ℚ) * ulp p x - x| = abs ((roundEven (|x| / ulp p x) : ℚ) * ulp p x - |x|) := by rw [e]
      _ ≤ _ := key

/-- Numbers of at most `p` bits are kept. -/
theorem nearestEven_exact (p : Nat) (hp : 1 ≤ p) (x : ℚ) (h : BinaryDigits p x) : nearestEven p x = x := by
  by_cases h0 : x = 0
  · simp [nearestEven, h0]
  obtain ⟨k, e, hk, hx⟩ := h
  have hax : |x| = (|k| : Int) * 2 ^ e := by
    rw [hx, abs_mul, Int.cast_abs, abs_of_pos (a := (2 : ℚ) ^ e) (by positivity)]
  have hxpos : 0 < |x| := abs_pos.2 h0
  -- |x| is an integral number of units in the last place
  have hint : ∃ n : Int, |x| / ulp p x = n := by
    by_cases hlt : |k| = 2 ^ p
    · have e1 : |x| = (2 : ℚ) ^ ((p : Int) + e) := by
        rw [hax, hlt, zpow_add₀ (by norm_num)]; push_cast; rw [zpow_natCast]
      have e2 : Int.log 2 |x| = (p : Int) + e := by
        rw [e1]; exact Int.log_zpow (by norm_num) _
      refine ⟨2 ^ (p - 1), ?_⟩
      unfold ulp
      rw [e2, e1, ← zpow_sub₀ (by norm_num)]
      have : (p : Int) + e - ((p : Int) + e - ((p : Int) - 1)) = ((p - 1 : Nat) : Int) := by omega
      rw [this]; push_cast; rw [zpow_natCast]
    · have hk2 : |k| < 2 ^ p := lt_of_le_of_ne hk hlt
      have e1 : |x| < (2 : ℚ) ^ ((p : Int) + e) := by
        rw [hax, zpow_add₀ (by norm_num)]
        refine mul_lt_mul_of_pos_right ?_ (by positivity)
        rw [zpow_natCast]; exact_mod_cast hk2
      have e2 : Int.log 2 |x| < (p : Int) + e :=
        (Int.lt_zpow_iff_log_lt (by norm_num) hxpos).1 (by exact_mod_cast e1)
      obtain ⟨j, hj⟩ := Int.eq_ofNat_of_zero_le (a := e - (Int.log 2 |x| - ((p : Int) - 1))) (by omega)
      refine ⟨|k| * 2 ^ j, ?_⟩
      unfold ulp
      generalize Int.log 2 |x| = l at *
      rw [hax, mul_div_assoc, ← zpow_sub₀ (by norm_num), hj]; push_cast
      rw [zpow_natCast]
  obtain ⟨n, hn⟩ := hint
  have hu := ulp_pos p x
  have hnu : (n : ℚ) * ulp p x = |x| := by rw [← hn, div_mul_cancel₀ _ (ne_of_gt hu)]
  unfold nearestEven
  rw [if_neg h0, hn, roundEven_int, hnu]
  split
  · rename_i hneg; rw [abs_of_neg hneg]; ring
  · rename_i hneg; exact abs_of_nonneg (not_lt.1 hneg)

/-- What rounding yields has at most `p` bits. -/
theorem nearestEven_digits (p : Nat) (x : ℚ) : BinaryDigits p (nearestEven p x) := by
  by_cases h0 : x = 0
  · exact ⟨0, 0, by simp, by simp [nearestEven, h0]⟩
  have hu := ulp_pos p x
  have hb : |roundEven (|x| / ulp p x)| ≤ 2 ^ p := by
    have h1 : |x| < ulp p x * 2 ^ (p : Int) := by
      unfold ulp
      rw [← zpow_add₀ (by norm_num)]
      have h := Int.lt_zpow_succ_log_self (b := 2) (by norm_num) |x|
      have e : Int.log 2 |x| - ((p : Int) - 1) + (p : Int) = Int.log 2 |x| + 1 := by ring
      rw [e]; exact_mod_cast h
    have h2 : |x| / ulp p x < ((2 ^ p : Int) : ℚ) := by
      rw [div_lt_iff₀ hu]; push_cast; rw [zpow_natCast] at h1; linarith
    have h3 : 0 ≤ |x| / ulp p x := by positivity
    have f1 : ⌊|x| / ulp p x⌋ < 2 ^ p := Int.floor_lt.2 h2
    have f2 : 0 ≤ ⌊|x| / ulp p x⌋ := Int.floor_nonneg.2 h3
    rw [abs_le]
    unfold roundEven
    split
    · omega
    · split
      · omega
      · split <;> omega
  unfold nearestEven
  rw [if_neg h0]
  split
  · exact ⟨-roundEven (|x| / ulp p x), _, by rw [abs_neg]; exact hb, by unfold ulp; push_cast; ring⟩
  · exact ⟨roundEven (|x| / ulp p x), _, hb, rfl⟩

theorem fpRound_some {p : Nat} {emin emax : Int} {x y : ℚ} (h : fpRound p emin emax x = some y) :
    y = nearestEven p x := by
  unfold fpRound at h
  split at h
  · rename_i h0; simp at h; simp [nearestEven, h0, ← h]
  · split at h
    · cases h
    · split at h
      · simpa using h.symm
      · cases h

theorem roundEven_ge (m : ℚ) (k : Int) (h : (k : ℚ) ≤ m) : k ≤ roundEven m := by
  have := Int.le_floor.2 h
  unfold roundEven
  split
  · omega
  · split
    · omega
    · split <;> omega

/-- Rounding does not cross a power of two. -/
theorem nearestEven_ge (p : Nat) (hp : 1 ≤ p) (x : ℚ) (h0 : x ≠ 0) (e : Int) (h : (2 : ℚ) ^ e ≤ |x|) :
    (2 : ℚ) ^ e ≤ |nearestEven p x| := by
  have hu := ulp_pos p x
  have h1 : (2 ^ (p - 1) : Int) ≤ roundEven (|x| / ulp p x) := by
    refine roundEven_ge _ _ ?_
    rw [le_div_iff₀ hu]
    have := ulp_le p x h0
    have e1 : (p : Int) - 1 = ((p - 1 : Nat) : Int) := by omega
    rw [e1, zpow_natCast] at this
    push_cast; linarith
  have h2 : e ≤ Int.log 2 |x| := (Int.zpow_le_iff_le_log (by norm_num) (abs_pos.2 h0)).1 (by exact_mod_cast h)
  have h3 : (2 : ℚ) ^ e ≤ roundEven (|x| / ulp p x) * ulp p x := by
    have : ((2 ^ (p - 1) : Int) : ℚ) * ulp p x ≤ roundEven (|x| / ulp p x) * ulp p x :=
      mul_le_mul_of_nonneg_right (by exact_mod_cast h1) hu.le
    refine le_trans ?_ this
    unfold ulp
    push_cast
    rw [← zpow_natCast, ← zpow_add₀ (by norm_num)]
    exact zpow_le_zpow_right₀ (by norm_num) (by omega)
  unfold nearestEven
  rw [if_neg h0]
  split
  · rw [abs_neg]; exact le_trans h3 (le_abs_self _)
  · exact le_trans h3 (le_abs_self _)

/-- IEEE rounding to nearest even, with precision `p ≥ 1` and an exponent range around 0, is a rounding with
    relative error `2^-p`. -/
theorem fpRound_isRounding (p : Nat) (emin emax : Int) (hp : 1 ≤ p) (h1 : emin ≤ 0) (h2 : 0 ≤ emax) :
    IsRounding (fpRound p emin emax) ((2 : ℚ) ^ (-(p : Int))) where
  close := by
    intro x y h
    rw [fpRound_some h]; exact nearestEven_close p x
  odd := by
    intro x
    unfold fpRound
    rw [nearestEven_neg, abs_neg, abs_neg]
    by_cases h0 : x = 0
    · simp [h0]
    · have : ¬ (-x = 0) := by simpa using h0
      rw [if_neg h0, if_neg this]
      split
      · rfl
      · split <;> rfl
  zero := by simp [fpRound]
  one := by
    have e : nearestEven p 1 = 1 := nearestEven_exact p hp 1 ⟨1, 0, by
      have : (1 : Int) ≤ 2 ^ p := by exact_mod_cast Nat.one_le_two_pow
      simpa using this, by simp⟩
    unfold fpRound
    rw [e, if_neg (by norm_num), if_neg, if_pos]
    · rw [abs_one]
      exact one_lt_zpow₀ (by norm_num) (by omega)
    · rw [abs_one, not_lt]
      exact zpow_le_one_of_nonpos₀ (by norm_num) h1
  idem := by
    intro x y h
    have hy := fpRound_some h
    have hfix : nearestEven p y = y := nearestEven_exact p hp y (by rw [hy]; exact nearestEven_digits p x)
    unfold fpRound at h
    split at h
    · simp at h; simp [fpRound, ← h]
    · rename_i h0
      split at h
      · cases h
      · rename_i hlo
        split at h
        · rename_i hhi
          have hge : (2 : ℚ) ^ emin ≤ |y| := by
            rw [hy]; exact nearestEven_ge p hp x h0 emin (not_lt.1 hlo)
          unfold fpRound
          have hy0 : y ≠ 0 := by
            intro h3; rw [h3, abs_zero] at hge
            have : (0 : ℚ) < 2 ^ emin := by positivity
            linarith
          rw [if_neg hy0, if_neg (not_lt.2 hge), hfix, if_pos (by rw [hy]; exact hhi)]
        · cases h

theorem rnd32_isRounding : IsRounding rnd32 ((2 : ℚ) ^ (-24 : Int)) := fpRound_isRounding 24 _ _ (by norm_num) (by norm_num) (by norm_num)
theorem rnd64_isRounding : IsRounding rnd64 ((2 : ℚ) ^ (-53 : Int)) := fpRound_isRounding 53 _ _ (by norm_num) (by norm_num) (by norm_num)

/-- Numbers the format holds exactly are kept by the rounding. -/
theorem fpRound_keeps (p : Nat) (emin emax : Int) (hp : 1 ≤ p) (x : ℚ) (hd : BinaryDigits p x)
    (hr : x = 0 ∨ (2 ^ emin ≤ |x| ∧ |x| < 2 ^ (emax + 1))) : fpRound p emin emax x = some x := by
  unfold fpRound
  rw [nearestEven_exact p hp x hd]
  by_cases h0 : x = 0
  · simp [h0]
  · rcases hr with h | ⟨h1, h2⟩
    · exact absurd h h0
    · rw [if_neg h0, if_neg (not_lt.2 h1), if_pos h2]

/-! ### The operations, opened up -/

theorem cAdd_iff {rnd : ℚ → Option ℚ} {a b c : CNum} :
    cAdd rnd a b = some c ↔ rnd (a.re + b.re) = some c.re ∧ rnd (a.im + b.im) = some c.im := by
  obtain ⟨cr, ci⟩ := c
  simp [cAdd, cAddAssign, CRhs.get, Option.bind_eq_some_iff, Option.map_eq_some_iff]

theorem cSub_iff {rnd : ℚ → Option ℚ} {a b c : CNum} :
    cSub rnd a b = some c ↔ rnd (a.re - b.re) = some c.re ∧ rnd (a.im - b.im) = some c.im := by
  obtain ⟨cr, ci⟩ := c
  simp [cSub, cSubAssign, CRhs.get, Option.bind_eq_some_iff, Option.map_eq_some_iff]

theorem cMulS_iff {rnd : ℚ → Option ℚ} {a c : CNum} {t : ℚ} :
    cMulS rnd a t = some c ↔ rnd (a.re * t) = some c.re ∧ rnd (a.im * t) = some c.im := by
  obtain ⟨cr, ci⟩ := c
  simp [cMulS, cMulAssignS, SRhs.get, Option.bind_eq_some_iff, Option.map_eq_some_iff]

theorem fpDiv_iff {rnd : ℚ → Option ℚ} {a b c : ℚ} :
    fpDiv rnd a b = some c ↔ b ≠ 0 ∧ rnd (a / b) = some c := by
  unfold fpDiv; split <;> simp_all

theorem cDivS_iff {rnd : ℚ → Option ℚ} {a c : CNum} {t : ℚ} :
    cDivS rnd a t = some c ↔ t ≠ 0 ∧ rnd (a.re / t) = some c.re ∧ rnd (a.im / t) = some c.im := by
  obtain ⟨cr, ci⟩ := c
  simp [cDivS, cDivAssignS, SRhs.get, Option.bind_eq_some_iff, Option.map_eq_some_iff, fpDiv_iff]
  constructor
  · rintro ⟨⟨h0, h1⟩, ⟨_, h2⟩⟩; exact ⟨h0, h1, h2⟩
  · rintro ⟨h0, h1, h2⟩; exact ⟨⟨h0, h1⟩, ⟨h0, h2⟩⟩

theorem cMul_iff {rnd : ℚ → Option ℚ} {a b c : CNum} :
    cMul rnd a b = some c ↔ ∃ rr ii ri ir, rnd (a.re * b.re) = some rr ∧ rnd (a.im * b.im) = some ii ∧
      rnd (a.re * b.im) = some ri ∧ rnd (a.im * b.re) = some ir ∧
      rnd (rr - ii) = some c.re ∧ rnd (ri + ir) = some c.im := by
  obtain ⟨cr, ci⟩ := c
  simp only [cMul, cMulAssign, CRhs.get, Option.bind_eq_bind, Option.bind_eq_some_iff, Option.pure_def, Option.some.injEq,
    CNum.mk.injEq]
  constructor
  · rintro ⟨rr, h1, ii, h2, re, h3, ri, h4, ir, h5, im, h6, rfl, rfl⟩
    exact ⟨rr, ii, ri, ir, h1, h2, h4, by rw [mul_comm]; exact h5, h3, h6⟩
  · rintro ⟨rr, ii, ri, ir, h1, h2, h4, h5, h3, h6⟩
    exact ⟨rr, h1, ii, h2, cr, h3, ri, h4, ir, by rw [mul_comm]; exact h5, ci, h6, rfl, rfl⟩

theorem cDiv_iff {rnd : ℚ → Option ℚ} {a b c : CNum} :
    cDiv rnd a b = some c ↔ ∃ cc dd D rr ii ir ri n1 n2, rnd (b.re * b.re) = some cc ∧ rnd (b.im * b.im) = some dd ∧
      rnd (cc + dd) = some D ∧ rnd (a.re * b.re) = some rr ∧ rnd (a.im * b.im) = some ii ∧
      rnd (a.im * b.re) = some ir ∧ rnd (a.re * b.im) = some ri ∧ rnd (rr + ii) = some n1 ∧ rnd (ir - ri) = some n2 ∧
      D ≠ 0 ∧ rnd (n1 / D) = some c.re ∧ rnd (n2 / D) = some c.im := by
  obtain ⟨cr, ci⟩ := c
  simp only [cDiv, cDivAssign, CRhs.get, Option.bind_eq_bind, Option.bind_eq_some_iff, Option.pure_def, Option.some.injEq,
    CNum.mk.injEq, fpDiv_iff]
  constructor
  · rintro ⟨cc, h1, dd, h2, D, h3, rr, h4, ii, h5, n1, h6, re, ⟨h0, h7⟩, ir, h8, ri, h9, n2, h10, im, ⟨_, h11⟩, rfl, rfl⟩
    exact ⟨cc, dd, D, rr, ii, ir, ri, n1, n2, h1, h2, h3, h4, h5, by rw [mul_comm]; exact h8, h9, h6, h10, h0, h7, h11⟩
  · rintro ⟨cc, dd, D, rr, ii, ir, ri, n1, n2, h1, h2, h3, h4, h5, h8, h9, h6, h10, h0, h7, h11⟩
    exact ⟨cc, h1, dd, h2, D, h3, rr, h4, ii, h5, n1, h6, cr, ⟨h0, h7⟩, ir, by rw [mul_comm]; exact h8, ri, h9, n2, h10,
      ci, ⟨h0, h11⟩, rfl, rfl⟩

theorem sDivC_iff {rnd : ℚ → Option ℚ} {t : ℚ} {b c : CNum} :
    sDivC rnd t b = some c ↔ ∃ cc dd D n1 n2, rnd (b.re * b.re) = some cc ∧ rnd (b.im * b.im) = some dd ∧
      rnd (cc + dd) = some D ∧ rnd (t * b.re) = some n1 ∧ rnd (-t * b.im) = some n2 ∧
      D ≠ 0 ∧ rnd (n1 / D) = some c.re ∧ rnd (n2 / D) = some c.im := by
  obtain ⟨cr, ci⟩ := c
  simp only [sDivC, Option.bind_eq_bind, Option.bind_eq_some_iff, Option.pure_def, Option.some.injEq,
    CNum.mk.injEq, fpDiv_iff]
  constructor
  · rintro ⟨cc, h1, dd, h2, D, h3, n1, h6, re, ⟨h0, h7⟩, n2, h10, im, ⟨_, h11⟩, rfl, rfl⟩
    exact ⟨cc, dd, D, n1, n2, h1, h2, h3, h6, h10, h0, h7, h11⟩
  · rintro ⟨cc, dd, D, n1, n2, h1, h2, h3, h6, h10, h0, h7, h11⟩
    exact ⟨cc, h1, dd, h2, D, h3, n1, h6, cr, ⟨h0, h7⟩, n2, h10, ci, ⟨h0, h11⟩, rfl, rfl⟩

theorem opt_ext {α : Type} {x y : Option α} (h : ∀ c, x = some c ↔ y = some c) : x = y := by
  cases hx : x with
  | none => cases hy : y with
    | none => rfl
    | some b => have := (h b).2 hy; rw [hx] at this; exact this
  | some a => exact ((h a).1 hx).symm

/-! ### Identities that hold for every pair of operands, whatever the rounding -/

/-- Addition commutes, bit for bit. -/
theorem complex_add_comm (rnd : ℚ → Option ℚ) (a b : CNum) : cAdd rnd a b = cAdd rnd b a := by
  apply opt_ext; intro c
  rw [cAdd_iff, cAdd_iff, add_comm a.re, add_comm a.im]

/-- Multiplication commutes, bit for bit. -/
theorem complex_mul_comm (rnd : ℚ → Option ℚ) (a b : CNum) : cMul rnd a b = cMul rnd b a := by
  apply opt_ext; intro c
  rw [cMul_iff, cMul_iff]
  constructor
  · rintro ⟨rr, ii, ri, ir, h1, h2, h3, h4, h5, h6⟩
    exact ⟨rr, ii, ir, ri, by rw [mul_comm]; exact h1, by rw [mul_comm]; exact h2, by rw [mul_comm]; exact h4,
      by rw [mul_comm]; exact h3, h5, by rw [add_comm]; exact h6⟩
  · rintro ⟨rr, ii, ri, ir, h1, h2, h3, h4, h5, h6⟩
    exact ⟨rr, ii, ir, ri, by rw [mul_comm]; exact h1, by rw [mul_comm]; exact h2, by rw [mul_comm]; exact h4,
      by rw [mul_comm]; exact h3, h5, by rw [add_comm]; exact h6⟩

/-- `a - b` is `a + (-b)`, bit for bit. -/
theorem complex_sub_eq_add_neg (rnd : ℚ → Option ℚ) (a b : CNum) : cSub rnd a b = cAdd rnd a (cNeg b) := by
  apply opt_ext; intro c
  rw [cSub_iff, cAdd_iff]
  simp [cNeg, sub_eq_add_neg]

/-- `a - a` is zero. -/
theorem complex_sub_self {rnd : ℚ → Option ℚ} {ε : ℚ} (R : IsRounding rnd ε) (a : CNum) :
    cSub rnd a a = some ⟨0, 0⟩ := by
  rw [cSub_iff, sub_self, sub_self]; exact ⟨R.zero, R.zero⟩

/-- `a / a` is exactly one whenever it is a number at all. -/
theorem complex_div_self {rnd : ℚ → Option ℚ} {ε : ℚ} (R : IsRounding rnd ε) (a c : CNum)
    (h : cDiv rnd a a = some c) : c = ⟨1, 0⟩ := by
  rw [cDiv_iff] at h
  obtain ⟨cc, dd, D, rr, ii, ir, ri, n1, n2, h1, h2, h3, h4, h5, h6, h7, h8, h9, h0, h10, h11⟩ := h
  obtain ⟨cr, ci⟩ := c
  have e1 : cc = rr := by rw [h1] at h4; simpa using h4
  have e2 : dd = ii := by rw [h2] at h5; simpa using h5
  have e3 : D = n1 := by rw [e1, e2, h8] at h3; simpa using h3.symm
  have e4 : ir = ri := by rw [mul_comm, h7] at h6; simpa using h6.symm
  have e5 : n2 = 0 := by rw [e4, sub_self, R.zero] at h9; simpa using h9.symm
  rw [← e3, div_self h0, R.one] at h10
  rw [e5, zero_div, R.zero] at h11
  simp at h10 h11
  simp [← h10, ← h11]

theorem rnd_neg {rnd : ℚ → Option ℚ} {ε : ℚ} (R : IsRounding rnd ε) (x y : ℚ) :
    rnd (-x) = some y ↔ rnd x = some (-y) := by
  rw [R.odd, Option.map_eq_some_iff]
  constructor
  · rintro ⟨z, h1, h2⟩; rw [h1, ← h2, neg_neg]
  · intro h; exact ⟨-y, h, neg_neg y⟩

/-- Conjugating twice gives the number back. -/
theorem complex_conj_conj (a : CNum) : cConj (cConj a) = a := by
  obtain ⟨r, i⟩ := a; simp [cConj]

/-- Conjugation commutes with addition, bit for bit. -/
theorem complex_conj_add {rnd : ℚ → Option ℚ} {ε : ℚ} (R : IsRounding rnd ε) (a b : CNum) :
    cAdd rnd (cConj a) (cConj b) = (cAdd rnd a b).map cConj := by
  apply opt_ext; intro c
  rw [Option.map_eq_some_iff]
  constructor
  · intro h
    refine ⟨cConj c, ?_, complex_conj_conj c⟩
    rw [cAdd_iff] at h ⊢
    simp only [cConj] at h ⊢
    refine ⟨h.1, ?_⟩
    have := h.2
    rw [← neg_add, rnd_neg R] at this
    exact this
  · rintro ⟨d, h, rfl⟩
    rw [cAdd_iff] at h ⊢
    simp only [cConj]
    refine ⟨h.1, ?_⟩
    rw [← neg_add, rnd_neg R, neg_neg]; exact h.2

/-- Conjugation commutes with multiplication, bit for bit. -/
theorem complex_conj_mul {rnd : ℚ → Option ℚ} {ε : ℚ} (R : IsRounding rnd ε) (a b : CNum) :
    cMul rnd (cConj a) (cConj b) = (cMul rnd a b).map cConj := by
  apply opt_ext; intro c
  rw [Option.map_eq_some_iff]
  have key : ∀ a b c : CNum, cMul rnd a b = some c → cMul rnd (cConj a) (cConj b) = some (cConj c) := by
    intro a b c h
    rw [cMul_iff] at h ⊢
    obtain ⟨rr, ii, ri, ir, h1, h2, h3, h4, h5, h6⟩ := h
    simp only [cConj]
    refine ⟨rr, ii, -ri, -ir, h1, by rw [neg_mul_neg]; exact h2, ?_, ?_, h5, ?_⟩
    · rw [mul_neg, rnd_neg R, neg_neg]; exact h3
    · rw [neg_mul, rnd_neg R, neg_neg]; exact h4
    · rw [← neg_add, rnd_neg R, neg_neg]; exact h6
  constructor
  · intro h
    refine ⟨cConj c, ?_, complex_conj_conj c⟩
    have := key _ _ _ h
    rwa [complex_conj_conj, complex_conj_conj] at this
  · rintro ⟨d, h, rfl⟩; exact key _ _ _ h

/-- Conjugation commutes with division, bit for bit. -/
theorem complex_conj_div {rnd : ℚ → Option ℚ} {ε : ℚ} (R : IsRounding rnd ε) (a b : CNum) :
    cDiv rnd (cConj a) (cConj b) = (cDiv rnd a b).map cConj := by
  apply opt_ext; intro c
  rw [Option.map_eq_some_iff]
  have key : ∀ a b c : CNum, cDiv rnd a b = some c → cDiv rnd (cConj a) (cConj b) = some (cConj c) := by
    intro a b c h
    rw [cDiv_iff] at h ⊢
    obtain ⟨cc, dd, D, rr, ii, ir, ri, n1, n2, h1, h2, h3, h4, h5, h6, h7, h8, h9, h0, h10, h11⟩ := h
    simp only [cConj]
    refine ⟨cc, dd, D, rr, ii, -ir, -ri, n1, -n2, h1, by rw [neg_mul_neg]; exact h2, h3, h4,
      by rw [neg_mul_neg]; exact h5, ?_, ?_, h8, ?_, h0, h10, ?_⟩
    · rw [neg_mul, rnd_neg R, neg_neg]; exact h6
    · rw [mul_neg, rnd_neg R, neg_neg]; exact h7
    · rw [show -ir - -ri = -(ir - ri) by ring, rnd_neg R, neg_neg]; exact h9
    · rw [neg_div, rnd_neg R, neg_neg]; exact h11
  constructor
  · intro h
    refine ⟨cConj c, ?_, complex_conj_conj c⟩
    have := key _ _ _ h
    rwa [complex_conj_conj, complex_conj_conj] at this
  · rintro ⟨d, h, rfl⟩; exact key _ _ _ h

/-- Multiplying by a scalar, on either side, is multiplying by the complex number with imaginary part zero, bit for
    bit. -/
theorem complex_mul_scalar_same {rnd : ℚ → Option ℚ} {ε : ℚ} (R : IsRounding rnd ε) (a : CNum) (t : ℚ) :
    cMulS rnd a t = cMul rnd a ⟨t, 0⟩ ∧ sMulC rnd t a = cMulS rnd a t := by
  constructor
  · apply opt_ext; intro c
    rw [cMulS_iff, cMul_iff]
    constructor
    · rintro ⟨h1, h2⟩
      exact ⟨c.re, 0, 0, c.im, h1, by rw [mul_zero]; exact R.zero, by rw [mul_zero]; exact R.zero, h2,
        by rw [sub_zero]; exact R.idem _ _ h1, by rw [zero_add]; exact R.idem _ _ h2⟩
    · rintro ⟨rr, ii, ri, ir, h1, h2, h3, h4, h5, h6⟩
      simp only [mul_zero, R.zero, Option.some.injEq] at h2 h3
      rw [← h2, sub_zero, R.idem _ _ h1] at h5
      rw [← h3, zero_add, R.idem _ _ h4] at h6
      exact ⟨by rw [h1]; exact h5, by rw [h4]; exact h6⟩
  · apply opt_ext; intro c
    rw [cMulS_iff]
    obtain ⟨cr, ci⟩ := c
    simp [sMulC, Option.bind_eq_some_iff, mul_comm t]

/-- Adding a scalar, on either side, is adding the complex number with imaginary part zero (the components of `a` being
    numbers of the format). -/
theorem complex_add_scalar_same {rnd : ℚ → Option ℚ} (a : CNum) (t : ℚ) (ha : rnd a.im = some a.im) :
    cAddS rnd a t = cAdd rnd a ⟨t, 0⟩ ∧ sAddC rnd t a = cAddS rnd a t ∧ cSubS rnd a t = cSub rnd a ⟨t, 0⟩ := by
  refine ⟨?_, ?_, ?_⟩
  · apply opt_ext; intro c
    rw [cAdd_iff]
    obtain ⟨cr, ci⟩ := c
    simp [cAddS, cAddAssignS, SRhs.get, Option.map_eq_some_iff, ha]
  · simp [sAddC, cAddS, cAddAssignS, SRhs.get, add_comm t]
  · apply opt_ext; intro c
    rw [cSub_iff]
    obtain ⟨cr, ci⟩ := c
    simp [cSubS, cSubAssignS, SRhs.get, Option.map_eq_some_iff, ha]

/-! ### Rounding error -/

/-- `close`, over the reals. -/
theorem IsRounding.closeR {rnd : ℚ → Option ℚ} {ε : ℚ} (R : IsRounding rnd ε) {x y : ℚ} (h : rnd x = some y) :
    |(y : ℝ) - x| ≤ ε * |(x : ℝ)| := by
  have := R.close x y h
  exact_mod_cast this

/-- Two rounded products, added and rounded (the second product may carry a sign). -/
theorem two_products {ε x1 x2 p q n s : ℝ} (hε : 0 ≤ ε) (hs : |s| = 1) (h1 : |p - x1| ≤ ε * |x1|) (h2 : |q - x2| ≤ ε * |x2|)
    (h3 : |n - (p + s * q)| ≤ ε * |p + s * q|) : |n - (x1 + s * x2)| ≤ (2 * ε + ε ^ 2) * (|x1| + |x2|) := by
  have a1 : |p + s * q - (x1 + s * x2)| ≤ ε * (|x1| + |x2|) := by
    have e : p + s * q - (x1 + s * x2) = (p - x1) + s * (q - x2) := by ring
    rw [e]
    refine le_trans (abs_add_le _ _) ?_
    rw [abs_mul, hs]; linarith
  have a2 : |p + s * q| ≤ (1 + ε) * (|x1| + |x2|) := by
    have : |p + s * q| ≤ |x1 + s * x2| + |p + s * q - (x1 + s * x2)| := by
      have := abs_add_le (x1 + s * x2) (p + s * q - (x1 + s * x2))
      simpa using this
    have t := abs_add_le x1 (s * x2)
    rw [abs_mul, hs] at t
    linarith
  have a3 : |n - (x1 + s * x2)| ≤ |n - (p + s * q)| + |p + s * q - (x1 + s * x2)| := by
    have := abs_add_le (n - (p + s * q)) (p + s * q - (x1 + s * x2))
    simpa using this
  have a4 : ε * |p + s * q| ≤ ε * ((1 + ε) * (|x1| + |x2|)) := mul_le_mul_of_nonneg_left a2 hε
  nlinarith

/-- Cauchy–Schwarz for two pairs. -/
theorem two_norms (a b : ℂ) : |a.re * b.re| + |a.im * b.im| ≤ ‖a‖ * ‖b‖ ∧ |a.re * b.im| + |a.im * b.re| ≤ ‖a‖ * ‖b‖ := by
  have ha : ‖a‖ ^ 2 = |a.re| ^ 2 + |a.im| ^ 2 := by rw [Complex.sq_norm, Complex.normSq_apply, sq_abs, sq_abs]; ring
  have hb : ‖b‖ ^ 2 = |b.re| ^ 2 + |b.im| ^ 2 := by rw [Complex.sq_norm, Complex.normSq_apply, sq_abs, sq_abs]; ring
  have hab : 0 ≤ ‖a‖ * ‖b‖ := by positivity
  simp only [abs_mul]
  constructor
  · refine abs_le_of_sq_le_sq' (a := |a.re| * |b.re| + |a.im| * |b.im|) ?_ hab |>.2
    rw [mul_pow, ha, hb]; nlinarith [sq_nonneg (|a.re| * |b.im| - |a.im| * |b.re|)]
  · refine abs_le_of_sq_le_sq' (a := |a.re| * |b.im| + |a.im| * |b.re|) ?_ hab |>.2
    rw [mul_pow, ha, hb]; nlinarith [sq_nonneg (|a.re| * |b.re| - |a.im| * |b.im|)]

/-- Componentwise relative error gives the same relative error of the complex number. -/
theorem norm_le_of_parts {ε : ℝ} (hε : 0 ≤ ε) (d z : ℂ) (h1 : |d.re| ≤ ε * |z.re|) (h2 : |d.im| ≤ ε * |z.im|) :
    ‖d‖ ≤ ε * ‖z‖ := by
  have hd : ‖d‖ ^ 2 = |d.re| ^ 2 + |d.im| ^ 2 := by rw [Complex.sq_norm, Complex.normSq_apply, sq_abs, sq_abs]; ring
  have hz : ‖z‖ ^ 2 = |z.re| ^ 2 + |z.im| ^ 2 := by rw [Complex.sq_norm, Complex.normSq_apply, sq_abs, sq_abs]; ring
  refine abs_le_of_sq_le_sq' (a := ‖d‖) ?_ (by positivity) |>.2
  rw [mul_pow, hd, hz]
  have e1 := pow_le_pow_left₀ (abs_nonneg _) h1 2
  have e2 := pow_le_pow_left₀ (abs_nonneg _) h2 2
  nlinarith

/-- **C104.** The sum has relative error at most that of one rounding. -/
theorem complex_add_error {rnd : ℚ → Option ℚ} {ε : ℚ} (R : IsRounding rnd ε) (hε : 0 ≤ ε) (a b c : CNum)
    (h : cAdd rnd a b = some c) : ‖c.toC - (a.toC + b.toC)‖ ≤ ε * ‖a.toC + b.toC‖ := by
  rw [cAdd_iff] at h
  have h1 := R.closeR h.1
  have h2 := R.closeR h.2
  push_cast at h1 h2
  exact norm_le_of_parts (by exact_mod_cast hε) _ _ (by simpa [CNum.toC] using h1) (by simpa [CNum.toC] using h2)

/-- **C104.** So has the difference. -/
theorem complex_sub_error {rnd : ℚ → Option ℚ} {ε : ℚ} (R : IsRounding rnd ε) (hε : 0 ≤ ε) (a b c : CNum)
    (h : cSub rnd a b = some c) : ‖c.toC - (a.toC - b.toC)‖ ≤ ε * ‖a.toC - b.toC‖ := by
  rw [cSub_iff] at h
  have h1 := R.closeR h.1
  have h2 := R.closeR h.2
  push_cast at h1 h2
  exact norm_le_of_parts (by exact_mod_cast hε) _ _ (by simpa [CNum.toC] using h1) (by simpa [CNum.toC] using h2)

/-- **C104.** The product has relative error at most five roundings. -/
theorem complex_mul_error {rnd : ℚ → Option ℚ} {ε : ℚ} (R : IsRounding rnd ε) (hε : 0 ≤ ε) (hε1 : ε ≤ 1 / 16) (a b c : CNum)
    (h : cMul rnd a b = some c) : ‖c.toC - a.toC * b.toC‖ ≤ 5 * ε * ‖a.toC * b.toC‖ := by
  rw [cMul_iff] at h
  obtain ⟨rr, ii, ri, ir, h1, h2, h3, h4, h5, h6⟩ := h
  have e0 : (0 : ℝ) ≤ ε := by exact_mod_cast hε
  have e1 : (ε : ℝ) ≤ 1 / 16 := by
    have : ((ε : ℚ) : ℝ) ≤ ((1 / 16 : ℚ) : ℝ) := by exact_mod_cast hε1
    simpa using this
  have k1 := R.closeR h1
  have k2 := R.closeR h2
  have k3 := R.closeR h3
  have k4 := R.closeR h4
  have k5 := R.closeR h5
  have k6 := R.closeR h6
  push_cast at k1 k2 k3 k4 k5 k6
  obtain ⟨n1, n2⟩ := two_norms a.toC b.toC
  have b1 := two_products (s := -1) e0 (by norm_num) k1 k2 (by simpa [sub_eq_add_neg] using k5)
  have b2 := two_products (s := 1) e0 (by norm_num) k3 k4 (by simpa using k6)
  have hn : 0 ≤ ‖a.toC‖ * ‖b.toC‖ := by positivity
  have q1 : |(c.toC - a.toC * b.toC).re| ≤ (2 * ε + ε ^ 2) * (‖a.toC‖ * ‖b.toC‖) := by
    refine le_trans ?_ (mul_le_mul_of_nonneg_left n1 (by positivity))
    simpa [CNum.toC, sub_eq_add_neg] using b1
  have q2 : |(c.toC - a.toC * b.toC).im| ≤ (2 * ε + ε ^ 2) * (‖a.toC‖ * ‖b.toC‖) := by
    refine le_trans ?_ (mul_le_mul_of_nonneg_left n2 (by positivity))
    simpa [CNum.toC] using b2
  rw [Complex.norm_mul]
  have := Complex.norm_le_abs_re_add_abs_im (c.toC - a.toC * b.toC)
  nlinarith [mul_nonneg e0 hn, mul_nonneg (mul_nonneg e0 hn) (sub_nonneg.2 e1)]

/-- A rounded quotient of approximations `n'` of `n` and `d'` of `d`. -/
theorem quotient_error {ε γ δ M n n' d d' q : ℝ} (hε : 0 ≤ ε) (hγ : 0 ≤ γ) (hγ1 : γ < 1) (hd : 0 < d)
    (hn : |n| ≤ M) (hn' : |n' - n| ≤ δ * M) (hd' : |d' - d| ≤ γ * d) (hq : |q - n' / d'| ≤ ε * |n' / d'|) :
    |q - n / d| ≤ (ε * (1 + δ) + δ + γ) / (1 - γ) * (M / d) := by
  have hM : 0 ≤ M := le_trans (abs_nonneg _) hn
  have g : (1 - γ) * d ≤ d' := by have := (abs_le.1 hd').1; linarith
  have gp : 0 < (1 - γ) * d := mul_pos (by linarith) hd
  have hd'0 : 0 < d' := lt_of_lt_of_le gp g
  have m1 : |n'| ≤ (1 + δ) * M := by
    have := abs_add_le n (n' - n)
    have e : n + (n' - n) = n' := by ring
    rw [e] at this; linarith
  have a1 : |n' / d'| ≤ (1 + δ) * M / d' := by
    rw [abs_div, abs_of_pos hd'0]; exact div_le_div_of_nonneg_right m1 hd'0.le
  have a2 : |n' / d' - n / d| ≤ (δ + γ) * M / d' := by
    have e : n' / d' - n / d = ((n' - n) + n / d * (d - d')) / d' := by field_simp; ring
    rw [e, abs_div, abs_of_pos hd'0]
    refine div_le_div_of_nonneg_right ?_ hd'0.le
    refine le_trans (abs_add_le _ _) ?_
    rw [abs_mul, abs_div, abs_of_pos hd, abs_sub_comm d d']
    have : |n| / d * |d' - d| ≤ M / d * (γ * d) := mul_le_mul (div_le_div_of_nonneg_right hn hd.le) hd' (abs_nonneg _) (by positivity)
    have e2 : M / d * (γ * d) = γ * M := by field_simp
    linarith
  have a3 : |q - n / d| ≤ |q - n' / d'| + |n' / d' - n / d| := by
    have := abs_add_le (q - n' / d') (n' / d' - n / d)
    simpa using this
  have hδM : 0 ≤ (1 + δ) * M := le_trans (abs_nonneg _) m1
  have hδ2 : 0 ≤ δ * M := le_trans (abs_nonneg _) hn'
  have a4 : |q - n / d| ≤ (ε * ((1 + δ) * M) + δ * M + γ * M) / d' := by
    have := mul_le_mul_of_nonneg_left a1 hε
    have e : (ε * ((1 + δ) * M) + δ * M + γ * M) / d' = ε * ((1 + δ) * M / d') + (δ + γ) * M / d' := by ring
    rw [e]; linarith
  have a5 : (ε * ((1 + δ) * M) + δ * M + γ * M) / d' ≤ (ε * ((1 + δ) * M) + δ * M + γ * M) / ((1 - γ) * d) := by
    refine div_le_div_of_nonneg_left ?_ gp g
    have := mul_nonneg hε hδM
    have := mul_nonneg hγ hM
    linarith
  have e : (ε * ((1 + δ) * M) + δ * M + γ * M) / ((1 - γ) * d) = (ε * (1 + δ) + δ + γ) / (1 - γ) * (M / d) := by
    have : (1 - γ) ≠ 0 := by linarith
    field_simp
  linarith

theorem eps_real {ε : ℚ} (hε : 0 ≤ ε) (hε1 : ε ≤ 1 / 16) : (0 : ℝ) ≤ ε ∧ (ε : ℝ) ≤ 1 / 16 := by
  refine ⟨by exact_mod_cast hε, ?_⟩
  have : ((ε : ℚ) : ℝ) ≤ ((1 / 16 : ℚ) : ℝ) := by exact_mod_cast hε1
  simpa using this

/-- The computed `|b|²`. -/
theorem denom_error {rnd : ℚ → Option ℚ} {ε : ℚ} (R : IsRounding rnd ε) (hε : 0 ≤ ε) (b : CNum) {cc dd D : ℚ}
    (h1 : rnd (b.re * b.re) = some cc) (h2 : rnd (b.im * b.im) = some dd) (h3 : rnd (cc + dd) = some D) (h0 : D ≠ 0) :
    0 < Complex.normSq b.toC ∧ |(D : ℝ) - Complex.normSq b.toC| ≤ (2 * ε + ε ^ 2) * Complex.normSq b.toC := by
  have k1 := R.closeR h1
  have k2 := R.closeR h2
  have k3 := R.closeR h3
  push_cast at k1 k2 k3
  have b1 := two_products (s := 1) (by exact_mod_cast hε) (by norm_num) k1 k2 (by simpa using k3)
  have hN : Complex.normSq b.toC = b.re * b.re + b.im * b.im := by rw [Complex.normSq_apply]; rfl
  have hb0 : b.toC ≠ 0 := by
    intro hb
    have r0 : b.re = 0 := by have := congrArg Complex.re hb; simpa [CNum.toC] using this
    have i0 : b.im = 0 := by have := congrArg Complex.im hb; simpa [CNum.toC] using this
    rw [r0, mul_zero, R.zero] at h1
    rw [i0, mul_zero, R.zero] at h2
    simp at h1 h2
    rw [← h1, ← h2, add_zero, R.zero] at h3
    simp at h3; exact h0 h3.symm
  refine ⟨Complex.normSq_pos.2 hb0, ?_⟩
  rw [hN]
  have e1 : |(b.re : ℝ) * b.re| = b.re * b.re := abs_of_nonneg (mul_self_nonneg _)
  have e2 : |(b.im : ℝ) * b.im| = b.im * b.im := abs_of_nonneg (mul_self_nonneg _)
  rw [e1, e2, one_mul] at b1
  exact b1

/-- **C104.** The quotient has relative error at most thirteen roundings (when neither operand nor an intermediate
    result leaves the normal range of the component type). -/
theorem complex_div_error {rnd : ℚ → Option ℚ} {ε : ℚ} (R : IsRounding rnd ε) (hε : 0 ≤ ε) (hε1 : ε ≤ 1 / 16) (a b c : CNum)
    (h : cDiv rnd a b = some c) : b.toC ≠ 0 ∧ ‖c.toC - a.toC / b.toC‖ ≤ 13 * ε * ‖a.toC / b.toC‖ := by
  rw [cDiv_iff] at h
  obtain ⟨cc, dd, D, rr, ii, ir, ri, n1, n2, h1, h2, h3, h4, h5, h6, h7, h8, h9, h0, h10, h11⟩ := h
  obtain ⟨e0, e1⟩ := eps_real hε hε1
  obtain ⟨hd, hD⟩ := denom_error R hε b h1 h2 h3 h0
  have hb : b.toC ≠ 0 := Complex.normSq_pos.1 hd
  refine ⟨hb, ?_⟩
  have k4 := R.closeR h4
  have k5 := R.closeR h5
  have k6 := R.closeR h6
  have k7 := R.closeR h7
  have k8 := R.closeR h8
  have k9 := R.closeR h9
  have k10 := R.closeR h10
  have k11 := R.closeR h11
  push_cast at k4 k5 k6 k7 k8 k9 k10 k11
  have b1 := two_products (s := 1) e0 (by norm_num) k4 k5 (by simpa using k8)
  have b2 := two_products (s := -1) e0 (by norm_num) k6 k7 (by simpa [sub_eq_add_neg] using k9)
  obtain ⟨m1, m2⟩ := two_norms a.toC b.toC
  simp only [CNum.toC] at m1 m2
  change _ ≤ ‖a.toC‖ * ‖b.toC‖ at m1
  change _ ≤ ‖a.toC‖ * ‖b.toC‖ at m2
  have hbn : 0 < ‖b.toC‖ := norm_pos_iff.2 hb
  have hMd : ‖a.toC‖ * ‖b.toC‖ / Complex.normSq b.toC = ‖a.toC‖ / ‖b.toC‖ := by
    rw [← Complex.sq_norm]; field_simp
  have hg0 : (0 : ℝ) ≤ 2 * ε + ε ^ 2 := by positivity
  have hg1 : (2 * ε + ε ^ 2 : ℝ) < 1 := by nlinarith
  have q1 := quotient_error (n := a.re * b.re + 1 * (a.im * b.im)) e0 hg0 hg1 hd
    (le_trans (by simpa using abs_add_le ((a.re : ℝ) * b.re) (a.im * b.im)) m1)
    (le_trans b1 (mul_le_mul_of_nonneg_left m1 hg0)) hD k10
  have q2 := quotient_error (n := a.im * b.re + -1 * (a.re * b.im)) e0 hg0 hg1 hd
    (le_trans (by
      have := abs_add_le ((a.im : ℝ) * b.re) (-1 * (a.re * b.im))
      rw [abs_mul (-1), abs_neg, abs_one, one_mul] at this
      linarith) m2)
    (le_trans b2 (mul_le_mul_of_nonneg_left (by rw [add_comm]; exact m2) hg0)) hD k11
  rw [hMd] at q1 q2
  have hC : (ε * (1 + (2 * ε + ε ^ 2)) + (2 * ε + ε ^ 2) + (2 * ε + ε ^ 2)) / (1 - (2 * ε + ε ^ 2)) ≤ 13 / 2 * (ε : ℝ) := by
    rw [div_le_iff₀ (by linarith)]
    nlinarith [mul_nonneg e0 e0, mul_nonneg e0 (sub_nonneg.2 e1), mul_nonneg (mul_nonneg e0 e0) (sub_nonneg.2 e1)]
  have hq : 0 ≤ ‖a.toC‖ / ‖b.toC‖ := by positivity
  have t1 : |(c.toC - a.toC / b.toC).re| ≤ 13 / 2 * ε * (‖a.toC‖ / ‖b.toC‖) := by
    refine le_trans ?_ (mul_le_mul_of_nonneg_right hC hq)
    refine le_trans (le_of_eq ?_) q1
    rw [Complex.sub_re, Complex.div_re]
    simp only [CNum.toC]; congr 1; ring
  have t2 : |(c.toC - a.toC / b.toC).im| ≤ 13 / 2 * ε * (‖a.toC‖ / ‖b.toC‖) := by
    refine le_trans ?_ (mul_le_mul_of_nonneg_right hC hq)
    refine le_trans (le_of_eq ?_) q2
    rw [Complex.sub_im, Complex.div_im]
    simp only [CNum.toC]; congr 1; ring
  rw [Complex.norm_div]
  have := Complex.norm_le_abs_re_add_abs_im (c.toC - a.toC / b.toC)
  linarith

/-- **C104.** Dividing a real scalar by a complex number: relative error at most ten roundings. -/
theorem scalar_div_complex_error {rnd : ℚ → Option ℚ} {ε : ℚ} (R : IsRounding rnd ε) (hε : 0 ≤ ε) (hε1 : ε ≤ 1 / 16) (t : ℚ)
    (b c : CNum) (h : sDivC rnd t b = some c) : b.toC ≠ 0 ∧ ‖c.toC - (t : ℂ) / b.toC‖ ≤ 10 * ε * ‖(t : ℂ) / b.toC‖ := by
  rw [sDivC_iff] at h
  obtain ⟨cc, dd, D, n1, n2, h1, h2, h3, h8, h9, h0, h10, h11⟩ := h
  obtain ⟨e0, e1⟩ := eps_real hε hε1
  obtain ⟨hd, hD⟩ := denom_error R hε b h1 h2 h3 h0
  have hb : b.toC ≠ 0 := Complex.normSq_pos.1 hd
  refine ⟨hb, ?_⟩
  have k8 := R.closeR h8
  have k9 := R.closeR h9
  have k10 := R.closeR h10
  have k11 := R.closeR h11
  push_cast at k8 k9 k10 k11
  have hbn : 0 < ‖b.toC‖ := norm_pos_iff.2 hb
  have m1 : |(t : ℝ) * b.re| ≤ |(t : ℝ)| * ‖b.toC‖ := by
    rw [abs_mul]; exact mul_le_mul_of_nonneg_left (Complex.abs_re_le_norm b.toC) (abs_nonneg _)
  have m2 : |-(t : ℝ) * b.im| ≤ |(t : ℝ)| * ‖b.toC‖ := by
    rw [abs_mul, abs_neg]; exact mul_le_mul_of_nonneg_left (Complex.abs_im_le_norm b.toC) (abs_nonneg _)
  have hMd : |(t : ℝ)| * ‖b.toC‖ / Complex.normSq b.toC = |(t : ℝ)| / ‖b.toC‖ := by
    rw [← Complex.sq_norm]; field_simp
  have hg0 : (0 : ℝ) ≤ 2 * ε + ε ^ 2 := by positivity
  have hg1 : (2 * ε + ε ^ 2 : ℝ) < 1 := by nlinarith
  have q1 := quotient_error e0 hg0 hg1 hd m1 (le_trans k8 (mul_le_mul_of_nonneg_left m1 e0)) hD k10
  have q2 := quotient_error e0 hg0 hg1 hd m2 (le_trans k9 (mul_le_mul_of_nonneg_left m2 e0)) hD k11
  rw [hMd] at q1 q2
  have hC : (ε * (1 + ε) + ε + (2 * ε + ε ^ 2)) / (1 - (2 * ε + ε ^ 2)) ≤ 5 * (ε : ℝ) := by
    rw [div_le_iff₀ (by linarith)]
    nlinarith [mul_nonneg e0 e0, mul_nonneg e0 (sub_nonneg.2 e1), mul_nonneg (mul_nonneg e0 e0) (sub_nonneg.2 e1)]
  have hq : 0 ≤ |(t : ℝ)| / ‖b.toC‖ := by positivity
  have ht : ‖((t : ℚ) : ℂ)‖ = |(t : ℝ)| := by
    have : ((t : ℚ) : ℂ) = (((t : ℚ) : ℝ) : ℂ) := by push_cast; rfl
    rw [this, Complex.norm_real, Real.norm_eq_abs]
  have t1 : |(c.toC - (t : ℂ) / b.toC).re| ≤ 5 * ε * (|(t : ℝ)| / ‖b.toC‖) := by
    refine le_trans ?_ (mul_le_mul_of_nonneg_right hC hq)
    refine le_trans (le_of_eq ?_) q1
    rw [Complex.sub_re, Complex.div_re]
    simp only [CNum.toC, Complex.ratCast_re, Complex.ratCast_im]; congr 1; ring
  have t2 : |(c.toC - (t : ℂ) / b.toC).im| ≤ 5 * ε * (|(t : ℝ)| / ‖b.toC‖) := by
    refine le_trans ?_ (mul_le_mul_of_nonneg_right hC hq)
    refine le_trans (le_of_eq ?_) q2
    rw [Complex.sub_im, Complex.div_im]
    simp only [CNum.toC, Complex.ratCast_re, Complex.ratCast_im]; congr 1; ring
  rw [Complex.norm_div, ht]
  have := Complex.norm_le_abs_re_add_abs_im (c.toC - (t : ℂ) / b.toC)
  linarith

/-- A complex number with one component rounded. -/
theorem scalar_part {ε : ℝ} (hε : 0 ≤ ε) (d z : ℂ) (h1 : |d.re| ≤ ε * |z.re|) (h2 : d.im = 0) : ‖d‖ ≤ ε * ‖z‖ :=
  norm_le_of_parts hε d z h1 (by rw [h2, abs_zero]; positivity)

/-- **C104.** Scalar on either side of `+`, `-`, `*`, and dividing by a scalar: relative error of one rounding. -/
theorem complex_scalar_error {rnd : ℚ → Option ℚ} {ε : ℚ} (R : IsRounding rnd ε) (hε : 0 ≤ ε) (a c : CNum) (t : ℚ) :
    (cAddS rnd a t = some c → ‖c.toC - (a.toC + t)‖ ≤ ε * ‖a.toC + t‖) ∧
    (cSubS rnd a t = some c → ‖c.toC - (a.toC - t)‖ ≤ ε * ‖a.toC - t‖) ∧
    (cMulS rnd a t = some c → ‖c.toC - a.toC * t‖ ≤ ε * ‖a.toC * t‖) ∧
    (cDivS rnd a t = some c → t ≠ 0 ∧ ‖c.toC - a.toC / t‖ ≤ ε * ‖a.toC / t‖) ∧
    (sAddC rnd t a = some c → ‖c.toC - (t + a.toC)‖ ≤ ε * ‖t + a.toC‖) ∧
    (sSubC rnd t a = some c → ‖c.toC - (t - a.toC)‖ ≤ ε * ‖t - a.toC‖) ∧
    (sMulC rnd t a = some c → ‖c.toC - t * a.toC‖ ≤ ε * ‖t * a.toC‖) := by
  have e0 : (0 : ℝ) ≤ ε := by exact_mod_cast hε
  refine ⟨?_, ?_, ?_, ?_, ?_, ?_, ?_⟩
  · intro h
    simp only [cAddS, cAddAssignS, SRhs.get, Option.map_eq_some_iff] at h
    obtain ⟨r, h1, rfl⟩ := h
    have k := R.closeR h1
    push_cast at k
    exact scalar_part e0 _ _ (by simpa [CNum.toC] using k) (by simp [CNum.toC])
  · intro h
    simp only [cSubS, cSubAssignS, SRhs.get, Option.map_eq_some_iff] at h
    obtain ⟨r, h1, rfl⟩ := h
    have k := R.closeR h1
    push_cast at k
    exact scalar_part e0 _ _ (by simpa [CNum.toC] using k) (by simp [CNum.toC])
  · intro h
    rw [cMulS_iff] at h
    have k1 := R.closeR h.1
    have k2 := R.closeR h.2
    push_cast at k1 k2
    exact norm_le_of_parts e0 _ _ (by simpa [CNum.toC] using k1) (by simpa [CNum.toC] using k2)
  · intro h
    rw [cDivS_iff] at h
    have k1 := R.closeR h.2.1
    have k2 := R.closeR h.2.2
    push_cast at k1 k2
    have hre : (a.toC / (t : ℂ)).re = a.re / t := by
      have : ((t : ℚ) : ℂ) = (((t : ℚ) : ℝ) : ℂ) := by push_cast; rfl
      rw [this, Complex.div_ofReal_re]; rfl
    have him : (a.toC / (t : ℂ)).im = a.im / t := by
      have : ((t : ℚ) : ℂ) = (((t : ℚ) : ℝ) : ℂ) := by push_cast; rfl
      rw [this, Complex.div_ofReal_im]; rfl
    refine ⟨h.1, norm_le_of_parts e0 _ _ ?_ ?_⟩
    · rw [Complex.sub_re, hre]; exact k1
    · rw [Complex.sub_im, him]; exact k2
  · intro h
    simp only [sAddC, Option.map_eq_some_iff] at h
    obtain ⟨r, h1, rfl⟩ := h
    have k := R.closeR h1
    push_cast at k
    exact scalar_part e0 _ _ (by simpa [CNum.toC] using k) (by simp [CNum.toC])
  · intro h
    simp only [sSubC, Option.map_eq_some_iff] at h
    obtain ⟨r, h1, rfl⟩ := h
    have k := R.closeR h1
    push_cast at k
    exact scalar_part e0 _ _ (by simpa [CNum.toC] using k) (by simp [CNum.toC])
  · intro h
    simp [sMulC, Option.bind_eq_some_iff] at h
    obtain ⟨r, h1, i, h2, rfl⟩ := h
    have k1 := R.closeR h1
    have k2 := R.closeR h2
    push_cast at k1 k2
    exact norm_le_of_parts e0 _ _ (by simpa [CNum.toC] using k1) (by simpa [CNum.toC] using k2)

/-! ### Exact results -/

theorem cnum_toC_inj {a b : CNum} : a.toC = b.toC ↔ a = b := by
  constructor
  · intro h
    obtain ⟨ar, ai⟩ := a
    obtain ⟨br, bi⟩ := b
    have h1 := congrArg Complex.re h
    have h2 := congrArg Complex.im h
    simp [CNum.toC] at h1 h2
    simp [h1, h2]
  · rintro rfl; rfl

/-- A complex number with integer components. -/
def gaussInt (m n : Int) : CNum := ⟨m, n⟩

/-- Integers of up to 53 bits are exact in `double`. -/
theorem rnd64_int (k : Int) (h : |k| ≤ 2 ^ 53) : rnd64 (k : ℚ) = some (k : ℚ) := by
  refine fpRound_keeps 53 _ _ (by norm_num) _ ⟨k, 0, h, by simp⟩ ?_
  by_cases h0 : k = 0
  · left; simp [h0]
  · right
    have h1 : 1 ≤ |k| := Int.one_le_abs h0
    constructor
    · refine le_trans (zpow_le_one_of_nonpos₀ (by norm_num) (by norm_num)) ?_
      exact_mod_cast h1
    · have h2 : |(k : ℚ)| ≤ 2 ^ (53 : Int) := by exact_mod_cast h
      refine lt_of_le_of_lt h2 ?_
      exact zpow_lt_zpow_right₀ (by norm_num) (by norm_num)

theorem mul_bits {a b : Int} {A B : Int} (ha : |a| ≤ A) (hb : |b| ≤ B) : |a * b| ≤ A * B := by
  rw [abs_mul]
  exact mul_le_mul ha hb (abs_nonneg _) (le_trans (abs_nonneg _) ha)

/-- **C104.** `double` arithmetic on complex integers with components of up to 25 bits is exact. -/
theorem complex_int_exact (a b c d : Int) (ha : |a| ≤ 2 ^ 25) (hb : |b| ≤ 2 ^ 25) (hc : |c| ≤ 2 ^ 25) (hd : |d| ≤ 2 ^ 25) :
    cAdd rnd64 (gaussInt a b) (gaussInt c d) = some (gaussInt (a + c) (b + d)) ∧
    cSub rnd64 (gaussInt a b) (gaussInt c d) = some (gaussInt (a - c) (b - d)) ∧
    cMul rnd64 (gaussInt a b) (gaussInt c d) = some (gaussInt (a * c - b * d) (a * d + b * c)) := by
  have m1 := mul_bits ha hc
  have m2 := mul_bits hb hd
  have m3 := mul_bits ha hd
  have m4 := mul_bits hb hc
  rw [abs_le] at ha hb hc hd m1 m2 m3 m4
  generalize hac : a * c = ac at *
  generalize hbd : b * d = bd at *
  generalize had : a * d = ad at *
  generalize hbc : b * c = bc at *
  have key : ∀ k : Int, -2 ^ 53 ≤ k → k ≤ 2 ^ 53 → rnd64 (k : ℚ) = some (k : ℚ) := fun k h1 h2 =>
    rnd64_int k (abs_le.2 ⟨h1, h2⟩)
  norm_num at ha hb hc hd m1 m2 m3 m4 key
  refine ⟨?_, ?_, ?_⟩
  · rw [cAdd_iff]
    have k1 := key (a + c) (by omega) (by omega)
    have k2 := key (b + d) (by omega) (by omega)
    push_cast at k1 k2
    simpa [gaussInt] using ⟨k1, k2⟩
  · rw [cSub_iff]
    have k1 := key (a - c) (by omega) (by omega)
    have k2 := key (b - d) (by omega) (by omega)
    push_cast at k1 k2
    simpa [gaussInt] using ⟨k1, k2⟩
  · rw [cMul_iff]
    have k1 := key ac (by omega) (by omega)
    have k2 := key bd (by omega) (by omega)
    have k3 := key ad (by omega) (by omega)
    have k4 := key bc (by omega) (by omega)
    have k5 := key (ac - bd) (by omega) (by omega)
    have k6 := key (ad + bc) (by omega) (by omega)
    refine ⟨ac, bd, ad, bc, ?_, ?_, ?_, ?_, ?_, ?_⟩
    · simp only [gaussInt]; rw [← Int.cast_mul, hac]; exact k1
    · simp only [gaussInt]; rw [← Int.cast_mul, hbd]; exact k2
    · simp only [gaussInt]; rw [← Int.cast_mul, had]; exact k3
    · simp only [gaussInt]; rw [← Int.cast_mul, hbc]; exact k4
    · simp only [gaussInt]; rw [← Int.cast_sub]; exact k5
    · simp only [gaussInt]; rw [← Int.cast_add]; exact k6

/-- **C104.** Dividing a product of complex integers (components of up to 12 bits) by one of the factors gives the
    other factor back, exactly. -/
theorem complex_int_div_exact (a b c d : Int) (ha : |a| ≤ 2 ^ 12) (hb : |b| ≤ 2 ^ 12) (hc : |c| ≤ 2 ^ 12) (hd : |d| ≤ 2 ^ 12)
    (h0 : ¬ (c = 0 ∧ d = 0)) :
    (cMul rnd64 (gaussInt a b) (gaussInt c d) >>= fun p => cDiv rnd64 p (gaussInt c d)) = some (gaussInt a b) := by
  have e := (complex_int_exact a b c d (by omega) (by omega) (by omega) (by omega)).2.2
  rw [e]
  show cDiv rnd64 (gaussInt (a * c - b * d) (a * d + b * c)) (gaussInt c d) = some (gaussInt a b)
  have m1 := mul_bits ha hc
  have m2 := mul_bits hb hd
  have m3 := mul_bits ha hd
  have m4 := mul_bits hb hc
  have s1 : |a * c - b * d| ≤ 2 ^ 25 := by rw [abs_le] at *; norm_num at *; omega
  have s2 : |a * d + b * c| ≤ 2 ^ 25 := by rw [abs_le] at *; norm_num at *; omega
  have p1 := mul_bits s1 hc
  have p2 := mul_bits s2 hd
  have p3 := mul_bits s2 hc
  have p4 := mul_bits s1 hd
  have r1 := mul_bits hc hc
  have r2 := mul_bits hd hd
  have key : ∀ k : Int, |k| ≤ 2 ^ 40 → rnd64 (k : ℚ) = some (k : ℚ) := fun k h1 =>
    rnd64_int k (le_trans h1 (by norm_num))
  have q1 : |(a * c - b * d) * c + (a * d + b * c) * d| ≤ 2 ^ 40 := by
    refine le_trans (abs_add_le _ _) ?_; norm_num at *; omega
  have q2 : |(a * d + b * c) * c - (a * c - b * d) * d| ≤ 2 ^ 40 := by
    refine le_trans (abs_sub _ _) ?_; norm_num at *; omega
  have q3 : |c * c + d * d| ≤ 2 ^ 40 := by
    refine le_trans (abs_add_le _ _) ?_; norm_num at *; omega
  have hD : c * c + d * d ≠ 0 := by
    intro h
    have h1 : c * c = 0 := by nlinarith [mul_self_nonneg c, mul_self_nonneg d]
    have h2 : d * d = 0 := by nlinarith [mul_self_nonneg c, mul_self_nonneg d]
    exact h0 ⟨mul_self_eq_zero.1 h1, mul_self_eq_zero.1 h2⟩
  have hDq : ((c : ℚ) * c + d * d) ≠ 0 := by exact_mod_cast hD
  rw [cDiv_iff]
  refine ⟨(c * c : Int), (d * d : Int), (c * c + d * d : Int), ((a * c - b * d) * c : Int), ((a * d + b * c) * d : Int),
    ((a * d + b * c) * c : Int), ((a * c - b * d) * d : Int), ((a * c - b * d) * c + (a * d + b * c) * d : Int),
    ((a * d + b * c) * c - (a * c - b * d) * d : Int), ?_, ?_, ?_, ?_, ?_, ?_, ?_, ?_, ?_, ?_, ?_, ?_⟩
  · rw [← key _ (le_trans r1 (by norm_num))]; simp [gaussInt]
  · rw [← key _ (le_trans r2 (by norm_num))]; simp [gaussInt]
  · rw [← key _ q3]; simp
  · rw [← key _ (le_trans p1 (by norm_num))]; simp [gaussInt]
  · rw [← key _ (le_trans p2 (by norm_num))]; simp [gaussInt]
  · rw [← key _ (le_trans p3 (by norm_num))]; simp [gaussInt]
  · rw [← key _ (le_trans p4 (by norm_num))]; simp [gaussInt]
  · rw [← key _ q1]; simp
  · rw [← key _ q2]; simp
  · exact_mod_cast hD
  · have : (((a * c - b * d) * c + (a * d + b * c) * d : Int) : ℚ) / ((c * c + d * d : Int) : ℚ) = a := by
      push_cast; rw [div_eq_iff hDq]; ring
    rw [this, key a (le_trans ha (by norm_num))]; rfl
  · have : (((a * d + b * c) * c - (a * c - b * d) * d : Int) : ℚ) / ((c * c + d * d : Int) : ℚ) = b := by
      push_cast; rw [div_eq_iff hDq]; ring
    rw [this, key b (le_trans hb (by norm_num))]; rfl

/-! ### Comparison -/

/-- **C104.** `==` and `!=` between complex numbers, `==` against a scalar and the conversion to `bool` mean what they
    say. -/
theorem complex_eq_exact (a b : CNum) (t : ℚ) :
    (cEq a b = true ↔ a.toC = b.toC) ∧ (cNe a b = true ↔ a.toC ≠ b.toC) ∧ (cEqS a t = true ↔ a.toC = (t : ℂ)) ∧
      (cBool a = true ↔ a.toC ≠ 0) := by
  obtain ⟨ar, ai⟩ := a
  obtain ⟨br, bi⟩ := b
  have h1 : cEq ⟨ar, ai⟩ ⟨br, bi⟩ = true ↔ (⟨ar, ai⟩ : CNum).toC = (⟨br, bi⟩ : CNum).toC := by
    rw [cnum_toC_inj]; simp [cEq]
  refine ⟨h1, ?_, ?_, ?_⟩
  · rw [Ne, ← h1]; simp [cNe]
  · have : ((t : ℚ) : ℂ) = (⟨t, 0⟩ : CNum).toC := by apply Complex.ext <;> simp [CNum.toC]
    rw [this, cnum_toC_inj]; simp [cEqS]
  · have : (0 : ℂ) = (⟨0, 0⟩ : CNum).toC := by apply Complex.ext <;> simp [CNum.toC]
    rw [this, Ne, cnum_toC_inj]; simp [cBool, imp_iff_not_or]

/-- **C104, violated.** `z != t` against a scalar answers whether they are *equal*. -/
theorem complex_ne_scalar_violated (a : CNum) (t : ℚ) : cNeS a t = true ↔ a.toC = (t : ℂ) :=
  (complex_eq_exact a a t).2.2.1

/-! ### Compound assignment -/

/-- **C104.** `z op= z` gives `z op z`. -/
theorem complex_assign_self (rnd : ℚ → Option ℚ) (z : CNum) :
    cAddAssign rnd z .self = cAdd rnd z z ∧ cSubAssign rnd z .self = cSub rnd z z ∧
    cMulAssign rnd z .self = cMul rnd z z ∧ cDivAssign rnd z .self = cDiv rnd z z := by
  refine ⟨?_, ?_, rfl, rfl⟩
  · apply opt_ext; intro c
    rw [cAdd_iff]
    obtain ⟨cr, ci⟩ := c
    simp [cAddAssign, CRhs.get, Option.bind_eq_some_iff, Option.map_eq_some_iff]
  · apply opt_ext; intro c
    rw [cSub_iff]
    obtain ⟨cr, ci⟩ := c
    simp [cSubAssign, CRhs.get, Option.bind_eq_some_iff, Option.map_eq_some_iff]

/-- **C104, violated.** `z /= z.m_real` leaves the imaginary part undivided (when it is a number of the format): the
    divisor has become 1 by the time it is used. -/
theorem complex_div_own_real_violated {rnd : ℚ → Option ℚ} {ε : ℚ} (R : IsRounding rnd ε) (z : CNum) (h0 : z.re ≠ 0)
    (him : rnd z.im = some z.im) : cDivAssignS rnd z .ownReal = some ⟨1, z.im⟩ := by
  simp [cDivAssignS, SRhs.get, fpDiv, h0, div_self h0, R.one, him]

/-- **C104, violated.** Dividing a number too large (or too small) to be squared by itself: the quotient 1 is not
    found, since the square of the divisor leaves the range of the format. -/
theorem complex_div_range_violated (x : ℚ) (h : 2 ^ (513 : Int) ≤ |x|) : cDiv rnd64 ⟨x, 0⟩ ⟨x, 0⟩ = none := by
  cases hc : cDiv rnd64 ⟨x, 0⟩ ⟨x, 0⟩ with
  | none => rfl
  | some c =>
    exfalso
    rw [cDiv_iff] at hc
    obtain ⟨cc, dd, D, rr, ii, ir, ri, n1, n2, h1, h2, -⟩ := hc
    have hx0 : x ≠ 0 := by
      intro hx; rw [hx, abs_zero] at h
      have : (0 : ℚ) < 2 ^ (513 : Int) := by positivity
      exact absurd h (not_le.2 this)
    have hxx : (2 : ℚ) ^ (1026 : Int) ≤ |x * x| := by
      rw [abs_mul, show (1026 : Int) = 513 + 513 by norm_num, zpow_add₀ (by norm_num)]
      exact mul_le_mul h h (by positivity) (abs_nonneg _)
    have hge := nearestEven_ge 53 (by norm_num) (x * x) (mul_ne_zero hx0 hx0) 1026 hxx
    simp only [rnd64, fpRound] at h1
    rw [if_neg (mul_ne_zero hx0 hx0)] at h1
    split at h1
    · cases h1
    · split at h1
      · rename_i hlt
        have : (2 : ℚ) ^ ((1023 : Int) + 1) < 2 ^ (1026 : Int) := zpow_lt_zpow_right₀ (by norm_num) (by norm_num)
        linarith
      · cases h1

/-- The hypotheses are met: (1 + 2i)(3 - i) = 5 + 5i, divided by 3 - i it gives 1 + 2i; and `2^600` is a divisor whose
    square overflows. -/
example : cMul rnd64 (gaussInt 1 2) (gaussInt 3 (-1)) = some (gaussInt 5 5) ∧
    cDiv rnd64 (gaussInt 5 5) (gaussInt 3 (-1)) = some (gaussInt 1 2) := by
  have h := (complex_int_exact 1 2 3 (-1) (by norm_num) (by norm_num) (by norm_num) (by norm_num)).2.2
  have h2 := complex_int_div_exact 1 2 3 (-1) (by norm_num) (by norm_num) (by norm_num) (by norm_num) (by norm_num)
  norm_num at h
  rw [h] at h2
  exact ⟨h, h2⟩

example : cDiv rnd64 ⟨2 ^ 600, 0⟩ ⟨2 ^ 600, 0⟩ = none :=
  complex_div_range_violated _ (by
    rw [abs_of_pos (by positivity), ← zpow_natCast]; exact zpow_le_zpow_right₀ (by norm_num) (by norm_num))

/-- `(2 + 6i) /= real part` gives `1 + 6i` instead of `1 + 3i`. -/
example : cDivAssignS rnd64 (gaussInt 2 6) .ownReal = some (gaussInt 1 6) ∧ cDivS rnd64 (gaussInt 2 6) 2 = some (gaussInt 1 3) := by
  constructor
  · have := complex_div_own_real_violated rnd64_isRounding (gaussInt 2 6) (by simp [gaussInt])
      (by have := rnd64_int 6 (by norm_num); simpa [gaussInt] using this)
    simpa [gaussInt] using this
  · rw [cDivS_iff]
    have h1 := rnd64_int 1 (by norm_num)
    have h3 := rnd64_int 3 (by norm_num)
    norm_num [gaussInt]
    exact ⟨by simpa using h1, by simpa using h3⟩

end Dynd
