/-
C27 (float → integer), C60 (integer → float), C61 (float → float): checked conversions are exact or raise.
-/
import Verif.Model.FloatCast
import Verif.Props.IntProps
import Verif.Props.HalfProps

namespace Dynd
open Fmt

/-- The format has a bit pattern for the number `q`. -/
def Fmt.Represents (F : Fmt) (q : ℚ) : Prop := ∃ b, b < 2 ^ F.size ∧ F.IsFinite b ∧ F.val b = q

/-! ### rounding -/

theorem rneDrop_of_dvd {k n : Nat} (h : 2 ^ k ∣ n) : rneDrop k n = n := by
  have p : 0 < 2 ^ k := Nat.pow_pos (by omega)
  have h0 : n % 2 ^ k = 0 := Nat.mod_eq_zero_of_dvd h
  unfold rneDrop
  rw [if_neg (by rw [h0]; omega), Nat.div_mul_cancel h]

theorem rneDrop_dvd (k n : Nat) : 2 ^ k ∣ rneDrop k n := by
  unfold rneDrop
  simp only
  split_ifs <;> exact Nat.dvd_mul_left _ _

/-- The result of rounding is a nearest multiple. -/
theorem rneDrop_nearest (k n : Nat) {c : Nat} (hc : 2 ^ k ∣ c) :
    |(n : Int) - rneDrop k n| ≤ |(n : Int) - c| := by
  have p : 0 < 2 ^ k := Nat.pow_pos (by omega)
  have hdm := Nat.div_add_mod n (2 ^ k)
  have hlt := Nat.mod_lt n p
  obtain ⟨d, rfl⟩ := hc
  unfold rneDrop
  generalize hu : 2 ^ k = u at *
  generalize hq : n / u = q at *
  generalize hr : n % u = r at *
  simp only
  have e1 : (q + 1) * u = u * q + u := by ring
  have e2 : q * u = u * q := by ring
  have mono : d ≤ q → u * d ≤ u * q := fun h => Nat.mul_le_mul_left _ h
  have mono2 : q + 1 ≤ d → u * q + u ≤ u * d := fun h => by
    have := Nat.mul_le_mul_left u h
    rw [Nat.mul_add] at this; omega
  rw [e1, e2]
  by_cases hd : d ≤ q
  · have := mono hd
    generalize u * d = ud at *
    generalize u * q = uq at *
    split_ifs <;> (rw [abs_le]; constructor <;> cases abs_cases ((n : Int) - (ud : Nat)) <;> push_cast at * <;> omega)
  · have := mono2 (by omega)
    generalize u * d = ud at *
    generalize u * q = uq at *
    split_ifs <;> (rw [abs_le]; constructor <;> cases abs_cases ((n : Int) - (ud : Nat)) <;> push_cast at * <;> omega)

theorem rneDrop_le {k n c : Nat} (hc : 2 ^ k ∣ c) (h : n ≤ c) : rneDrop k n ≤ c := by
  have := rneDrop_nearest k n hc
  rcases Nat.lt_or_ge c (rneDrop k n) with hlt | hge
  · have p : 0 < 2 ^ k := Nat.pow_pos (by omega)
    -- the result is at most the next multiple above `n`
    have hdm := Nat.div_add_mod n (2 ^ k)
    have hlt' := Nat.mod_lt n p
    obtain ⟨d, rfl⟩ := hc
    exfalso
    have hq : n / 2 ^ k ≤ d := by
      calc n / 2 ^ k ≤ 2 ^ k * d / 2 ^ k := Nat.div_le_div_right h
        _ = d := Nat.mul_div_cancel_left _ p
    unfold rneDrop at hlt
    simp only at hlt
    split_ifs at hlt with hcond
    · have : n / 2 ^ k ≠ d := by
        rintro rfl
        have : n % 2 ^ k = 0 := by omega
        rw [this] at hcond
        omega
      have h2 : (n / 2 ^ k + 1) * 2 ^ k ≤ d * 2 ^ k := Nat.mul_le_mul_right _ (by omega)
      rw [Nat.mul_comm d] at h2
      omega
    · have h2 : (n / 2 ^ k) * 2 ^ k ≤ d * 2 ^ k := Nat.mul_le_mul_right _ hq
      rw [Nat.mul_comm d] at h2
      omega
  · exact hge

theorem le_rneDrop {k n c : Nat} (hc : 2 ^ k ∣ c) (h : c ≤ n) : c ≤ rneDrop k n := by
  have p : 0 < 2 ^ k := Nat.pow_pos (by omega)
  obtain ⟨d, rfl⟩ := hc
  have hq : d ≤ n / 2 ^ k := by
    calc d = 2 ^ k * d / 2 ^ k := (Nat.mul_div_cancel_left _ p).symm
      _ ≤ _ := Nat.div_le_div_right h
  have : 2 ^ k * d ≤ n / 2 ^ k * 2 ^ k := by rw [Nat.mul_comm]; exact Nat.mul_le_mul_right _ hq
  unfold rneDrop
  simp only
  split_ifs
  · rw [Nat.add_mul]; omega
  · exact this

/-- `n` has at most `p` significant bits. -/
def Bits (p n : Nat) : Prop := 2 ^ (n.log2 + 1 - p) ∣ n

theorem log2_bounds {n : Nat} (h : n ≠ 0) : 2 ^ n.log2 ≤ n ∧ n < 2 ^ (n.log2 + 1) :=
  ⟨Nat.log2_self_le h, Nat.lt_log2_self⟩

theorem bits_of_mul {p g e : Nat} (hg : g < 2 ^ p) : Bits p (g * 2 ^ e) := by
  unfold Bits
  by_cases h0 : g * 2 ^ e = 0
  · rw [h0]; exact Nat.dvd_zero _
  have h1 : g * 2 ^ e < 2 ^ (p + e) := by
    rw [Nat.pow_add]; exact Nat.mul_lt_mul_of_pos_right hg (Nat.pow_pos (by omega))
  have h2 := (Nat.log2_lt h0).2 h1
  exact Nat.dvd_trans (Nat.pow_dvd_pow 2 (by omega)) (Nat.dvd_mul_left _ _)

theorem bits_pow {p e : Nat} (hp : 1 ≤ p) : Bits p (2 ^ e) := by
  have := bits_of_mul (p := p) (g := 1) (e := e) (by exact Nat.one_lt_two_pow (by omega))
  rwa [Nat.one_mul] at this

theorem rneNat_of_bits {p kmin n : Nat} (h1 : Bits p n) (h2 : 2 ^ kmin ∣ n) : rneNat p kmin n = n := by
  unfold rneNat
  apply rneDrop_of_dvd
  rcases Nat.le_total (n.log2 + 1 - p) kmin with h | h
  · rw [Nat.max_eq_right h]; exact h2
  · rw [Nat.max_eq_left h]; exact h1

/-- The result of rounding has at most `p` bits. -/
theorem rneNat_bits {p kmin n : Nat} (hp : 1 ≤ p) : Bits p (rneNat p kmin n) ∧ 2 ^ kmin ∣ rneNat p kmin n := by
  constructor
  · by_cases h0 : n = 0
    · subst h0; unfold rneNat
      rw [rneDrop_of_dvd (Nat.dvd_zero _)]
      exact Nat.dvd_zero _
    · unfold rneNat
      generalize hk : max (n.log2 + 1 - p) kmin = k
      have hb := log2_bounds h0
      by_cases hlk : k ≤ n.log2 + 1
      · -- at most 2^(L+1), a multiple of 2^k
        have hle : rneDrop k n ≤ 2 ^ (n.log2 + 1) := rneDrop_le (Nat.pow_dvd_pow 2 hlk) (by omega)
        rcases Nat.lt_or_ge (rneDrop k n) (2 ^ (n.log2 + 1)) with hlt | hge
        · unfold Bits
          by_cases hz : rneDrop k n = 0
          · rw [hz]; exact Nat.dvd_zero _
          · have h2 := (Nat.log2_lt hz).2 hlt
            exact Nat.dvd_trans (Nat.pow_dvd_pow 2 (by omega)) (rneDrop_dvd k n)
        · have : rneDrop k n = 2 ^ (n.log2 + 1) := by omega
          rw [this]; exact bits_pow hp
      · -- everything is below half of the quantum or rounds to one quantum
        have hle : rneDrop k n ≤ 2 ^ k := by
          apply rneDrop_le (Nat.dvd_refl _)
          have := Nat.pow_le_pow_right (n := 2) (by omega) (show n.log2 + 1 ≤ k by omega)
          omega
        obtain ⟨d, hd⟩ := rneDrop_dvd k n
        have p0 : 0 < 2 ^ k := Nat.pow_pos (by omega)
        have : d ≤ 1 := by
          by_contra hc
          have : 2 ^ k * 2 ≤ 2 ^ k * d := Nat.mul_le_mul_left _ (by omega)
          omega
        have hd' : d = 0 ∨ d = 1 := by omega
        rcases hd' with rfl | rfl
        · rw [hd]; exact Nat.dvd_zero _
        · rw [hd, Nat.mul_one]; exact bits_pow hp
  · unfold rneNat
    exact Nat.dvd_trans (Nat.pow_dvd_pow 2 (Nat.le_max_right _ _)) (rneDrop_dvd _ n)

theorem bits_iff_rne {p n : Nat} (hp : 1 ≤ p) : Bits p n ↔ rneNat p 0 n = n :=
  ⟨fun h => rneNat_of_bits h (by simp), fun h => h ▸ (rneNat_bits hp).1⟩

/-- The rounding of `n` is nearest among the numbers with at most `p` bits that are multiples of `2^kmin`. -/
theorem rneNat_nearest {p kmin n c : Nat} (h1 : Bits p c) (h2 : 2 ^ kmin ∣ c) :
    |(n : Int) - rneNat p kmin n| ≤ |(n : Int) - c| := by
  by_cases h0 : n = 0
  · subst h0; unfold rneNat
    rw [rneDrop_of_dvd (Nat.dvd_zero _)]; simp
  unfold rneNat
  generalize hk : max (n.log2 + 1 - p) kmin = k
  have hb := log2_bounds h0
  by_cases hck : 2 ^ k ∣ c
  · exact rneDrop_nearest k n hck
  · -- then c has a smaller exponent, and the power of two between is a multiple
    have hlt : c.log2 < n.log2 := by
      by_contra hge
      apply hck
      rcases Nat.le_total (n.log2 + 1 - p) kmin with h | h
      · rw [← hk, Nat.max_eq_right h]; exact h2
      · rw [← hk, Nat.max_eq_left h]
        exact Nat.dvd_trans (Nat.pow_dvd_pow 2 (by omega)) h1
    have hcn : c ≤ 2 ^ n.log2 := by
      have h3 : c < 2 ^ (c.log2 + 1) := Nat.lt_log2_self
      have := Nat.pow_le_pow_right (n := 2) (by omega) (show c.log2 + 1 ≤ n.log2 by omega)
      omega
    have hkL : k ≤ n.log2 := by
      by_contra hc
      apply hck
      have hkk : k = kmin ∨ (k = n.log2 + 1 - p) := by omega
      rcases hkk with h | h
      · rw [h]; exact h2
      · -- k = n.log2 + 1 - p > n.log2 forces p = 0
        have hp : p = 0 := by omega
        subst hp
        have hz : c = 0 := by
          by_contra hne
          have : 2 ^ (c.log2 + 1) ≤ c := Nat.le_of_dvd (by omega) h1
          have h3 : c < 2 ^ (c.log2 + 1) := Nat.lt_log2_self
          omega
        rw [hz]; exact Nat.dvd_zero _
    have hn := rneDrop_nearest k n (Nat.pow_dvd_pow 2 hkL)
    have e1 : |(n : Int) - (2 ^ n.log2 : Nat)| = (n : Int) - (2 ^ n.log2 : Nat) := abs_of_nonneg (by omega)
    have e2 : |(n : Int) - c| = (n : Int) - c := abs_of_nonneg (by omega)
    omega

/-! ### magnitudes of a format -/

theorem mag_bits {F : Fmt} (b : Nat) : Bits (F.m + 1) (F.mag b) := by
  have hs : F.sig b < 2 ^ F.m := sig_lt b
  unfold Fmt.mag
  split_ifs
  · have := bits_of_mul (p := F.m + 1) (g := F.sig b) (e := 0) (by rw [Nat.pow_succ]; omega)
    simpa using this
  · exact bits_of_mul (by rw [Nat.pow_succ]; omega)

/-- Every magnitude with few enough bits and below the limit occurs, with either sign. -/
theorem mag_surj {F : Fmt} {N s : Nat} (hs : s < 2) (h : Bits (F.m + 1) N) (hN : N < 2 ^ (F.m + (F.expMax - 1)))
    (hw : 2 ≤ F.expMax) (hw2 : F.expMax < 2 ^ F.w) :
    ∃ b, b < 2 ^ F.size ∧ F.IsFinite b ∧ F.mag b = N ∧ F.sgn b = s := by
  rcases Nat.lt_or_ge N (2 ^ F.m) with hlt | hge
  · obtain ⟨f1, f2, f3⟩ := pack_fields (F := F) (e := 0) hs (by omega) hlt
    refine ⟨F.pack s 0 N, pack_lt hs (by omega) hlt, ?_, ?_, f1⟩
    · unfold Fmt.IsFinite; rw [f2]; omega
    · unfold Fmt.mag; rw [f2, f3]; simp
  · have h0 : N ≠ 0 := by have : 0 < 2 ^ F.m := Nat.pow_pos (by omega); omega
    have hb := log2_bounds h0
    have hL : F.m ≤ N.log2 := (Nat.le_log2 h0).2 hge
    have hL2 : N.log2 < F.m + (F.expMax - 1) := (Nat.log2_lt h0).2 hN
    unfold Bits at h
    obtain ⟨e, he⟩ : ∃ e, N.log2 = F.m + e := ⟨N.log2 - F.m, by omega⟩
    rw [show N.log2 + 1 - (F.m + 1) = e by omega] at h
    obtain ⟨g, hg⟩ := h
    have pe : 0 < 2 ^ e := Nat.pow_pos (by omega)
    have hg1 : 2 ^ F.m ≤ g := by
      have : 2 ^ e * 2 ^ F.m ≤ 2 ^ e * g := by rw [← Nat.pow_add, Nat.add_comm, ← he, ← hg]; exact hb.1
      exact Nat.le_of_mul_le_mul_left this pe
    have hg2 : g < 2 ^ F.m + 2 ^ F.m := by
      have : 2 ^ e * g < 2 ^ e * 2 ^ (F.m + 1) := by
        rw [← Nat.pow_add, ← hg, show e + (F.m + 1) = N.log2 + 1 by omega]; exact hb.2
      have := Nat.lt_of_mul_lt_mul_left this
      rw [Nat.pow_succ] at this; omega
    obtain ⟨f1, f2, f3⟩ := pack_fields (F := F) (e := e + 1) (g := g - 2 ^ F.m) hs (by omega) (by omega)
    refine ⟨F.pack s (e + 1) (g - 2 ^ F.m), pack_lt hs (by omega) (by omega), ?_, ?_, f1⟩
    · unfold Fmt.IsFinite; rw [f2]; omega
    · unfold Fmt.mag; rw [f2, f3, if_neg (by omega), hg]
      rw [show 2 ^ F.m + (g - 2 ^ F.m) = g by omega]
      simp [Nat.mul_comm]

theorem mag_lt {F : Fmt} {b : Nat} (hb : F.IsFinite b) (hw : F.expMax + 1 = 2 ^ F.w) (hw2 : 2 ≤ F.expMax) :
    F.mag b ≤ F.maxMag := by
  have he : F.ex b < 2 ^ F.w := ex_lt b
  have hs : F.sig b < 2 ^ F.m := sig_lt b
  unfold Fmt.IsFinite at hb
  have p : 0 < 2 ^ (F.expMax - 2) := Nat.pow_pos (by omega)
  have p1 : 2 ^ (F.m + 1) = 2 ^ F.m + 2 ^ F.m := by rw [Nat.pow_succ]; omega
  unfold Fmt.mag Fmt.maxMag
  split_ifs
  · calc F.sig b ≤ (2 ^ (F.m + 1) - 1) * 1 := by omega
      _ ≤ _ := Nat.mul_le_mul_left _ p
  · apply Nat.mul_le_mul
    · omega
    · exact Nat.pow_le_pow_right (by omega) (by omega)


/-! ### the two formats -/

/-- `float` or `double`. -/
def Std (F : Fmt) : Prop := F = single ∨ F = double

theorem std_facts {F : Fmt} (h : Std F) : 23 ≤ F.m ∧ 127 ≤ F.bias ∧ F.expMax = 2 * F.bias + 1 ∧ F.expMax + 1 = 2 ^ F.w ∧
    F.unit = F.bias + F.m - 1 := by
  rcases h with rfl | rfl <;> (simp only [single, double, Fmt.bias, Fmt.expMax, Fmt.unit]; norm_num)

theorem val_abs {F : Fmt} (b : Nat) : |F.val b| = (F.mag b : ℚ) / 2 ^ F.unit := by
  have h1 : F.val b = (F.smag b : ℚ) / 2 ^ F.unit := rfl
  have h2 : |F.smag b| = (F.mag b : Int) := by
    unfold Fmt.smag; split_ifs
    · rw [abs_neg]; exact abs_of_nonneg (by omega)
    · exact abs_of_nonneg (by omega)
  rw [h1, abs_pow2_scale, h2, Int.cast_natCast]

theorem val_sign {F : Fmt} (b : Nat) : F.val b = if F.sgn b = 1 then -((F.mag b : ℚ) / 2 ^ F.unit) else (F.mag b : ℚ) / 2 ^ F.unit := by
  unfold Fmt.val Fmt.smag
  split_ifs
  · push_cast; ring
  · push_cast; rfl

theorem log2_scale {x U : Nat} (h0 : x ≠ 0) : (x * 2 ^ U).log2 = x.log2 + U := by
  have p : 0 < 2 ^ U := Nat.pow_pos (by omega)
  have hb := log2_bounds h0
  rw [Nat.log2_eq_iff (Nat.mul_ne_zero h0 (by omega))]
  constructor
  · rw [Nat.pow_add]; exact Nat.mul_le_mul_right _ hb.1
  · rw [show x.log2 + U + 1 = (x.log2 + 1) + U by omega, Nat.pow_add]; exact Nat.mul_lt_mul_of_pos_right hb.2 p

theorem bits_scale {p x U : Nat} : Bits p (x * 2 ^ U) ↔ Bits p x := by
  by_cases h0 : x = 0
  · rw [h0, Nat.zero_mul]
  have pU : 0 < 2 ^ U := Nat.pow_pos (by omega)
  unfold Bits
  rw [log2_scale h0]
  by_cases hk : x.log2 + 1 ≤ p
  · rw [show x.log2 + 1 - p = 0 by omega]
    constructor
    · intro _; simp
    · intro _; exact Nat.dvd_trans (Nat.pow_dvd_pow 2 (by omega)) (Nat.dvd_mul_left _ _)
  · rw [show x.log2 + U + 1 - p = (x.log2 + 1 - p) + U by omega, Nat.pow_add]
    exact Nat.mul_dvd_mul_iff_right pU

theorem rat_div_pow_eq {a b u v : Nat} : (a : ℚ) / 2 ^ u = (b : ℚ) / 2 ^ v ↔ a * 2 ^ v = b * 2 ^ u := by
  rw [div_eq_div_iff (by positivity) (by positivity)]
  constructor
  · intro h; exact_mod_cast h
  · intro h; exact_mod_cast h

/-- Which integers a format represents: those with at most `m + 1` significant bits. -/
theorem represents_int {F : Fmt} (hF : Std F) {x : Int} (hx : x.natAbs ≤ 2 ^ 64) :
    F.Represents (x : ℚ) ↔ Bits (F.m + 1) x.natAbs := by
  obtain ⟨b1, b2, b3, b4, b5⟩ := std_facts hF
  have habs : |(x : ℚ)| = (x.natAbs : ℚ) := by
    rw [← Int.cast_abs, Int.abs_eq_natAbs]; rfl
  constructor
  · rintro ⟨b, _, _, hv⟩
    have h1 := val_abs (F := F) b
    rw [hv, habs] at h1
    have h2 : F.mag b = x.natAbs * 2 ^ F.unit := by
      have := (rat_div_pow_eq (a := x.natAbs) (b := F.mag b) (u := 0) (v := F.unit)).1 (by simpa using h1)
      simpa using this.symm
    have h3 := mag_bits (F := F) b
    rw [h2] at h3
    exact bits_scale.1 h3
  · intro h
    have hN : x.natAbs * 2 ^ F.unit < 2 ^ (F.m + (F.expMax - 1)) := by
      calc x.natAbs * 2 ^ F.unit ≤ 2 ^ 64 * 2 ^ F.unit := Nat.mul_le_mul_right _ hx
        _ = 2 ^ (64 + F.unit) := (Nat.pow_add _ _ _).symm
        _ < _ := Nat.pow_lt_pow_right (by omega) (by omega)
    obtain ⟨b, hb1, hb2, hb3, hb4⟩ := mag_surj (F := F) (s := if x < 0 then 1 else 0) (by split_ifs <;> omega)
      (bits_scale.2 h) hN (by omega) (by omega)
    refine ⟨b, hb1, hb2, ?_⟩
    rw [val_sign, hb3, hb4]
    have e : ((x.natAbs * 2 ^ F.unit : Nat) : ℚ) / 2 ^ F.unit = (x.natAbs : ℚ) := by
      push_cast; field_simp
    rw [e, ← habs]
    by_cases hc : x < 0
    · rw [if_pos (if_pos hc), abs_of_neg (by exact_mod_cast hc)]; ring
    · rw [if_neg hc, if_neg (by omega), abs_of_nonneg (by exact_mod_cast (by omega : 0 ≤ x))]

/-- Conversion of an integer to floating point is exact exactly for the representable integers. -/
theorem ofInt_exact {F : Fmt} (hF : Std F) {x : Int} (hx : x.natAbs ≤ 2 ^ 64) :
    F.Represents (x : ℚ) ↔ F.ofInt x = (x : ℚ) := by
  rw [represents_int hF hx, bits_iff_rne (by omega)]
  have habs : |(x : ℚ)| = (x.natAbs : ℚ) := by
    rw [← Int.cast_abs, Int.abs_eq_natAbs]; rfl
  unfold Fmt.ofInt
  split_ifs with hc
  · have : (x : ℚ) = -(x.natAbs : ℚ) := by rw [← habs, abs_of_neg (by exact_mod_cast hc)]; ring
    rw [this, neg_inj]
    exact_mod_cast Iff.rfl
  · have : (x : ℚ) = (x.natAbs : ℚ) := by rw [← habs, abs_of_nonneg (by exact_mod_cast (by omega : 0 ≤ x))]
    rw [this]
    constructor
    · intro h; exact_mod_cast h
    · intro h; exact_mod_cast h


/-! ### float → integer -/

/-- `n` is `q` truncated toward zero. -/
def IsTrunc (q : ℚ) (n : Int) : Prop := |(n : ℚ)| ≤ |q| ∧ |q - n| < 1

theorem IsTrunc.unique {q : ℚ} {n n' : Int} (h : IsTrunc q n) (h' : IsTrunc q n') : n = n' := by
  obtain ⟨a1, a2⟩ := h
  obtain ⟨c1, c2⟩ := h'
  rw [abs_lt] at a2 c2
  have l1 : (n : ℚ) - n' < 2 := by linarith
  have l2 : (n' : ℚ) - n < 2 := by linarith
  rcases le_total 0 q with hq | hq
  · rw [abs_of_nonneg hq, abs_le] at a1 c1
    have : (n : ℚ) < n' + 1 := by linarith
    have : (n' : ℚ) < n + 1 := by linarith
    have h1 : n < n' + 1 := by exact_mod_cast ‹(n : ℚ) < n' + 1›
    have h2 : n' < n + 1 := by exact_mod_cast this
    omega
  · rw [abs_of_nonpos hq, abs_le] at a1 c1
    have : (n : ℚ) < n' + 1 := by linarith
    have : (n' : ℚ) < n + 1 := by linarith
    have h1 : n < n' + 1 := by exact_mod_cast ‹(n : ℚ) < n' + 1›
    have h2 : n' < n + 1 := by exact_mod_cast this
    omega

theorem ratTrunc_spec (q : ℚ) : IsTrunc q (ratTrunc q) := by
  unfold ratTrunc IsTrunc
  split_ifs with h
  · have h1 := Int.floor_le (-q)
    have h2 := Int.lt_floor_add_one (-q)
    have h3 : 0 ≤ ⌊-q⌋ := Int.floor_nonneg.2 (by linarith)
    have h3' : (0:ℚ) ≤ ⌊-q⌋ := by exact_mod_cast h3
    push_cast
    rw [abs_neg, abs_of_nonneg h3', abs_of_neg h, abs_lt]
    refine ⟨h1, ?_, ?_⟩ <;> linarith
  · have h1 := Int.floor_le q
    have h2 := Int.lt_floor_add_one q
    have h3 : 0 ≤ ⌊q⌋ := Int.floor_nonneg.2 (by linarith)
    have h3' : (0:ℚ) ≤ ⌊q⌋ := by exact_mod_cast h3
    rw [abs_of_nonneg h3', abs_of_nonneg (by linarith : 0 ≤ q), abs_lt]
    refine ⟨h1, ?_, ?_⟩ <;> linarith

theorem ratTrunc_int (n : Int) : ratTrunc (n : ℚ) = n :=
  (ratTrunc_spec _).unique ⟨le_refl _, by simp⟩

/-- truncation stays in an interval containing 0 -/
theorem ratTrunc_has {q : ℚ} {t : IntTy} (h1 : (t.min : ℚ) ≤ q) (h2 : q ≤ t.max) (h0 : t.min ≤ 0) (h3 : 0 ≤ t.max) :
    t.Has (ratTrunc q) := by
  unfold ratTrunc IntTy.Has
  split_ifs with h
  · have a1 := Int.floor_le (-q)
    have h4 : 0 ≤ ⌊-q⌋ := Int.floor_nonneg.2 (by linarith)
    have : ((⌊-q⌋ : Int) : ℚ) ≤ ((-t.min : Int) : ℚ) := by push_cast; linarith
    have : ⌊-q⌋ ≤ -t.min := by exact_mod_cast this
    omega
  · have a1 := Int.floor_le q
    have h4 : 0 ≤ ⌊q⌋ := Int.floor_nonneg.2 (by linarith)
    have : ((⌊q⌋ : Int) : ℚ) ≤ (t.max : ℚ) := by linarith
    have : ⌊q⌋ ≤ t.max := by exact_mod_cast this
    omega

/-- number of value bits: `std::numeric_limits<T>::digits`. -/
def IntTy.digits (t : IntTy) : Nat := if t.signed then t.bits - 1 else t.bits

theorem IntTy.max_eq (t : IntTy) : t.max = (2 ^ t.digits : Nat) - 1 := by
  unfold IntTy.max IntTy.digits; split_ifs <;> rfl

theorem IntTy.min_eq (t : IntTy) : t.min = if t.signed then -((2 ^ t.digits : Nat) : Int) else 0 := by
  unfold IntTy.min IntTy.digits; split_ifs <;> rfl

theorem rneNat_pow_sub_one {p j : Nat} (hp : 1 ≤ p) (hj : 1 ≤ j) :
    rneNat p 0 (2 ^ j - 1) = if j ≤ p then 2 ^ j - 1 else 2 ^ j := by
  have h2 : 2 ≤ 2 ^ j := by
    calc 2 = 2 ^ 1 := rfl
      _ ≤ _ := Nat.pow_le_pow_right (by omega) hj
  split_ifs with h
  · apply rneNat_of_bits
    · have := bits_of_mul (p := p) (g := 2 ^ j - 1) (e := 0) (by
        have := Nat.pow_le_pow_right (n := 2) (by omega) h
        omega)
      simpa using this
    · simp
  · have hlog : (2 ^ j - 1).log2 = j - 1 := by
      rw [Nat.log2_eq_iff (by omega)]
      rw [show j - 1 + 1 = j by omega]
      obtain ⟨i, rfl⟩ : ∃ i, j = i + 1 := ⟨j - 1, by omega⟩
      rw [Nat.pow_succ] at *
      simp only [Nat.add_sub_cancel]
      have : 1 ≤ 2 ^ i := Nat.one_le_two_pow
      omega
    unfold rneNat
    rw [hlog, show max (j - 1 + 1 - p) 0 = j - p by omega]
    obtain ⟨k, hk⟩ : ∃ k, j = p + (k + 1) := ⟨j - p - 1, by omega⟩
    rw [hk, show p + (k + 1) - p = k + 1 by omega, Nat.pow_add]
    have pk : 0 < 2 ^ (k + 1) := Nat.pow_pos (by omega)
    have pp : 1 ≤ 2 ^ p := Nat.one_le_two_pow
    have e1 : 2 ^ p * 2 ^ (k + 1) - 1 = (2 ^ (k + 1) - 1) + 2 ^ (k + 1) * (2 ^ p - 1) := by
      have : 2 ^ p * 2 ^ (k + 1) = 2 ^ (k + 1) * (2 ^ p - 1) + 2 ^ (k + 1) := by
        rw [Nat.mul_sub, Nat.mul_comm (2 ^ p)]
        have : 2 ^ (k + 1) * 1 ≤ 2 ^ (k + 1) * 2 ^ p := Nat.mul_le_mul_left _ pp
        omega
      omega
    have d1 : (2 ^ p * 2 ^ (k + 1) - 1) / 2 ^ (k + 1) = 2 ^ p - 1 := by
      rw [e1, Nat.add_mul_div_left _ _ pk, Nat.div_eq_of_lt (by omega)]; omega
    have d2 : (2 ^ p * 2 ^ (k + 1) - 1) % 2 ^ (k + 1) = 2 ^ (k + 1) - 1 := by
      rw [e1, Nat.add_mul_mod_self_left, Nat.mod_eq_of_lt (by omega)]
    unfold rneDrop
    rw [d1, d2]
    have podd : (2 ^ p - 1) % 2 = 1 := by
      obtain ⟨i, rfl⟩ : ∃ i, p = i + 1 := ⟨p - 1, by omega⟩
      rw [Nat.pow_succ]
      have : 1 ≤ 2 ^ i := Nat.one_le_two_pow
      omega
    have hcond : 2 * (2 ^ (k + 1) - 1) > 2 ^ (k + 1) ∨ (2 * (2 ^ (k + 1) - 1) = 2 ^ (k + 1) ∧ (2 ^ p - 1) % 2 = 1) := by
      rw [Nat.pow_succ] at *
      rcases Nat.eq_zero_or_pos k with rfl | hk0
      · right; exact ⟨by norm_num, podd⟩
      · left
        have : 2 ≤ 2 ^ k := by
          calc 2 = 2 ^ 1 := rfl
            _ ≤ _ := Nat.pow_le_pow_right (by omega) hk0
        omega
    rw [if_pos hcond, show 2 ^ p - 1 + 1 = 2 ^ p by omega]

theorem ofInt_max {F : Fmt} {t : IntTy} (ht : t.Valid) :
    F.ofInt t.max = if t.digits ≤ F.m + 1 then (t.max : ℚ) else (t.max : ℚ) + 1 := by
  have hd : 7 ≤ t.digits := by unfold IntTy.digits; unfold IntTy.Valid at ht; split_ifs <;> omega
  have h2 : 2 ≤ 2 ^ t.digits := by
    calc 2 = 2 ^ 1 := rfl
      _ ≤ _ := Nat.pow_le_pow_right (by omega) (by omega)
  have hm := t.max_eq
  have hn : t.max.natAbs = 2 ^ t.digits - 1 := by omega
  unfold Fmt.ofInt
  rw [if_neg (by omega), hn, rneNat_pow_sub_one (by omega) (by omega), hm]
  split_ifs
  · rw [Nat.cast_sub (by omega)]; push_cast; ring
  · push_cast; ring

theorem ofInt_min {F : Fmt} {t : IntTy} : F.ofInt t.min = (t.min : ℚ) := by
  rw [t.min_eq]
  have h0 : rneNat (F.m + 1) 0 0 = 0 := rneNat_of_bits (Nat.dvd_zero _) (Nat.dvd_zero _)
  split_ifs
  · have h1 : 1 ≤ 2 ^ t.digits := Nat.one_le_two_pow
    unfold Fmt.ofInt
    rw [if_pos (by omega)]
    rw [Int.natAbs_neg, Int.natAbs_natCast, rneNat_of_bits (bits_pow (by omega)) (by simp)]
    push_cast; rfl
  · unfold Fmt.ofInt
    rw [if_neg (by omega)]
    simp [h0]

/-- A representable number strictly between `max` and `max + 1` inclusive, when `max` needs more bits than the
    format has, is `max + 1`. -/
theorem val_gap {F : Fmt} {t : IntTy} {b : Nat} (ht : t.Valid) (hd : F.m + 1 < t.digits)
    (h1 : (t.max : ℚ) < F.val b) (h2 : F.val b ≤ t.max + 1) : F.val b = t.max + 1 := by
  have hpos : (0:ℚ) ≤ F.val b := by
    have hm := t.max_eq
    have : 1 ≤ 2 ^ t.digits := Nat.one_le_two_pow
    have : (0:ℚ) ≤ (t.max : ℚ) := by exact_mod_cast (by omega : 0 ≤ t.max)
    linarith
  have hv := val_abs (F := F) b
  rw [abs_of_nonneg hpos] at hv
  -- lower bound on the magnitude
  have hmag : 2 ^ (t.digits - 1 + F.unit) ≤ F.mag b := by
    have hm := t.max_eq
    have e : 2 ^ t.digits = 2 ^ (t.digits - 1) * 2 := by rw [← Nat.pow_succ]; congr 1; omega
    have h1' : 1 ≤ 2 ^ (t.digits - 1) := Nat.one_le_two_pow
    have hge : ((2 ^ (t.digits - 1) : Nat) : ℚ) ≤ (t.max : ℚ) := by
      have : ((2 ^ (t.digits - 1) : Nat) : Int) ≤ t.max := by omega
      exact_mod_cast this
    have : ((2 ^ (t.digits - 1) : Nat) : ℚ) < (F.mag b : ℚ) / 2 ^ F.unit := by rw [← hv]; linarith
    rw [lt_div_iff₀ (by positivity)] at this
    rw [Nat.pow_add]
    have : (2 ^ (t.digits - 1) * 2 ^ F.unit : Nat) < F.mag b := by exact_mod_cast this
    omega
  have h0 : F.mag b ≠ 0 := by
    have : 0 < 2 ^ (t.digits - 1 + F.unit) := Nat.pow_pos (by omega)
    omega
  have hlog : t.digits - 1 + F.unit ≤ (F.mag b).log2 := (Nat.le_log2 h0).2 hmag
  have hdvd : 2 ^ F.unit ∣ F.mag b :=
    Nat.dvd_trans (Nat.pow_dvd_pow 2 (by omega)) (mag_bits (F := F) b)
  obtain ⟨c, hc⟩ := hdvd
  have hvc : F.val b = (c : ℚ) := by
    rw [hv, hc]; push_cast; field_simp
  rw [hvc] at h1 h2 ⊢
  have a1 : t.max < (c : Int) := by exact_mod_cast h1
  have a2 : (c : Int) ≤ t.max + 1 := by exact_mod_cast h2
  have : (c : Int) = t.max + 1 := by omega
  exact_mod_cast congrArg (Int.cast (R := ℚ)) this

/-- The value of `b` is finite and lies within the limits of `t`. -/
def InRange (F : Fmt) (t : IntTy) (b : Nat) : Prop := F.IsFinite b ∧ (t.min : ℚ) ≤ F.val b ∧ F.val b ≤ t.max

/-- The one troublesome finite value: one past the maximum, when the maximum is not itself a value of the format
    (`2^31` or `2^63` … in `float`, `2^63`, `2^64` in `double`). -/
def PastMax (F : Fmt) (t : IntTy) (b : Nat) : Prop :=
  F.IsFinite b ∧ F.val b = t.max + 1 ∧ F.m + 1 < t.digits

theorem IntTy.min_nonpos (t : IntTy) : t.min ≤ 0 := by
  have : 1 ≤ 2 ^ t.digits := Nat.one_le_two_pow
  rw [t.min_eq]; split_ifs <;> omega
theorem IntTy.max_nonneg (t : IntTy) : 0 ≤ t.max := by
  rw [t.max_eq]
  have : 1 ≤ 2 ^ t.digits := Nat.one_le_two_pow
  omega

/-- the range test shared by the float → integer conversions -/
def rangeTest (F : Fmt) (t : IntTy) (s : FV) : Bool :=
  s.lt (.fin (F.ofInt t.min)) || FV.lt (.fin (F.ofInt t.max)) s

theorem rangeTest_cases {F : Fmt} {t : IntTy} (ht : t.Valid) (b : Nat) :
    (F.IsNan b ∧ F.decode b = .nan ∧ rangeTest F t (F.decode b) = false) ∨
    (F.IsInf b ∧ (∃ n, F.decode b = .inf n) ∧ rangeTest F t (F.decode b) = true) ∨
    (InRange F t b ∧ F.decode b = .fin (F.val b) ∧ rangeTest F t (F.decode b) = false) ∨
    (PastMax F t b ∧ F.decode b = .fin (F.val b) ∧ rangeTest F t (F.decode b) = false) ∨
    (F.IsFinite b ∧ ¬ InRange F t b ∧ ¬ PastMax F t b ∧ rangeTest F t (F.decode b) = true) := by
  by_cases he : F.ex b = F.expMax
  · by_cases hs : F.sig b ≠ 0
    · left
      have : F.decode b = .nan := by unfold Fmt.decode; rw [if_pos he, if_pos hs]
      refine ⟨⟨he, hs⟩, this, ?_⟩
      rw [this]; rfl
    · right; left
      have : F.decode b = .inf (decide (F.sgn b = 1)) := by unfold Fmt.decode; rw [if_pos he, if_neg hs]
      refine ⟨⟨he, by omega⟩, ⟨_, this⟩, ?_⟩
      rw [this]
      unfold rangeTest
      cases decide (F.sgn b = 1) <;> rfl
  · right; right
    have hdec : F.decode b = .fin (F.val b) := by unfold Fmt.decode; rw [if_neg he]
    have hfin : F.IsFinite b := he
    have hrt : rangeTest F t (F.decode b) = (decide (F.val b < t.min) || decide (F.ofInt t.max < F.val b)) := by
      unfold rangeTest; rw [hdec, ofInt_min]; rfl
    rw [hrt]
    by_cases hin : (t.min : ℚ) ≤ F.val b ∧ F.val b ≤ t.max
    · left
      refine ⟨⟨hfin, hin⟩, hdec, ?_⟩
      have : ¬ F.ofInt t.max < F.val b := by
        rw [ofInt_max ht]; split_ifs <;> (have := hin.2; linarith)
      simp only [Bool.or_eq_false_iff, decide_eq_false_iff_not]
      exact ⟨by linarith [hin.1], this⟩
    · right
      by_cases hp : F.val b = t.max + 1 ∧ F.m + 1 < t.digits
      · left
        refine ⟨⟨hfin, hp⟩, hdec, ?_⟩
        have hmin : (t.min : ℚ) ≤ 0 := by exact_mod_cast t.min_nonpos
        have hmax : (0:ℚ) ≤ t.max := by exact_mod_cast t.max_nonneg
        simp only [Bool.or_eq_false_iff, decide_eq_false_iff_not]
        rw [ofInt_max ht, if_neg (by omega), hp.1]
        constructor <;> linarith
      · right
        refine ⟨hfin, fun h => hin h.2, fun h => hp h.2, ?_⟩
        simp only [Bool.or_eq_true, decide_eq_true_eq]
        by_cases hlo : F.val b < t.min
        · left; exact hlo
        · right
          have hhi : (t.max : ℚ) < F.val b := by
            by_contra hc
            exact hin ⟨by linarith, by linarith⟩
          rw [ofInt_max ht]
          split_ifs with hd
          · exact hhi
          · by_contra hc
            exact hp ⟨val_gap ht (by omega) hhi (by linarith), by omega⟩

/-- **C27** (overflow mode), the part that holds.  For every bit pattern that is not a NaN, and not the single value
    one past an unrepresentable maximum: a value within the limits of the target is stored truncated toward zero,
    everything else — including both infinities — raises an overflow error. -/
theorem float_to_int_overflow_partial (F : Fmt) (t : IntTy) (ht : t.Valid) (b : Nat) (hnan : ¬ F.IsNan b)
    (hpast : ¬ PastMax F t b) :
    (InRange F t b → ∃ n, overflowCastFI F t (F.decode b) = .ok n ∧ IsTrunc (F.val b) n ∧ t.Has n) ∧
    (¬ InRange F t b → overflowCastFI F t (F.decode b) = .throw .overflow) := by
  have hdef : overflowCastFI F t (F.decode b) =
    if rangeTest F t (F.decode b) then .throw .overflow else fpToInt t (F.decode b) := rfl
  rw [hdef]
  rcases rangeTest_cases (F := F) ht b with ⟨h, _⟩ | ⟨h, _, hr⟩ | ⟨h, hd, hr⟩ | ⟨h, _⟩ | ⟨_, h, _, hr⟩
  · exact absurd h hnan
  · rw [hr]
    exact ⟨fun hc => absurd h.1 hc.1, fun _ => rfl⟩
  · rw [hr]
    refine ⟨fun _ => ⟨ratTrunc (F.val b), ?_, ratTrunc_spec _, ratTrunc_has h.2.1 h.2.2 t.min_nonpos t.max_nonneg⟩,
      fun hc => absurd h hc⟩
    rw [if_neg (by simp), hd]
    exact if_pos (ratTrunc_has h.2.1 h.2.2 t.min_nonpos t.max_nonneg)
  · exact absurd h hpast
  · rw [hr]
    exact ⟨fun hc => absurd hc h, fun _ => rfl⟩

/-- **C27** (overflow mode), the part that fails: for *every* NaN, for every target, and for the value one past the
    maximum of every target whose maximum is not representable, the checks pass and the conversion is undefined. -/
theorem float_to_int_overflow_violated (F : Fmt) (t : IntTy) (ht : t.Valid) (b : Nat)
    (h : F.IsNan b ∨ PastMax F t b) : overflowCastFI F t (F.decode b) = .ub := by
  have hdef : overflowCastFI F t (F.decode b) =
    if rangeTest F t (F.decode b) then .throw .overflow else fpToInt t (F.decode b) := rfl
  rw [hdef]
  rcases rangeTest_cases (F := F) ht b with ⟨_, hd, hr⟩ | ⟨h', _⟩ | ⟨h', _⟩ | ⟨h', hd, hr⟩ | ⟨h', _, h'', _⟩
  · rw [hr, hd]; rfl
  · rcases h with h | h
    · exact absurd h'.2 h.2
    · exact absurd h'.1 h.1
  · rcases h with h | h
    · exact absurd h.1 h'.1
    · have := h'.2.2
      rw [h.2.1] at this
      exfalso; linarith
  · rw [hr, hd, if_neg (by simp)]
    have : ratTrunc (F.val b) = t.max + 1 := by
      rw [h'.2.1]
      have := ratTrunc_int (t.max + 1)
      push_cast at this; exact this
    simp only [fpToInt]
    rw [this]
    exact if_neg (by unfold IntTy.Has; omega)
  · rcases h with h | h
    · exact absurd h.1 h'
    · exact absurd h h''

/-- **C27** (fractional mode, the default), the part that holds: every NaN raises, and apart from the single value
    one past an unrepresentable maximum, an integral value within the limits is stored exactly, and everything else
    raises. -/
theorem float_to_int_fractional_partial (F : Fmt) (t : IntTy) (ht : t.Valid) (b : Nat) (hpast : ¬ PastMax F t b) :
    (∀ n : Int, F.IsFinite b → F.val b = n → t.Has n → fractionalCastFI F t (F.decode b) = .ok n) ∧
    ((¬ ∃ n : Int, F.IsFinite b ∧ F.val b = n ∧ t.Has n) →
      fractionalCastFI F t (F.decode b) = .throw .overflow ∨ fractionalCastFI F t (F.decode b) = .throw .runtime) := by
  have hdef : fractionalCastFI F t (F.decode b) =
    if rangeTest F t (F.decode b) then .throw .overflow
    else if floorNe (F.decode b) then .throw .runtime else fpToInt t (F.decode b) := rfl
  rw [hdef]
  rcases rangeTest_cases (F := F) ht b with ⟨h, hd, hr⟩ | ⟨h, _, hr⟩ | ⟨h, hd, hr⟩ | ⟨h, _⟩ | ⟨_, h, _, hr⟩
  · rw [hr, hd]
    exact ⟨fun n hf => absurd h.1 hf, fun _ => Or.inr rfl⟩
  · rw [hr]
    exact ⟨fun n hf => absurd h.1 hf, fun _ => Or.inl rfl⟩
  · rw [hr, hd, if_neg (by simp)]
    constructor
    · intro n _ hv hn
      have hfl : floorNe (.fin (F.val b)) = false := by
        unfold floorNe; rw [hv]; simp
      rw [hfl, if_neg (by simp), hv]
      simp only [fpToInt]
      rw [ratTrunc_int]
      exact if_pos hn
    · intro hno
      right
      have hfl : floorNe (.fin (F.val b)) = true := by
        unfold floorNe
        simp only [decide_eq_true_eq]
        intro hc
        apply hno
        refine ⟨⌊F.val b⌋, h.1, hc.symm, ?_, ?_⟩
        · have := h.2.1; rw [← hc] at this; exact_mod_cast this
        · have := h.2.2; rw [← hc] at this; exact_mod_cast this
      rw [hfl]; rfl
  · exact absurd h hpast
  · rw [hr]
    refine ⟨?_, fun _ => Or.inl rfl⟩
    intro n hf hv hn
    exfalso
    apply h
    refine ⟨hf, ?_, ?_⟩ <;> rw [hv] <;> [exact_mod_cast hn.1; exact_mod_cast hn.2]

/-- **C27** (fractional mode), the part that fails: one past an unrepresentable maximum. -/
theorem float_to_int_fractional_violated (F : Fmt) (t : IntTy) (ht : t.Valid) (b : Nat) (h : PastMax F t b) :
    fractionalCastFI F t (F.decode b) = .ub := by
  have h1 := float_to_int_overflow_violated F t ht b (Or.inr h)
  have hdec : F.decode b = .fin (F.val b) := by
    have : F.ex b ≠ F.expMax := h.1
    unfold Fmt.decode; rw [if_neg this]
  unfold overflowCastFI at h1
  unfold fractionalCastFI
  split_ifs at h1
  rw [if_neg ‹_›, h1]
  have hfl : floorNe (F.decode b) = false := by
    rw [hdec, h.2.1]
    unfold floorNe
    simp
  rw [hfl]; rfl

/-- The excluded case really occurs, for `int64` and `double` at `2^63`, and for `int32` and `float` at `2^31`; and
    not for `int32` and `double`. -/
example : PastMax double ⟨64, true⟩ 0x43e0000000000000 ∧ PastMax single ⟨32, true⟩ 0x4f000000 ∧
    (∀ b, ¬ PastMax double ⟨32, true⟩ b) := by
  refine ⟨⟨?_, ?_, ?_⟩, ⟨?_, ?_, ?_⟩, ?_⟩
  · simp [Fmt.IsFinite, Fmt.ex, Fmt.expMax, double]
  · simp [Fmt.val, Fmt.smag, Fmt.mag, Fmt.sgn, Fmt.ex, Fmt.sig, Fmt.unit, Fmt.bias, double, IntTy.max]
    rw [show (1085:Nat) = 11 + 1074 from rfl, pow_add, ← mul_assoc, mul_div_assoc, div_self (by positivity)]; norm_num
  · simp [double, IntTy.digits]
  · simp [Fmt.IsFinite, Fmt.ex, Fmt.expMax, single]
  · simp [Fmt.val, Fmt.smag, Fmt.mag, Fmt.sgn, Fmt.ex, Fmt.sig, Fmt.unit, Fmt.bias, single, IntTy.max]; norm_num
  · simp [single, IntTy.digits]
  · rintro b ⟨_, _, h⟩
    simp [double, IntTy.digits] at h


/-! ### integer → float -/

theorem IntTy.natAbs_le {t : IntTy} {x : Int} (h : t.Has x) : x.natAbs ≤ 2 ^ t.digits := by
  have h1 := t.max_eq
  have h2 := t.min_eq
  have : 1 ≤ 2 ^ t.digits := Nat.one_le_two_pow
  unfold IntTy.Has at h
  split_ifs at h2 <;> omega

theorem IntTy.digits_le {t : IntTy} (h : t.bits ≤ 64) : 2 ^ t.digits ≤ 2 ^ 64 := by
  apply Nat.pow_le_pow_right (by omega)
  unfold IntTy.digits; split_ifs <;> omega

/-- Rounding an integer of type `t` gives an integer within the limits, or one past the maximum. -/
theorem ofInt_range {F : Fmt} {t : IntTy} {x : Int} (h : t.Has x) :
    ∃ n : Int, F.ofInt x = n ∧ t.min ≤ n ∧ n ≤ t.max + 1 := by
  have h1 := t.max_eq
  have h2 := t.min_eq
  have h3 : rneNat (F.m + 1) 0 x.natAbs ≤ 2 ^ t.digits := by
    by_cases h0 : x.natAbs = 0
    · rw [h0, rneNat_of_bits (Nat.dvd_zero _) (Nat.dvd_zero _)]; exact Nat.zero_le _
    · unfold rneNat
      have hle := IntTy.natAbs_le h
      have hlog : x.natAbs.log2 ≤ t.digits := by
        have := (log2_bounds h0).1
        rcases Nat.lt_or_ge t.digits x.natAbs.log2 with hc | hc
        · have := Nat.pow_lt_pow_right (a := 2) (by omega) hc
          omega
        · exact hc
      exact rneDrop_le (Nat.pow_dvd_pow 2 (by omega)) hle
  by_cases hx : x < 0
  · refine ⟨-(rneNat (F.m + 1) 0 x.natAbs : Nat), by unfold Fmt.ofInt; rw [if_pos hx]; push_cast; rfl, ?_⟩
    generalize rneNat (F.m + 1) 0 x.natAbs = r at *
    have := t.max_nonneg
    have hs : t.signed = true := by
      by_contra hc
      rw [if_neg hc] at h2
      have := h.1; omega
    rw [if_pos hs] at h2
    omega
  · refine ⟨(rneNat (F.m + 1) 0 x.natAbs : Nat), by unfold Fmt.ofInt; rw [if_neg hx]; push_cast; rfl, ?_⟩
    generalize rneNat (F.m + 1) 0 x.natAbs = r at *
    have := t.min_nonpos
    omega

theorem checkCastIF_eq {F : Fmt} {t : IntTy} {x n : Int} (h : F.ofInt x = n) :
    checkCastIF F t x = if t.Has n then (if n ≠ x then .throw .runtime else .ok (.fin (n : ℚ))) else .ub := by
  unfold checkCastIF
  rw [h]
  simp only [fpToInt]
  rw [ratTrunc_int]
  by_cases hn : t.Has n
  · rw [if_pos hn, if_pos hn]; rfl
  · rw [if_neg hn, if_neg hn]; rfl

/-- **C60**, the part that holds: assigning an integer to `float`/`double` with inexact checking stores exactly that
    integer if it is representable; otherwise it raises, provided the rounded value does not reach one past the
    maximum of the source type. -/
theorem int_to_float_inexact_partial (F : Fmt) (hF : Std F) (t : IntTy) (ht : t.bits ≤ 64) (x : Int) (hx : t.Has x) :
    (F.Represents x → checkCastIF F t x = .ok (.fin x)) ∧
    (¬ F.Represents x → F.ofInt x ≠ t.max + 1 → checkCastIF F t x = .throw .runtime) := by
  have hle : x.natAbs ≤ 2 ^ 64 := Nat.le_trans (IntTy.natAbs_le hx) (IntTy.digits_le ht)
  have hex := ofInt_exact hF hle
  obtain ⟨n, hn, hr1, hr2⟩ := ofInt_range (F := F) hx
  rw [checkCastIF_eq hn]
  constructor
  · intro h
    rw [hex, hn] at h
    have : n = x := by exact_mod_cast h
    subst this
    rw [if_pos hx, if_neg (by simp)]
  · intro h hne
    have hn' : t.Has n := by
      refine ⟨hr1, ?_⟩
      have : n ≠ t.max + 1 := by rintro rfl; apply hne; rw [hn]; push_cast; rfl
      omega
    rw [if_pos hn', if_pos]
    rintro rfl
    exact h (hex.2 hn)

/-- **C60**, the part that fails: when the rounded value is one past the maximum of the source type, converting it
    back for the check is undefined. -/
theorem int_to_float_inexact_violated (F : Fmt) (t : IntTy) (x : Int) (h : F.ofInt x = t.max + 1) :
    checkCastIF F t x = .ub := by
  have hn : F.ofInt x = ((t.max + 1 : Int) : ℚ) := by rw [h]; push_cast; rfl
  rw [checkCastIF_eq hn, if_neg]
  unfold IntTy.Has; omega

/-- It happens for the largest `int64` into `double`, and the largest `int32` into `float`; `2^53 + 1` raises and
    `2^60` is stored. -/
example : checkCastIF double ⟨64, true⟩ (2 ^ 63 - 1) = .ub ∧ checkCastIF single ⟨32, true⟩ (2 ^ 31 - 1) = .ub ∧
    checkCastIF double ⟨64, true⟩ (2 ^ 53 + 1) = .throw .runtime ∧
    checkCastIF double ⟨64, true⟩ (2 ^ 60) = .ok (.fin ((2 ^ 60 : Int) : ℚ)) := by
  refine ⟨?_, ?_, ?_, ?_⟩
  · apply int_to_float_inexact_violated
    have := ofInt_max (F := double) (t := ⟨64, true⟩) (by simp [IntTy.Valid])
    rw [if_neg (by simp [IntTy.digits, double])] at this
    simpa [IntTy.max] using this
  · apply int_to_float_inexact_violated
    have := ofInt_max (F := single) (t := ⟨32, true⟩) (by simp [IntTy.Valid])
    rw [if_neg (by simp [IntTy.digits, single])] at this
    simpa [IntTy.max] using this
  · rw [checkCastIF_eq (n := 2 ^ 53) (by
      unfold Fmt.ofInt; rw [if_neg (by norm_num)]
      have : rneNat (double.m + 1) 0 (2 ^ 53 + 1 : Int).natAbs = 2 ^ 53 := by decide
      rw [this]; norm_num)]
    decide
  · exact (int_to_float_inexact_partial double (Or.inr rfl) ⟨64, true⟩ (by decide) (2 ^ 60) (by decide)).1
      ((represents_int (Or.inr rfl) (by decide)).2 (bits_pow (e := 60) (by decide)))

/-! ### float → float -/

theorem maxMag_lt {G : Fmt} (hG : Std G) : G.maxMag < 2 ^ (G.m + (G.expMax - 1)) := by
  obtain ⟨b1, b2, b3, b4, b5⟩ := std_facts hG
  unfold Fmt.maxMag
  have p : 0 < 2 ^ (G.expMax - 2) := Nat.pow_pos (by omega)
  have : 1 ≤ 2 ^ (G.m + 1) := Nat.one_le_two_pow
  calc (2 ^ (G.m + 1) - 1) * 2 ^ (G.expMax - 2) < 2 ^ (G.m + 1) * 2 ^ (G.expMax - 2) :=
        Nat.mul_lt_mul_of_pos_right (by omega) p
    _ = _ := by rw [← Nat.pow_add]; congr 1; omega

/-- The numbers of a format, as fractions `N / 2^u`. -/
theorem represents_frac {G : Fmt} (hG : Std G) {N u s : Nat} (hs : s < 2) :
    G.Represents (if s = 1 then -((N : ℚ) / 2 ^ u) else (N : ℚ) / 2 ^ u) ↔
      (N : ℚ) / 2 ^ u ≤ G.maxFinite ∧ Bits (G.m + 1) N ∧ 2 ^ (u - G.unit) ∣ N := by
  obtain ⟨b1, b2, b3, b4, b5⟩ := std_facts hG
  have pos : (0:ℚ) ≤ (N : ℚ) / 2 ^ u := by positivity
  constructor
  · rintro ⟨b, hb, hf, hv⟩
    have ha := val_abs (F := G) b
    have : |G.val b| = (N : ℚ) / 2 ^ u := by
      rw [hv]; split_ifs
      · rw [abs_neg, abs_of_nonneg pos]
      · exact abs_of_nonneg pos
    rw [this] at ha
    have hm := mag_lt hf b4 (by omega)
    refine ⟨?_, ?_, ?_⟩
    · rw [ha]; unfold Fmt.maxFinite
      have : (G.mag b : ℚ) ≤ (G.maxMag : ℚ) := by exact_mod_cast hm
      exact div_le_div_of_nonneg_right this (by positivity)
    · rw [rat_div_pow_eq] at ha
      have := mag_bits (F := G) b
      rw [← bits_scale (U := u), ← ha, bits_scale] at this
      exact this
    · rw [rat_div_pow_eq] at ha
      rcases Nat.le_total u G.unit with h | h
      · rw [show u - G.unit = 0 by omega]; simp
      · obtain ⟨d, rfl⟩ : ∃ d, u = d + G.unit := ⟨u - G.unit, by omega⟩
        rw [Nat.add_sub_cancel, Nat.pow_add, ← Nat.mul_assoc] at *
        have := Nat.eq_of_mul_eq_mul_right (Nat.pow_pos (by omega)) ha
        exact ⟨G.mag b, by rw [this]; ring⟩
  · rintro ⟨h1, h2, h3⟩
    obtain ⟨c, hc⟩ := h3
    -- magnitude in units of G
    obtain ⟨M, hM⟩ : ∃ M, M = c * 2 ^ (G.unit - u) := ⟨_, rfl⟩
    have hMv : (N : ℚ) / 2 ^ u = (M : ℚ) / 2 ^ G.unit := by
      rw [rat_div_pow_eq, hc, hM]
      rcases Nat.le_total u G.unit with h | h
      · rw [show u - G.unit = 0 by omega]
        obtain ⟨d, hd⟩ : ∃ d, G.unit = d + u := ⟨G.unit - u, by omega⟩
        rw [hd, Nat.add_sub_cancel, Nat.pow_add]; ring
      · rw [show G.unit - u = 0 by omega]
        obtain ⟨d, hd⟩ : ∃ d, u = d + G.unit := ⟨u - G.unit, by omega⟩
        rw [hd, Nat.add_sub_cancel, Nat.pow_add]; ring
    have hbits : Bits (G.m + 1) M := by
      rw [hM, bits_scale]
      rw [hc, Nat.mul_comm, bits_scale] at h2
      exact h2
    have hMlt : M < 2 ^ (G.m + (G.expMax - 1)) := by
      have h4 : (M : ℚ) ≤ (G.maxMag : ℚ) := by
        rw [hMv] at h1; unfold Fmt.maxFinite at h1
        exact (div_le_div_iff_of_pos_right (by positivity)).1 h1
      have h4' : M ≤ G.maxMag := by exact_mod_cast h4
      exact Nat.lt_of_le_of_lt h4' (maxMag_lt hG)
    obtain ⟨b, hb1, hb2, hb3, hb4⟩ := mag_surj (F := G) hs hbits hMlt (by omega) (by omega)
    refine ⟨b, hb1, hb2, ?_⟩
    rw [val_sign, hb3, hb4, hMv]

/-- **C61** (inexact mode): assigning between `float` and `double` with inexact checking stores a value equal to the
    source exactly when the target has it (both infinities included), and raises otherwise (NaN always raises). -/
theorem float_to_float_inexact (F G : Fmt) (hF : Std F) (hG : Std G) (b : Nat) :
    (F.IsFinite b → G.Represents (F.val b) → checkCastFF F G b = .ok (.fin (F.val b))) ∧
    (F.IsFinite b → ¬ G.Represents (F.val b) → checkCastFF F G b = .throw .runtime) ∧
    (F.IsInf b → checkCastFF F G b = .ok (F.decode b)) ∧
    (F.IsNan b → checkCastFF F G b = .throw .runtime) := by
  have hsg : F.sgn b < 2 := sgn_lt b
  refine ⟨?_, ?_, ?_, ?_⟩
  · intro hf hr
    have hdec : F.decode b = .fin (F.val b) := by
      have : F.ex b ≠ F.expMax := hf
      unfold Fmt.decode; rw [if_neg this]
    have hvs := val_sign (F := F) b
    rw [hvs, represents_frac hG hsg] at hr
    obtain ⟨h1, h2, h3⟩ := hr
    have hconv : F.convert G b = .fin (F.val b) := by
      unfold Fmt.convert; rw [hdec]
      simp only
      rw [rneNat_of_bits h2 h3, if_neg (by linarith), hvs]
      split_ifs <;> rfl
    have hfa : finiteAbove G (F.decode b) = false := by
      rw [hdec, hvs]
      have pos : (0:ℚ) ≤ (F.mag b : ℚ) / 2 ^ F.unit := by positivity
      unfold finiteAbove
      simp only [Bool.or_eq_false_iff, decide_eq_false_iff_not]
      split_ifs <;> constructor <;> linarith
    unfold checkCastFF
    rw [hfa, if_neg (by simp), hconv, hdec]
    simp [FV.eq]
  · intro hf hr
    have hdec : F.decode b = .fin (F.val b) := by
      have : F.ex b ≠ F.expMax := hf
      unfold Fmt.decode; rw [if_neg this]
    unfold checkCastFF
    by_cases hfa : finiteAbove G (F.decode b) = true
    · rw [if_pos hfa]
    · rw [if_neg hfa]
      simp only
      rw [if_pos]
      rw [hdec]
      have hvs := val_sign (F := F) b
      unfold Fmt.convert; rw [hdec]
      simp only
      have hb := rneNat_bits (p := G.m + 1) (kmin := F.unit - G.unit) (n := F.mag b) (by omega)
      by_cases hgt : (rneNat (G.m + 1) (F.unit - G.unit) (F.mag b) : ℚ) / 2 ^ F.unit > G.maxFinite
      · rw [if_pos hgt]; rfl
      · rw [if_neg hgt]
        have hrep := (represents_frac hG (s := F.sgn b) (u := F.unit) hsg).2 ⟨by linarith, hb.1, hb.2⟩
        have hne : (if F.sgn b = 1 then -((rneNat (G.m + 1) (F.unit - G.unit) (F.mag b) : ℚ) / 2 ^ F.unit)
            else (rneNat (G.m + 1) (F.unit - G.unit) (F.mag b) : ℚ) / 2 ^ F.unit) ≠ F.val b := by
          intro hc; rw [hc] at hrep; exact hr hrep
        split_ifs at hne ⊢ <;> simp [FV.eq, hne]
  · rintro ⟨h1, h2⟩
    have hdec : F.decode b = .inf (decide (F.sgn b = 1)) := by unfold Fmt.decode; rw [if_pos h1, if_neg (by omega)]
    have hconv : F.convert G b = .inf (decide (F.sgn b = 1)) := by
      unfold Fmt.convert; rw [hdec]
    unfold checkCastFF
    rw [hconv, hdec]
    simp [finiteAbove, FV.eq]
  · rintro ⟨h1, h2⟩
    have hdec : F.decode b = .nan := by unfold Fmt.decode; rw [if_pos h1, if_pos h2]
    have hconv : F.convert G b = .nan := by
      unfold Fmt.convert; rw [hdec]
    unfold checkCastFF
    rw [hconv, hdec]
    rfl

/-- **C61** (overflow mode): a finite value beyond the target's largest raises; any other finite value is stored as a
    nearest value of the target; infinities and NaNs are kept. -/
theorem float_to_float_overflow (F G : Fmt) (hF : Std F) (hG : Std G) (b : Nat) :
    (F.IsFinite b → G.maxFinite < |F.val b| → overflowCastFF F G b = .throw .overflow) ∧
    (F.IsFinite b → |F.val b| ≤ G.maxFinite → ∃ r, overflowCastFF F G b = .ok (.fin r) ∧ G.Represents r ∧
      ∀ r', G.Represents r' → |F.val b - r| ≤ |F.val b - r'|) ∧
    (¬ F.IsFinite b → overflowCastFF F G b = .ok (F.decode b)) := by
  have hsg : F.sgn b < 2 := sgn_lt b
  have hvs := val_sign (F := F) b
  have hva := val_abs (F := F) b
  have pos : (0:ℚ) ≤ (F.mag b : ℚ) / 2 ^ F.unit := by positivity
  have hfin : F.IsFinite b → F.decode b = .fin (F.val b) := fun hf => by
      have : F.ex b ≠ F.expMax := hf
      unfold Fmt.decode; rw [if_neg this]
  have hfa : F.IsFinite b → (finiteAbove G (F.decode b) = true ↔ G.maxFinite < |F.val b|) := fun hf => by
    rw [hfin hf, hva, hvs]
    have : (0:ℚ) ≤ G.maxFinite := by unfold Fmt.maxFinite; positivity
    unfold finiteAbove
    simp only [Bool.or_eq_true, decide_eq_true_eq]
    split_ifs
    · constructor
      · rintro (h | h) <;> linarith
      · intro h; left; linarith
    · constructor
      · rintro (h | h) <;> linarith
      · intro h; right; exact h
  refine ⟨?_, ?_, ?_⟩
  · intro hf h
    unfold overflowCastFF
    rw [(hfa hf).2 h]; rfl
  · intro hf h
    have hno : finiteAbove G (F.decode b) ≠ true := fun hc => by
      have := (hfa hf).1 hc; linarith
    have hb := rneNat_bits (p := G.m + 1) (kmin := F.unit - G.unit) (n := F.mag b) (by omega)
    -- maxFinite itself is a candidate, so the rounded value does not exceed it
    obtain ⟨b1, b2, b3, b4, b5⟩ := std_facts hG
    have hcand : ∀ c : Nat, Bits (G.m + 1) c → 2 ^ (F.unit - G.unit) ∣ c →
        |(F.mag b : ℚ) / 2 ^ F.unit - (rneNat (G.m + 1) (F.unit - G.unit) (F.mag b) : ℚ) / 2 ^ F.unit| ≤
          |(F.mag b : ℚ) / 2 ^ F.unit - (c : ℚ) / 2 ^ F.unit| := by
      intro c hc1 hc2
      have h1 := rneNat_nearest (n := F.mag b) hc1 hc2
      have e : ∀ x y : Nat, |(x : ℚ) / 2 ^ F.unit - (y : ℚ) / 2 ^ F.unit| = ((|(x : Int) - y| : Int) : ℚ) / 2 ^ F.unit := by
        intro x y
        have := abs_pow2_scale ((x : Int) - y) F.unit
        rw [← this]; push_cast; congr 1; ring
      rw [e, e]
      exact div_le_div_of_nonneg_right (by exact_mod_cast h1) (by positivity)
    have hle : ∀ c : Nat, Bits (G.m + 1) c → 2 ^ (F.unit - G.unit) ∣ c → F.mag b ≤ c →
        rneNat (G.m + 1) (F.unit - G.unit) (F.mag b) ≤ c := by
      intro c hc1 hc2 hc3
      have h1 := rneNat_nearest (n := F.mag b) hc1 hc2
      have e2 : |(F.mag b : Int) - c| = c - F.mag b := by rw [abs_of_nonpos (by omega)]; ring
      have := neg_abs_le ((F.mag b : Int) - rneNat (G.m + 1) (F.unit - G.unit) (F.mag b))
      omega
    obtain ⟨N', hN'⟩ : ∃ N', N' = rneNat (G.m + 1) (F.unit - G.unit) (F.mag b) := ⟨_, rfl⟩
    rw [← hN'] at hb hcand hle
    have key : (N' : ℚ) / 2 ^ F.unit ≤ G.maxFinite ∧
        ∀ ρ, G.Represents ρ → |(F.mag b : ℚ) / 2 ^ F.unit - (N' : ℚ) / 2 ^ F.unit| ≤ |(F.mag b : ℚ) / 2 ^ F.unit - ρ| := by
      rcases Nat.lt_or_ge F.unit G.unit with hu | hu
      · -- widening: exact
        have hm : F.m ≤ G.m := by
          rcases hF with rfl | rfl <;> rcases hG with rfl | rfl <;>
            simp [single, double, Fmt.unit, Fmt.bias] at hu ⊢
        have hx : N' = F.mag b := by
          rw [hN']
          apply rneNat_of_bits
          · exact Nat.dvd_trans (Nat.pow_dvd_pow 2 (by omega)) (mag_bits (F := F) b)
          · rw [show F.unit - G.unit = 0 by omega]; simp
        rw [hx]
        refine ⟨by rw [← hva]; exact h, fun ρ _ => ?_⟩
        rw [sub_self, abs_zero]; exact abs_nonneg _
      · obtain ⟨d, hd⟩ : ∃ d, F.unit = d + G.unit := ⟨F.unit - G.unit, by omega⟩
        have hd' : F.unit - G.unit = d := by omega
        have scale : ∀ M : Nat, (M : ℚ) / 2 ^ G.unit = ((M * 2 ^ d : Nat) : ℚ) / 2 ^ F.unit := by
          intro M; rw [rat_div_pow_eq, hd, Nat.pow_add]; ring
        constructor
        · unfold Fmt.maxFinite at h ⊢
          rw [scale] at h ⊢
          rw [hva] at h
          have h1 : F.mag b ≤ G.maxMag * 2 ^ d := by
            have := (div_le_div_iff_of_pos_right (by positivity)).1 h
            exact_mod_cast this
          have h2 : N' ≤ G.maxMag * 2 ^ d := by
            apply hle _ _ _ h1
            · rw [bits_scale]; unfold Fmt.maxMag
              exact bits_of_mul (by have : 1 ≤ 2 ^ (G.m + 1) := Nat.one_le_two_pow; omega)
            · rw [hd']; exact Nat.dvd_mul_left _ _
          exact div_le_div_of_nonneg_right (by exact_mod_cast h2) (by positivity)
        · rintro ρ ⟨b', _, _, rfl⟩
          have h1 := hcand (G.mag b' * 2 ^ d) (by rw [bits_scale]; exact mag_bits _) (by rw [hd']; exact Nat.dvd_mul_left _ _)
          rw [← scale (G.mag b'), ← val_abs (F := G)] at h1
          have h2 : abs ((F.mag b : ℚ) / 2 ^ F.unit - abs (G.val b')) ≤ abs ((F.mag b : ℚ) / 2 ^ F.unit - G.val b') := by
            have := abs_abs_sub_abs_le ((F.mag b : ℚ) / 2 ^ F.unit) (G.val b')
            rwa [abs_of_nonneg pos] at this
          exact le_trans h1 h2
    have hrep := (represents_frac hG (s := F.sgn b) (u := F.unit) hsg).2 ⟨key.1, hb.1, hb.2⟩
    refine ⟨_, ?_, hrep, ?_⟩
    · unfold overflowCastFF
      rw [if_neg hno]
      unfold Fmt.convert
      rw [hfin hf]
      simp only
      rw [← hN', if_neg (by have := key.1; linarith)]
      split_ifs <;> rfl
    · intro r' hr'
      by_cases hs : F.sgn b = 1
      · rw [hvs, if_pos hs, if_pos hs]
        have hneg : G.Represents (-r') := by
          obtain ⟨b', hb1, hb2, hb3⟩ := hr'
          obtain ⟨b'', c1, c2, c3, c4⟩ := mag_surj (F := G) (s := 1 - G.sgn b') (by omega) (mag_bits (F := G) b')
            (Nat.lt_of_le_of_lt (mag_lt hb2 b4 (by omega)) (maxMag_lt hG)) (by omega) (by omega)
          refine ⟨b'', c1, c2, ?_⟩
          have hsb : G.sgn b' < 2 := sgn_lt b'
          rw [← hb3, val_sign, val_sign, c3, c4]
          rcases (by omega : G.sgn b' = 0 ∨ G.sgn b' = 1) with e | e <;> rw [e] <;> simp
        have := key.2 _ hneg
        rw [← abs_neg] at this
        rw [← abs_neg (_ - - r')] at this
        convert this using 2 <;> ring
      · rw [hvs, if_neg hs, if_neg hs]
        exact key.2 _ hr'
  · intro hf
    have he : F.ex b = F.expMax := by
      by_contra hc; exact hf hc
    by_cases hs : F.sig b ≠ 0
    · have hdec : F.decode b = .nan := by unfold Fmt.decode; rw [if_pos he, if_pos hs]
      unfold overflowCastFF Fmt.convert
      rw [hdec]; rfl
    · have hdec : F.decode b = .inf (decide (F.sgn b = 1)) := by unfold Fmt.decode; rw [if_pos he, if_neg hs]
      unfold overflowCastFF Fmt.convert
      rw [hdec]; rfl


/-- **C27** for `bool`: exactly 0 and 1 are accepted (NaN, infinities and everything else raise). -/
theorem float_to_bool_exact (F : Fmt) (b : Nat) :
    (F.IsFinite b → F.val b = 0 → overflowCastFB (F.decode b) = .ok false) ∧
    (F.IsFinite b → F.val b = 1 → overflowCastFB (F.decode b) = .ok true) ∧
    (¬ (F.IsFinite b ∧ (F.val b = 0 ∨ F.val b = 1)) → overflowCastFB (F.decode b) = .throw .overflow) := by
  by_cases hf : F.IsFinite b
  · have hdec : F.decode b = .fin (F.val b) := by
      have : F.ex b ≠ F.expMax := hf
      unfold Fmt.decode; rw [if_neg this]
    rw [hdec]
    refine ⟨fun _ h => by rw [h]; rfl, fun _ h => by rw [h]; rfl, fun h => ?_⟩
    have h0 : F.val b ≠ 0 := fun hc => h ⟨hf, Or.inl hc⟩
    have h1 : F.val b ≠ 1 := fun hc => h ⟨hf, Or.inr hc⟩
    simp [overflowCastFB, FV.eq, h0, h1]
  · have he : F.ex b = F.expMax := by by_contra hc; exact hf hc
    refine ⟨fun h => absurd h hf, fun h => absurd h hf, fun _ => ?_⟩
    unfold Fmt.decode
    rw [if_pos he]
    split_ifs <;> rfl

/-- **C27** for complex sources: an imaginary part that is not zero (NaN included) raises; otherwise the conversion
    is that of the real part. -/
theorem complex_to_int (F : Fmt) (t : IntTy) (re im : Nat) :
    (F.IsFinite im ∧ F.val im = 0 → overflowCastCI F t (F.decode re) (F.decode im) = overflowCastFI F t (F.decode re) ∧
      fractionalCastCI F t (F.decode re) (F.decode im) = fractionalCastFI F t (F.decode re)) ∧
    (¬ (F.IsFinite im ∧ F.val im = 0) → overflowCastCI F t (F.decode re) (F.decode im) = .throw .runtime ∧
      fractionalCastCI F t (F.decode re) (F.decode im) = .throw .runtime) := by
  have hz : FV.eq (F.decode im) (.fin 0) = true ↔ (F.IsFinite im ∧ F.val im = 0) := by
    unfold Fmt.decode Fmt.IsFinite
    split_ifs with h1 h2
    · simp [FV.eq, h1]
    · simp [FV.eq, h1]
    · simp [FV.eq, h1]
  unfold overflowCastCI fractionalCastCI
  constructor
  · intro h; rw [hz.2 h]; exact ⟨rfl, rfl⟩
  · intro h
    have : FV.eq (F.decode im) (.fin 0) = false := by
      cases hc : FV.eq (F.decode im) (.fin 0)
      · rfl
      · exact absurd (hz.1 hc) h
    rw [this]; exact ⟨rfl, rfl⟩

/-- 0.1 as a double is not a float: inexact raises; 0.5 is. -/
example : checkCastFF double single 0x3fe0000000000000 = .ok (.fin (1 / 2)) := by
  have hv : double.val 0x3fe0000000000000 = 1 / 2 := by
    simp [Fmt.val, Fmt.smag, Fmt.mag, Fmt.sgn, Fmt.ex, Fmt.sig, Fmt.unit, Fmt.bias, double]
    rw [show (1074:Nat) = 53 + 1021 from rfl, pow_add, div_mul_eq_div_div, mul_div_assoc, mul_div_assoc,
      div_right_comm, div_self (by positivity)]; norm_num
  rw [← hv]
  apply (float_to_float_inexact double single (Or.inr rfl) (Or.inl rfl) _).1
  · simp [Fmt.IsFinite, Fmt.ex, Fmt.expMax, double]
  · rw [hv]
    refine ⟨0x3f000000, by decide, ?_, ?_⟩
    · simp [Fmt.IsFinite, Fmt.ex, Fmt.expMax, single]
    · simp [Fmt.val, Fmt.smag, Fmt.mag, Fmt.sgn, Fmt.ex, Fmt.sig, Fmt.unit, Fmt.bias, single]; norm_num

end Dynd
