/-
C35, C63: arithmetic promotion and lossless assignment between builtin types.
-/
import Verif.Model.Promote
import Verif.Props.FloatCastProps

namespace Dynd
open Fmt

/-! ### specification: the values of a builtin type -/

/-- binary128 -/
def Fmt.quad : Fmt := ⟨112, 15⟩

/-- the IEEE format of a float type -/
def FW.fmt : FW → Fmt | .f16 => .half | .f32 => .single | .f64 => .double | .f128 => .quad
/-- the IEEE format of the parts of a complex type -/
def CW.fmt : CW → Fmt | .c32 => .single | .c64 => .double
/-- the integer type of a width -/
def Wd.bits (w : Wd) : Nat := 8 * w.size

/-- A numeric value: a finite complex rational, or a float special (infinity or NaN), with which part is special left
    open. -/
inductive NVal where
  | num (re im : ℚ)
  | special

/-- Specification: the type can represent the value. -/
def BTy.Can : BTy → NVal → Prop
  | .void, _ => False
  | .bool, .num re im => (re = 0 ∨ re = 1) ∧ im = 0
  | .int w, .num re im => (∃ n : Int, (IntTy.mk w.bits true).Has n ∧ re = n) ∧ im = 0
  | .uint w, .num re im => (∃ n : Int, (IntTy.mk w.bits false).Has n ∧ re = n) ∧ im = 0
  | .flt f, .num re im => f.fmt.Represents re ∧ im = 0
  | .cplx c, .num re im => c.fmt.Represents re ∧ c.fmt.Represents im
  | .flt _, .special => True
  | .cplx _, .special => True
  | _, .special => False

/-! ### representability -/

/-- facts about the four formats, without their huge powers -/
theorem fmt_facts (f : FW) : 10 ≤ f.fmt.m ∧ 15 ≤ f.fmt.bias ∧ f.fmt.expMax = 2 * f.fmt.bias + 1 ∧
    f.fmt.expMax + 1 = 2 ^ f.fmt.w ∧ f.fmt.unit = f.fmt.bias + f.fmt.m - 1 := by
  cases f <;> (simp only [FW.fmt, Fmt.quad, half, single, double, Fmt.bias, Fmt.expMax, Fmt.unit]; norm_num)

theorem FW.m_bias (f : FW) : (f = .f16 ∧ f.fmt.m = 10 ∧ f.fmt.bias = 15) ∨ (f = .f32 ∧ f.fmt.m = 23 ∧ f.fmt.bias = 127) ∨
    (f = .f64 ∧ f.fmt.m = 52 ∧ f.fmt.bias = 1023) ∨ (f = .f128 ∧ f.fmt.m = 112 ∧ f.fmt.bias = 16383) := by
  cases f <;> (simp only [FW.fmt, Fmt.quad, half, single, double, Fmt.bias]; norm_num)

/-- a magnitude `N / 2^u` with few bits and in range is representable, with either sign -/
theorem represents_of {f : FW} {N u : Nat} (s : Nat) (hs : s < 2) (hN : Bits (f.fmt.m + 1) N) (hu : u ≤ f.fmt.unit)
    (hlt : N < 2 ^ (f.fmt.bias + 1 + u)) :
    f.fmt.Represents (if s = 1 then -((N : ℚ) / 2 ^ u) else (N : ℚ) / 2 ^ u) := by
  obtain ⟨a1, a2, a3, a4, a5⟩ := fmt_facts f
  generalize f.fmt = F at *
  have hb : N * 2 ^ (F.unit - u) < 2 ^ (F.m + (F.expMax - 1)) := by
    calc N * 2 ^ (F.unit - u) < 2 ^ (F.bias + 1 + u) * 2 ^ (F.unit - u) :=
          Nat.mul_lt_mul_of_pos_right hlt (Nat.pow_pos (by omega))
      _ = 2 ^ (F.bias + 1 + u + (F.unit - u)) := (Nat.pow_add _ _ _).symm
      _ ≤ _ := Nat.pow_le_pow_right (by omega) (by omega)
  obtain ⟨b, hb1, hb2, hb3, hb4⟩ := mag_surj (F := F) hs (bits_scale.2 hN) hb (by omega) (by omega)
  refine ⟨b, hb1, hb2, ?_⟩
  rw [val_sign, hb3, hb4]
  have e : ((N * 2 ^ (F.unit - u) : Nat) : ℚ) / 2 ^ F.unit = (N : ℚ) / 2 ^ u := by
    rw [rat_div_pow_eq, Nat.mul_assoc, ← Nat.pow_add, show F.unit - u + u = F.unit by omega]
  rw [e]

theorem bits_small {p n : Nat} (h : n < 2 ^ p) : Bits p n := by
  have := bits_of_mul (p := p) (g := n) (e := 0) h
  simpa using this

theorem bits_mono {p q n : Nat} (h : p ≤ q) (hb : Bits p n) : Bits q n :=
  Nat.dvd_trans (Nat.pow_dvd_pow 2 (by omega)) hb

/-- integers of at most `m + 1` bits are representable -/
theorem represents_small_int {f : FW} {x : Int} (hx : x.natAbs < 2 ^ (f.fmt.m + 1)) (hb : x.natAbs < 2 ^ (f.fmt.bias + 1)) :
    f.fmt.Represents (x : ℚ) := by
  have := represents_of (f := f) (N := x.natAbs) (u := 0) (if x < 0 then 1 else 0) (by split_ifs <;> omega)
    (bits_small hx) (by omega) (by simpa using hb)
  simp only [pow_zero, div_one] at this
  have habs : (x.natAbs : ℚ) = |(x : ℚ)| := by
    rw [← Int.cast_abs, Int.abs_eq_natAbs]; rfl
  rw [habs] at this
  by_cases hc : x < 0
  · rw [if_pos hc, if_pos rfl, abs_of_neg (by exact_mod_cast hc), neg_neg] at this; exact this
  · rw [if_neg hc, if_neg (by omega), abs_of_nonneg (by exact_mod_cast (by omega : 0 ≤ x))] at this; exact this

/-- an odd numerator needs at least its own number of bits -/
theorem not_represents {F : Fmt} {N u : Nat} (hodd : N % 2 = 1) (hN : 2 ^ (F.m + 1) ≤ N) :
    ¬ F.Represents ((N : ℚ) / 2 ^ u) := by
  rintro ⟨b, _, _, hv⟩
  have h1 := val_abs (F := F) b
  rw [hv, abs_of_nonneg (by positivity), rat_div_pow_eq] at h1
  have h2 := mag_bits (F := F) b
  have h3 : Bits (F.m + 1) N := by
    rw [← bits_scale (U := F.unit), h1, bits_scale]; exact h2
  unfold Bits at h3
  have h0 : N ≠ 0 := by omega
  have hL : F.m + 1 ≤ N.log2 := (Nat.le_log2 h0).2 hN
  have : 2 ∣ N := Nat.dvd_trans (by
    rw [show N.log2 + 1 - (F.m + 1) = N.log2 - (F.m + 1) + 1 by omega, Nat.pow_succ]
    exact Nat.dvd_mul_left _ _) h3
  omega

/-- a wider format contains a narrower one -/
theorem represents_widen {f g : FW} (hm : f.fmt.m ≤ g.fmt.m) (hb : f.fmt.bias ≤ g.fmt.bias) {q : ℚ}
    (h : f.fmt.Represents q) : g.fmt.Represents q := by
  obtain ⟨b, _, hfin, hv⟩ := h
  obtain ⟨a1, a2, a3, a4, a5⟩ := fmt_facts f
  obtain ⟨b1, b2, b3, b4, b5⟩ := fmt_facts g
  have hmag := mag_lt hfin a4 (by omega)
  have hlt : f.fmt.mag b < 2 ^ (g.fmt.bias + 1 + f.fmt.unit) := by
    have h1 : f.fmt.maxMag < 2 ^ (f.fmt.bias + 1 + f.fmt.unit) := by
      unfold Fmt.maxMag
      calc (2 ^ (f.fmt.m + 1) - 1) * 2 ^ (f.fmt.expMax - 2)
          < 2 ^ (f.fmt.m + 1) * 2 ^ (f.fmt.expMax - 2) :=
            Nat.mul_lt_mul_of_pos_right (Nat.sub_lt (Nat.pow_pos (by omega)) (by omega)) (Nat.pow_pos (by omega))
        _ = 2 ^ (f.fmt.m + 1 + (f.fmt.expMax - 2)) := (Nat.pow_add _ _ _).symm
        _ ≤ _ := Nat.pow_le_pow_right (by omega) (by omega)
    have h2 : 2 ^ (f.fmt.bias + 1 + f.fmt.unit) ≤ 2 ^ (g.fmt.bias + 1 + f.fmt.unit) :=
      Nat.pow_le_pow_right (by omega) (by omega)
    exact Nat.lt_of_le_of_lt hmag (Nat.lt_of_lt_of_le h1 h2)
  have := represents_of (f := g) (N := f.fmt.mag b) (u := f.fmt.unit) (f.fmt.sgn b) (sgn_lt b)
    (bits_mono (by omega) (mag_bits b)) (by omega) hlt
  rw [← val_sign, hv] at this
  exact this

theorem represents_one_plus (f : FW) : f.fmt.Represents (((2 ^ f.fmt.m + 1 : Nat) : ℚ) / 2 ^ f.fmt.m) := by
  obtain ⟨a1, a2, a3, a4, a5⟩ := fmt_facts f
  have p : 1 < 2 ^ f.fmt.m := Nat.one_lt_pow (by omega) (by omega)
  have h := represents_of (f := f) (N := 2 ^ f.fmt.m + 1) (u := f.fmt.m) 0 (by omega)
    (bits_small (by rw [Nat.pow_succ]; omega)) (by omega)
    (by
      calc 2 ^ f.fmt.m + 1 < 2 ^ (1 + f.fmt.m) := by rw [Nat.add_comm 1, Nat.pow_succ]; omega
        _ ≤ _ := Nat.pow_le_pow_right (by omega) (by omega))
  simpa using h

theorem represents_zero (f : FW) : f.fmt.Represents 0 := by
  have := represents_small_int (f := f) (x := 0) (Nat.pow_pos (by omega)) (Nat.pow_pos (by omega))
  simpa using this
theorem represents_one (f : FW) : f.fmt.Represents 1 := by
  have := represents_small_int (f := f) (x := 1) (Nat.one_lt_pow (by omega) (by omega)) (Nat.one_lt_pow (by omega) (by omega))
  simpa using this
theorem represents_half (f : FW) : f.fmt.Represents (1 / 2) := by
  obtain ⟨a1, a2, a3, a4, a5⟩ := fmt_facts f
  have := represents_of (f := f) (N := 1) (u := 1) 0 (by omega) (bits_small (Nat.one_lt_pow (by omega) (by omega)))
    (by omega) (Nat.one_lt_pow (by omega) (by omega))
  simpa using this

/-- the float type with the format of a complex type -/
def CW.fw : CW → FW | .c32 => .f32 | .c64 => .f64
theorem CW.fmt_fw (c : CW) : c.fmt = c.fw.fmt := by cases c <;> rfl

/-- all integers of `k` bits fit when `k ≤ m + 1` -/
theorem has_represents {f : FW} {w : Wd} {sg : Bool} {n : Int} (h : (IntTy.mk w.bits sg).Has n)
    (hw : w.bits ≤ f.fmt.m + 1) (hw2 : w.bits ≤ f.fmt.bias + 1) : f.fmt.Represents (n : ℚ) := by
  have hpos : 1 ≤ w.bits := by cases w <;> decide
  have hlt : n.natAbs < 2 ^ w.bits := by
    have e := two_pow_succ_pred hpos
    have p : 0 < 2 ^ (w.bits - 1) := Nat.pow_pos (by omega)
    cases sg with
    | true => rw [IntTy.has_signed] at h; omega
    | false => rw [IntTy.has_unsigned] at h; omega
  exact represents_small_int (Nat.lt_of_lt_of_le hlt (Nat.pow_le_pow_right (by omega) hw))
    (Nat.lt_of_lt_of_le hlt (Nat.pow_le_pow_right (by omega) hw2))

/-- some integer of `k` bits does not fit when `k > m + 2` -/
theorem exists_not_represents {F : Fmt} {w : Wd} (sg : Bool) (hw : F.m + 2 < w.bits) :
    ∃ n : Int, (IntTy.mk w.bits sg).Has n ∧ ¬ F.Represents (n : ℚ) := by
  refine ⟨((2 ^ (F.m + 1) + 1 : Nat) : Int), ?_, ?_⟩
  · have h1 : 2 ^ (F.m + 1) * 2 = 2 ^ (F.m + 2) := rfl
    have h2 : 2 ^ (F.m + 2) ≤ 2 ^ (w.bits - 1) := Nat.pow_le_pow_right (by omega) (by omega)
    have h3 : 2 ^ (w.bits - 1) ≤ 2 ^ w.bits := Nat.pow_le_pow_right (by omega) (by omega)
    have p : 1 < 2 ^ (F.m + 1) := Nat.one_lt_pow (by omega) (by omega)
    cases sg with
    | true => rw [IntTy.has_signed]; omega
    | false => rw [IntTy.has_unsigned]; omega
  · have h1 : (2 ^ (F.m + 1) + 1) % 2 = 1 := by rw [Nat.pow_succ]; omega
    have := not_represents (F := F) (N := 2 ^ (F.m + 1) + 1) (u := 0) h1 (by omega)
    simpa using this

theorem Wd.cases_bits (w : Wd) : (w = .w8 ∧ w.bits = 8 ∧ w.size = 1) ∨ (w = .w16 ∧ w.bits = 16 ∧ w.size = 2) ∨
    (w = .w32 ∧ w.bits = 32 ∧ w.size = 4) ∨ (w = .w64 ∧ w.bits = 64 ∧ w.size = 8) ∨ (w = .w128 ∧ w.bits = 128 ∧ w.size = 16) := by
  cases w <;> simp [Wd.bits, Wd.size]

/-- an integer of `s` fits in the (signed or unsigned) integer type of at least as many value bits -/
theorem int_in_flt {d : FW} {s : Wd} (sg : Bool) :
    (∀ n : Int, (IntTy.mk s.bits sg).Has n → d.fmt.Represents (n : ℚ)) ↔ d.size > s.size := by
  constructor
  · intro h
    by_contra hc
    obtain ⟨n, h1, h2⟩ := exists_not_represents (F := d.fmt) (w := s) sg (by
      rcases FW.m_bias d with ⟨rfl, e, _⟩ | ⟨rfl, e, _⟩ | ⟨rfl, e, _⟩ | ⟨rfl, e, _⟩ <;>
      rcases Wd.cases_bits s with ⟨rfl, e2, _⟩ | ⟨rfl, e2, _⟩ | ⟨rfl, e2, _⟩ | ⟨rfl, e2, _⟩ | ⟨rfl, e2, _⟩ <;>
      simp only [FW.size, Wd.size] at hc <;> omega)
    exact h2 (h n h1)
  · intro h n hn
    apply has_represents hn <;>
      (rcases FW.m_bias d with ⟨rfl, e, e3⟩ | ⟨rfl, e, e3⟩ | ⟨rfl, e, e3⟩ | ⟨rfl, e, e3⟩ <;>
      rcases Wd.cases_bits s with ⟨rfl, e2, _⟩ | ⟨rfl, e2, _⟩ | ⟨rfl, e2, _⟩ | ⟨rfl, e2, _⟩ | ⟨rfl, e2, _⟩ <;>
      simp only [FW.size, Wd.size] at h <;> omega)

theorem flt_in_flt {d s : FW} : (∀ q, s.fmt.Represents q → d.fmt.Represents q) ↔ d.size ≥ s.size := by
  constructor
  · intro h
    by_contra hc
    have := h _ (represents_one_plus s)
    refine not_represents ?_ ?_ this
    · have : 1 ≤ s.fmt.m := by have := (fmt_facts s).1; omega
      rw [two_pow_succ_pred this]; omega
    · have : 2 ^ (d.fmt.m + 1) ≤ 2 ^ s.fmt.m := by
        apply Nat.pow_le_pow_right (by omega)
        rcases FW.m_bias d with ⟨rfl, e, _⟩ | ⟨rfl, e, _⟩ | ⟨rfl, e, _⟩ | ⟨rfl, e, _⟩ <;>
        rcases FW.m_bias s with ⟨rfl, e2, _⟩ | ⟨rfl, e2, _⟩ | ⟨rfl, e2, _⟩ | ⟨rfl, e2, _⟩ <;>
        simp only [FW.size] at hc <;> omega
      omega
  · intro h q hq
    apply represents_widen _ _ hq <;>
      (rcases FW.m_bias d with ⟨rfl, e, e3⟩ | ⟨rfl, e, e3⟩ | ⟨rfl, e, e3⟩ | ⟨rfl, e, e3⟩ <;>
      rcases FW.m_bias s with ⟨rfl, e2, e4⟩ | ⟨rfl, e2, e4⟩ | ⟨rfl, e2, e4⟩ | ⟨rfl, e2, e4⟩ <;>
      simp only [FW.size] at h <;> omega)

theorem int_in_int {d s : Wd} (dg sg : Bool) :
    (∀ n : Int, (IntTy.mk s.bits sg).Has n → (IntTy.mk d.bits dg).Has n) ↔
      match dg, sg with
      | true, true => d.size ≥ s.size
      | false, true => False
      | true, false => d.size > s.size
      | false, false => d.size ≥ s.size := by
  have hs : 8 ≤ s.bits := by cases s <;> decide
  have hd : 8 ≤ d.bits := by cases d <;> decide
  have es : s.bits = 8 * s.size := rfl
  have ed : d.bits = 8 * d.size := rfl
  have ps : 0 < 2 ^ (s.bits - 1) := Nat.pow_pos (by omega)
  have e1 := two_pow_succ_pred (b := s.bits) (by omega)
  have e2 := two_pow_succ_pred (b := d.bits) (by omega)
  cases dg <;> cases sg <;> simp only
  · constructor
    · intro h
      by_contra hc
      have h1 := h (2 ^ s.bits - 1 : Nat) (by rw [IntTy.has_unsigned]; omega)
      rw [IntTy.has_unsigned] at h1
      have : 2 ^ d.bits < 2 ^ s.bits := Nat.pow_lt_pow_right (by omega) (by omega)
      omega
    · intro h n hn
      rw [IntTy.has_unsigned] at *
      have : 2 ^ s.bits ≤ 2 ^ d.bits := Nat.pow_le_pow_right (by omega) (by omega)
      omega
  · constructor
    · intro h
      have h1 := h (-1) (by rw [IntTy.has_signed]; omega)
      rw [IntTy.has_unsigned] at h1; omega
    · exact False.elim
  · constructor
    · intro h
      by_contra hc
      have h1 := h (2 ^ s.bits - 1 : Nat) (by rw [IntTy.has_unsigned]; omega)
      rw [IntTy.has_signed] at h1
      have : 2 ^ (d.bits - 1) < 2 ^ s.bits := Nat.pow_lt_pow_right (by omega) (by omega)
      omega
    · intro h n hn
      rw [IntTy.has_unsigned] at hn
      rw [IntTy.has_signed]
      have : 2 ^ s.bits ≤ 2 ^ (d.bits - 1) := Nat.pow_le_pow_right (by omega) (by
        rcases Wd.cases_bits d with ⟨rfl, q1, q2⟩ | ⟨rfl, q1, q2⟩ | ⟨rfl, q1, q2⟩ | ⟨rfl, q1, q2⟩ | ⟨rfl, q1, q2⟩ <;>
        rcases Wd.cases_bits s with ⟨rfl, q3, q4⟩ | ⟨rfl, q3, q4⟩ | ⟨rfl, q3, q4⟩ | ⟨rfl, q3, q4⟩ | ⟨rfl, q3, q4⟩ <;> omega)
      omega
  · constructor
    · intro h
      by_contra hc
      have h1 := h (-((2 ^ (s.bits - 1) : Nat) : Int)) (by rw [IntTy.has_signed]; omega)
      rw [IntTy.has_signed] at h1
      have : 2 ^ (d.bits - 1) < 2 ^ (s.bits - 1) := Nat.pow_lt_pow_right (by omega) (by omega)
      omega
    · intro h n hn
      rw [IntTy.has_signed] at *
      have : 2 ^ (s.bits - 1) ≤ 2 ^ (d.bits - 1) := Nat.pow_le_pow_right (by omega) (by omega)
      omega

/-- reduce inclusion of integer values into a type to inclusion of integers -/
theorem can_int_iff {P : NVal → Prop} {w : Wd} {sg : Bool} (s : BTy) (hs : s = if sg then .int w else .uint w) :
    (∀ v, s.Can v → P v) ↔ ∀ n : Int, (IntTy.mk w.bits sg).Has n → P (.num n 0) := by
  constructor
  · intro h n hn
    apply h
    cases sg <;> (simp only [hs, if_true, Bool.false_eq_true, if_false, BTy.Can]; exact ⟨⟨n, hn, rfl⟩, by trivial⟩)
  · intro h v hv
    cases sg <;> simp only [hs, if_true, Bool.false_eq_true, if_false] at hv <;> cases v <;>
      simp only [BTy.Can] at hv
    · obtain ⟨⟨n, hn, rfl⟩, rfl⟩ := hv; exact h n hn
    · obtain ⟨⟨n, hn, rfl⟩, rfl⟩ := hv; exact h n hn

theorem has_zero (w : Wd) (sg : Bool) : (IntTy.mk w.bits sg).Has 0 := by
  have ps : 0 < 2 ^ (w.bits - 1) := Nat.pow_pos (by omega)
  have pt : 0 < 2 ^ w.bits := Nat.pow_pos (by omega)
  cases sg
  · rw [IntTy.has_unsigned]; omega
  · rw [IntTy.has_signed]; omega

theorem has_small (w : Wd) (sg : Bool) {n : Int} (h0 : 0 ≤ n) (h : n ≤ 2) : (IntTy.mk w.bits sg).Has n := by
  have hw : 8 ≤ w.bits := by cases w <;> decide
  have ps : 2 ^ 7 ≤ 2 ^ (w.bits - 1) := Nat.pow_le_pow_right (by omega) (by omega)
  have pt : 2 ^ 7 ≤ 2 ^ w.bits := Nat.pow_le_pow_right (by omega) (by omega)
  cases sg
  · rw [IntTy.has_unsigned]; omega
  · rw [IntTy.has_signed]; omega

theorem half_not_int (n : Int) : (1 / 2 : ℚ) ≠ n := by
  intro h
  have : (1 : ℚ) = 2 * n := by linarith
  have : (1 : Int) = 2 * n := by exact_mod_cast this
  omega

theorem cw_size (c : CW) (k : Nat) : (c.size > 2 * k ↔ c.fw.size > k) ∧ (c.size ≥ 2 * k ↔ c.fw.size ≥ k) := by
  cases c <;> simp only [CW.size, CW.fw, FW.size] <;> omega

/-- **C63.** `is_lossless_assignment` between builtin numeric types is exact: it is true precisely when the destination
    type can represent every value of the source type. -/
theorem is_lossless_exact (d s : BTy) (hd : d ≠ .void) (hs : s ≠ .void) :
    ∃ r, isLossless d s = .ok r ∧ (r = true ↔ ∀ v, s.Can v → d.Can v) := by
  cases s with
  | void => exact absurd rfl hs
  | bool =>
    refine ⟨true, by cases d <;> first | exact absurd rfl hd | rfl, ?_⟩
    simp only [true_iff]
    intro v hv
    cases v with
    | special => exact hv.elim
    | num re im =>
      obtain ⟨h, rfl⟩ := hv
      cases d with
      | void => exact absurd rfl hd
      | bool => exact ⟨h, rfl⟩
      | int w =>
        refine ⟨?_, rfl⟩
        rcases h with rfl | rfl
        · exact ⟨0, has_small _ _ (by omega) (by omega), by simp⟩
        · exact ⟨1, has_small _ _ (by omega) (by omega), by simp⟩
      | uint w =>
        refine ⟨?_, rfl⟩
        rcases h with rfl | rfl
        · exact ⟨0, has_small _ _ (by omega) (by omega), by simp⟩
        · exact ⟨1, has_small _ _ (by omega) (by omega), by simp⟩
      | flt f =>
        refine ⟨?_, rfl⟩
        rcases h with rfl | rfl
        · exact represents_zero f
        · exact represents_one f
      | cplx c =>
        simp only [BTy.Can, CW.fmt_fw]
        refine ⟨?_, represents_zero _⟩
        rcases h with rfl | rfl
        · exact represents_zero _
        · exact represents_one _
  | int s =>
    cases d with
    | void => exact absurd rfl hd
    | bool =>
      refine ⟨false, rfl, ?_⟩
      rw [can_int_iff (w := s) (sg := true) (.int s) rfl]
      simp only [Bool.false_eq_true, false_iff, BTy.Can]
      intro h
      have := (h 2 (has_small _ _ (by omega) (by omega))).1
      norm_num at this
    | int d =>
      refine ⟨_, rfl, ?_⟩
      rw [can_int_iff (w := s) (sg := true) (.int s) rfl, decide_eq_true_eq]
      have := int_in_int (d := d) (s := s) true true
      simp only at this
      rw [← this]
      simp only [BTy.Can, Int.cast_inj, and_true, exists_eq_right']
    | uint d =>
      refine ⟨_, rfl, ?_⟩
      rw [can_int_iff (w := s) (sg := true) (.int s) rfl]
      have := int_in_int (d := d) (s := s) false true
      simp only at this
      simp only [BTy.Can, Int.cast_inj, and_true, exists_eq_right']
      rw [this]; simp
    | flt d =>
      refine ⟨_, rfl, ?_⟩
      rw [can_int_iff (w := s) (sg := true) (.int s) rfl, decide_eq_true_eq, ← int_in_flt true]
      simp only [BTy.Can, and_true]
    | cplx d =>
      refine ⟨_, rfl, ?_⟩
      rw [can_int_iff (w := s) (sg := true) (.int s) rfl, decide_eq_true_eq, (cw_size d _).1, ← int_in_flt true]
      simp only [BTy.Can, CW.fmt_fw, represents_zero, and_true]
  | uint s =>
    cases d with
    | void => exact absurd rfl hd
    | bool =>
      refine ⟨false, rfl, ?_⟩
      rw [can_int_iff (w := s) (sg := false) (.uint s) rfl]
      simp only [Bool.false_eq_true, false_iff, BTy.Can]
      intro h
      have := (h 2 (has_small _ _ (by omega) (by omega))).1
      norm_num at this
    | int d =>
      refine ⟨_, rfl, ?_⟩
      rw [can_int_iff (w := s) (sg := false) (.uint s) rfl, decide_eq_true_eq]
      have := int_in_int (d := d) (s := s) true false
      simp only at this
      rw [← this]
      simp only [BTy.Can, Int.cast_inj, and_true, exists_eq_right']
    | uint d =>
      refine ⟨_, rfl, ?_⟩
      rw [can_int_iff (w := s) (sg := false) (.uint s) rfl, decide_eq_true_eq]
      have := int_in_int (d := d) (s := s) false false
      simp only at this
      rw [← this]
      simp only [BTy.Can, Int.cast_inj, and_true, exists_eq_right']
    | flt d =>
      refine ⟨_, rfl, ?_⟩
      rw [can_int_iff (w := s) (sg := false) (.uint s) rfl, decide_eq_true_eq, ← int_in_flt false]
      simp only [BTy.Can, and_true]
    | cplx d =>
      refine ⟨_, rfl, ?_⟩
      rw [can_int_iff (w := s) (sg := false) (.uint s) rfl, decide_eq_true_eq, (cw_size d _).1, ← int_in_flt false]
      simp only [BTy.Can, CW.fmt_fw, represents_zero, and_true]
  | flt s =>
    have hhalf : (BTy.flt s).Can (.num (1 / 2) 0) := ⟨represents_half s, rfl⟩
    cases d with
    | void => exact absurd rfl hd
    | bool =>
      refine ⟨false, rfl, ?_⟩
      simp only [Bool.false_eq_true, false_iff]
      intro h
      have := (h _ hhalf).1
      norm_num at this
    | int d =>
      refine ⟨false, rfl, ?_⟩
      simp only [Bool.false_eq_true, false_iff]
      intro h
      obtain ⟨⟨n, _, hn⟩, _⟩ := h _ hhalf
      exact half_not_int n hn
    | uint d =>
      refine ⟨false, rfl, ?_⟩
      simp only [Bool.false_eq_true, false_iff]
      intro h
      obtain ⟨⟨n, _, hn⟩, _⟩ := h _ hhalf
      exact half_not_int n hn
    | flt d =>
      refine ⟨_, rfl, ?_⟩
      rw [decide_eq_true_eq, ← flt_in_flt]
      constructor
      · intro h v hv
        cases v with
        | special => trivial
        | num re im => exact ⟨h _ hv.1, hv.2⟩
      · intro h q hq
        exact (h (.num q 0) ⟨hq, rfl⟩).1
    | cplx d =>
      refine ⟨_, rfl, ?_⟩
      rw [decide_eq_true_eq, (cw_size d _).2, ← flt_in_flt]
      constructor
      · intro h v hv
        cases v with
        | special => trivial
        | num re im =>
          obtain ⟨h1, rfl⟩ := hv
          simp only [BTy.Can, CW.fmt_fw]
          exact ⟨h _ h1, represents_zero _⟩
      · intro h q hq
        have := (h (.num q 0) ⟨hq, rfl⟩).1
        rwa [CW.fmt_fw] at this
  | cplx s =>
    have hi : (BTy.cplx s).Can (.num 0 1) := by
      simp only [BTy.Can, CW.fmt_fw]; exact ⟨represents_zero _, represents_one _⟩
    cases d with
    | void => exact absurd rfl hd
    | bool =>
      refine ⟨false, rfl, ?_⟩
      simp only [Bool.false_eq_true, false_iff]
      intro h
      have := (h _ hi).2
      norm_num at this
    | int d =>
      refine ⟨false, rfl, ?_⟩
      simp only [Bool.false_eq_true, false_iff]
      intro h
      have := (h _ hi).2
      norm_num at this
    | uint d =>
      refine ⟨false, rfl, ?_⟩
      simp only [Bool.false_eq_true, false_iff]
      intro h
      have := (h _ hi).2
      norm_num at this
    | flt d =>
      refine ⟨false, rfl, ?_⟩
      simp only [Bool.false_eq_true, false_iff]
      intro h
      have := (h _ hi).2
      norm_num at this
    | cplx d =>
      refine ⟨_, rfl, ?_⟩
      rw [decide_eq_true_eq]
      have e : d.size ≥ s.size ↔ d.fw.size ≥ s.fw.size := by
        cases d <;> cases s <;> simp [CW.size, CW.fw, FW.size]
      rw [e, ← flt_in_flt]
      constructor
      · intro h v hv
        cases v with
        | special => trivial
        | num re im =>
          simp only [BTy.Can, CW.fmt_fw] at *
          exact ⟨h _ hv.1, h _ hv.2⟩
      · intro h q hq
        have := (h (.num q 0) (by simp only [BTy.Can, CW.fmt_fw]; exact ⟨hq, represents_zero _⟩)).1
        rwa [CW.fmt_fw] at this

example : isLossless (.flt .f64) (.int .w32) = .ok true ∧ isLossless (.flt .f32) (.int .w32) = .ok false ∧
    isLossless (.int .w64) (.uint .w32) = .ok true ∧ isLossless (.cplx .c32) (.uint .w16) = .ok true := by decide

/-! ## C35 -/

/-- Specification: one operand is `float16` and the other a boolean or an integer. -/
def HalfClash : BTy → BTy → Bool
  | .flt .f16, .bool | .flt .f16, .int _ | .flt .f16, .uint _ => true
  | .bool, .flt .f16 | .int _, .flt .f16 | .uint _, .flt .f16 => true
  | _, _ => false

/-- **C35**, builtin types: promotion always succeeds. -/
theorem promote_builtin_total (a b : BTy) : ∃ c, promoteB a b = .ok c := by
  cases a <;> cases b <;> exact ⟨_, rfl⟩

/-- **C35**, builtin types: promotion does not depend on the order of the operands, except exactly when `float16` meets a
    boolean or an integer.  (Proof by evaluating the whole table.) -/
theorem promote_builtin_comm_iff (a b : BTy) : promoteB a b = promoteB b a ↔ HalfClash a b = false := by
  rcases a with _ | _ | (_ | _ | _ | _ | _) | (_ | _ | _ | _ | _) | (_ | _ | _ | _) | (_ | _) <;>
  rcases b with _ | _ | (_ | _ | _ | _ | _) | (_ | _ | _ | _ | _) | (_ | _ | _ | _) | (_ | _) <;> decide

/-- **C35 is violated**: `float16 + int8` is `float16` but `int8 + float16` is `float32`. -/
theorem promote_comm_violated : promoteB (.flt .f16) (.int .w8) = .ok (.flt .f16) ∧
    promoteB (.int .w8) (.flt .f16) = .ok (.flt .f32) := by decide

/-- `float16` occurs nowhere in a position that promotion looks at. -/
def PTy.NoHalf : PTy → Bool
  | .b (.flt .f16) => false
  | .option t => t.NoHalf
  | .varDim t => t.NoHalf
  | .fixedDimKind t => t.NoHalf
  | _ => true

theorem halfClash_noHalf {s t : BTy} (hs : PTy.NoHalf (.b s) = true) (ht : PTy.NoHalf (.b t) = true) :
    HalfClash s t = false := by
  rcases s with _ | _ | (_ | _ | _ | _ | _) | (_ | _ | _ | _ | _) | (_ | _ | _ | _) | (_ | _) <;>
  rcases t with _ | _ | (_ | _ | _ | _ | _) | (_ | _ | _ | _ | _) | (_ | _ | _ | _) | (_ | _) <;>
  simp_all [PTy.NoHalf, HalfClash]

theorem promoteRest_comm (a b : PTy) : promoteRest a b = promoteRest b a := by
  cases a <;> cases b <;> simp [promoteRest, PTy.baseStr] <;> (try split_ifs) <;> simp_all

/-- **C35** for all types (options, variable dimensions, strings, ... of any depth): without `float16`, promotion gives
    the same result, or the same error, in both orders.  Missing: `float16`, where the code is wrong. -/
theorem promote_comm_partial (a b : PTy) (ha : a.NoHalf = true) (hb : b.NoHalf = true) : promote a b = promote b a := by
  induction hn : sizeOf a + sizeOf b using Nat.strongRecOn generalizing a b with
  | _ n ih =>
    subst hn
    cases a <;> cases b <;> simp only [promote, promoteRest_comm, PTy.isStr, and_comm] <;>
      first
      | rfl
      | (rename_i s t; rw [(promote_builtin_comm_iff s t).2 (halfClash_noHalf ha hb)])
      | (congr 1
         refine ih _ ?_ _ _ ?_ ?_ rfl
         · simp
           try omega
         · simpa [PTy.NoHalf] using ha
         · simpa [PTy.NoHalf] using hb)

/-- number of integer bits every value of which the float type holds exactly -/
def FW.intBytes : FW → Nat | .f16 => 1 | .f32 => 2 | .f64 => 4 | .f128 => 8

/-- Specification: the pairs of builtin types whose promotion cannot hold all values of both.
    * signed and unsigned of which the unsigned is at least as wide, and not both narrower than `int32`;
    * an integer and a float/complex with too few significant bits (`float16` counts as `float32` if it is second);
    * `float128` and a complex type. -/
def LossyPair : BTy → BTy → Bool
  | .int v, .uint w | .uint w, .int v => decide (v.size ≤ w.size) && decide (4 ≤ w.size)
  | .int v, .flt f | .uint v, .flt f => decide (v.size > max 2 f.intBytes)
  | .flt f, .int v | .flt f, .uint v => decide (v.size > f.intBytes)
  | .int v, .cplx c | .uint v, .cplx c | .cplx c, .int v | .cplx c, .uint v => decide (v.size > c.fw.intBytes)
  | .flt .f128, .cplx _ | .cplx _, .flt .f128 => true
  | _, _ => false

/-- **C35**, builtin types: exactly which promotions keep every value of both operands. -/
theorem promote_lossless_iff (a b c : BTy) (ha : a ≠ .void) (hb : b ≠ .void) (h : promoteB a b = .ok c) :
    ((∀ v, a.Can v → c.Can v) ∧ (∀ v, b.Can v → c.Can v)) ↔ LossyPair a b = false := by
  have hc : c ≠ .void := by
    rintro rfl
    revert ha hb h
    rcases a with _ | _ | (_ | _ | _ | _ | _) | (_ | _ | _ | _ | _) | (_ | _ | _ | _) | (_ | _) <;>
    rcases b with _ | _ | (_ | _ | _ | _ | _) | (_ | _ | _ | _ | _) | (_ | _ | _ | _) | (_ | _) <;> decide
  obtain ⟨r1, h1, e1⟩ := is_lossless_exact c a hc ha
  obtain ⟨r2, h2, e2⟩ := is_lossless_exact c b hc hb
  rw [← e1, ← e2]
  clear e1 e2 hc
  have key : ∀ a b : BTy, a ≠ .void → b ≠ .void → ∀ r1 r2 c, promoteB a b = .ok c → isLossless c a = .ok r1 →
      isLossless c b = .ok r2 → (r1 && r2) = !LossyPair a b := by
    intro a b ha hb r1 r2 c hp
    rcases a with _ | _ | (_ | _ | _ | _ | _) | (_ | _ | _ | _ | _) | (_ | _ | _ | _) | (_ | _) <;>
    rcases b with _ | _ | (_ | _ | _ | _ | _) | (_ | _ | _ | _ | _) | (_ | _ | _ | _) | (_ | _) <;>
    first
    | exact absurd rfl ha
    | exact absurd rfl hb
    | (simp only [promoteB, Res.ok.injEq] at hp
       subst hp
       revert r1 r2
       decide)
  have := key a b ha hb r1 r2 c h h1 h2
  cases r1 <;> cases r2 <;> cases hl : LossyPair a b <;> simp_all

/-- **C35 is violated** as to losslessness: `int64 + uint64` is `uint64`, which has no negative numbers, and
    `int32 + float32` is `float32`, which cannot hold 2^24+1. -/
theorem promote_lossless_violated :
    (promoteB (.int .w64) (.uint .w64) = .ok (.uint .w64) ∧ ¬ ∀ v, (BTy.int .w64).Can v → (BTy.uint .w64).Can v) ∧
    (promoteB (.int .w32) (.flt .f32) = .ok (.flt .f32) ∧ ¬ ∀ v, (BTy.int .w32).Can v → (BTy.flt .f32).Can v) := by
  refine ⟨⟨by decide, ?_⟩, ⟨by decide, ?_⟩⟩
  · obtain ⟨r, h, e⟩ := is_lossless_exact (.uint .w64) (.int .w64) (by decide) (by decide)
    rw [← e]
    simp only [isLossless, Res.ok.injEq] at h
    subst h; decide
  · obtain ⟨r, h, e⟩ := is_lossless_exact (.flt .f32) (.int .w32) (by decide) (by decide)
    rw [← e]
    simp only [isLossless, Res.ok.injEq] at h
    subst h; decide

/-- **C35 is violated** for dimensions: a variable and a fixed dimension do not promote at all (the code tests
    for base kind `Dim`, which `fixed[n]` does not have). -/
theorem promote_var_fixed_violated (n : Nat) (s t : PTy) :
    promote (.varDim s) (.fixedDim n t) = .throw .typeError := by
  simp [promote, promoteRest, PTy.isStr, PTy.baseStr]

example : promote (.option (.b (.int .w8))) (.varDim (.b .bool)) = .throw .typeError ∧
    promote (.varDim (.option (.b (.int .w8)))) (.varDim (.b (.flt .f64))) = .ok (.varDim (.option (.b (.flt .f64)))) ∧
    promote (.string) (.fixedString 3 0) = .ok .string := by
  refine ⟨?_, ?_, ?_⟩ <;> simp [promote, promoteRest, promoteB, mkOption, PTy.isStr, PTy.isOption, PTy.baseStr]

end Dynd
