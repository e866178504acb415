/-
C31, C32, C62: the library's 128-bit integers.
-/
import Verif.Model.Int128
import Verif.Props.IntProps
import Verif.Props.HalfProps

namespace Dynd
namespace W128

/-- Both words are 64-bit. -/
def Wf (x : W128) : Prop := x.hi < 2 ^ 64 ∧ x.lo < 2 ^ 64
instance (x : W128) : Decidable x.Wf := by unfold Wf; infer_instance
/-- The unsigned value. -/
def uval (x : W128) : Nat := x.hi * 2 ^ 64 + x.lo
/-- The signed (two's complement) value. -/
def sval (x : W128) : Int := if x.uval < 2 ^ 127 then x.uval else (x.uval : Int) - 2 ^ 128

theorem uval_lt {x : W128} (h : x.Wf) : x.uval < 2 ^ 128 := by unfold uval Wf at *; omega
theorem uval_inj {x y : W128} (hx : x.Wf) (hy : y.Wf) (h : x.uval = y.uval) : x = y := by
  unfold uval Wf at *
  cases x; cases y
  simp only [W128.mk.injEq] at *
  omega
theorem sval_inj {x y : W128} (hx : x.Wf) (hy : y.Wf) (h : x.sval = y.sval) : x = y := by
  apply uval_inj hx hy
  have := uval_lt hx
  have := uval_lt hy
  unfold sval at h
  split_ifs at h <;> omega

theorem b2n_decide (p : Prop) [Decidable p] : b2n (decide p) = if p then 1 else 0 := by
  unfold b2n; by_cases h : p <;> simp [h]

/-- **C31**: addition, and adding a 64-bit word. -/
theorem add_exact (x y : W128) (hx : x.Wf) (hy : y.Wf) :
    (add x y).Wf ∧ (add x y).uval = (x.uval + y.uval) % 2 ^ 128 := by
  unfold add Wf uval u64 at *
  simp only [b2n_decide]
  split_ifs <;> omega

theorem addU64_exact (x : W128) (r : Nat) (hx : x.Wf) (hr : r < 2 ^ 64) :
    (addU64 x r).Wf ∧ (addU64 x r).uval = (x.uval + r) % 2 ^ 128 := by
  unfold addU64 Wf uval u64 at *
  simp only [b2n_decide]
  split_ifs <;> omega

/-- **C31**: complement. -/
theorem bnot_exact (x : W128) (hx : x.Wf) : (bnot x).Wf ∧ (bnot x).uval = 2 ^ 128 - 1 - x.uval := by
  unfold bnot Wf uval not64 at *
  simp only
  omega

/-- **C31**: negation of `int128`. -/
theorem neg_exact (x : W128) (hx : x.Wf) :
    (neg x).Wf ∧ (neg x).uval = (2 ^ 128 - x.uval) % 2 ^ 128 := by
  unfold neg Wf uval not64 u64 at *
  simp only [b2n_decide]
  split_ifs <;> omega

/-- **C31**: subtraction, where the low word subtracted is not zero. -/
theorem sub_exact_partial (x y : W128) (hx : x.Wf) (hy : y.Wf) (hlo : y.lo ≠ 0) :
    (sub x y).Wf ∧ (sub x y).uval = (x.uval + (2 ^ 128 - y.uval)) % 2 ^ 128 := by
  unfold sub Wf uval not64 u64 at *
  simp only [b2n_decide]
  split_ifs <;> omega

/-- **C31** fails for subtraction whenever the low word subtracted is zero: the result is off by `2^64`. -/
theorem sub_violated (x y : W128) (hx : x.Wf) (hy : y.Wf) (hlo : y.lo = 0) :
    (sub x y).uval = (x.uval + (2 ^ 128 - y.uval) + (2 ^ 128 - 2 ^ 64)) % 2 ^ 128 ∧
    (sub x y).uval ≠ (x.uval + (2 ^ 128 - y.uval)) % 2 ^ 128 := by
  unfold sub Wf uval not64 u64 at *
  simp only [b2n_decide]
  split_ifs <;> omega

theorem subU64_exact_partial (x : W128) (r : Nat) (hx : x.Wf) (hr : r < 2 ^ 64) (h0 : r ≠ 0) :
    (subU64 x r).Wf ∧ (subU64 x r).uval = (x.uval + (2 ^ 128 - r)) % 2 ^ 128 := by
  unfold subU64 Wf uval not64 u64 at *
  simp only [b2n_decide]
  split_ifs <;> omega

theorem subU64_violated (x : W128) (hx : x.Wf) : (subU64 x 0).uval ≠ x.uval := by
  unfold subU64 Wf uval not64 u64 at *
  simp only [b2n_decide]
  split_ifs <;> omega

/-- **C31** for `int128 +=`: it adds the complement of the high word, which differs from the word by an odd number,
    so the result is never right. -/
theorem addAssign_violated (x y : W128) (hx : x.Wf) (hy : y.Wf) :
    (addAssign x y).uval ≠ (x.uval + y.uval) % 2 ^ 128 := by
  unfold addAssign Wf uval not64 u64 at *
  simp only [b2n_decide]
  split_ifs <;> omega

/-- **C31** for `uint128` unary minus: right exactly when the low word is zero or the high word is `2^64 - 1` (where the
    logical negation happens to equal the complement); wrong otherwise. -/
theorem unegate_exact_partial (x : W128) (hx : x.Wf) :
    (unegate x).uval = (2 ^ 128 - x.uval) % 2 ^ 128 ↔ x.lo = 0 ∨ x.hi = 2 ^ 64 - 1 := by
  unfold unegate Wf uval u64 at *
  by_cases h : x.lo = 0
  · rw [if_neg (by omega)]
    simp only [Nat.reducePow] at *
    omega
  · rw [if_pos h]
    simp only [b2n_decide, Nat.reducePow] at *
    split_ifs <;> omega

theorem sext64_val {n : Nat} : sext64 n = if n < 2 ^ 63 then (n : Int) else (n : Int) - 2 ^ 64 := rfl

/-- **C31**: the comparisons agree with the numeric order. -/
theorem compare_exact (x y : W128) (hx : x.Wf) (hy : y.Wf) :
    (slt x y = true ↔ x.sval < y.sval) ∧ (sle x y = true ↔ x.sval ≤ y.sval) ∧
    (ult x y = true ↔ x.uval < y.uval) ∧ (ule x y = true ↔ x.uval ≤ y.uval) ∧
    (eqb x y = true ↔ x.uval = y.uval) ∧ (eqb x y = true ↔ x.sval = y.sval) := by
  unfold slt sle ult ule eqb sval uval sext64 Wf at *
  simp only [Bool.or_eq_true, Bool.and_eq_true, decide_eq_true_eq]
  refine ⟨?_, ?_, ?_, ?_, ?_, ?_⟩ <;> (try split_ifs) <;> omega

/-- **C31**: `!` of `int128` and the truth value of both are "zero" / "not zero"; `!` of `uint128` is not. -/
theorem truth_exact (x : W128) (hx : x.Wf) :
    (snot x = true ↔ x.uval = 0) ∧ (toBool x = true ↔ x.uval ≠ 0) ∧
    (unot x = true ↔ (x.hi ≠ 0 ∧ x.lo ≠ 0)) := by
  unfold snot toBool unot uval Wf at *
  simp only [Bool.or_eq_true, Bool.and_eq_true, decide_eq_true_eq]
  refine ⟨by omega, ?_, by simp⟩
  constructor
  · rintro (h | h) <;> omega
  · intro h
    by_cases hl : x.lo = 0
    · right; omega
    · left; exact hl

/-- **C31** fails for `!` of `uint128`: `!0` is false. -/
theorem unot_violated : unot ⟨0, 0⟩ = false ∧ unot ⟨1, 1⟩ = true := ⟨rfl, rfl⟩

/-- In terms of signed values: addition and negation of `int128` are those of the integers, modulo `2^128`. -/
theorem signed_exact (x y : W128) (hx : x.Wf) (hy : y.Wf) :
    ((add x y).sval - (x.sval + y.sval)) % 2 ^ 128 = 0 ∧ ((neg x).sval + x.sval) % 2 ^ 128 = 0 ∧
    (bnot x).sval = -x.sval - 1 := by
  have h1 := add_exact x y hx hy
  have h2 := neg_exact x hx
  have h3 := bnot_exact x hx
  have a := uval_lt hx
  have b := uval_lt hy
  unfold sval
  rw [h1.2, h2.2, h3.2]
  generalize x.uval = u at *
  generalize y.uval = v at *
  refine ⟨?_, ?_, ?_⟩ <;> split_ifs <;> omega

example : add ⟨0, 0xffffffffffffffff⟩ ⟨0, 1⟩ = ⟨1, 0⟩ ∧ sub ⟨1, 0⟩ ⟨0, 1⟩ = ⟨0, 0xffffffffffffffff⟩ ∧
    sub ⟨5, 7⟩ ⟨1, 0⟩ = ⟨3, 7⟩ ∧ neg ⟨0, 1⟩ = ⟨0xffffffffffffffff, 0xffffffffffffffff⟩ ∧
    unegate ⟨0, 1⟩ = ⟨1, 0xffffffffffffffff⟩ := by decide

/-! ### C32 -/

theorem or_low {a b : Nat} (hb : b < 2 ^ 32) : a * 2 ^ 32 ||| b = a * 2 ^ 32 + b := by
  rw [Nat.mul_comm, ← Nat.two_pow_add_eq_or_of_lt hb]

/-- **C32**: multiplication by a 32-bit number. -/
theorem mul32_exact (x : W128) (r : Nat) (hx : x.Wf) (hr : r < 2 ^ 32) :
    (mul32 x r).Wf ∧ (mul32 x r).uval = x.uval * r % 2 ^ 128 := by
  obtain ⟨h1, h2⟩ := hx
  unfold mul32 Wf uval u64
  simp only [b2n_decide]
  have e1 : x.lo &&& 0x00000000ffffffff = x.lo % 2 ^ 32 := Nat.and_two_pow_sub_one_eq_mod _ 32
  have e2 : (x.lo &&& 0xffffffff00000000) >>> 32 = x.lo / 2 ^ 32 := by
    have h := and_field x.lo 32 32
    rw [show (0xffffffff00000000 : Nat) = 2 ^ 32 * (2 ^ 32 - 1) from rfl, h, Nat.shiftRight_eq_div_pow,
      Nat.mul_div_cancel _ (by norm_num), Nat.mod_eq_of_lt (by omega)]
  rw [e1, e2, Nat.shiftLeft_eq, Nat.shiftRight_eq_div_pow]
  have ha : x.lo % 2 ^ 32 * r ≤ (2 ^ 32 - 1) * (2 ^ 32 - 1) := Nat.mul_le_mul (by omega) (by omega)
  have hb : x.lo / 2 ^ 32 * r ≤ (2 ^ 32 - 1) * (2 ^ 32 - 1) := Nat.mul_le_mul (by omega) (by omega)
  have hv : (x.hi * 2 ^ 64 + x.lo) * r = x.hi * r * 2 ^ 64 + (x.lo / 2 ^ 32 * r) * 2 ^ 32 + x.lo % 2 ^ 32 * r := by
    have := Nat.div_add_mod x.lo (2 ^ 32)
    calc (x.hi * 2 ^ 64 + x.lo) * r = (x.hi * 2 ^ 64 + (2 ^ 32 * (x.lo / 2 ^ 32) + x.lo % 2 ^ 32)) * r := by rw [this]
      _ = _ := by ring
  rw [hv]
  generalize x.lo % 2 ^ 32 * r = a at *
  generalize x.lo / 2 ^ 32 * r = b at *
  generalize x.hi * r = c at *
  simp only [Nat.reducePow] at *
  split_ifs <;> omega

theorem sval_mod {p : W128} {m : Nat} (h : p.uval = m % 2 ^ 128) : (p.sval - (m : Int)) % 2 ^ 128 = 0 := by
  unfold sval
  rw [h]
  split_ifs <;> omega

theorem sval_mod_neg {p q : W128} {m : Nat} (h : q.uval = (2 ^ 128 - p.uval) % 2 ^ 128) (h2 : p.uval = m % 2 ^ 128)
    (h3 : p.uval < 2 ^ 128) : (q.sval - -(m : Int)) % 2 ^ 128 = 0 := by
  unfold sval
  rw [h]
  generalize p.uval = u at *
  split_ifs <;> omega

/-- **C32** fails for the product of the smallest `int128` (the recursion never ends), and holds for all others. -/
theorem smul32_exact_partial (x : W128) (r : Nat) (hx : x.Wf) (hr : r < 2 ^ 32) (hmin : x.sval ≠ -2 ^ 127) (fuel : Nat) :
    ∃ p, smul32 (fuel + 2) x r = .ok p ∧ p.Wf ∧ (p.sval - x.sval * r) % 2 ^ 128 = 0 := by
  have pos : ∀ (x : W128), x.Wf → x.uval < 2 ^ 127 → ∀ f, ∃ p, smul32 (f + 1) x r = .ok p ∧ p.Wf ∧
      p.uval = x.uval * r % 2 ^ 128 := by
    intro x hx h f
    refine ⟨mul32 x r, ?_, mul32_exact x r hx hr⟩
    unfold smul32
    rw [if_neg]
    unfold sext64
    unfold uval Wf at *
    split_ifs <;> omega
  by_cases h : x.uval < 2 ^ 127
  · obtain ⟨p, e, hp, hv⟩ := pos x hx h (fuel + 1)
    refine ⟨p, e, hp, ?_⟩
    have hxs : x.sval = x.uval := by unfold sval; rw [if_pos h]
    rw [hxs]
    have hc : ((x.uval * r : Nat) : Int) = (x.uval : Int) * r := by push_cast; rfl
    rw [← hc]
    exact sval_mod hv
  · have hu := uval_lt hx
    have hxs : x.sval = (x.uval : Int) - 2 ^ 128 := by unfold sval; rw [if_neg h]
    obtain ⟨hn1, hn2⟩ := neg_exact x hx
    rw [hxs] at hmin
    have hn3 : (neg x).uval = 2 ^ 128 - x.uval := by
      rw [hn2]
      clear hn1 hn2 pos
      generalize x.uval = u at *
      omega
    have hnlt : (neg x).uval < 2 ^ 127 := by
      rw [hn3]
      clear hn1 hn2 hn3 pos
      generalize x.uval = u at *
      omega
    obtain ⟨p, e, hp, hv⟩ := pos (neg x) hn1 hnlt fuel
    obtain ⟨hm1, hm2⟩ := neg_exact p hp
    refine ⟨neg p, ?_, hm1, ?_⟩
    · rw [smul32, if_pos, e]
      · rfl
      · clear pos hn1 hn2 hn3 hnlt hmin hxs
        unfold sext64
        unfold uval Wf at *
        split_ifs <;> omega
    · have hval : x.sval * r = -((((neg x).uval) * r : Nat) : Int) := by
        have : x.sval = -((neg x).uval : Int) := by
          rw [hxs, hn3]
          clear pos hn1 hn2 hn3 hnlt
          generalize x.uval = u at *
          omega
        rw [this]; push_cast; ring
      rw [hval]
      exact sval_mod_neg hm2 hv (uval_lt hp)

theorem smul32_violated (r : Nat) (fuel : Nat) : smul32 fuel ⟨2 ^ 63, 0⟩ r = .ub := by
  induction fuel with
  | zero => rfl
  | succ f ih =>
    unfold smul32
    rw [if_pos (by decide)]
    have : neg ⟨2 ^ 63, 0⟩ = ⟨2 ^ 63, 0⟩ := by decide
    rw [this, ih]; rfl

/-- **C32**: quotient and remainder by a 32-bit number. -/
theorem divrem32_exact (x : W128) (r : Nat) (hx : x.Wf) (hr : r < 2 ^ 32) (h0 : r ≠ 0) :
    ∃ q, divrem32 x r = .ok (q, x.uval % r) ∧ q.Wf ∧ q.uval = x.uval / r := by
  obtain ⟨h1, h2⟩ := hx
  have rp : 0 < r := by omega
  unfold divrem32
  rw [if_neg h0]
  have e1 : x.lo &&& 0x00000000ffffffff = x.lo % 2 ^ 32 := Nat.and_two_pow_sub_one_eq_mod _ 32
  have e3 : x.lo >>> 32 = x.lo / 2 ^ 32 := Nat.shiftRight_eq_div_pow _ _
  have hrem : x.hi % r < r := Nat.mod_lt _ rp
  have u1 : u64 ((x.hi % r) <<< 32) = x.hi % r * 2 ^ 32 := by
    unfold u64; rw [Nat.shiftLeft_eq, Nat.mod_eq_of_lt]
    omega
  have hlo2 : x.lo / 2 ^ 32 < 2 ^ 32 := by omega
  have hlo1 : x.lo % 2 ^ 32 < 2 ^ 32 := Nat.mod_lt _ (by norm_num)
  simp only [e1, e3, u1, or_low hlo2]
  obtain ⟨mid, hmid⟩ : ∃ mid, mid = x.hi % r * 2 ^ 32 + x.lo / 2 ^ 32 := ⟨_, rfl⟩
  rw [← hmid]
  have hmrem : mid % r < r := Nat.mod_lt _ rp
  have u2 : u64 ((mid % r) <<< 32) = mid % r * 2 ^ 32 := by
    unfold u64; rw [Nat.shiftLeft_eq, Nat.mod_eq_of_lt]
    omega
  simp only [u2, or_low hlo1]
  obtain ⟨low, hlow⟩ : ∃ low, low = mid % r * 2 ^ 32 + x.lo % 2 ^ 32 := ⟨_, rfl⟩
  rw [← hlow]
  have hmd : mid / r < 2 ^ 32 := by
    rw [Nat.div_lt_iff_lt_mul rp]
    have : (x.hi % r + 1) * 2 ^ 32 ≤ r * 2 ^ 32 := Nat.mul_le_mul_right _ (by omega)
    rw [Nat.mul_comm (2 ^ 32)]; omega
  have hld : low / r < 2 ^ 32 := by
    rw [Nat.div_lt_iff_lt_mul rp]
    have : (mid % r + 1) * 2 ^ 32 ≤ r * 2 ^ 32 := Nat.mul_le_mul_right _ (by omega)
    rw [Nat.mul_comm (2 ^ 32)]; omega
  have u3 : u64 ((mid / r) <<< 32) = mid / r * 2 ^ 32 := by
    unfold u64; rw [Nat.shiftLeft_eq, Nat.mod_eq_of_lt]
    omega
  rw [u3, or_low hld]
  -- the value is r * quotient + remainder
  have hval : x.uval = r * (x.hi / r * 2 ^ 64 + mid / r * 2 ^ 32 + low / r) + low % r := by
    have a1 := Nat.div_add_mod x.hi r
    have a2 := Nat.div_add_mod mid r
    have a3 := Nat.div_add_mod low r
    have a4 := Nat.div_add_mod x.lo (2 ^ 32)
    unfold uval
    have : r * (x.hi / r * 2 ^ 64 + mid / r * 2 ^ 32 + low / r) + low % r
        = (r * (x.hi / r)) * 2 ^ 64 + (r * (mid / r)) * 2 ^ 32 + (r * (low / r) + low % r) := by ring
    rw [this]
    generalize r * (x.hi / r) = A at *
    generalize r * (mid / r) = B at *
    generalize r * (low / r) = C at *
    simp only [Nat.reducePow] at *
    omega
  have hlr : low % r < r := Nat.mod_lt _ rp
  have hq : x.uval / r = x.hi / r * 2 ^ 64 + mid / r * 2 ^ 32 + low / r := by
    rw [hval, Nat.add_comm, Nat.add_mul_div_left _ _ rp, Nat.div_eq_of_lt hlr, Nat.zero_add]
  have hm : x.uval % r = low % r := by
    rw [hval, Nat.add_comm, Nat.add_mul_mod_self_left, Nat.mod_eq_of_lt hlr]
  refine ⟨⟨x.hi / r, mid / r * 2 ^ 32 + low / r⟩, by rw [hm], ⟨?_, ?_⟩, ?_⟩
  · exact Nat.lt_of_le_of_lt (Nat.div_le_self _ _) h1
  · simp only; omega
  · rw [hq]; unfold uval; simp only; omega

theorem digitLoop_exact : ∀ (room : Nat) (x : W128) (buf : List Nat), x.Wf → x.uval < 10 ^ room → x.uval ≠ 0 →
    digitLoop room x buf = .ok (decDigits x.uval ++ buf) := by
  intro room
  induction room with
  | zero => intro x buf _ h h0; omega
  | succ room ih =>
    intro x buf hx h h0
    obtain ⟨q, e, hq, hv⟩ := divrem32_exact x 10 hx (by norm_num) (by norm_num)
    unfold digitLoop
    rw [e]
    simp only [Res.bind_ok]
    by_cases hz : q = ⟨0, 0⟩
    · rw [if_neg (by simpa using hz)]
      have : x.uval / 10 = 0 := by rw [← hv, hz]; rfl
      have hlt : x.uval < 10 := by omega
      rw [decDigits, if_pos hlt, Nat.mod_eq_of_lt hlt, Nat.add_comm]; rfl
    · rw [if_pos hz]
      have hne : q.uval ≠ 0 := by
        intro hc; apply hz
        exact uval_inj (y := ⟨0, 0⟩) hq (by decide) hc
      rw [ih q _ hq (by rw [hv]; rw [Nat.pow_succ] at h; omega) hne]
      have hge : ¬ x.uval < 10 := by
        intro hc; apply hne; rw [hv]; omega
      conv => rhs; rw [decDigits, if_neg hge]
      rw [hv, List.append_assoc, Nat.add_comm 48]; rfl

/-- **C32**: printing. The characters are the decimal digits of the value (`printInt`, see C26), and the 40-character
    buffer is always large enough. -/
theorem uprint_exact (x : W128) (hx : x.Wf) : uprint x = .ok (decDigits x.uval) := by
  unfold uprint
  by_cases h : x = ⟨0, 0⟩
  · rw [if_pos h, h]; simp [uval, decDigits]
  · rw [if_neg h, digitLoop_exact 40 x [] hx _ _, List.append_nil]
    · have := uval_lt hx; omega
    · intro hc; exact h (uval_inj (y := ⟨0, 0⟩) hx (by decide) hc)

theorem sprint_exact (x : W128) (hx : x.Wf) : sprint x = .ok (printInt x.sval) := by
  have hlt := (compare_exact x ⟨0, 0⟩ hx (by decide)).1
  have hz : sval ⟨0, 0⟩ = 0 := by decide
  rw [hz] at hlt
  unfold sprint printInt
  obtain ⟨hn1, hn2⟩ := neg_exact x hx
  have hu := uval_lt hx
  by_cases h : x.sval < 0
  · rw [if_pos (hlt.2 h), uprint_exact _ hn1, if_pos h]
    have : (neg x).uval = x.sval.natAbs := by
      rw [hn2]
      unfold sval at *
      generalize x.uval = u at *
      simp only [Nat.reducePow] at *
      split_ifs at * <;> omega
    rw [this]; rfl
  · rw [if_neg (by rw [hlt]; exact h), uprint_exact _ hx, if_neg h]
    have : x.uval = x.sval.natAbs := by
      unfold sval at *
      generalize x.uval = u at *
      simp only [Nat.reducePow] at *
      split_ifs at * <;> omega
    rw [this]

example : uprint ⟨0xffffffffffffffff, 0xffffffffffffffff⟩ =
    .ok [51,52,48,50,56,50,51,54,54,57,50,48,57,51,56,52,54,51,52,54,51,51,55,52,54,48,55,52,51,49,55,54,56,50,49,49,52,53,53] := by
  rw [uprint_exact _ (by decide)]
  simp [uval, decDigits]

/-! ### C62: conversions -/

/-- **C62**: every builtin integer converts to `int128` unchanged. -/
theorem sOfInt_exact (v : Int) (h1 : -2 ^ 63 ≤ v) (h2 : v < 2 ^ 64) : (sOfInt v).Wf ∧ (sOfInt v).sval = v := by
  unfold sOfInt Wf sval uval
  simp only
  split_ifs <;> omega

/-- **C62**: non-negative integers convert to `uint128` unchanged. -/
theorem uOfInt_exact_partial (v : Int) (h1 : 0 ≤ v) (h2 : v < 2 ^ 64) : (uOfInt v).Wf ∧ (uOfInt v).uval = v := by
  unfold uOfInt Wf uval
  simp only
  omega

/-- **C62** fails for negative sources: the result is not the value modulo `2^128` (the sign is not extended). -/
theorem uOfInt_violated (v : Int) (h1 : -2 ^ 63 ≤ v) (h2 : v < 0) : ((uOfInt v).uval : Int) ≠ v % 2 ^ 128 := by
  unfold uOfInt uval
  simp only
  omega

/-- **C62** fails for `int128` → `double`: the sign of a negative number is lost. -/
theorem stoF64_violated (x : W128) (hx : x.Wf) (h : x.sval < 0) : 0 ≤ stoF64 x ∧ stoF64 x ≠ (x.sval : ℚ) := by
  have hlt := (compare_exact x ⟨0, 0⟩ hx (by decide)).1
  have hz : sval ⟨0, 0⟩ = 0 := by decide
  rw [hz] at hlt
  have hpos : (0:ℚ) ≤ stoF64 x := by unfold stoF64; split_ifs <;> positivity
  refine ⟨hpos, fun hc => ?_⟩
  rw [hc] at hpos
  have : (0:Int) ≤ x.sval := by exact_mod_cast hpos
  omega

end W128
end Dynd
