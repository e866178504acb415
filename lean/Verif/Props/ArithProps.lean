/-
C73 (comparisons of builtin numbers), C74 (integer arithmetic), C75 (division), C76 (compound arithmetic),
C77 (missing values through two-argument callables).
-/
import Verif.Model.Arith
import Verif.Model.Option
import Verif.Props.FloatCastProps
import Mathlib.Data.Int.ModEq

namespace Dynd
open Fmt

/-! ### specification -/

/-- The order relation a comparison callable is named after, on numbers. -/
def Cmp.Rel : Cmp → ℚ → ℚ → Prop
  | .eq, x, y => x = y
  | .ne, x, y => x ≠ y
  | .lt, x, y => x < y
  | .le, x, y => x ≤ y
  | .gt, x, y => x > y
  | .ge, x, y => x ≥ y

/-- The type of an integer expression of two operands: at least 32 bits and as wide as the wider operand; unsigned
    exactly when an unsigned operand has that width. -/
def resTy (a b : IntTy) : IntTy :=
  let w := max 32 (max a.bits b.bits)
  ⟨w, !((!a.signed && a.bits = w) || (!b.signed && b.bits = w))⟩

/-- One operand is signed, the other unsigned, of at least 32 bits and at least as wide. -/
def MixedSign (a b : IntTy) : Prop :=
  (a.signed = true ∧ b.signed = false ∧ 32 ≤ b.bits ∧ a.bits ≤ b.bits) ∨
  (b.signed = true ∧ a.signed = false ∧ 32 ≤ a.bits ∧ b.bits ≤ a.bits)

instance (a b : IntTy) : Decidable (MixedSign a b) := by unfold MixedSign; infer_instance

/-- The value an operand is compared as: itself, except that a negative number met by an unsigned type at least as wide
    (and at least 32 bits) is taken modulo `2^width`. -/
def comparedAs (a b : IntTy) (x : Int) : Int :=
  if MixedSign a b ∧ x < 0 then x + (2 ^ (max a.bits b.bits) : Nat) else x

/-! ### the common type -/

theorem common_eq (a b : IntTy) : a.common b = resTy a b := by
  obtain ⟨n, s⟩ := a
  obtain ⟨m, u⟩ := b
  unfold IntTy.common IntTy.promote resTy
  cases s <;> cases u <;> by_cases h1 : n < 32 <;> by_cases h2 : m < 32 <;>
    simp only [h1, h2, if_true, if_false, reduceCtorEq] <;>
    (try split_ifs) <;> simp only [IntTy.mk.injEq, Bool.not_true, Bool.not_false, Bool.false_and, Bool.true_and,
      Bool.or_false, Bool.false_or, Bool.or_self, true_and, and_true] <;>
    first
      | omega
      | (refine ⟨by omega, ?_⟩
         first
           | rfl
           | (simp only [Bool.true_eq, Bool.false_eq, Bool.not_eq_true', Bool.not_eq_false', decide_eq_false_iff_not,
               decide_eq_true_eq, Bool.or_eq_true, Bool.or_eq_false_iff]
              omega))

theorem resTy_bits (a b : IntTy) : 32 ≤ (resTy a b).bits ∧ a.bits ≤ (resTy a b).bits ∧ b.bits ≤ (resTy a b).bits := by
  unfold resTy; simp only; omega

theorem resTy_comm (a b : IntTy) : resTy a b = resTy b a := by
  unfold resTy
  simp only [Nat.max_comm a.bits b.bits, Bool.or_comm]

theorem has_mono {b c : Nat} {x : Int} (h : b ≤ c) (hx : (IntTy.mk b true).Has x) : (IntTy.mk c true).Has x := by
  rw [IntTy.has_signed] at *
  have := Nat.pow_le_pow_right (n := 2) (by omega) (show b - 1 ≤ c - 1 by omega)
  generalize 2 ^ (b - 1) = p at *
  generalize 2 ^ (c - 1) = q at *
  omega

theorem has_monoU {b c : Nat} {x : Int} (h : b ≤ c) (hx : (IntTy.mk b false).Has x) : (IntTy.mk c false).Has x := by
  rw [IntTy.has_unsigned] at *
  have := Nat.pow_le_pow_right (n := 2) (by omega) h
  generalize 2 ^ b = p at *
  generalize 2 ^ c = q at *
  omega

theorem has_monoUS {b c : Nat} {x : Int} (h : b < c) (hx : (IntTy.mk b false).Has x) : (IntTy.mk c true).Has x := by
  rw [IntTy.has_unsigned] at hx
  rw [IntTy.has_signed]
  have := Nat.pow_le_pow_right (n := 2) (by omega) (show b ≤ c - 1 by omega)
  generalize 2 ^ b = p at *
  generalize 2 ^ (c - 1) = q at *
  omega

/-- A non-negative value fits the wider or equal unsigned type. -/
theorem has_nonneg {b c : Nat} {x : Int} (h : b ≤ c) (h0 : 0 ≤ x) (hx : (IntTy.mk b true).Has x) : (IntTy.mk c false).Has x := by
  rw [IntTy.has_signed] at hx
  rw [IntTy.has_unsigned]
  have := Nat.pow_le_pow_right (n := 2) (by omega) (show b - 1 ≤ c by omega)
  generalize 2 ^ (b - 1) = p at *
  generalize 2 ^ c = q at *
  omega

/-- The operand keeps its value in the common type, unless it is negative and the common type unsigned. -/
theorem resTy_has_left {a b : IntTy} {x : Int} (hx : a.Has x) (h : (resTy a b).signed = true ∨ 0 ≤ x) :
    (resTy a b).Has x := by
  obtain ⟨n, s⟩ := a
  obtain ⟨m, u⟩ := b
  cases s
  · by_cases hu : n = max 32 (max n m)
    · have : resTy ⟨n, false⟩ ⟨m, u⟩ = ⟨max 32 (max n m), false⟩ := by simp [resTy, ← hu]
      rw [this]; exact has_monoU (by omega) hx
    · generalize hr : resTy ⟨n, false⟩ ⟨m, u⟩ = r at *
      have hb : r.bits = max 32 (max n m) := by rw [← hr]; rfl
      obtain ⟨rb, rs⟩ := r
      simp only at hb; subst hb
      cases rs
      · exact has_monoU (by omega) hx
      · exact has_monoUS (by omega) hx
  · generalize hr : resTy ⟨n, true⟩ ⟨m, u⟩ = r at *
    have hb : r.bits = max 32 (max n m) := by rw [← hr]; rfl
    obtain ⟨rb, rs⟩ := r
    simp only at hb; subst hb
    cases rs
    · rcases h with h | h
      · simp at h
      · exact has_nonneg (by omega) h hx
    · exact has_mono (by omega) hx

theorem resTy_has_right {a b : IntTy} {y : Int} (hy : b.Has y) (h : (resTy a b).signed = true ∨ 0 ≤ y) :
    (resTy a b).Has y := by
  rw [resTy_comm] at *; exact resTy_has_left hy h

theorem resTy_unsigned_iff (a b : IntTy) :
    (resTy a b).signed = false ↔
      (a.signed = false ∧ 32 ≤ a.bits ∧ b.bits ≤ a.bits) ∨ (b.signed = false ∧ 32 ≤ b.bits ∧ a.bits ≤ b.bits) := by
  unfold resTy
  simp only [Bool.not_eq_false', Bool.or_eq_true, Bool.and_eq_true, Bool.not_eq_true', decide_eq_true_eq]
  constructor
  · rintro (⟨h1, h2⟩ | ⟨h1, h2⟩)
    · left; exact ⟨h1, by omega, by omega⟩
    · right; exact ⟨h1, by omega, by omega⟩
  · rintro (⟨h1, h2, h3⟩ | ⟨h1, h2, h3⟩)
    · left; exact ⟨h1, by omega⟩
    · right; exact ⟨h1, by omega⟩

theorem has_unsigned_nonneg {a : IntTy} {x : Int} (h : a.signed = false) (hx : a.Has x) : 0 ≤ x := by
  obtain ⟨n, s⟩ := a
  simp only at h; subst h
  exact (IntTy.has_unsigned.1 hx).1

theorem onInt_iff (op : Cmp) (x y : Int) : op.onInt x y = true ↔ op.Rel x y := by
  cases op <;> simp [Cmp.onInt, Cmp.Rel]

/-- What a converted operand becomes in the common type. -/
theorem cast_common_left {a b : IntTy} {x : Int} (hx : a.Has x) :
    (resTy a b).cast x = comparedAs a b x := by
  unfold comparedAs
  have hb := resTy_bits a b
  split_ifs with h
  · obtain ⟨h, h0⟩ := h
    have hs : a.signed = true := by
      by_contra hc
      have := has_unsigned_nonneg (by simpa using hc) hx; omega
    have hm : b.signed = false ∧ 32 ≤ b.bits ∧ a.bits ≤ b.bits := by
      rcases h with h | h
      · exact h.2
      · rw [hs] at h; exact absurd h.2.1 (by simp)
    have hr : resTy a b = ⟨max a.bits b.bits, false⟩ := by
      have h1 := (resTy_unsigned_iff a b).2 (Or.inr hm)
      have h2 : (resTy a b).bits = max 32 (max a.bits b.bits) := rfl
      generalize resTy a b = r at *
      obtain ⟨rb, rs⟩ := r
      simp only at h1 h2; subst h1 h2
      congr 1; omega
    rw [hr]
    simp only [IntTy.cast, Bool.false_eq_true, if_false]
    obtain ⟨n, s⟩ := a
    simp only at hs hm hx; subst hs
    rw [IntTy.has_signed] at hx
    have := Nat.pow_le_pow_right (n := 2) (by omega) (show n - 1 ≤ max n b.bits by omega)
    simp only
    generalize 2 ^ (n - 1) = p at *
    generalize 2 ^ (max n b.bits) = q at *
    rw [show x = (x + q) - q by omega, Int.sub_emod_right, Int.emod_eq_of_lt (by omega) (by omega)]
    omega
  · apply IntTy.cast_of_has (by omega)
    apply resTy_has_left hx
    by_cases h0 : 0 ≤ x
    · exact Or.inr h0
    · left
      by_contra hc
      have hc : (resTy a b).signed = false := by simpa using hc
      have hs : a.signed = true := by
        by_contra hc
        have := has_unsigned_nonneg (by simpa using hc) hx; omega
      apply h
      refine ⟨?_, by omega⟩
      rcases (resTy_unsigned_iff a b).1 hc with h | h
      · rw [hs] at h; exact absurd h.1 (by simp)
      · exact Or.inl ⟨hs, h⟩

theorem mixed_comm (a b : IntTy) : MixedSign a b ↔ MixedSign b a := by unfold MixedSign; exact Or.comm

theorem comparedAs_comm (a b : IntTy) (x : Int) : comparedAs a b x = comparedAs b a x := by
  unfold comparedAs
  simp only [mixed_comm a b, Nat.max_comm a.bits b.bits]

theorem cast_common_right {a b : IntTy} {y : Int} (hy : b.Has y) :
    (resTy a b).cast y = comparedAs a b y := by
  rw [resTy_comm, cast_common_left hy, comparedAs_comm]

theorem mixed_irrefl (a : IntTy) : ¬ MixedSign a a := by
  rintro (⟨h1, h2, _⟩ | ⟨h1, h2, _⟩) <;> (rw [h1] at h2; exact absurd h2 (by simp))

/-- **C73** (integers, what happens for every pair of types and values). -/
theorem compare_int_value (op : Cmp) (a b : IntTy) (x y : Int) (hx : a.Has x) (hy : b.Has y) :
    cmpInt op a b x y = true ↔ op.Rel (comparedAs a b x) (comparedAs a b y) := by
  unfold cmpInt
  split_ifs with h
  · subst h
    have h1 : ∀ z, comparedAs a a z = z := fun z => by unfold comparedAs; rw [if_neg (fun h => mixed_irrefl a h.1)]
    rw [h1, h1]; exact onInt_iff op x y
  · rw [onInt_iff, common_eq, cast_common_left hx, cast_common_right hy]

/-- **C73** (integers): comparisons of integers are those of the numbers, unless a negative number meets an unsigned type
    of at least 32 bits that is at least as wide. -/
theorem compare_int_exact_partial (op : Cmp) (a b : IntTy) (x y : Int) (hx : a.Has x) (hy : b.Has y)
    (h : ¬ MixedSign a b ∨ (0 ≤ x ∧ 0 ≤ y)) : cmpInt op a b x y = true ↔ op.Rel x y := by
  rw [compare_int_value op a b x y hx hy]
  unfold comparedAs
  rw [if_neg (by rintro ⟨h1, h2⟩; rcases h with h | h; exacts [h h1, by omega]),
    if_neg (by rintro ⟨h1, h2⟩; rcases h with h | h; exacts [h h1, by omega])]

/-- **C73 violated**: for every such mixed pair of types, and a negative number compared with any number of the other
    type, the order comes out the wrong way round: the negative number is not less, and it is equal to a large positive
    one. -/
theorem compare_int_violated (a b : IntTy) (h : a.signed = true ∧ b.signed = false ∧ 32 ≤ b.bits ∧ a.bits ≤ b.bits)
    (x : Int) (hx : a.Has x) (h0 : x < 0) :
    cmpInt .lt a b x 0 = false ∧ cmpInt .ge a b x 0 = true ∧
      ∃ y, b.Has y ∧ 0 < y ∧ cmpInt .eq a b x y = true := by
  have hm : MixedSign a b := Or.inl h
  obtain ⟨n, s⟩ := a
  obtain ⟨m, u⟩ := b
  simp only at h
  obtain ⟨rfl, rfl, h3, h4⟩ := h
  have hz : (IntTy.mk m false).Has 0 := by rw [IntTy.has_unsigned]; constructor; exact Int.le_refl _; exact_mod_cast Nat.pow_pos (by omega)
  have hx' := IntTy.has_signed.1 hx
  have h5 : n - 1 < m := by omega
  have hp := Nat.pow_lt_pow_right (a := 2) (by omega) h5
  have h6 : comparedAs ⟨n, true⟩ ⟨m, false⟩ x = x + (2 ^ m : Nat) := by
    unfold comparedAs; rw [if_pos ⟨hm, h0⟩]; simp only; rw [Nat.max_eq_right h4]
  have h7 : comparedAs ⟨n, true⟩ ⟨m, false⟩ 0 = 0 := by
    unfold comparedAs; rw [if_neg (by omega)]
  generalize 2 ^ (n - 1) = p at *
  refine ⟨?_, ?_, x + (2 ^ m : Nat), ?_, ?_, ?_⟩
  · rw [Bool.eq_false_iff, ne_eq, compare_int_value _ _ _ _ _ hx hz, h6, h7]
    simp only [Cmp.Rel]
    rw [Int.cast_lt]; generalize 2 ^ m = q at *; omega
  · rw [compare_int_value _ _ _ _ _ hx hz, h6, h7]
    simp only [Cmp.Rel, ge_iff_le]
    rw [Int.cast_le]; generalize 2 ^ m = q at *; omega
  · rw [IntTy.has_unsigned]; generalize 2 ^ m = q at *; omega
  · generalize 2 ^ m = q at *; omega
  · have hy : (IntTy.mk m false).Has (x + (2 ^ m : Nat)) := by
      rw [IntTy.has_unsigned]; generalize 2 ^ m = q at *; omega
    have h8 : comparedAs ⟨n, true⟩ ⟨m, false⟩ (x + (2 ^ m : Nat)) = x + (2 ^ m : Nat) := by
      unfold comparedAs; rw [if_neg (by generalize 2 ^ m = q at *; omega)]
    rw [compare_int_value _ _ _ _ _ hx hy, h6, h8]
    simp [Cmp.Rel]

/-- **C73** (integers, which pairs of types are safe): all comparisons of all values are right exactly for the pairs that
    are not mixed. -/
theorem compare_int_safe_iff (a b : IntTy) (ha : a.Valid) (hb : b.Valid) :
    (∀ op x y, a.Has x → b.Has y → (cmpInt op a b x y = true ↔ op.Rel x y)) ↔ ¬ MixedSign a b := by
  constructor
  · rintro h (hm | hm)
    · have hneg : a.Has (-1) := by
        obtain ⟨n, s⟩ := a; simp only at hm; obtain ⟨rfl, _⟩ := hm
        rw [IntTy.has_signed]; have := @Nat.one_le_two_pow (n - 1); generalize 2 ^ (n-1) = p at *; omega
      have hz : b.Has 0 := by
        obtain ⟨n, s⟩ := b; simp only at hm; obtain ⟨_, rfl, _⟩ := hm
        rw [IntTy.has_unsigned]; have := @Nat.one_le_two_pow n; generalize 2 ^ n = p at *; omega
      have h1 := (compare_int_violated a b hm (-1) hneg (by omega)).1
      have h2 := (h .lt (-1) 0 hneg hz).2 (by simp [Cmp.Rel])
      rw [h1] at h2; exact absurd h2 (by simp)
    · have hneg : b.Has (-1) := by
        obtain ⟨n, s⟩ := b; simp only at hm; obtain ⟨rfl, _⟩ := hm
        rw [IntTy.has_signed]; have := @Nat.one_le_two_pow (n - 1); generalize 2 ^ (n-1) = p at *; omega
      obtain ⟨y, hy, hy0, he⟩ := (compare_int_violated b a hm (-1) hneg (by omega)).2.2
      have h1 : cmpInt .eq a b y (-1) = true := by
        rw [compare_int_value _ _ _ _ _ hneg hy] at he
        rw [compare_int_value _ _ _ _ _ hy hneg]
        rw [comparedAs_comm a b y, comparedAs_comm a b]
        exact Eq.symm he
      have h2 := (h .eq y (-1) hy hneg).1 h1
      simp only [Cmp.Rel] at h2
      have : y = -1 := by exact_mod_cast h2
      omega
  · intro h op x y hx hy
    exact compare_int_exact_partial op a b x y hx hy (Or.inl h)

/-- **C73** (consistency): whatever the types, exactly one of less, equal, greater holds of two integers, and the other
    three comparisons are the negations. -/
theorem compare_int_trichotomy (a b : IntTy) (x y : Int) :
    (cmpInt .lt a b x y).toNat + (cmpInt .eq a b x y).toNat + (cmpInt .gt a b x y).toNat = 1 ∧
    cmpInt .ne a b x y = !cmpInt .eq a b x y ∧ cmpInt .le a b x y = !cmpInt .gt a b x y ∧
    cmpInt .ge a b x y = !cmpInt .lt a b x y := by
  unfold cmpInt
  split_ifs <;> simp only [Cmp.onInt]
  · rcases lt_trichotomy x y with h | h | h <;> simp [h, not_lt, not_le, le_of_lt, ne_of_lt, ne_of_gt, not_lt_of_gt]
  · generalize (a.common b).cast x = x; generalize (a.common b).cast y = y
    rcases lt_trichotomy x y with h | h | h <;> simp [h, not_lt, not_le, le_of_lt, ne_of_lt, ne_of_gt, not_lt_of_gt]

/-- Swapping the arguments swaps the order. -/
theorem compare_int_swap (a b : IntTy) (x y : Int) :
    cmpInt .lt a b x y = cmpInt .gt b a y x ∧ cmpInt .le a b x y = cmpInt .ge b a y x ∧
    cmpInt .eq a b x y = cmpInt .eq b a y x := by
  unfold cmpInt
  rw [common_eq, common_eq b a, resTy_comm b a]
  by_cases h : a = b
  · subst h; simp [Cmp.onInt, eq_comm]
  · rw [if_neg h, if_neg (Ne.symm h), if_neg h, if_neg h, if_neg (Ne.symm h), if_neg (Ne.symm h)]
    simp [Cmp.onInt, eq_comm]

/-- Non-vacuity: `int16` against `uint64` goes wrong, `int64` against `uint32` does not, and `equal` is not
    transitive across types. -/
example : cmpInt .lt ⟨16, true⟩ ⟨64, false⟩ (-1) 0 = false ∧ cmpInt .lt ⟨64, true⟩ ⟨32, false⟩ (-1) 0 = true ∧
    cmpInt .eq ⟨32, true⟩ ⟨32, false⟩ (-1) 4294967295 = true ∧ cmpInt .eq ⟨32, false⟩ ⟨64, true⟩ 4294967295 4294967295 = true ∧
    cmpInt .eq ⟨32, true⟩ ⟨64, true⟩ (-1) 4294967295 = false := by decide

/-! ### integers against floating point numbers -/

instance (F : Fmt) (b : Nat) : Decidable (F.IsNan b) := by unfold Fmt.IsNan; infer_instance
instance (F : Fmt) (b : Nat) : Decidable (F.IsInf b) := by unfold Fmt.IsInf; infer_instance

/-- What comparing the number `x` with the floating point value `y` should answer: NaN is unordered and unequal to
    everything, the infinities are beyond all numbers. -/
def NumVsFloat (F : Fmt) (op : Cmp) (x : ℚ) (y : Nat) : Prop :=
  if F.IsNan y then op = .ne
  else if F.IsInf y then (if F.sgn y = 1 then op.Rel 1 0 else op.Rel 0 1)
  else op.Rel x (F.val y)

theorem decode_cases (F : Fmt) (b : Nat) :
    (F.IsNan b ∧ F.decode b = .nan) ∨ (¬ F.IsNan b ∧ F.IsInf b ∧ F.decode b = .inf (decide (F.sgn b = 1))) ∨
    (¬ F.IsNan b ∧ ¬ F.IsInf b ∧ F.IsFinite b ∧ F.decode b = .fin (F.val b)) := by
  unfold Fmt.IsNan Fmt.IsInf Fmt.IsFinite Fmt.decode
  by_cases h1 : F.ex b = F.expMax <;> by_cases h2 : F.sig b = 0 <;> simp [h1, h2]

theorem onFV_fin (op : Cmp) (q r : ℚ) : op.onFV (.fin q) (.fin r) = true ↔ op.Rel q r := by
  cases op <;> simp only [Cmp.onFV, Cmp.Rel, FV.eq, FV.lt, decide_eq_true_eq, Bool.or_eq_true, Bool.not_eq_true',
    decide_eq_false_iff_not, ge_iff_le, gt_iff_lt, ne_eq]
  · exact le_iff_lt_or_eq.symm
  · rw [le_iff_lt_or_eq, eq_comm]

theorem onFV_num (F : Fmt) (op : Cmp) (q : ℚ) (y : Nat) :
    op.onFV (.fin q) (F.decode y) = true ↔ NumVsFloat F op q y := by
  unfold NumVsFloat
  rcases decode_cases F y with ⟨h1, h2⟩ | ⟨h1, h2, h3⟩ | ⟨h1, h2, _, h3⟩
  · rw [h2, if_pos h1]
    cases op <;> simp [Cmp.onFV, FV.eq, FV.lt]
  · rw [h3, if_neg h1, if_pos h2]
    by_cases hs : F.sgn y = 1 <;> cases op <;> simp [Cmp.onFV, Cmp.Rel, FV.eq, FV.lt, hs]
  · rw [h3, if_neg h1, if_neg h2]; exact onFV_fin op q _

/-- What the comparison of an integer with a floating point number computes: the integer rounded to the format. -/
theorem compare_int_float_value (F : Fmt) (op : Cmp) (x : Int) (y : Nat) :
    cmpIntFloat F op x y = true ↔ NumVsFloat F op (F.ofInt x) y := onFV_num F op _ y

/-- **C73** (integer against float, exact cases): comparisons with `float`/`double` are those of the numbers when the
    format represents the integer. -/
theorem compare_int_float_exact_partial (F : Fmt) (hF : Std F) (op : Cmp) (x : Int) (hx : x.natAbs ≤ 2 ^ 64) (y : Nat)
    (h : F.Represents x) : cmpIntFloat F op x y = true ↔ NumVsFloat F op x y := by
  rw [compare_int_float_value, (ofInt_exact hF hx).1 h]

/-- Small integers are represented: up to 2^24 by `float`, up to 2^53 by `double`. -/
theorem small_represented (F : Fmt) (hF : Std F) (x : Int) (h : x.natAbs ≤ 2 ^ (F.m + 1)) : F.Represents x := by
  have hm : F.m + 1 ≤ 64 := by rcases hF with rfl | rfl <;> simp [single, double]
  have h64 := Nat.pow_le_pow_right (n := 2) (by omega) hm
  rw [represents_int hF (by omega)]
  rcases Nat.lt_or_ge x.natAbs (2 ^ (F.m + 1)) with h1 | h1
  · have := bits_of_mul (e := 0) h1
    simpa using this
  · rw [show x.natAbs = 2 ^ (F.m + 1) by omega]; exact bits_pow (by omega)

/-- **C73** (integer against float, which integers are safe): every comparison with every value of the format is right
    exactly when the format represents the integer. -/
theorem compare_int_float_safe_iff (F : Fmt) (hF : Std F) (x : Int) (hx : x.natAbs ≤ 2 ^ 64) :
    (∀ op y, y < 2 ^ F.size → (cmpIntFloat F op x y = true ↔ NumVsFloat F op x y)) ↔ F.Represents x := by
  constructor
  · intro h
    -- the rounded value is represented
    have hr : ∃ n : Int, F.ofInt x = n ∧ n.natAbs ≤ 2 ^ 64 ∧ Bits (F.m + 1) n.natAbs := by
      have hb := (rneNat_bits (p := F.m + 1) (kmin := 0) (n := x.natAbs) (by omega)).1
      have hle : rneNat (F.m + 1) 0 x.natAbs ≤ 2 ^ 64 := by
        by_cases h0 : x.natAbs = 0
        · rw [h0, rneNat_of_bits (Nat.dvd_zero _) (Nat.dvd_zero _)]; exact Nat.zero_le _
        · unfold rneNat
          have hlog : x.natAbs.log2 ≤ 64 := by
            have := (log2_bounds h0).1
            rcases Nat.lt_or_ge 64 x.natAbs.log2 with hc | hc
            · have := Nat.pow_lt_pow_right (a := 2) (by omega) hc
              omega
            · exact hc
          exact rneDrop_le (Nat.pow_dvd_pow 2 (by omega)) hx
      unfold Fmt.ofInt
      generalize rneNat (F.m + 1) 0 x.natAbs = r at *
      by_cases h0 : x < 0
      · exact ⟨-(r : Int), by rw [if_pos h0]; push_cast; rfl, by omega, by simpa using hb⟩
      · exact ⟨(r : Int), by rw [if_neg h0]; push_cast; rfl, by omega, by simpa using hb⟩
    obtain ⟨n, hn, hn1, hn2⟩ := hr
    obtain ⟨b, hb, hfin, hv⟩ := (represents_int hF hn1).2 hn2
    have hd : ¬ F.IsNan b ∧ ¬ F.IsInf b := ⟨fun h => hfin h.1, fun h => hfin h.1⟩
    have h1 := h .eq b hb
    rw [compare_int_float_value] at h1
    unfold NumVsFloat at h1
    rw [if_neg hd.1, if_neg hd.2, hn, hv, if_neg hd.1, if_neg hd.2] at h1
    have h2 := h1.1 rfl
    exact ⟨b, hb, hfin, by rw [hv]; exact Eq.symm h2⟩
  · intro h op y _
    exact compare_int_float_exact_partial F hF op x hx y h

theorem rneNat_scale (p n U : Nat) : rneNat p 0 (n * 2 ^ U) = rneNat p 0 n * 2 ^ U := by
  by_cases h0 : n = 0
  · subst h0; rw [Nat.zero_mul, rneNat_of_bits (Nat.dvd_zero _) (Nat.dvd_zero _), Nat.zero_mul]
  have pU : 0 < 2 ^ U := Nat.pow_pos (by omega)
  by_cases hb : n.log2 + 1 ≤ p
  · have : Bits p n := by unfold Bits; rw [show n.log2 + 1 - p = 0 by omega]; simp
    rw [rneNat_of_bits this (by simp), rneNat_of_bits (bits_scale.2 this) (by simp)]
  · unfold rneNat
    rw [log2_scale h0, Nat.max_eq_left (by omega), Nat.max_eq_left (by omega)]
    obtain ⟨k, hk⟩ : ∃ k, k = n.log2 + 1 - p := ⟨_, rfl⟩
    rw [show n.log2 + U + 1 - p = k + U by omega, ← hk]
    unfold rneDrop
    simp only
    rw [Nat.pow_add, Nat.mul_div_mul_right _ _ pU, Nat.mul_mod_mul_right]
    have e1 : (2 * (n % 2 ^ k * 2 ^ U) > 2 ^ k * 2 ^ U) ↔ 2 * (n % 2 ^ k) > 2 ^ k := by
      rw [← Nat.mul_assoc]; exact Nat.mul_lt_mul_right pU
    have e2 : (2 * (n % 2 ^ k * 2 ^ U) = 2 ^ k * 2 ^ U) ↔ 2 * (n % 2 ^ k) = 2 ^ k := by
      rw [← Nat.mul_assoc]; exact Nat.mul_left_inj (by omega)
    simp only [e1, e2]
    split_ifs <;> ring

/-- Rounding an integer does not cross a number of the format. -/
theorem ofInt_mono {F : Fmt} (x : Int) (y : Nat) :
    (F.val y ≤ x → F.val y ≤ F.ofInt x) ∧ ((x : ℚ) ≤ F.val y → F.ofInt x ≤ F.val y) := by
  have hc := mag_bits (F := F) y
  have key : ∀ n : Nat, (F.mag y ≤ n * 2 ^ F.unit → F.mag y ≤ rneNat (F.m + 1) 0 n * 2 ^ F.unit) ∧
      (n * 2 ^ F.unit ≤ F.mag y → rneNat (F.m + 1) 0 n * 2 ^ F.unit ≤ F.mag y) := by
    intro n
    have h := rneNat_nearest (p := F.m + 1) (kmin := 0) (n := n * 2 ^ F.unit) hc (by simp)
    rw [rneNat_scale] at h
    generalize n * 2 ^ F.unit = N at *
    generalize rneNat (F.m + 1) 0 n * 2 ^ F.unit = R at *
    generalize F.mag y = c at *
    rcases abs_cases ((N : Int) - R) with h1 | h1 <;> rcases abs_cases ((N : Int) - c) with h2 | h2 <;> omega
  have hU : (0 : ℚ) < 2 ^ F.unit := by positivity
  have cmp1 : ∀ r : Nat, ((F.mag y : ℚ) / 2 ^ F.unit ≤ (r : ℚ) ↔ F.mag y ≤ r * 2 ^ F.unit) := by
    intro r; rw [div_le_iff₀ hU]; exact_mod_cast Iff.rfl
  have cmp2 : ∀ r : Nat, ((r : ℚ) ≤ (F.mag y : ℚ) / 2 ^ F.unit ↔ r * 2 ^ F.unit ≤ F.mag y) := by
    intro r; rw [le_div_iff₀ hU]; exact_mod_cast Iff.rfl
  have hr0 : (0:ℚ) ≤ (rneNat (F.m + 1) 0 x.natAbs : ℚ) := by positivity
  have hm0 : (0:ℚ) ≤ (F.mag y : ℚ) / 2 ^ F.unit := by positivity
  have habs : |(x : ℚ)| = (x.natAbs : ℚ) := by rw [← Int.cast_abs, Int.abs_eq_natAbs]; rfl
  obtain ⟨k1, k2⟩ := key x.natAbs
  rw [← cmp1, ← cmp1] at k1
  rw [← cmp2, ← cmp2] at k2
  rw [val_sign]
  unfold Fmt.ofInt
  generalize (rneNat (F.m + 1) 0 x.natAbs : ℚ) = r at *
  generalize (F.mag y : ℚ) / 2 ^ F.unit = c at *
  by_cases h0 : x < 0
  · have hx : (x : ℚ) = -(x.natAbs : ℚ) := by rw [← habs, abs_of_neg (by exact_mod_cast h0)]; ring
    have hxn : (0:ℚ) ≤ (x.natAbs : ℚ) := by positivity
    rw [hx]
    generalize (x.natAbs : ℚ) = n at *
    simp only [if_pos h0]
    by_cases hs : F.sgn y = 1
    · simp only [if_pos hs]
      exact ⟨fun h => by linarith [k2 (by linarith)], fun h => by linarith [k1 (by linarith)]⟩
    · simp only [if_neg hs]
      refine ⟨fun h => ?_, fun h => by linarith⟩
      have : n = 0 := by linarith
      have : c = 0 := by linarith
      subst_vars
      linarith [k2 (by linarith)]
  · have hx : (x : ℚ) = (x.natAbs : ℚ) := by rw [← habs, abs_of_nonneg (by exact_mod_cast (by omega : 0 ≤ x))]
    have hxn : (0:ℚ) ≤ (x.natAbs : ℚ) := by positivity
    rw [hx]
    generalize (x.natAbs : ℚ) = n at *
    simp only [if_neg h0]
    by_cases hs : F.sgn y = 1
    · simp only [if_pos hs]
      refine ⟨fun h => by linarith, fun h => ?_⟩
      have : n = 0 := by linarith
      have : c = 0 := by linarith
      subst_vars
      linarith [k2 (by linarith)]
    · simp only [if_neg hs]
      exact ⟨fun h => k1 h, fun h => k2 h⟩

/-- **C73** (integer against float, one-sided): whatever the integer, `less`, `greater` and `not_equal` never hold
    wrongly, and `less_equal`, `greater_equal` and `equal` never fail wrongly. -/
theorem compare_int_float_sound (F : Fmt) (x : Int) (y : Nat) :
    (∀ op, op = .lt ∨ op = .gt ∨ op = .ne → cmpIntFloat F op x y = true → NumVsFloat F op x y) ∧
    (∀ op, op = .le ∨ op = .ge ∨ op = .eq → NumVsFloat F op x y → cmpIntFloat F op x y = true) := by
  obtain ⟨m1, m2⟩ := ofInt_mono (F := F) x y
  constructor
  · intro op hop h
    rw [compare_int_float_value] at h
    unfold NumVsFloat at *
    split_ifs at * with h1 h2 h3
    · exact h
    · exact h
    · exact h
    · rcases hop with rfl | rfl | rfl
      · simp only [Cmp.Rel] at *; by_contra hc; exact absurd (m1 (not_lt.1 hc)) (not_le.2 h)
      · simp only [Cmp.Rel] at *; by_contra hc; exact absurd (m2 (not_lt.1 hc)) (not_le.2 h)
      · simp only [Cmp.Rel] at *
        intro hc
        exact h (le_antisymm (m2 hc.le) (m1 hc.ge))
  · intro op hop h
    rw [compare_int_float_value]
    unfold NumVsFloat at *
    split_ifs at * with h1 h2 h3
    · exact h
    · exact h
    · exact h
    · rcases hop with rfl | rfl | rfl
      · exact m2 h
      · exact m1 h
      · exact le_antisymm (m2 (le_of_eq h)) (m1 (ge_of_eq h))

/-- **C73 violated**: 16777217 equals 16777216.0f, and 2^53+1 equals the double 2^53. -/
theorem compare_int_float_violated :
    (∃ y, y < 2 ^ single.size ∧ single.val y = 16777216 ∧ cmpIntFloat single .eq 16777217 y = true) ∧
    (∃ y, y < 2 ^ double.size ∧ double.val y = 9007199254740992 ∧ cmpIntFloat double .eq 9007199254740993 y = true) := by
  have hs : single.ofInt 16777217 = 16777216 := by
    have : rneNat 24 0 16777217 = 16777216 := by decide +kernel
    simp [Fmt.ofInt, single, this]
  have hd : double.ofInt 9007199254740993 = 9007199254740992 := by
    have : rneNat 53 0 9007199254740993 = 9007199254740992 := by decide +kernel
    simp [Fmt.ofInt, double, this]
  obtain ⟨b, hb, hfin, hv⟩ := small_represented single (Or.inl rfl) 16777216 (by decide)
  obtain ⟨d, hdb, hdfin, hdv⟩ := small_represented double (Or.inr rfl) 9007199254740992 (by decide)
  refine ⟨⟨b, hb, by rw [hv]; norm_num, ?_⟩, ⟨d, hdb, by rw [hdv]; norm_num, ?_⟩⟩
  · rw [compare_int_float_value, hs]
    unfold NumVsFloat
    rw [if_neg (fun h => hfin h.1), if_neg (fun h => hfin h.1), hv]
    simp [Cmp.Rel]
  · rw [compare_int_float_value, hd]
    unfold NumVsFloat
    rw [if_neg (fun h => hdfin h.1), if_neg (fun h => hdfin h.1), hdv]
    simp [Cmp.Rel]

/-- The mirror image: float first. -/
theorem compare_float_int_swap (F : Fmt) (x : Nat) (y : Int) :
    cmpFloatInt F .lt x y = cmpIntFloat F .gt y x ∧ cmpFloatInt F .gt x y = cmpIntFloat F .lt y x ∧
    cmpFloatInt F .le x y = cmpIntFloat F .ge y x ∧ cmpFloatInt F .ge x y = cmpIntFloat F .le y x ∧
    cmpFloatInt F .eq x y = cmpIntFloat F .eq y x ∧ cmpFloatInt F .ne x y = cmpIntFloat F .ne y x := by
  have hc : ∀ u v : FV, u.eq v = v.eq u := by
    intro u v; cases u <;> cases v <;> simp [FV.eq, eq_comm]
  refine ⟨rfl, rfl, ?_, ?_, ?_, ?_⟩ <;> simp only [cmpFloatInt, cmpIntFloat, Cmp.onFV] <;> rw [hc]

/-! ### floating point against floating point -/

/-- What comparing two floating point values should answer. -/
def FloatVsFloat (F G : Fmt) (op : Cmp) (x y : Nat) : Prop :=
  if F.IsNan x ∨ G.IsNan y then op = .ne
  else if F.IsInf x ∧ G.IsInf y then
    op.Rel (if F.sgn x = 1 then -1 else 1) (if G.sgn y = 1 then -1 else 1)
  else if F.IsInf x then op.Rel (if F.sgn x = 1 then -1 else 1) 0
  else if G.IsInf y then op.Rel 0 (if G.sgn y = 1 then -1 else 1)
  else op.Rel (F.val x) (G.val y)

theorem onFV_floats (F G : Fmt) (op : Cmp) (x y : Nat) :
    op.onFV (F.decode x) (G.decode y) = true ↔ FloatVsFloat F G op x y := by
  unfold FloatVsFloat
  rcases decode_cases F x with ⟨h1, h2⟩ | ⟨h1, h2, h3⟩ | ⟨h1, h2, _, h3⟩ <;>
  rcases decode_cases G y with ⟨g1, g2⟩ | ⟨g1, g2, g3⟩ | ⟨g1, g2, _, g3⟩
  · rw [h2, g2, if_pos (Or.inl h1)]; cases op <;> simp [Cmp.onFV, FV.eq, FV.lt]
  · rw [h2, g3, if_pos (Or.inl h1)]; cases op <;> simp [Cmp.onFV, FV.eq, FV.lt]
  · rw [h2, g3, if_pos (Or.inl h1)]; cases op <;> simp [Cmp.onFV, FV.eq, FV.lt]
  · rw [h3, g2, if_pos (Or.inr g1)]; cases op <;> simp [Cmp.onFV, FV.eq, FV.lt]
  · rw [h3, g3, if_neg (by tauto), if_pos ⟨h2, g2⟩]
    by_cases hs : F.sgn x = 1 <;> by_cases gs : G.sgn y = 1 <;> cases op <;>
      simp [Cmp.onFV, FV.eq, FV.lt, hs, gs, Cmp.Rel] <;> norm_num
  · rw [h3, g3, if_neg (by tauto), if_neg (by tauto), if_pos h2]
    by_cases hs : F.sgn x = 1 <;> cases op <;> simp [Cmp.onFV, FV.eq, FV.lt, hs, Cmp.Rel]
  · rw [h3, g2, if_pos (Or.inr g1)]; cases op <;> simp [Cmp.onFV, FV.eq, FV.lt]
  · rw [h3, g3, if_neg (by tauto), if_neg (by tauto), if_neg h2, if_pos g2]
    by_cases gs : G.sgn y = 1 <;> cases op <;> simp [Cmp.onFV, FV.eq, FV.lt, gs, Cmp.Rel]
  · rw [h3, g3, if_neg (by tauto), if_neg (by tauto), if_neg h2, if_neg g2]
    exact onFV_fin op _ _

/-- Widening `float` to `double` changes nothing. -/
theorem widen_exact (x : Nat) : single.convert double x = single.decode x := by
  rcases decode_cases single x with ⟨h1, h2⟩ | ⟨h1, h2, h3⟩ | ⟨h1, h2, h4, h3⟩
  · unfold Fmt.convert; rw [h2]
  · unfold Fmt.convert; rw [h3]
  · have hrep : double.Represents (single.val x) := by
      rw [val_sign]
      have hm := mag_lt h4 (by decide) (by decide)
      have h5 := (represents_frac (G := double) (Or.inr rfl) (N := single.mag x) (u := single.unit)
        (s := if single.sgn x = 1 then 1 else 0) (by split_ifs <;> omega)).2 ?_
      · by_cases hs : single.sgn x = 1
        · rw [if_pos hs] at *; simpa using h5
        · rw [if_neg hs] at *; simpa using h5
      · refine ⟨?_, ?_, ?_⟩
        · have h6 : (single.mag x : ℚ) / 2 ^ single.unit ≤ single.maxFinite := by
            unfold Fmt.maxFinite
            apply div_le_div_of_nonneg_right _ (by positivity)
            exact_mod_cast hm
          refine le_trans h6 ?_
          have h7 : (single.maxMag : ℚ) * 2 ^ double.unit ≤ (double.maxMag : ℚ) * 2 ^ single.unit := by
            have : single.maxMag * 2 ^ double.unit ≤ double.maxMag * 2 ^ single.unit := by decide +kernel
            exact_mod_cast this
          unfold Fmt.maxFinite
          rw [div_le_div_iff₀ (by positivity) (by positivity)]
          exact h7
        · have := mag_bits (F := single) x
          unfold Bits at *
          exact Nat.dvd_trans (Nat.pow_dvd_pow 2 (by simp only [single, double]; omega)) this
        · have : single.unit - double.unit = 0 := by decide
          rw [this]; simp
    have h6 := (float_to_float_inexact single double (Or.inl rfl) (Or.inr rfl) x).1 h4 hrep
    unfold checkCastFF at h6
    rw [h3]
    split_ifs at h6
    simp only at h6
    split_ifs at h6
    simpa using h6

/-- **C73** (floats): comparisons of `float` and `double` values, in any combination, are those of the values. -/
theorem compare_float_exact (F G : Fmt) (hF : Std F) (hG : Std G) (op : Cmp) (x y : Nat) :
    cmpFloat F G op x y = true ↔ FloatVsFloat F G op x y := by
  unfold cmpFloat
  rcases hF with rfl | rfl <;> rcases hG with rfl | rfl
  · rw [if_pos rfl]; exact onFV_floats _ _ op x y
  · rw [if_neg (by decide), if_pos (by decide), widen_exact]; exact onFV_floats _ _ op x y
  · rw [if_neg (by decide), if_neg (by decide), widen_exact]; exact onFV_floats _ _ op x y
  · rw [if_pos rfl]; exact onFV_floats _ _ op x y

/-! ### C74: addition, subtraction, multiplication, bits, shifts -/

theorem cast_emod (t : IntTy) (x : Int) (hb : 1 ≤ t.bits) :
    t.cast x % ((2 ^ t.bits : Nat) : Int) = x % ((2 ^ t.bits : Nat) : Int) := by
  obtain ⟨b, s⟩ := t
  cases s
  · simp only [IntTy.cast, Bool.false_eq_true, if_false, Int.emod_emod]
  · simp only [IntTy.cast, if_true]
    rw [Int.sub_emod, Int.emod_emod, ← Int.sub_emod]; congr 1; omega

theorem cast_has (t : IntTy) (x : Int) (hb : 1 ≤ t.bits) : t.Has (t.cast x) := by
  obtain ⟨b, s⟩ := t
  have hp : 0 < 2 ^ b := Nat.pow_pos (by omega)
  cases s
  · rw [IntTy.has_unsigned]
    simp only [IntTy.cast, Bool.false_eq_true, if_false]
    exact ⟨Int.emod_nonneg _ (by omega), Int.emod_lt_of_pos _ (by omega)⟩
  · rw [IntTy.has_signed]
    simp only [IntTy.cast, if_true]
    have h1 := Int.emod_nonneg (x + (2 ^ (b - 1) : Nat)) (show ((2 ^ b : Nat) : Int) ≠ 0 by omega)
    have h2 := Int.emod_lt_of_pos (x + (2 ^ (b - 1) : Nat)) (show 0 < ((2 ^ b : Nat) : Int) by omega)
    have h3 := two_pow_succ_pred hb
    generalize (2 ^ (b - 1) : Nat) = p at *
    rw [h3] at h1 h2 ⊢
    omega

/-- There is one value of a type in each residue class. -/
theorem has_unique {t : IntTy} {x y : Int} (hb : 1 ≤ t.bits) (hx : t.Has x) (hy : t.Has y)
    (h : x % ((2 ^ t.bits : Nat) : Int) = y % ((2 ^ t.bits : Nat) : Int)) : x = y := by
  have hc : t.cast x = t.cast y := by
    obtain ⟨b, s⟩ := t
    cases s
    · simpa only [IntTy.cast, Bool.false_eq_true, if_false] using h
    · simp only [IntTy.cast, if_true]
      congr 1
      rw [Int.add_emod, h, ← Int.add_emod]
  rwa [IntTy.cast_of_has hb hx, IntTy.cast_of_has hb hy] at hc

/-- The operation on numbers. -/
def AOp.Val : AOp → Int → Int → Int
  | .add, x, y => x + y
  | .sub, x, y => x - y
  | .mul, x, y => x * y

/-- `r` is `x` reduced modulo `2^n` into `0 … 2^n - 1`. -/
def WrapsTo (n : Nat) (x r : Int) : Prop := 0 ≤ r ∧ r < 2 ^ n ∧ (2 ^ n : Int) ∣ x - r

theorem eval_congr (op : AOp) {M x y x' y' : Int} (h1 : x % M = x' % M) (h2 : y % M = y' % M) :
    op.eval x y % M = op.eval x' y' % M := by
  cases op <;> simp only [AOp.eval]
  · exact Int.ModEq.add h1 h2
  · exact Int.ModEq.sub h1 h2
  · exact Int.ModEq.mul h1 h2

/-- **C74** (`add`, `subtract`, `multiply`, all pairs of integer types): with an unsigned result type the result is the
    exact value modulo 2^width; with a signed one it is the exact value, or undefined behaviour if that does not fit. -/
theorem arith_int_exact (op : AOp) (a b : IntTy) (x y : Int) (hx : a.Has x) (hy : b.Has y) :
    ((resTy a b).signed = false → ∃ r, arithInt op a b x y = .ok r ∧ WrapsTo (max a.bits b.bits) (op.Val x y) r) ∧
    ((resTy a b).signed = true → (resTy a b).Has (op.Val x y) → arithInt op a b x y = .ok (op.Val x y)) ∧
    ((resTy a b).signed = true → ¬ (resTy a b).Has (op.Val x y) → arithInt op a b x y = .ub) := by
  have he : ∀ u v, op.eval u v = op.Val u v := by intro u v; cases op <;> rfl
  unfold arithInt
  rw [common_eq]
  refine ⟨fun h => ?_, fun h h1 => ?_, fun h h1 => ?_⟩
  · have hb := resTy_bits a b
    have hbits : (resTy a b).bits = max a.bits b.bits := by
      have h2 : (resTy a b).bits = max 32 (max a.bits b.bits) := rfl
      rcases (resTy_unsigned_iff a b).1 h with h | h <;> omega
    have h1 := cast_emod (resTy a b) (op.eval ((resTy a b).cast x) ((resTy a b).cast y)) (by omega)
    have h2 := eval_congr op (cast_emod (resTy a b) x (by omega)) (cast_emod (resTy a b) y (by omega))
    have h3 := cast_has (resTy a b) (op.eval ((resTy a b).cast x) ((resTy a b).cast y)) (by omega)
    rw [h2] at h1
    generalize (op.eval ((resTy a b).cast x) ((resTy a b).cast y)) = v at *
    refine ⟨(resTy a b).cast v, by unfold IntTy.arith; rw [if_neg (by simp [h])], ?_⟩
    generalize resTy a b = t at *
    obtain ⟨n, s⟩ := t
    simp only at h hbits; subst h
    rw [IntTy.has_unsigned] at h3
    unfold WrapsTo
    rw [← hbits]
    push_cast at *
    refine ⟨h3.1, h3.2, ?_⟩
    rw [← he]
    exact Int.ModEq.dvd h1
  all_goals
    have hb := resTy_bits a b
    rw [IntTy.cast_of_has (by omega) (resTy_has_left hx (Or.inl h)), IntTy.cast_of_has (by omega) (resTy_has_right hy (Or.inl h)), he]
    unfold IntTy.arith
    simp [h, h1]

/-- **C74** (narrow types): sums, differences and products of integers of at most 16 bits are exact, except products of
    two `uint16`. -/
theorem arith_narrow_exact (op : AOp) (a b : IntTy) (x y : Int) (hx : a.Has x) (hy : b.Has y)
    (ha : 1 ≤ a.bits ∧ a.bits ≤ 16) (hb : 1 ≤ b.bits ∧ b.bits ≤ 16)
    (hm : op = .mul → ¬ (a = ⟨16, false⟩ ∧ b = ⟨16, false⟩)) : arithInt op a b x y = .ok (op.Val x y) := by
  have hs : (resTy a b).signed = true := by
    by_contra hc
    rcases (resTy_unsigned_iff a b).1 (by simpa using hc) with h | h <;> omega
  refine (arith_int_exact op a b x y hx hy).2.1 hs ?_
  have hr : resTy a b = ⟨32, true⟩ := by
    have h2 : (resTy a b).bits = max 32 (max a.bits b.bits) := rfl
    generalize resTy a b = t at *
    obtain ⟨n, s⟩ := t
    simp only at hs h2; subst hs; congr 1; omega
  rw [hr, IntTy.has_signed]
  -- bounds on the operands
  have bnd : ∀ (t : IntTy) (z : Int), t.Has z → 1 ≤ t.bits ∧ t.bits ≤ 16 →
      -32768 ≤ z ∧ z ≤ 65535 ∧ (t ≠ ⟨16, false⟩ → z ≤ 32767) := by
    intro t z hz ht
    obtain ⟨n, s⟩ := t
    simp only at ht
    cases s
    · have hz' := IntTy.has_unsigned.1 hz
      have h1 := Nat.pow_le_pow_right (n := 2) (by omega) ht.2
      refine ⟨by omega, by generalize 2 ^ n = p at *; omega, fun hne => ?_⟩
      have : n ≤ 15 := by
        by_contra hc
        exact hne (by congr; omega)
      have h1 := Nat.pow_le_pow_right (n := 2) (by omega) this
      generalize 2 ^ n = p at *; omega
    · have hz' := IntTy.has_signed.1 hz
      have h1 := Nat.pow_le_pow_right (n := 2) (by omega) (show n - 1 ≤ 15 by omega)
      generalize 2 ^ (n - 1) = p at *
      exact ⟨by omega, by omega, fun _ => by omega⟩
  obtain ⟨x1, x2, x3⟩ := bnd a x hx ha
  obtain ⟨y1, y2, y3⟩ := bnd b y hy hb
  cases op
  · simp only [AOp.Val]; omega
  · simp only [AOp.Val]; omega
  · simp only [AOp.Val]
    have hne := hm rfl
    have : x ≤ 32767 ∨ y ≤ 32767 := by
      by_cases h1 : a = ⟨16, false⟩
      · exact Or.inr (y3 (fun h2 => hne ⟨h1, h2⟩))
      · exact Or.inl (x3 h1)
    norm_num
    rcases this with h | h
    · constructor <;> nlinarith
    · constructor <;> nlinarith

/-- **C74 violated**: the product of two `uint16` is computed in `int` and overflows. -/
theorem arith_uint16_mul_violated : arithInt .mul ⟨16, false⟩ ⟨16, false⟩ 65535 65535 = .ub := by decide

/-- **C74** (`minus`): exact for signed types except at the minimum of a type of at least 32 bits; for unsigned types of
    at least 32 bits the value modulo 2^width. -/
theorem minus_exact (a : IntTy) (x : Int) (hv : 1 ≤ a.bits) (hx : a.Has x) :
    ((a.signed = true ∨ a.bits < 32) → ¬ (32 ≤ a.bits ∧ x = a.min) → negInt a x = .ok (-x)) ∧
    (a.signed = true → 32 ≤ a.bits → x = a.min → negInt a x = .ub) ∧
    (a.signed = false → 32 ≤ a.bits → ∃ r, negInt a x = .ok r ∧ WrapsTo a.bits (-x) r) := by
  obtain ⟨n, s⟩ := a
  simp only at hv
  unfold negInt IntTy.promote
  refine ⟨fun h h1 => ?_, fun h h1 h2 => ?_, fun h h1 => ?_⟩
  · simp only at h h1
    by_cases hn : n < 32
    · rw [if_pos hn]
      unfold IntTy.arith
      rw [if_pos rfl, if_pos]
      rw [IntTy.has_signed]
      have p1 := Nat.pow_le_pow_right (n := 2) (by omega) (show n ≤ 31 by omega)
      have p2 := two_pow_succ_pred hv
      cases s
      · have := IntTy.has_unsigned.1 hx
        generalize (2:Nat) ^ n = p at *
        norm_num at *; omega
      · have := IntTy.has_signed.1 hx
        generalize (2:Nat) ^ n = p at *
        generalize (2:Nat) ^ (n - 1) = q at *
        norm_num at *; omega
    · rw [if_neg hn]
      have hs : s = true := by rcases h with h | h; exacts [h, absurd h hn]
      subst hs
      unfold IntTy.arith
      rw [if_pos rfl, if_pos]
      have hx' := IntTy.has_signed.1 hx
      rw [IntTy.has_signed]
      have : x ≠ -((2 ^ (n - 1) : Nat) : Int) := fun hc => h1 ⟨by omega, by rw [hc]; simp [IntTy.min]⟩
      generalize 2 ^ (n - 1) = q at *; omega
  · simp only at h h1; subst h
    rw [if_neg (by simp only; omega)]
    unfold IntTy.arith
    rw [if_pos rfl, if_neg]
    rw [IntTy.has_signed, h2]
    simp only [IntTy.min, if_true]
    have := @Nat.one_le_two_pow (n - 1)
    generalize 2 ^ (n - 1) = q at *; omega
  · simp only at h h1; subst h
    rw [if_neg (by simp only; omega)]
    unfold IntTy.arith
    rw [if_neg (by simp)]
    have h3 := IntTy.has_unsigned.1 (cast_has ⟨n, false⟩ (-x) hv)
    have h4 := cast_emod ⟨n, false⟩ (-x) hv
    refine ⟨_, rfl, h3.1, by exact_mod_cast h3.2, ?_⟩
    have := Int.ModEq.dvd h4
    push_cast at this; exact this

/-- Bit `i` of an integer in two's complement. -/
def bitOf (x : Int) (i : Nat) : Bool := decide (x / 2 ^ i % 2 = 1)

theorem bitOf_mod (x : Int) (n i : Nat) (h : i < n) : bitOf (x % ((2 ^ n : Nat) : Int)) i = bitOf x i := by
  unfold bitOf
  congr 1
  obtain ⟨k, rfl⟩ : ∃ k, n = i + 1 + k := ⟨n - (i + 1), by omega⟩
  have hd := Int.emod_add_mul_ediv x (((2 ^ (i + 1 + k) : Nat)) : Int)
  generalize hq : x / (((2 ^ (i + 1 + k) : Nat)) : Int) = q at hd
  generalize hr : x % (((2 ^ (i + 1 + k) : Nat)) : Int) = r at *
  have e : (((2 ^ (i + 1 + k) : Nat)) : Int) * q = 2 ^ i * (2 * (2 ^ k * q)) := by push_cast; ring
  rw [← hd, e, Int.add_mul_ediv_left _ _ (by positivity), Int.add_mul_emod_self_left]

theorem bitOf_nat (v i : Nat) : bitOf (v : Int) i = v.testBit i := by
  unfold bitOf
  rw [Nat.testBit_eq_decide_div_mod_eq]
  have : ((v : Int) / 2 ^ i % 2 = 1) ↔ v / 2 ^ i % 2 = 1 := by exact_mod_cast Iff.rfl
  simp only [this]

theorem repr_bit (c : IntTy) (x : Int) (i : Nat) (h : i < c.bits) : (c.repr x).testBit i = bitOf x i := by
  unfold IntTy.repr
  rw [← bitOf_nat, Int.toNat_of_nonneg (Int.emod_nonneg _ (by have := Nat.pow_pos (n := c.bits) (show 0 < 2 by omega); omega)),
    bitOf_mod _ _ _ h]

/-- Which bit the operation computes from the two operand bits. -/
def BOp.bit : BOp → Bool → Bool → Bool
  | .and, p, q => p && q
  | .or, p, q => p || q
  | .xor, p, q => p != q

/-- **C74** (`bitwise_and`, `bitwise_or`, `bitwise_xor`): the result is a value of the result type whose bits are the
    operation on the bits of the operands (sign-extended in two's complement). -/
theorem bitwise_exact (op : BOp) (a b : IntTy) (x y : Int) :
    (resTy a b).Has (bitInt op a b x y) ∧
    ∀ i, i < (resTy a b).bits → bitOf (bitInt op a b x y) i = op.bit (bitOf x i) (bitOf y i) := by
  have hb := resTy_bits a b
  unfold bitInt
  simp only [common_eq]
  refine ⟨cast_has _ _ (by omega), fun i hi => ?_⟩
  rw [← bitOf_mod _ _ _ hi, cast_emod _ _ (by omega), bitOf_mod _ _ _ hi, bitOf_nat,
    ← repr_bit (resTy a b) x i hi, ← repr_bit (resTy a b) y i hi]
  cases op <;> simp [BOp.onNat, BOp.bit]

/-- **C74** (`bitwise_not`): every bit of the (promoted) operand is inverted. -/
theorem bitwise_not_exact (a : IntTy) (x : Int) (hv : 1 ≤ a.bits) :
    let c : IntTy := if a.bits < 32 then ⟨32, true⟩ else a
    c.Has (notInt a x) ∧ ∀ i, i < c.bits → bitOf (notInt a x) i = !bitOf x i := by
  simp only
  have hc : 1 ≤ (if a.bits < 32 then (⟨32, true⟩ : IntTy) else a).bits := by split_ifs <;> simp_all
  unfold notInt IntTy.promote
  generalize (if a.bits < 32 then (⟨32, true⟩ : IntTy) else a) = c at *
  refine ⟨cast_has _ _ hc, fun i hi => ?_⟩
  rw [← bitOf_mod _ _ _ hi, cast_emod _ _ hc, bitOf_mod _ _ _ hi, bitOf_nat, ← repr_bit c x i hi]
  have hlt : c.repr x < 2 ^ c.bits := by
    have h2 : (0:Int) < ((2 ^ c.bits : Nat) : Int) := by exact_mod_cast Nat.pow_pos (n := c.bits) (show 0 < 2 by omega)
    have := Int.emod_lt_of_pos x h2
    have := Int.emod_nonneg x (ne_of_gt h2)
    unfold IntTy.repr; omega
  rw [show 2 ^ c.bits - 1 - c.repr x = 2 ^ c.bits - (c.repr x + 1) by omega, Nat.testBit_two_pow_sub_succ hlt]
  simp [hi]

/-- **C74** (`right_shift`): for a count from 0 up to the width of the promoted left operand the result is the
    operand divided by 2^count, rounded down; any other count is undefined behaviour. -/
theorem right_shift_exact (a : IntTy) (x y : Int) :
    (0 ≤ y ∧ y < max 32 a.bits → shrInt a x y = .ok ⌊(x : ℚ) / 2 ^ y.toNat⌋) ∧
    (¬ (0 ≤ y ∧ y < max 32 a.bits) → shrInt a x y = .ub) := by
  have hp : (a.promote.bits : Int) = max 32 a.bits := by unfold IntTy.promote; split_ifs <;> simp <;> omega
  unfold shrInt
  rw [hp]
  constructor
  · intro h
    rw [if_neg (by omega)]
    congr 1
    have := Rat.floor_intCast_div_natCast x (2 ^ y.toNat)
    push_cast at this ⊢
    exact this.symm
  · intro h; rw [if_pos (by omega)]

/-- **C74** (`left_shift`): for a non-negative operand and a count below the width, the result is operand times 2^count
    when that fits the result type. -/
theorem left_shift_exact (a : IntTy) (x y : Int) (h : 0 ≤ y ∧ y < max 32 a.bits) (h0 : 0 ≤ x)
    (hfit : (if a.bits < 32 then (⟨32, true⟩ : IntTy) else a).Has (x * 2 ^ y.toNat)) (hv : 1 ≤ a.bits) :
    shlInt a x y = .ok (x * 2 ^ y.toNat) := by
  have hp : (a.promote.bits : Int) = max 32 a.bits := by unfold IntTy.promote; split_ifs <;> simp <;> omega
  have hpe : a.promote = if a.bits < 32 then (⟨32, true⟩ : IntTy) else a := rfl
  rw [← hpe] at hfit
  unfold shlInt
  simp only
  generalize a.promote = c at *
  rw [if_neg (by omega)]
  have h1 : 1 ≤ c.bits := by omega
  have hc := IntTy.cast_of_has h1 hfit
  have hc' : c.cast (x * ((2 ^ y.toNat : Nat) : Int)) = x * 2 ^ y.toNat := by push_cast; exact hc
  split_ifs with hs hu
  · exfalso
    obtain ⟨n, s⟩ := c
    simp only at hs; subst hs
    rw [IntTy.has_signed] at hfit
    have := two_pow_succ_pred h1
    simp only at hu
    push_cast at hfit hu
    rcases hu with hu | hu
    · omega
    · have e : (2:Int) ^ n = 2 * 2 ^ (n - 1) := by exact_mod_cast this
      have : (0:Int) < 2 ^ (n - 1) := by positivity
      linarith [hfit.2]
  · rw [hc']
  · rw [hc']

/-- **C74** (`left_shift`, unsigned types of at least 32 bits): the product modulo 2^width, for every count below it. -/
theorem left_shift_unsigned (a : IntTy) (x y : Int) (h : 0 ≤ y ∧ y < a.bits) (hs : a.signed = false) (hw : 32 ≤ a.bits) :
    ∃ r, shlInt a x y = .ok r ∧ WrapsTo a.bits (x * 2 ^ y.toNat) r := by
  have hpe : a.promote = a := by unfold IntTy.promote; rw [if_neg (by omega)]
  unfold shlInt
  rw [hpe]; simp only
  rw [if_neg (by omega), if_neg (by simp [hs])]
  obtain ⟨n, s⟩ := a
  simp only at hs hw; subst hs
  have h3 := IntTy.has_unsigned.1 (cast_has ⟨n, false⟩ (x * ((2 ^ y.toNat : Nat) : Int)) (by simp only; omega))
  have h4 := Int.ModEq.dvd (cast_emod ⟨n, false⟩ (x * ((2 ^ y.toNat : Nat) : Int)) (by simp only; omega))
  refine ⟨_, rfl, h3.1, by exact_mod_cast h3.2, ?_⟩
  push_cast at h4; push_cast; exact h4

/-- **C74 violated** (`left_shift`): shifting a negative number, or by the width or more, is undefined; no check is made. -/
theorem left_shift_violated (a : IntTy) (x y : Int)
    (h : y < 0 ∨ max 32 a.bits ≤ y ∨ (x < 0 ∧ (a.signed = true ∨ a.bits < 32))) : shlInt a x y = .ub := by
  have hp : (a.promote.bits : Int) = max 32 a.bits := by unfold IntTy.promote; split_ifs <;> simp <;> omega
  have hps : (a.signed = true ∨ a.bits < 32) → a.promote.signed = true := by
    unfold IntTy.promote; split_ifs with hc
    · intro _; rfl
    · rintro (h | h); exacts [h, absurd h hc]
  unfold shlInt
  simp only
  by_cases h1 : y < 0 ∨ (a.promote.bits : Int) ≤ y
  · rw [if_pos h1]
  · rw [if_neg h1]
    rcases h with h | h | ⟨h, h2⟩
    · exact absurd (Or.inl h) h1
    · exact absurd (Or.inr (by omega)) h1
    · rw [if_pos (hps h2), if_pos (Or.inl h)]

example : arithInt .add ⟨8, false⟩ ⟨16, true⟩ 200 (-300) = .ok (-100) ∧ arithInt .sub ⟨32, false⟩ ⟨32, true⟩ 1 2 = .ok 4294967295 ∧
    arithInt .add ⟨32, true⟩ ⟨32, true⟩ 2147483647 1 = .ub ∧ bitInt .and ⟨64, true⟩ ⟨32, false⟩ (-1) 255 = 255 ∧
    notInt ⟨8, false⟩ 0 = -1 ∧ shlInt ⟨8, false⟩ 255 8 = .ok 65280 ∧ shrInt ⟨32, true⟩ (-5) 1 = .ok (-3) := by decide +kernel

/-! ### C75: division -/

/-- `q` and `r` are quotient (rounded toward zero) and remainder of `x` by `y`. -/
def IsQuotRem (x y q r : Int) : Prop := x = q * y + r ∧ |r| < |y| ∧ 0 ≤ r * x

theorem isQuotRem_unique {x y q r q' r' : Int} (h : IsQuotRem x y q r) (h' : IsQuotRem x y q' r') : q = q' ∧ r = r' := by
  obtain ⟨h1, h2, h3⟩ := h
  obtain ⟨g1, g2, g3⟩ := h'
  have hq : q = q' := by
    by_contra hne
    have e : (q - q') * y = r' - r := by linarith
    have habs : |q - q'| * |y| = |r' - r| := by rw [← abs_mul, e]
    have h5 : 1 ≤ |q - q'| := Int.one_le_abs (sub_ne_zero.2 hne)
    have hlt : |r' - r| < |y| := by
      rcases lt_trichotomy x 0 with hx | hx | hx
      · have a1 : r ≤ 0 := by by_contra hc; nlinarith
        have a2 : r' ≤ 0 := by by_contra hc; nlinarith
        rw [abs_of_nonpos a1] at h2; rw [abs_of_nonpos a2] at g2
        rw [abs_lt]; constructor <;> linarith
      · subst hx
        have hd1 : y ∣ r := ⟨-q, by linarith⟩
        have hd2 : y ∣ r' := ⟨-q', by linarith⟩
        have a1 : r = 0 := Int.eq_zero_of_abs_lt_dvd ((abs_dvd y r).2 hd1) h2
        have a2 : r' = 0 := Int.eq_zero_of_abs_lt_dvd ((abs_dvd y r').2 hd2) g2
        rw [a1, a2, sub_self, abs_zero]
        rw [a1, abs_zero] at h2; exact h2
      · have a1 : 0 ≤ r := by by_contra hc; nlinarith
        have a2 : 0 ≤ r' := by by_contra hc; nlinarith
        rw [abs_of_nonneg a1] at h2; rw [abs_of_nonneg a2] at g2
        rw [abs_lt]; constructor <;> linarith
    nlinarith [abs_nonneg y]
  subst hq
  exact ⟨rfl, by linarith⟩

theorem isQuotRem_t (x y : Int) (hy : y ≠ 0) : IsQuotRem x y (x.tdiv y) (x.tmod y) := by
  refine ⟨by have := Int.tmod_add_mul_tdiv x y; rw [Int.mul_comm] at this; omega, ?_, ?_⟩
  · have h := Int.natAbs_tmod x y
    have : x.natAbs % y.natAbs < y.natAbs := Nat.mod_lt _ (by omega)
    rw [Int.abs_eq_natAbs, Int.abs_eq_natAbs, h]; exact_mod_cast this
  · rcases le_total 0 x with h | h
    · exact Int.mul_nonneg (Int.tmod_nonneg _ h) h
    · have : x.tmod y ≤ 0 := by
        have h1 := Int.tmod_nonneg y (show 0 ≤ -x by omega)
        rw [Int.neg_tmod] at h1; omega
      exact Int.mul_nonneg_of_nonpos_of_nonpos this h

theorem comparedAs_has {a b : IntTy} {x : Int} (hx : a.Has x) : (resTy a b).Has (comparedAs a b x) := by
  have hb := resTy_bits a b
  rw [← cast_common_left hx]; exact cast_has _ _ (by omega)

/-- the divisor survives the conversion -/
theorem comparedAs_ne_zero {a b : IntTy} {y : Int} (hy : b.Has y) (h : y ≠ 0) : comparedAs a b y ≠ 0 := by
  unfold comparedAs
  split_ifs with hc
  · obtain ⟨n, s⟩ := b
    cases s
    · have := (IntTy.has_unsigned.1 hy).1; omega
    · have := (IntTy.has_signed.1 hy).1
      have h2 := Nat.pow_le_pow_right (n := 2) (by omega) (show n - 1 ≤ max a.bits n by omega)
      have h3 := @Nat.one_le_two_pow (n - 1)
      by_cases hn : n = 0
      · subst hn
        have hm := hc.1
        unfold MixedSign at hm
        simp at hm
        have h4 := Nat.pow_le_pow_right (n := 2) (by omega) (show 32 ≤ max a.bits 0 by omega)
        simp only at *
        generalize 2 ^ (max a.bits 0) = q at *
        norm_num at *
        omega
      · have h4 := Nat.pow_lt_pow_right (a := 2) (by omega) (show n - 1 < max a.bits n by omega)
        simp only at *
        generalize 2 ^ (max a.bits n) = q at *
        generalize 2 ^ (n - 1) = p at *
        omega
  · exact h

/-- **C75** (`divide`, `mod`): for a non-zero divisor they are the quotient and remainder with truncation toward zero of
    the operands as converted (`comparedAs`: the operands themselves, unless a negative one meets an unsigned type at
    least as wide), except for the minimum of a signed result type divided by -1. -/
theorem divide_value (a b : IntTy) (x y : Int) (hx : a.Has x) (hy : b.Has y) (h0 : y ≠ 0)
    (hmin : ¬ ((resTy a b).signed = true ∧ x = (resTy a b).min ∧ y = -1)) :
    ∃ q r, divInt .div a b x y = .ok q ∧ divInt .mod a b x y = .ok r ∧
      IsQuotRem (comparedAs a b x) (comparedAs a b y) q r := by
  have hb := resTy_bits a b
  have hy0 := comparedAs_ne_zero (a := a) hy h0
  have hcx := cast_common_left (b := b) hx
  have hcy := cast_common_right (a := a) hy
  have hhx : (resTy a b).Has (comparedAs a b x) := comparedAs_has hx
  have hhy : (resTy a b).Has (comparedAs a b y) := by rw [← hcy]; exact cast_has _ _ (by omega)
  have hsig : (resTy a b).signed = true → comparedAs a b x = x ∧ comparedAs a b y = y := by
    intro hs
    rw [← hcx, ← hcy]
    exact ⟨IntTy.cast_of_has (by omega) (resTy_has_left hx (Or.inl hs)), IntTy.cast_of_has (by omega) (resTy_has_right hy (Or.inl hs))⟩
  have hq : (resTy a b).Has ((comparedAs a b x).tdiv (comparedAs a b y)) := by
    have hqr := isQuotRem_t (comparedAs a b x) (comparedAs a b y) hy0
    have habs : |(comparedAs a b x).tdiv (comparedAs a b y)| ≤ |comparedAs a b x| := by
      rw [Int.abs_eq_natAbs, Int.abs_eq_natAbs, Int.natAbs_tdiv]
      exact_mod_cast Nat.div_le_self _ _
    generalize hX : comparedAs a b x = X at *
    generalize hY : comparedAs a b y = Y at *
    generalize resTy a b = c at *
    obtain ⟨n, s⟩ := c
    cases s
    · rw [IntTy.has_unsigned] at *
      have := Int.tdiv_nonneg hhx.1 hhy.1
      rw [abs_of_nonneg this, abs_of_nonneg hhx.1] at habs
      omega
    · obtain ⟨rfl, rfl⟩ := hsig rfl
      rw [IntTy.has_signed] at *
      have hp : (1:Int) ≤ ((2 ^ (n - 1) : Nat) : Int) := by exact_mod_cast @Nat.one_le_two_pow (n - 1)
      by_cases hxm : X = -((2 ^ (n - 1) : Nat) : Int)
      · have hyne : Y ≠ -1 := fun hc => hmin ⟨rfl, by rw [hxm]; simp [IntTy.min], hc⟩
        obtain ⟨q1, q2, q3⟩ := hqr
        generalize X.tdiv Y = Q at *
        generalize X.tmod Y = R at *
        generalize ((2 ^ (n - 1) : Nat) : Int) = p at *
        have hr : R ≤ 0 := by by_contra hc; nlinarith
        rw [abs_of_nonpos hr] at q2
        rw [abs_of_neg (by omega : X < 0)] at habs
        rcases abs_cases Q with hQ | hQ
        · refine ⟨by omega, ?_⟩
          by_contra hge
          have hQp : Q = p := by omega
          rcases lt_or_gt_of_ne hy0 with hYn | hYp
          · have : Y ≤ -2 := by omega
            nlinarith
          · rw [abs_of_pos hYp] at q2; nlinarith
        · omega
      · generalize ((2 ^ (n - 1) : Nat) : Int) = p at *
        rcases abs_cases (X.tdiv Y) with hQ | hQ <;> rcases abs_cases X with hX' | hX' <;> omega
  have hraw : ∀ op, rawDiv op a b x y = .ok (op.eval (comparedAs a b x) (comparedAs a b y)) := by
    intro op
    unfold rawDiv
    simp only [common_eq, hcx, hcy]
    rw [if_neg hy0, if_neg (by simpa using hq)]
  refine ⟨_, _, ?_, ?_, isQuotRem_t _ _ hy0⟩
  · unfold divInt
    rw [if_neg h0]
    split_ifs <;> exact hraw .div
  · unfold divInt
    rw [if_neg h0]
    split_ifs <;> exact hraw .mod

/-- **C75** (`divide`, `mod`): exact truncating division when no negative number meets an unsigned type at least as
    wide. -/
theorem divide_exact_partial (a b : IntTy) (x y : Int) (hx : a.Has x) (hy : b.Has y) (h0 : y ≠ 0)
    (hmin : ¬ ((resTy a b).signed = true ∧ x = (resTy a b).min ∧ y = -1))
    (hm : ¬ MixedSign a b ∨ (0 ≤ x ∧ 0 ≤ y)) :
    ∃ q r, divInt .div a b x y = .ok q ∧ divInt .mod a b x y = .ok r ∧ IsQuotRem x y q r := by
  obtain ⟨q, r, h1, h2, h3⟩ := divide_value a b x y hx hy h0 hmin
  have hc : ∀ z, (z = x ∨ z = y) → comparedAs a b z = z := by
    intro z hz
    unfold comparedAs
    rw [if_neg]
    rintro ⟨g1, g2⟩
    rcases hm with hm | hm
    · exact hm g1
    · rcases hz with rfl | rfl <;> omega
  rw [hc x (Or.inl rfl), hc y (Or.inr rfl)] at h3
  exact ⟨q, r, h1, h2, h3⟩

/-- **C75** (division by zero): raised as `zero_division_error` unless the dividend is signed and the divisor unsigned. -/
theorem divide_zero_partial (op : DOp) (a b : IntTy) (x : Int) (h : a.signed = false ∨ b.signed = true) :
    divInt op a b x 0 = .throw .zeroDiv := by
  unfold divInt needsZeroCheck NumTy.isSignedIntegral NumTy.isUnsignedIntegral
  rcases h with h | h <;> simp [h]

/-- **C75 violated**: with a signed dividend and an unsigned divisor, zero is not noticed and the division is undefined
    behaviour. -/
theorem divide_zero_violated (op : DOp) (a b : IntTy) (x : Int) (h : a.signed = true ∧ b.signed = false) :
    divInt op a b x 0 = .ub := by
  unfold divInt needsZeroCheck NumTy.isSignedIntegral NumTy.isUnsignedIntegral rawDiv
  have : (a.common b).cast 0 = 0 := by
    have hb := resTy_bits a b
    rw [common_eq]
    apply IntTy.cast_of_has (by omega)
    generalize resTy a b = c at *
    obtain ⟨n, s⟩ := c
    cases s
    · rw [IntTy.has_unsigned]; have := Nat.pow_pos (n := n) (show 0 < 2 by omega); generalize 2 ^ n = p at *; omega
    · rw [IntTy.has_signed]; have := Nat.pow_pos (n := n - 1) (show 0 < 2 by omega); generalize 2 ^ (n - 1) = p at *; omega
  simp [h.1, h.2, this]

/-- **C75 violated**: the minimum of a signed type of at least 32 bits divided by -1 is undefined behaviour, for the
    remainder too. -/
theorem divide_min_violated (op : DOp) (n : Nat) (hn : 32 ≤ n) :
    divInt op ⟨n, true⟩ ⟨n, true⟩ (IntTy.mk n true).min (-1) = .ub := by
  have hr : (IntTy.mk n true).common ⟨n, true⟩ = ⟨n, true⟩ := by
    rw [common_eq]; unfold resTy; simp; omega
  have h1 : (IntTy.mk n true).Has (-1) := by
    rw [IntTy.has_signed]; have := Nat.pow_pos (n := n - 1) (show 0 < 2 by omega); generalize 2 ^ (n - 1) = p at *; omega
  have h2 : (IntTy.mk n true).Has (IntTy.mk n true).min := by
    rw [IntTy.has_signed]; simp only [IntTy.min, if_true]
    have := Nat.pow_pos (n := n - 1) (show 0 < 2 by omega); generalize 2 ^ (n - 1) = p at *; omega
  unfold divInt rawDiv
  simp only [hr, IntTy.cast_of_has (show 1 ≤ (IntTy.mk n true).bits by simp only; omega) h1,
    IntTy.cast_of_has (show 1 ≤ (IntTy.mk n true).bits by simp only; omega) h2]
  have h3 : ¬ (IntTy.mk n true).Has ((IntTy.mk n true).min.tdiv (-1)) := by
    rw [IntTy.has_signed]; simp only [IntTy.min, if_true, Int.tdiv_neg, Int.tdiv_one]
    omega
  rw [Int.tdiv_neg, Int.tdiv_one] at h3
  simp [h3]

/-- **C75 violated** (floating point divisor): an unsigned integer divided by 0.0 raises "integer division by zero",
    a signed one does not. -/
theorem divide_float_violated (F : Fmt) (y : Nat) (hF : F.IsFinite y) (h0 : F.val y = 0) (n : Nat) :
    divIntFloatRaises ⟨n, false⟩ F y = true ∧ divIntFloatRaises ⟨n, true⟩ F y = false := by
  have hd : F.decode y = .fin 0 := by
    rcases decode_cases F y with ⟨h1, _⟩ | ⟨_, h1, _⟩ | ⟨_, _, _, h1⟩
    · exact absurd h1.1 hF
    · exact absurd h1.1 hF
    · rw [h1, h0]
  unfold divIntFloatRaises needsZeroCheck NumTy.isSignedIntegral NumTy.isUnsignedIntegral
  rw [hd]; simp [FV.eq]

example : divInt .div ⟨32, true⟩ ⟨8, true⟩ (-7) 2 = .ok (-3) ∧ divInt .mod ⟨32, true⟩ ⟨8, true⟩ (-7) 2 = .ok (-1) ∧
    divInt .div ⟨32, true⟩ ⟨32, false⟩ (-4) 2 = .ok 2147483646 ∧ divInt .mod ⟨8, false⟩ ⟨8, false⟩ 5 0 = .throw .zeroDiv ∧
    divInt .div ⟨8, true⟩ ⟨8, true⟩ (-128) (-1) = .ok 128 := by decide +kernel

/-! ### C76: in-place arithmetic -/

/-- **C76** (`compound_add`): adding in place stores the exact sum when it fits the destination. -/
theorem compound_add_exact (d s : IntTy) (x y : Int) (hd : 1 ≤ d.bits) (hx : d.Has x) (hy : s.Has y)
    (hfit : d.Has (x + y)) : compoundAdd d s x y = .ok (x + y) ∨
      (compoundAdd d s x y = .ub ∧ (resTy d s).signed = true ∧ ¬ (resTy d s).Has (x + y)) := by
  obtain ⟨h1, h2, h3⟩ := arith_int_exact .add d s x y hx hy
  simp only [AOp.Val] at h1 h2 h3
  have hb := resTy_bits d s
  unfold compoundAdd
  cases hs : (resTy d s).signed
  · left
    obtain ⟨r, hr, hw⟩ := h1 hs
    rw [hr, Res.bind_ok]
    simp only [Res.pure_eq]
    congr 1
    apply has_unique hd (cast_has d r hd) hfit
    rw [cast_emod d r hd]
    obtain ⟨_, _, hdvd⟩ := hw
    have hle : d.bits ≤ max d.bits s.bits := by omega
    have h5 : ((2 ^ d.bits : Nat) : Int) ∣ (x + y) - r := by
      refine Dvd.dvd.trans ?_ hdvd
      push_cast; exact pow_dvd_pow 2 hle
    exact Int.modEq_iff_dvd.2 h5
  · by_cases hf : (resTy d s).Has (x + y)
    · left
      rw [h2 hs hf, Res.bind_ok]
      simp only [Res.pure_eq]
      rw [IntTy.cast_of_has hd hfit]
    · right
      rw [h3 hs hf]
      exact ⟨rfl, rfl, hf⟩

/-- A sum that fits the destination never overflows the computation. -/
theorem compound_add_no_overflow (d s : IntTy) (x y : Int) (hx : d.Has x) (hy : s.Has y)
    (hd : 1 ≤ d.bits) (hfit : d.Has (x + y)) : compoundAdd d s x y = .ok (x + y) := by
  rcases compound_add_exact d s x y hd hx hy hfit with h | ⟨_, h1, h2⟩
  · exact h
  · exact absurd (resTy_has_left hfit (Or.inl h1)) h2

/-- **C76 violated** (`compound_div`): dividing in place by zero is undefined behaviour for every pair of integer types,
    where `divide` raises. -/
theorem compound_div_zero_violated (d s : IntTy) (x : Int) : compoundDiv d s x 0 = .ub := by
  unfold compoundDiv rawDiv
  have : (d.common s).cast 0 = 0 := by
    have hb := resTy_bits d s
    rw [common_eq]
    apply IntTy.cast_of_has (by omega)
    generalize resTy d s = c at *
    obtain ⟨n, s⟩ := c
    cases s
    · rw [IntTy.has_unsigned]; have := Nat.pow_pos (n := n) (show 0 < 2 by omega); generalize 2 ^ n = p at *; omega
    · rw [IntTy.has_signed]; have := Nat.pow_pos (n := n - 1) (show 0 < 2 by omega); generalize 2 ^ (n - 1) = p at *; omega
  simp [this]

/-- **C76** (arrays): over a destination whose elements are at distinct addresses, none of them a source element read
    later, every element is updated once from its old value and its source; nothing else changes; the first failing
    element makes the whole operation fail. -/
theorem compound_strided_exact (f : Int → Int → Res Int) (ds ss : Int) (n : Nat) (m : Int → Int) (dst src : Int)
    (hinj : ∀ i j : Nat, i < j → j < n → dst + i * ds ≠ dst + j * ds)
    (hdis : ∀ i j : Nat, i < j → j < n → dst + i * ds ≠ src + j * ss)
    (vs : Nat → Int) (hok : ∀ i : Nat, i < n → f (m (dst + i * ds)) (m (src + i * ss)) = .ok (vs i)) :
    ∃ m', compoundStrided f ds ss n m dst src = .ok m' ∧ (∀ i : Nat, i < n → m' (dst + i * ds) = vs i) ∧
      ∀ a, (∀ i : Nat, i < n → a ≠ dst + i * ds) → m' a = m a := by
  induction n generalizing m dst src vs with
  | zero => exact ⟨m, rfl, fun i hi => absurd hi (by omega), fun a _ => rfl⟩
  | succ k ih =>
    have h0 := hok 0 (by omega)
    simp only [Int.natCast_zero, Int.zero_mul, Int.add_zero] at h0
    have sh : ∀ (b s : Int) (i : Nat), b + s + i * s = b + ((i + 1 : Nat) : Int) * s := by
      intro b s i; push_cast; ring
    obtain ⟨m', g1, g2, g3⟩ := ih (fun a => if a = dst then vs 0 else m a) (dst + ds) (src + ss)
      (fun i j hij hj => by rw [sh, sh]; exact hinj (i+1) (j+1) (by omega) (by omega))
      (fun i j hij hj => by rw [sh, sh]; exact hdis (i+1) (j+1) (by omega) (by omega))
      (fun i => vs (i + 1))
      (fun i hi => by
        have e1 := hinj 0 (i + 1) (by omega) (by omega)
        have e2 := hdis 0 (i + 1) (by omega) (by omega)
        simp only [Int.natCast_zero, Int.zero_mul, Int.add_zero] at e1 e2
        rw [sh, sh, if_neg (Ne.symm e1), if_neg (Ne.symm e2)]
        exact hok (i + 1) (by omega))
    refine ⟨m', ?_, ?_, ?_⟩
    · unfold compoundStrided
      rw [h0, Res.bind_ok]; exact g1
    · intro i hi
      cases i with
      | zero =>
        simp only [Int.natCast_zero, Int.zero_mul, Int.add_zero]
        rw [g3 dst]
        · simp
        · intro i hi
          have e1 := hinj 0 (i + 1) (by omega) (by omega)
          simp only [Int.natCast_zero, Int.zero_mul, Int.add_zero] at e1
          rw [sh]; exact e1
      | succ j => rw [← sh]; exact g2 j (by omega)
    · intro a ha
      rw [g3 a (fun i hi => by rw [sh]; exact ha (i + 1) (by omega))]
      have := ha 0 (by omega)
      simp only [Int.natCast_zero, Int.zero_mul, Int.add_zero] at this
      simp [this]

/-- A running sum: with destination stride 0 the elements are accumulated one after the other. -/
theorem compound_strided_accumulates (f : Int → Int → Res Int) (ss : Int) (n : Nat) (m : Int → Int) (dst src : Int)
    (hdis : ∀ j : Nat, j < n → dst ≠ src + j * ss) (acc : Nat → Int) (h0 : acc 0 = m dst)
    (hok : ∀ i : Nat, i < n → f (acc i) (m (src + i * ss)) = .ok (acc (i + 1))) :
    ∃ m', compoundStrided f 0 ss n m dst src = .ok m' ∧ m' dst = acc n ∧ ∀ a, a ≠ dst → m' a = m a := by
  induction n generalizing m src acc with
  | zero => exact ⟨m, rfl, h0.symm, fun a _ => rfl⟩
  | succ k ih =>
    have e0 := hok 0 (by omega)
    simp only [Int.natCast_zero, Int.zero_mul, Int.add_zero] at e0
    have sh : ∀ (i : Nat), src + ss + i * ss = src + ((i + 1 : Nat) : Int) * ss := by
      intro i; push_cast; ring
    obtain ⟨m', g1, g2, g3⟩ := ih (fun a => if a = dst then acc 1 else m a) (src + ss)
      (fun j hj => by rw [sh]; exact hdis (j + 1) (by omega)) (fun i => acc (i + 1)) (by simp)
      (fun i hi => by
        have e := hdis (i + 1) (by omega)
        rw [sh, if_neg (Ne.symm e)]
        exact hok (i + 1) (by omega))
    refine ⟨m', ?_, g2, fun a ha => ?_⟩
    · unfold compoundStrided
      rw [← h0, e0, Res.bind_ok, Int.add_zero]; exact g1
    · rw [g3 a ha]; simp [ha]

/-! ### C77: missing values -/

/-- **C77**: the result of a two-argument callable on optional values is missing if any of the listed arguments is,
    and otherwise what the callable computes from the values. -/
theorem forward_na_exact {α β : Type} (isNa : Nat → α → Bool) (na : β) (child : List α → Res β) (is : List Nat)
    (args : List α) (hlen : ∀ i ∈ is, i < args.length) :
    ((∃ i ∈ is, ∃ x, args[i]? = some x ∧ isNa i x = true) → forwardNa isNa na child is args = .ok na) ∧
    ((∀ i ∈ is, ∀ x, args[i]? = some x → isNa i x = false) → forwardNa isNa na child is args = child args) := by
  induction is with
  | nil => exact ⟨fun ⟨_, h, _⟩ => absurd h (by simp), fun _ => rfl⟩
  | cons i is ih =>
    obtain ⟨ih1, ih2⟩ := ih (fun j hj => hlen j (List.mem_cons_of_mem _ hj))
    have hi := hlen i (List.mem_cons_self ..)
    have hget : args[i]? = some args[i] := List.getElem?_eq_getElem hi
    unfold forwardNa
    rw [hget]
    simp only
    constructor
    · rintro ⟨j, hj, x, hx, hna⟩
      by_cases h : isNa i args[i] = true
      · rw [if_pos h]
      · rw [if_neg h]
        rcases List.mem_cons.1 hj with rfl | hj
        · rw [hget] at hx; cases hx; exact absurd hna h
        · exact ih1 ⟨j, hj, x, hx, hna⟩
    · intro h
      rw [if_neg (by simp [h i (List.mem_cons_self ..) _ hget])]
      exact ih2 (fun j hj x hx => h j (List.mem_cons_of_mem _ hj) x hx)

/-- `?int + ?int` (both of one signed type of at least 32 bits): arguments and result are stored with the minimum as the
    missing value. -/
def optAdd (n : Nat) (x y : Int) : Res Int :=
  forwardNa (α := Int) (β := Int) (fun _ v => isNa (.int ⟨n, true⟩) v) (IntTy.mk n true).min
    (fun args => match args with | [u, v] => arithInt .add ⟨n, true⟩ ⟨n, true⟩ u v | _ => .ub) [0, 1] [x, y]

/-- **C77** (sums of optional integers): missing if an argument is; otherwise the exact sum if it fits and is not the
    minimum. -/
theorem opt_add_partial (n : Nat) (hn : 32 ≤ n) (x y : Int) (hx : (IntTy.mk n true).Has x) (hy : (IntTy.mk n true).Has y) :
    (x = (IntTy.mk n true).min ∨ y = (IntTy.mk n true).min → optAdd n x y = .ok (IntTy.mk n true).min) ∧
    (x ≠ (IntTy.mk n true).min → y ≠ (IntTy.mk n true).min → (IntTy.mk n true).Has (x + y) →
      optAdd n x y = .ok (x + y)) := by
  have h := forward_na_exact (α := Int) (β := Int) (fun _ v => isNa (.int ⟨n, true⟩) v) (IntTy.mk n true).min
    (fun args => match args with | [u, v] => arithInt .add ⟨n, true⟩ ⟨n, true⟩ u v | _ => .ub) [0, 1] [x, y]
    (by simp)
  have hisna : ∀ v : Int, isNa (.int ⟨n, true⟩) v = decide (v = (IntTy.mk n true).min) := by
    intro v; simp [isNa]
  have hr : resTy ⟨n, true⟩ ⟨n, true⟩ = ⟨n, true⟩ := by unfold resTy; simp; omega
  constructor
  · rintro (hc | hc)
    · exact h.1 ⟨0, by simp, x, rfl, by rw [hisna]; simp [hc]⟩
    · exact h.1 ⟨1, by simp, y, rfl, by rw [hisna]; simp [hc]⟩
  · intro h1 h2 hfit
    refine (h.2 ?_).trans ?_
    · intro i hi v hv
      rw [hisna]
      simp only [List.mem_cons, List.not_mem_nil, or_false] at hi
      rcases hi with rfl | rfl <;> (simp at hv; subst hv; simp [h1, h2])
    · exact (arith_int_exact .add _ _ x y hx hy).2.1 (by rw [hr]) (by rw [hr]; exact hfit)

/-- **C77 violated**: two available values whose sum is the minimum of the type give a missing result. -/
theorem opt_add_violated (n : Nat) (hn : 32 ≤ n) (x y : Int) (hx : (IntTy.mk n true).Has x) (hy : (IntTy.mk n true).Has y)
    (hx0 : x < 0) (hy0 : y < 0) (h : x + y = (IntTy.mk n true).min) :
    isNa (.int ⟨n, true⟩) x = false ∧ isNa (.int ⟨n, true⟩) y = false ∧
    ∃ r : Int, optAdd n x y = .ok r ∧ isNa (.int ⟨n, true⟩) r = true := by
  have hisna : ∀ v : Int, isNa (.int ⟨n, true⟩) v = decide (v = (IntTy.mk n true).min) := by
    intro v; simp [isNa]
  have hp : (IntTy.mk n true).Has (x + y) := by
    rw [h, IntTy.has_signed]; simp only [IntTy.min, if_true]
    have := Nat.pow_pos (n := n - 1) (show 0 < 2 by omega); generalize 2 ^ (n - 1) = p at *; omega
  have h1 : x ≠ (IntTy.mk n true).min := by omega
  have h2 : y ≠ (IntTy.mk n true).min := by omega
  refine ⟨by rw [hisna]; simp [h1], by rw [hisna]; simp [h2], x + y, (opt_add_partial n hn x y hx hy).2 h1 h2 hp, ?_⟩
  rw [hisna]; simp [h]

example : optAdd 32 (-2147483647) (-1) = .ok (-2147483648) ∧ optAdd 32 5 (-2147483648) = .ok (-2147483648) ∧
    optAdd 32 5 6 = .ok 11 := by decide +kernel

end Dynd
