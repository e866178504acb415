import Verif.Model.Index
/-
Property theorems C01, C02, C03, C10 (indexing and slicing).
Specification: Python's index and slice semantics.
-/
namespace Dynd
open Res

/-! ## Specification (independent of the model) -/

/-- Python index normalisation: a negative index counts from the end. -/
def pyWrap (n i : Int) : Int := if i < 0 then i + n else i

/-- First index of Python's `slice(s, _, k)` on a sequence of length `n` (`none` = omitted bound). -/
def pyStart (n : Int) (s : Option Int) (k : Int) : Int :=
  match s with
  | none => if k > 0 then 0 else n - 1
  | some s => if k > 0 then max 0 (min n (pyWrap n s)) else max (-1) (min (n - 1) (pyWrap n s))

/-- Stopping index of Python's `slice(_, f, k)` on a sequence of length `n`. -/
def pyStop (n : Int) (f : Option Int) (k : Int) : Int :=
  match f with
  | none => if k > 0 then n else -1
  | some f => if k > 0 then max 0 (min n (pyWrap n f)) else max (-1) (min (n - 1) (pyWrap n f))

/-- `i` is selected by Python's `slice(s, f, k)` on a sequence of length `n`: it is a term of the
    progression from the start with step `k` that lies before the stop. -/
def PySelected (n : Int) (s f : Option Int) (k i : Int) : Prop :=
  (∃ j : Int, 0 ≤ j ∧ i = pyStart n s k + j * k) ∧
    (if k > 0 then i < pyStop n f k else pyStop n f k < i)

/-- The reserved "omitted bound" values of `irange` (default constructor). -/
def IRange.startOpt (r : IRange) : Option Int := if r.start = i64Min then none else some r.start
def IRange.finishOpt (r : IRange) : Option Int := if r.finish = i64Max then none else some r.finish

/-! ## C01 -/

/-- C01: an integer index on a dimension of size `n` resolves to the element Python would pick, and
    that element is in bounds, or `index_out_of_bounds` is thrown; it is thrown exactly when the index
    is outside `[-n, n)`. -/
theorem single_index_exact (i n : Int) :
    (-n ≤ i ∧ i < n → applySingleIndex i n = .ok (pyWrap n i) ∧ 0 ≤ pyWrap n i ∧ pyWrap n i < n) ∧
    (¬(-n ≤ i ∧ i < n) → 0 ≤ n → applySingleIndex i n = .throw .indexOutOfBounds) := by
  unfold applySingleIndex pyWrap
  constructor
  · intro h
    split <;> split <;> first | omega | simp_all <;> omega
  · intro h hn
    split <;> split <;> first | omega | simp_all <;> omega

example : applySingleIndex (-1) 5 = .ok 4 ∧ applySingleIndex (-6) 5 = .throw .indexOutOfBounds := by decide

/-! ## C02 -/

/-- The result describes exactly the Python slice: `size` elements at `start + j * stride`. -/
def Lin.Denotes (l : Lin) (i : Int) : Prop := ∃ j : Int, 0 ≤ j ∧ j < l.size ∧ i = l.start + j * l.stride

private theorem ceil_iff {d k j : Int} (hk : 0 < k) (hd : 0 < d) :
    j < (d + k - 1).tdiv k ↔ j * k < d := by
  have h0 : 0 ≤ d + k - 1 := by omega
  rw [Int.tdiv_eq_ediv_of_nonneg h0]
  constructor
  · intro h
    have h1 : j + 1 ≤ (d + k - 1) / k := h
    rw [Int.le_ediv_iff_mul_le hk, Int.add_mul] at h1
    omega
  · intro h
    show j + 1 ≤ _
    rw [Int.le_ediv_iff_mul_le hk, Int.add_mul]; omega

private theorem linPos_ok {a b k : Int} {l : Lin} (hk : 0 < k) (h : linPos a b k = .ok l) :
    l.remove = false ∧ 0 ≤ l.size ∧ (0 < l.size → l.start = a ∧ l.stride = k) ∧
    ∀ i, l.Denotes i ↔ (∃ j : Int, 0 ≤ j ∧ i = a + j * k) ∧ i < b := by
  unfold linPos at h
  simp only at h
  split at h
  · rename_i hs
    split at h
    · rename_i h1; subst h1
      simp only [Res.ok.injEq] at h; subst h
      refine ⟨rfl, by simp; omega, by simp, fun i => ?_⟩
      simp only [Lin.Denotes, Int.mul_one]
      constructor
      · rintro ⟨j, h0, h1, rfl⟩; exact ⟨⟨j, h0, rfl⟩, by omega⟩
      · rintro ⟨⟨j, h0, rfl⟩, h1⟩; exact ⟨j, h0, by omega, rfl⟩
    · rw [bind_eq_ok] at h
      obtain ⟨x, hx, h⟩ := h
      rw [bind_eq_ok] at h
      obtain ⟨y, hy, h⟩ := h
      unfold i64 at hx hy
      split at hx <;> simp only [Res.ok.injEq, reduceCtorEq] at hx
      split at hy <;> simp only [Res.ok.injEq, reduceCtorEq] at hy
      simp only [pure_eq, Res.ok.injEq] at h
      subst hx hy h
      have hc := fun j => ceil_iff (j := j) hk hs
      refine ⟨rfl, ?_, by simp, fun i => ?_⟩
      · exact Int.tdiv_nonneg (by omega) (by omega)
      · simp only [Lin.Denotes, hc]
        constructor
        · rintro ⟨j, h0, h1, rfl⟩; exact ⟨⟨j, h0, rfl⟩, by omega⟩
        · rintro ⟨⟨j, h0, rfl⟩, h1⟩; exact ⟨j, h0, by omega, rfl⟩
  · rename_i hs
    simp only [Res.ok.injEq] at h; subst h
    refine ⟨rfl, by simp, by simp, fun i => ?_⟩
    simp only [Lin.Denotes]
    constructor
    · rintro ⟨j, h0, h1, rfl⟩; omega
    · rintro ⟨⟨j, h0, rfl⟩, h1⟩
      have := Int.mul_nonneg h0 (Int.le_of_lt hk); omega

private theorem linNeg_ok {a b k : Int} {l : Lin} (hk : k < 0) (h : linNeg a b k = .ok l) :
    l.remove = false ∧ 0 ≤ l.size ∧ (0 < l.size → l.start = a ∧ l.stride = k) ∧
    ∀ i, l.Denotes i ↔ (∃ j : Int, 0 ≤ j ∧ i = a + j * k) ∧ b < i := by
  unfold linNeg at h
  simp only at h
  split at h
  · rename_i hs
    split at h
    · rename_i h1; subst h1
      simp only [Res.ok.injEq] at h; subst h
      refine ⟨rfl, by simp; omega, by simp, fun i => ?_⟩
      simp only [Lin.Denotes]
      constructor
      · rintro ⟨j, h0, h1, rfl⟩; exact ⟨⟨j, h0, rfl⟩, by omega⟩
      · rintro ⟨⟨j, h0, rfl⟩, h1⟩; exact ⟨j, h0, by omega, rfl⟩
    · rw [bind_eq_ok] at h
      obtain ⟨m, hm, h⟩ := h
      rw [bind_eq_ok] at h
      obtain ⟨x, hx, h⟩ := h
      rw [bind_eq_ok] at h
      obtain ⟨y, hy, h⟩ := h
      unfold i64 at hm hx hy
      split at hm <;> simp only [Res.ok.injEq, reduceCtorEq] at hm
      split at hx <;> simp only [Res.ok.injEq, reduceCtorEq] at hx
      split at hy <;> simp only [Res.ok.injEq, reduceCtorEq] at hy
      simp only [pure_eq, Res.ok.injEq] at h
      subst hm hx hy h
      have hc := fun j => ceil_iff (j := j) (k := -k) (by omega) hs
      refine ⟨rfl, ?_, by simp, fun i => ?_⟩
      · exact Int.tdiv_nonneg (by omega) (by omega)
      · simp only [Lin.Denotes, hc, Int.mul_neg]
        constructor
        · rintro ⟨j, h0, h1, rfl⟩; exact ⟨⟨j, h0, rfl⟩, by omega⟩
        · rintro ⟨⟨j, h0, rfl⟩, h1⟩; exact ⟨j, h0, by omega, rfl⟩
  · rename_i hs
    simp only [Res.ok.injEq] at h; subst h
    refine ⟨rfl, by simp, by simp, fun i => ?_⟩
    simp only [Lin.Denotes]
    constructor
    · rintro ⟨j, h0, h1, rfl⟩; omega
    · rintro ⟨⟨j, h0, rfl⟩, h1⟩
      have := Int.mul_nonneg h0 (Int.le_of_lt (Int.neg_pos_of_neg hk))
      rw [Int.mul_neg] at this; omega

/-- C02, outcome part: whenever slicing a dimension of size `n` with a range of non-zero step succeeds,
    the elements of the result are exactly the elements Python's slice selects. -/
theorem slice_selects_exactly {r : IRange} {n : Int} {l : Lin} (hn : 0 ≤ n) (hstep : r.step ≠ 0)
    (hn2 : n ≤ i64Max) (h : applySingleLinearIndex r n = .ok l) :
    l.remove = false ∧ 0 ≤ l.size ∧ (0 < l.size → l.stride = r.step) ∧
    (∀ i, l.Denotes i ↔ PySelected n r.startOpt r.finishOpt r.step i) ∧
    (∀ i, l.Denotes i → 0 ≤ i ∧ i < n) := by
  have hMin : i64Min = -9223372036854775808 := rfl
  have hMax : i64Max = 9223372036854775807 := rfl
  unfold applySingleLinearIndex at h
  rw [if_neg hstep] at h
  by_cases hk : r.step > 0
  · rw [if_pos hk] at h
    rw [bind_eq_ok] at h
    obtain ⟨a, ha, h⟩ := h
    rw [bind_eq_ok] at h
    obtain ⟨b, hb, h⟩ := h
    obtain ⟨h1, h2, h3, h4⟩ := linPos_ok hk h
    have ea : n = 0 ∨ a = pyStart n r.startOpt r.step := by
      unfold pyStart IRange.startOpt pyWrap
      split at ha
      · split at ha <;> simp only [Res.ok.injEq, reduceCtorEq] at ha
        rw [if_neg (by omega)]; simp only [hk, if_true]; omega
      · split at ha <;> simp only [Res.ok.injEq] at ha
        · by_cases hm : r.start = i64Min
          · rw [if_pos hm]; simp only [hk, if_true]; omega
          · rw [if_neg hm]; simp only [hk, if_true]; omega
        · by_cases hm : r.start = i64Min
          · rw [if_pos hm]; simp only [hk, if_true]; omega
          · rw [if_neg hm]; simp only [hk, if_true]; omega
    have eb : b = pyStop n r.finishOpt r.step := by
      unfold pyStop IRange.finishOpt pyWrap
      split at hb
      · split at hb <;> simp only [Res.ok.injEq] at hb <;>
        · by_cases hm : r.finish = i64Max
          · rw [if_pos hm]; simp only [hk, if_true]; omega
          · rw [if_neg hm]; simp only [hk, if_true]; omega
      · split at hb <;> simp only [Res.ok.injEq, reduceCtorEq] at hb
        rw [if_neg (by omega)]; simp only [hk, if_true]; omega
    have hb0 : b ≤ n := by
      subst eb; unfold pyStop; split <;> simp only [hk, if_true] <;> omega
    have ha0 : 0 ≤ a := by
      split at ha
      · split at ha <;> simp only [Res.ok.injEq, reduceCtorEq] at ha; omega
      · split at ha <;> simp only [Res.ok.injEq] at ha <;> omega
    refine ⟨h1, h2, fun h => (h3 h).2, fun i => ?_, fun i hi => ?_⟩
    · rw [h4, PySelected, if_pos hk, ← eb]
      rcases ea with hn0 | ea
      · have hps : 0 ≤ pyStart n r.startOpt r.step := by
          unfold pyStart; split <;> simp only [hk, if_true] <;> omega
        constructor
        · rintro ⟨⟨j, hj, rfl⟩, hlt⟩
          have := Int.mul_nonneg hj (Int.le_of_lt hk); omega
        · rintro ⟨⟨j, hj, rfl⟩, hlt⟩
          have := Int.mul_nonneg hj (Int.le_of_lt hk); omega
      · rw [ea]
    · obtain ⟨⟨j, hj, rfl⟩, hlt⟩ := (h4 i).1 hi
      have := Int.mul_nonneg hj (Int.le_of_lt hk); omega
  · have hk' : r.step < 0 := by omega
    rw [if_neg hk] at h
    rw [bind_eq_ok] at h
    obtain ⟨a, ha, h⟩ := h
    rw [bind_eq_ok] at h
    obtain ⟨b, hb, h⟩ := h
    obtain ⟨h1, h2, h3, h4⟩ := linNeg_ok hk' h
    have ea : a = pyStart n r.startOpt r.step := by
      unfold pyStart IRange.startOpt pyWrap
      split at ha
      · split at ha <;> simp only [Res.ok.injEq, reduceCtorEq] at ha
        rw [if_neg (by omega)]; simp only [hk, if_false]; omega
      · split at ha
        · simp only [Res.ok.injEq] at ha
          by_cases hm : r.start = i64Min
          · rw [if_pos hm]; simp only [hk, if_false]; omega
          · rw [if_neg hm]; simp only [hk, if_false]; omega
        · split at ha <;> simp only [Res.ok.injEq, reduceCtorEq] at ha
          rename_i hm
          rw [if_pos hm]; simp only [hk, if_false]; omega
    have eb : b = pyStop n r.finishOpt r.step := by
      unfold pyStop IRange.finishOpt pyWrap
      split at hb
      · split at hb
        · simp only [Res.ok.injEq] at hb
          rw [if_neg (by omega)]; simp only [hk, if_false]; omega
        · split at hb <;> simp only [Res.ok.injEq, reduceCtorEq] at hb
          rename_i hm
          rw [if_pos hm]; simp only [hk, if_false]; omega
      · split at hb <;> simp only [Res.ok.injEq] at hb
        · rw [if_neg (by omega)]; simp only [hk, if_false]; omega
        · rw [if_neg (by omega)]; simp only [hk, if_false]; omega
    have hb0 : -1 ≤ b := by
      subst eb; unfold pyStop; split <;> simp only [hk, if_false] <;> omega
    have ha0 : a < n := by
      subst ea; unfold pyStart; split <;> simp only [hk, if_false] <;> omega
    refine ⟨h1, h2, fun h => (h3 h).2, fun i => ?_, fun i hi => ?_⟩
    · rw [h4, PySelected, if_neg hk, ← eb, ← ea]
    · obtain ⟨⟨j, hj, rfl⟩, hlt⟩ := (h4 i).1 hi
      have := Int.mul_nonneg hj (Int.le_of_lt (Int.neg_pos_of_neg hk'))
      rw [Int.mul_neg] at this; omega

example : applySingleLinearIndex ⟨-1, i64Max, -2⟩ 6 = .ok ⟨false, 5, -2, 3⟩ ∧
    applySingleLinearIndex ⟨1, -1, 3⟩ 9 = .ok ⟨false, 1, 3, 3⟩ := by decide

/-- C02, single-index part (`step = 0`): the dimension is removed and the element is Python's. -/
theorem slice_single_exact (i f n : Int) :
    (-n ≤ i ∧ i < n → applySingleLinearIndex ⟨i, f, 0⟩ n = .ok ⟨true, pyWrap n i, 1, 1⟩ ∧
      0 ≤ pyWrap n i ∧ pyWrap n i < n) ∧
    (¬(-n ≤ i ∧ i < n) → 0 ≤ n → applySingleLinearIndex ⟨i, f, 0⟩ n = .throw .indexOutOfBounds) := by
  unfold applySingleLinearIndex pyWrap
  constructor
  · intro h
    simp only [if_true]
    split <;> split <;> first | omega | simp_all <;> omega
  · intro h hn
    simp only [if_true]
    split <;> split <;> first | omega | simp_all <;> omega

/-- The ranges the documentation rejects: a start that is not an element (after wrapping), unless it is
    beyond the near end in the direction of travel or omitted; symmetrically for the stop. -/
def SliceRejected (r : IRange) (n : Int) : Prop :=
  if r.step > 0 then r.start ≥ n ∨ r.finish < -n
  else r.start ≥ n ∨ (r.start < -n ∧ r.startOpt ≠ none) ∨ (r.finish ≥ n ∧ r.finishOpt ≠ none)

/-- C02, error part: slicing throws `irange_out_of_bounds` exactly on the rejected ranges. -/
theorem slice_throws_iff {r : IRange} {n : Int} (hn : 0 ≤ n) (hn2 : n ≤ i64Max) (hstep : r.step ≠ 0) :
    applySingleLinearIndex r n = .throw .irangeOutOfBounds ↔ SliceRejected r n := by
  have hMin : i64Min = -9223372036854775808 := rfl
  have hMax : i64Max = 9223372036854775807 := rfl
  have hpos : ∀ a b, linPos a b r.step ≠ .throw .irangeOutOfBounds := by
    intro a b; unfold linPos i64; simp only
    repeat' (first | split | rw [bind_ok] | rw [bind_ub])
    all_goals simp
  have hneg : ∀ a b, linNeg a b r.step ≠ .throw .irangeOutOfBounds := by
    intro a b; unfold linNeg i64; simp only
    repeat' (first | split | rw [bind_ok] | rw [bind_ub])
    all_goals simp
  unfold applySingleLinearIndex SliceRejected IRange.startOpt IRange.finishOpt
  rw [if_neg hstep]
  by_cases hk : r.step > 0
  · simp only [if_pos hk]
    repeat' split
    all_goals simp only [bind_ok, bind_throw, hpos, true_iff, false_iff]
    all_goals omega
  · simp only [if_neg hk]
    repeat' split
    all_goals simp only [bind_ok, bind_throw, hneg, true_iff, false_iff, not_true_eq_false, and_false, false_or, or_false, ne_eq, reduceCtorEq, not_false_eq_true, and_true]
    all_goals omega

example : applySingleLinearIndex ⟨7, i64Max, 1⟩ 7 = .throw .irangeOutOfBounds := by decide

/-- C02, no-UB part: with a step whose magnitude leaves room for the size computation, slicing never
    overflows, so it either throws or yields the Python slice. -/
theorem slice_no_overflow {r : IRange} {n : Int} (hn : 0 ≤ n)
    (hs : r.step ≤ i64Max - n) (hs' : -(i64Max - n) ≤ r.step) :
    applySingleLinearIndex r n ≠ .ub := by
  have hMin : i64Min = -9223372036854775808 := rfl
  have hMax : i64Max = 9223372036854775807 := rfl
  have hpos : ∀ a b, 0 ≤ a → b ≤ n → r.step > 0 → linPos a b r.step ≠ .ub := by
    intro a b ha hb hk; unfold linPos; simp only
    split
    · split
      · simp
      · rw [i64_ok (by omega) (by omega), bind_ok, i64_ok (by omega) (by omega)]; simp
    · simp
  have hneg : ∀ a b, a < n → -1 ≤ b → r.step < 0 → linNeg a b r.step ≠ .ub := by
    intro a b ha hb hk; unfold linNeg; simp only
    split
    · split
      · simp
      · rw [i64_ok (by omega) (by omega), bind_ok, i64_ok (by omega) (by omega), bind_ok, i64_ok (by omega) (by omega)]; simp
    · simp
  unfold applySingleLinearIndex
  split
  · repeat' split
    all_goals simp
  · split
    · repeat' split
      all_goals simp only [bind_ok, bind_throw, ne_eq, reduceCtorEq, not_false_eq_true]
      all_goals first | (apply hpos <;> omega) | skip
    · repeat' split
      all_goals simp only [bind_ok, bind_throw, ne_eq, reduceCtorEq, not_false_eq_true]
      all_goals first | (apply hneg <;> omega) | skip

/-- C02, violated for huge steps: `a(irange().by(INT64_MAX))` on a dimension of size 2 runs into signed
    overflow (undefined behaviour) instead of selecting element 0. -/
theorem slice_huge_step_violated :
    ∃ (r : IRange) (n : Int), 0 ≤ n ∧ I64 r.start ∧ I64 r.finish ∧ I64 r.step ∧
      PySelected n r.startOpt r.finishOpt r.step 0 ∧ applySingleLinearIndex r n = .ub := by
  refine ⟨IRange.full.by' i64Max, 2, by decide, by decide, by decide, by decide, ⟨⟨0, by decide, by decide⟩, by decide⟩, by decide⟩

/-! ## C10: the operators that build ranges.

Reading of the notation, on a dimension of size `n` and with Python's negative positions: `lo <= irange() < hi`
etc. constrain the element positions.  `pyWrap` turns a bound into a position. -/

private theorem so_none (f k : Int) : IRange.startOpt ⟨i64Min, f, k⟩ = none := by simp [IRange.startOpt]
private theorem so_some {s : Int} (f k : Int) (h : s ≠ i64Min) : IRange.startOpt ⟨s, f, k⟩ = some s := by
  simp [IRange.startOpt, h]
private theorem fo_none (s k : Int) : IRange.finishOpt ⟨s, i64Max, k⟩ = none := by simp [IRange.finishOpt]
private theorem fo_some {f : Int} (s k : Int) (h : f ≠ i64Max) : IRange.finishOpt ⟨s, f, k⟩ = some f := by
  simp [IRange.finishOpt, h]

/-- C10: `irange() < b` selects the positions below `b`. -/
theorem irange_lt_denotes {n b : Int} {l : Lin} (hn : 0 ≤ n) (hn2 : n ≤ i64Max) (hb2 : b < i64Max)
    (h : applySingleLinearIndex (IRange.full.lt b) n = .ok l) :
    ∀ i, l.Denotes i ↔ 0 ≤ i ∧ i < n ∧ i < pyWrap n b := by
  intro i
  have hMax : i64Max = 9223372036854775807 := rfl
  obtain ⟨-, -, -, h4, -⟩ := slice_selects_exactly (r := ⟨i64Min, b, 1⟩) hn (by simp) hn2 h
  rw [h4, so_none, fo_some _ _ (by omega)]
  simp only [PySelected, pyStart, pyStop, Int.reduceGT, if_true, Int.mul_one]
  constructor
  · rintro ⟨⟨j, hj, rfl⟩, h⟩; omega
  · rintro ⟨h0, h1, h2⟩; exact ⟨⟨i, h0, by omega⟩, by omega⟩

/-- C10: `a <= irange()` selects the positions from `a` on. -/
theorem irange_leL_denotes {n a : Int} {l : Lin} (hn : 0 ≤ n) (hn2 : n ≤ i64Max) (ha : i64Min < a)
    (h : applySingleLinearIndex (IRange.leL a IRange.full) n = .ok l) :
    ∀ i, l.Denotes i ↔ 0 ≤ i ∧ i < n ∧ pyWrap n a ≤ i := by
  intro i
  have hMin : i64Min = -9223372036854775808 := rfl
  obtain ⟨-, -, -, h4, -⟩ := slice_selects_exactly (r := ⟨a, i64Max, 1⟩) hn (by simp) hn2 h
  rw [h4, fo_none, so_some _ _ (by omega)]
  simp only [PySelected, pyStart, pyStop, Int.reduceGT, if_true, Int.mul_one]
  constructor
  · rintro ⟨⟨j, hj, rfl⟩, h⟩; omega
  · rintro ⟨h0, h1, h2⟩
    exact ⟨⟨i - max 0 (min n (pyWrap n a)), by omega, by omega⟩, by omega⟩

/-- C10: `irange() <= last` includes `last`, also for `last = -1` (the last element): the selected
    positions are those up to and including `last`. -/
theorem irange_le_denotes {n last : Int} {r : IRange} {l : Lin} (hn : 0 ≤ n) (hn2 : n < i64Max)
    (hr : IRange.full.le last = .ok r) (h : applySingleLinearIndex r n = .ok l) :
    ∀ i, l.Denotes i ↔ 0 ≤ i ∧ i < n ∧ i ≤ pyWrap n last := by
  intro i
  have hMax : i64Max = 9223372036854775807 := rfl
  unfold IRange.le at hr
  split at hr
  · rename_i hl
    unfold i64 at hr
    split at hr <;> simp only [bind_ok, bind_ub, pure_eq, Res.ok.injEq, reduceCtorEq] at hr
    rename_i hi
    unfold I64 at hi
    subst hr
    obtain ⟨-, -, -, h4, -⟩ := slice_selects_exactly (r := ⟨i64Min, last + 1, 1⟩) hn (by simp) (by omega) h
    have hnt := mt (slice_throws_iff (r := ⟨i64Min, last + 1, 1⟩) hn (by omega) (by simp)).2
      (by rw [show applySingleLinearIndex ⟨i64Min, last + 1, 1⟩ n = _ from h]; simp)
    simp only [SliceRejected, Int.reduceGT, if_true] at hnt
    rw [h4, so_none]
    by_cases he : last + 1 = i64Max
    · rw [he, fo_none]
      simp only [PySelected, pyStart, pyStop, Int.reduceGT, if_true, Int.mul_one, pyWrap]
      constructor
      · rintro ⟨⟨j, hj, rfl⟩, h⟩; rw [if_neg (by omega)]; omega
      · rintro ⟨h0, h1, h2⟩; exact ⟨⟨i, h0, by omega⟩, h1⟩
    · rw [fo_some _ _ he]
      simp only [PySelected, pyStart, pyStop, Int.reduceGT, if_true, Int.mul_one, pyWrap]
      constructor
      · rintro ⟨⟨j, hj, rfl⟩, h⟩; split at h <;> split <;> omega
      · rintro ⟨h0, h1, h2⟩; refine ⟨⟨i, h0, by omega⟩, ?_⟩; split at h2 <;> split <;> omega
  · rename_i hl
    simp only [Res.ok.injEq] at hr
    subst hr
    obtain ⟨-, -, -, h4, -⟩ := slice_selects_exactly (r := ⟨i64Min, i64Max, 1⟩) hn (by simp) (by omega) h
    rw [h4, so_none, fo_none]
    simp only [PySelected, pyStart, pyStop, Int.reduceGT, if_true, Int.mul_one, pyWrap]
    constructor
    · rintro ⟨⟨j, hj, rfl⟩, h⟩; rw [if_pos (by omega)]; omega
    · rintro ⟨h0, h1, h2⟩; exact ⟨⟨i, h0, by omega⟩, h1⟩

/-- C10: `(irange() >= last).by(-1)` runs down to and includes `last`, also for `last = 0`. -/
theorem irange_ge_denotes {n last : Int} {r : IRange} {l : Lin} (hn : 0 ≤ n) (hn2 : n ≤ i64Max)
    (hr : IRange.full.ge last = .ok r) (hlast : last ≤ i64Max)
    (h : applySingleLinearIndex (r.by' (-1)) n = .ok l) :
    ∀ i, l.Denotes i ↔ 0 ≤ i ∧ i < n ∧ pyWrap n last ≤ i := by
  intro i
  have hMax : i64Max = 9223372036854775807 := rfl
  unfold IRange.ge at hr
  split at hr
  · rename_i hl
    unfold i64 at hr
    split at hr <;> simp only [bind_ok, bind_ub, pure_eq, Res.ok.injEq, reduceCtorEq] at hr
    subst hr
    obtain ⟨-, -, -, h4, -⟩ := slice_selects_exactly (r := ⟨i64Min, last - 1, -1⟩) hn (by simp) hn2 h
    rw [h4, so_none, fo_some _ _ (by omega)]
    simp only [PySelected, pyStart, pyStop, show ¬ ((-1:Int) > 0) by decide, if_false, pyWrap]
    constructor
    · rintro ⟨⟨j, hj, rfl⟩, h⟩; split at h <;> split <;> omega
    · rintro ⟨h0, h1, h2⟩; refine ⟨⟨n - 1 - i, by omega, by omega⟩, ?_⟩; split at h2 <;> split <;> omega
  · rename_i hl
    simp only [Res.ok.injEq] at hr
    subst hr
    obtain ⟨-, -, -, h4, -⟩ := slice_selects_exactly (r := ⟨i64Min, i64Max, -1⟩) hn (by simp) hn2 h
    rw [h4, so_none, fo_none]
    simp only [PySelected, pyStart, pyStop, show ¬ ((-1:Int) > 0) by decide, if_false, pyWrap]
    constructor
    · rintro ⟨⟨j, hj, rfl⟩, h⟩; rw [if_neg (by omega)]; omega
    · rintro ⟨h0, h1, h2⟩; exact ⟨⟨n - 1 - i, by omega, by omega⟩, by omega⟩

/-- C10: `a < irange()` selects the positions after `a`, except for `a = -1` (see `irange_ltL_violated`). -/
theorem irange_ltL_denotes_partial {n a : Int} {r : IRange} {l : Lin} (hn : 0 ≤ n) (hn2 : n ≤ i64Max)
    (ha : i64Min ≤ a) (ha1 : a ≠ -1)
    (hr : IRange.ltL a IRange.full = .ok r) (h : applySingleLinearIndex r n = .ok l) :
    ∀ i, l.Denotes i ↔ 0 ≤ i ∧ i < n ∧ pyWrap n a < i := by
  intro i
  have hMin : i64Min = -9223372036854775808 := rfl
  unfold IRange.ltL i64 at hr
  split at hr <;> simp only [bind_ok, bind_ub, pure_eq, Res.ok.injEq, reduceCtorEq] at hr
  subst hr
  obtain ⟨-, -, -, h4, -⟩ := slice_selects_exactly (r := ⟨a + 1, i64Max, 1⟩) hn (by simp) hn2 h
  rw [h4, fo_none, so_some _ _ (by omega)]
  simp only [PySelected, pyStart, pyStop, Int.reduceGT, if_true, Int.mul_one, pyWrap]
  constructor
  · rintro ⟨⟨j, hj, rfl⟩, h⟩; split <;> split at h <;> (try split) <;> omega
  · rintro ⟨h0, h1, h2⟩
    refine ⟨⟨i - max 0 (min n (if a + 1 < 0 then a + 1 + n else a + 1)), ?_, by omega⟩, by omega⟩
    split at h2 <;> split <;> omega

/-- C10, violated: `-1 < irange()` should select nothing (no element comes after the last one) but
    selects the whole dimension. -/
theorem irange_ltL_violated :
    ∃ (n a : Int) (r : IRange) (l : Lin), 0 < n ∧ -n ≤ a ∧ IRange.ltL a IRange.full = .ok r ∧
      applySingleLinearIndex r n = .ok l ∧ l.Denotes 0 ∧ ¬ (pyWrap n a < 0) :=
  ⟨3, -1, ⟨0, i64Max, 1⟩, ⟨false, 0, 1, 3⟩, by decide, by decide, by decide, by decide,
    ⟨0, by decide, by decide, by decide⟩, by decide⟩

/-- C10: `(upper > irange()).by(-1)` starts just before `upper`, except for `upper = 0` (see
    `irange_gtL_violated`). -/
theorem irange_gtL_denotes_partial {n u : Int} {r : IRange} {l : Lin} (hn : 0 ≤ n) (hn2 : n ≤ i64Max)
    (hu : u ≠ 0) (hr : IRange.gtL u IRange.full = .ok r) (hu1 : u ≠ i64Min + 1)
    (h : applySingleLinearIndex (r.by' (-1)) n = .ok l) :
    ∀ i, l.Denotes i ↔ 0 ≤ i ∧ i < n ∧ i < pyWrap n u := by
  intro i
  have hMin : i64Min = -9223372036854775808 := rfl
  unfold IRange.gtL i64 at hr
  split at hr <;> simp only [bind_ok, bind_ub, pure_eq, Res.ok.injEq, reduceCtorEq] at hr
  subst hr
  obtain ⟨-, -, -, h4, -⟩ := slice_selects_exactly (r := ⟨u - 1, i64Max, -1⟩) hn (by simp) hn2 h
  rw [h4, fo_none, so_some _ _ (by omega)]
  simp only [PySelected, pyStart, pyStop, show ¬ ((-1:Int) > 0) by decide, if_false, pyWrap]
  constructor
  · rintro ⟨⟨j, hj, rfl⟩, h⟩; split <;> split at h <;> (try split) <;> omega
  · rintro ⟨h0, h1, h2⟩
    refine ⟨⟨max (-1) (min (n - 1) (if u - 1 < 0 then u - 1 + n else u - 1)) - i, ?_, by omega⟩, by omega⟩
    split at h2 <;> split <;> omega

/-- C10, violated: `(0 > irange()).by(-1)` should select nothing but selects the whole dimension. -/
theorem irange_gtL_violated :
    ∃ (n u : Int) (r : IRange) (l : Lin), 0 < n ∧ IRange.gtL u IRange.full = .ok r ∧
      applySingleLinearIndex (r.by' (-1)) n = .ok l ∧ l.Denotes 0 ∧ ¬ (0 < pyWrap n u) :=
  ⟨3, 0, ⟨-1, i64Max, 1⟩, ⟨false, 2, -1, 3⟩, by decide, by decide, by decide,
    ⟨2, by decide, by decide, by decide⟩, by decide⟩

/-- C10, violated at the limit: `irange() <= INT64_MAX` overflows. -/
theorem irange_le_max_violated : IRange.full.le i64Max = .ub := by decide

/-- C10: a default range is recognised as the whole dimension and selects it. -/
theorem irange_full_denotes {n : Int} {l : Lin} (hn : 0 < n) (hn2 : n ≤ i64Max)
    (h : applySingleLinearIndex IRange.full n = .ok l) : ∀ i, l.Denotes i ↔ 0 ≤ i ∧ i < n := by
  intro i
  obtain ⟨-, -, -, h4, -⟩ := slice_selects_exactly (r := ⟨i64Min, i64Max, 1⟩) (by omega) (by simp) hn2 h
  rw [h4, so_none, fo_none]
  simp only [PySelected, pyStart, pyStop, Int.reduceGT, if_true, Int.mul_one]
  constructor
  · rintro ⟨⟨j, hj, rfl⟩, h⟩; omega
  · rintro ⟨h0, h1⟩; exact ⟨⟨i, h0, by omega⟩, h1⟩

example : (IRange.full.le (-1)).bind (applySingleLinearIndex · 4) = .ok ⟨false, 0, 1, 4⟩ ∧
    (IRange.full.le 2).bind (applySingleLinearIndex · 4) = .ok ⟨false, 0, 1, 3⟩ ∧
    (IRange.full.ge 0).bind (fun r => applySingleLinearIndex (r.by' (-1)) 4) = .ok ⟨false, 3, -1, 4⟩ := by
  decide

end Dynd
