import Verif.Model.ArrayOps
import Verif.Props.KernelProps
import Verif.Props.ArithProps
import Mathlib.Tactic.SplitIfs
import Mathlib.Tactic.Linarith
/-
C87: `concatenate`.  C88: `old_range`.
-/
namespace Dynd
open Res

/-! ## C87 -/

/-- Assigning to a slice inside the bounds replaces exactly these elements. -/
theorem assignSlice_ok {α : Type} (p m s : List (Option α)) (vals : List α) (hm : m.length = vals.length)
    (h : vals ≠ [] ∨ m ++ s ≠ []) :
    assignSlice (p ++ m ++ s) p.length ((p.length : Int) + vals.length) vals = .ok (p ++ vals.map some ++ s) := by
  have hlt : (p.length : Int) < (p ++ m ++ s).length := by
    simp only [List.length_append]
    rcases h with h | h
    · have := List.length_pos_iff.2 h; omega
    · have := List.length_pos_iff.2 h; rw [List.length_append] at this; omega
  have hle : (p.length : Int) + vals.length ≤ (p ++ m ++ s).length := by
    simp only [List.length_append]; omega
  have h1 : applySingleLinearIndex ⟨p.length, (p.length : Int) + vals.length, 1⟩ ((p ++ m ++ s).length : Nat) =
      linPos p.length ((p.length : Int) + vals.length) 1 := by
    unfold applySingleLinearIndex
    rw [if_neg (by simp), if_pos (by simp), if_pos (by simp), if_pos hlt, Res.bind_ok, if_pos (by simp; omega),
      if_pos hle, Res.bind_ok]
  unfold assignSlice
  rw [h1]
  unfold linPos
  simp only
  by_cases hv : vals = []
  · subst hv
    have hm0 : m = [] := List.length_eq_zero_iff.1 (by simpa using hm)
    subst hm0
    rw [if_neg (by simp), Res.bind_ok, if_neg (by simp)]
    congr 1
    apply List.ext_getElem (by simp)
    intro k h2 h3
    simp only [List.length_map, List.length_range] at h2
    rw [List.getElem_map, List.getElem_range, if_neg (by simp), List.getElem?_eq_getElem h2]
    simp
  · have hvl : 0 < vals.length := List.length_pos_iff.2 hv
    rw [if_pos (by omega), if_pos trivial, Res.bind_ok, if_neg (by simp)]
    congr 1
    apply List.ext_getElem (by simp [hm])
    intro k h2 h3
    simp only [List.length_map, List.length_range] at h2
    rw [List.getElem_map, List.getElem_range]
    simp only
    by_cases hk1 : k < p.length
    · rw [if_neg (by omega), List.getElem?_eq_getElem h2]
      simp [List.getElem_append, hk1]
    · by_cases hk2 : k < p.length + vals.length
      · rw [if_pos (by omega), Int.toNat_natCast, List.getElem?_eq_getElem (by omega)]
        have hk3 : k - p.length < vals.length := by omega
        simp [List.getElem_append, hk1, hk3]
      · rw [if_neg (by omega), List.getElem?_eq_getElem h2]
        have hk3 : ¬ k - p.length < vals.length := by omega
        simp [List.getElem_append, hk1, hk3, hm]

/-- **C87**: concatenating any one-dimensional array with a non-empty one gives the elements of both in order. -/
theorem concatenate_exact_partial {α : Type} (x y : List α) (hy : y ≠ []) :
    concatenate x y = .ok ((x ++ y).map some) := by
  unfold concatenate
  have h1 := assignSlice_ok [] (List.replicate x.length none) (List.replicate y.length none) x (by simp)
    (Or.inr (by simpa using fun _ => hy))
  have h2 := assignSlice_ok (x.map some) (List.replicate y.length none) [] y (by simp) (Or.inl hy)
  simp only [List.nil_append, List.length_nil, List.replicate_append_replicate, List.length_map, List.append_nil] at h1 h2
  rw [show ((0 : Nat) : Int) + (x.length : Int) = x.length by omega] at h1
  have h1' : assignSlice (List.replicate (x.length + y.length) none) 0 (x.length : Int) x =
      .ok (x.map some ++ List.replicate y.length none) := h1
  simp only [h1', Res.bind_ok, h2, List.map_append]

/-- C87 is violated when the second array is empty: `irange_out_of_bounds` is raised whatever the first array is. -/
theorem concatenate_empty_violated {α : Type} (x : List α) : concatenate x [] = .throw .irangeOutOfBounds := by
  by_cases hx : x = []
  · subst hx; rfl
  · unfold concatenate
    have h1 := assignSlice_ok [] (List.replicate x.length none) [] x (by simp) (Or.inl hx)
    simp only [List.nil_append, List.length_nil, List.append_nil] at h1
    rw [show ((0 : Nat) : Int) + (x.length : Int) = x.length by omega] at h1
    have h1' : assignSlice (List.replicate (x.length + ([] : List α).length) none) 0 (x.length : Int) x =
        .ok (x.map some) := h1
    have h2 : ∀ n : Nat, applySingleLinearIndex ⟨n, (n : Int) + ([] : List α).length, 1⟩ n = .throw .irangeOutOfBounds := by
      intro n
      unfold applySingleLinearIndex
      rw [if_neg (by simp), if_pos (by simp), if_pos (by simp), if_neg (by simp)]
      rfl
    simp only [h1', Res.bind_ok]
    unfold assignSlice
    rw [List.length_map, h2]
    rfl

example : concatenate [1, 2] [3] = .ok [some 1, some 2, some 3] ∧ concatenate ([] : List Nat) [3] = .ok [some 3] := by decide

/-! ## C88 -/

private theorem count_lt (k : Nat) (d m : Int) (hd : 0 < d) (hm : 0 < m) :
    k < ((d + m - 1).tdiv m).toNat ↔ (k : Int) * m < d := by
  rw [Int.tdiv_eq_ediv_of_nonneg (by omega)]
  have h : (k : Int) + 1 ≤ (d + m - 1) / m ↔ ((k : Int) + 1) * m ≤ d + m - 1 := Int.le_ediv_iff_mul_le hm
  have h2 : ((k : Int) + 1) * m = k * m + m := by ring
  rw [h2] at h
  omega

private theorem fill_ok (t : IntTy) (b s : Int) : ∀ (n : Nat),
    (∀ k : Nat, k < n → oldRangeElem t b s k = .ok (b + k * s)) →
    oldRangeFill t b s n = .ok ((List.range n).map fun k : Nat => b + k * s)
  | 0, _ => rfl
  | n + 1, h => by
    simp only [oldRangeFill]
    rw [fill_ok t b s n (fun k hk => h k (by omega)), Res.bind_ok, h n (by omega), Res.bind_ok, Res.pure_eq,
      List.range_succ, List.map_append]
    rfl

private theorem has_range (t : IntTy) (ht : t.bits = 8 ∨ t.bits = 16 ∨ t.bits = 32 ∨ t.bits = 64) (x : Int)
    (h : t.Has x) : -9223372036854775808 ≤ x ∧ (x < 0 → t.signed = true) ∧
      (x < 0 → x ≠ t.min → t.Has (-x)) ∧ (t.bits = 64 ∧ t.signed = false ∨ x ≤ 9223372036854775807) := by
  obtain ⟨bits, sg⟩ := t
  simp only at ht
  rcases ht with rfl | rfl | rfl | rfl <;> cases sg <;>
    simp [IntTy.Has, IntTy.min, IntTy.max] at h ⊢ <;> omega

private theorem toIntptr_id {x : Int} (h1 : -9223372036854775808 ≤ x) (h2 : x ≤ 9223372036854775807) : toIntptr x = x := by
  unfold toIntptr
  apply IntTy.cast_of_has (by decide)
  simp [IntTy.Has, IntTy.min, IntTy.max]
  omega

private theorem between_has {t : IntTy} {a b x : Int} (ha : t.Has a) (hb : t.Has b) (h1 : a ≤ x) (h2 : x ≤ b) : t.Has x :=
  ⟨by have := ha.1; omega, by have := hb.2; omega⟩

private theorem elem_ok (t : IntTy) (ht : t.bits = 8 ∨ t.bits = 16 ∨ t.bits = 32 ∨ t.bits = 64) (b s : Int) (k : Nat)
    (h1 : -9223372036854775808 ≤ (k : Int) * s) (h2 : (k : Int) * s ≤ 9223372036854775807)
    (h3 : t.Has (b + k * s)) : oldRangeElem t b s k = .ok (b + k * s) := by
  unfold oldRangeElem
  have hc : t.cast (b + k * s) = b + k * s := IntTy.cast_of_has (by omega) h3
  split_ifs with h
  · rw [hc]
  · obtain ⟨r1, -, -, r2⟩ := has_range t ht _ h3
    rw [i64_ok h1 h2, Res.bind_ok, i64_ok (by omega) (by rcases r2 with r | r; exact absurd r h; exact r), Res.bind_ok, hc]
    rfl

private theorem getElem_range_map (n : Nat) (b s : Int) (k : Nat) (x : Int) :
    ((List.range n).map fun k : Nat => b + k * s)[k]? = some x ↔ k < n ∧ x = b + k * s := by
  by_cases h : k < n
  · rw [List.getElem?_map, List.getElem?_range h]
    simp [h, eq_comm]
  · rw [List.getElem?_eq_none (by simpa using h)]
    simp [h]

/-- **C88**: for the builtin integer types of 8 to 64 bits, `old_range(begin, end, step)` returns exactly the values
    `begin + k * step` strictly before `end` in the direction of `step`, in order.  Missing (and false): a step that is
    the minimum of a signed type, values of `uint64` from `2^63`, ranges whose extent plus step does not fit in 64 bits. -/
theorem old_range_exact_partial (t : IntTy) (ht : t.bits = 8 ∨ t.bits = 16 ∨ t.bits = 32 ∨ t.bits = 64)
    (b e s : Int) (hb : t.Has b) (he : t.Has e) (hs : t.Has s) (hs0 : s ≠ 0) (hmin : t.signed = true → s ≠ t.min)
    (hfit : Before s b e → b ≤ i64Max ∧ e ≤ i64Max ∧ ((e - b).natAbs : Int) + s.natAbs ≤ i64Max) :
    ∃ l, oldRange t b e s = .ok l ∧ ∀ (k : Nat) (x : Int), l[k]? = some x ↔ x = b + k * s ∧ Before s x e := by
  have hI : i64Max = 9223372036854775807 := rfl
  rw [hI] at hfit
  obtain ⟨b1, b2, b3, -⟩ := has_range t ht b hb
  obtain ⟨e1, e2, e3, -⟩ := has_range t ht e he
  obtain ⟨s1, s2, s3, -⟩ := has_range t ht s hs
  by_cases hB : Before s b e
  · obtain ⟨f1, f2, f3⟩ := hfit hB
    unfold oldRange oldRangeCount
    rw [toIntptr_id e1 f2, toIntptr_id b1 f1]
    rcases hB with ⟨hp, hlt⟩ | ⟨hn, hlt⟩
    · rw [toIntptr_id (by omega) (by omega), if_pos hp, if_neg (by omega), i64_ok (by omega) (by omega), Res.bind_ok,
        i64_ok (by omega) (by omega), Res.bind_ok, i64_ok (by omega) (by omega), Res.bind_ok, Res.pure_eq, Res.bind_ok]
      have hnn : ¬ (e - b + s - 1).tdiv s < 0 := by
        have := Int.tdiv_nonneg (a := e - b + s - 1) (b := s) (by omega) (by omega); omega
      rw [if_neg hnn]
      have hc : ∀ k : Nat, k < ((e - b + s - 1).tdiv s).toNat ↔ (k : Int) * s < e - b :=
        fun k => count_lt k _ s (by omega) hp
      rw [fill_ok]
      · refine ⟨_, rfl, ?_⟩
        intro k x
        rw [getElem_range_map, hc]
        unfold Before
        constructor
        · rintro ⟨h1, rfl⟩; exact ⟨rfl, Or.inl ⟨hp, by omega⟩⟩
        · rintro ⟨rfl, h | h⟩ <;> omega
      · intro k hk
        have h1 := (hc k).1 hk
        have h2 : 0 ≤ (k : Int) * s := Int.mul_nonneg (by omega) (by omega)
        exact elem_ok t ht b s k (by omega) (by omega) (between_has hb he (by omega) (by omega))
    · have hsg := s2 (by omega)
      have hneg := s3 hn (hmin hsg)
      have hcs : t.cast (-s) = -s := IntTy.cast_of_has (by omega) hneg
      rw [if_neg (by omega), if_pos hn, if_neg (by omega), if_neg (by rintro ⟨-, h⟩; exact hmin hsg h), Res.bind_ok,
        i64_ok (by omega) (by omega), Res.bind_ok, hcs,
        i64_ok (by omega) (by omega), Res.bind_ok, i64_ok (by omega) (by omega), Res.bind_ok, Res.pure_eq, Res.bind_ok]
      have hnn : ¬ (b - e + -s - 1).tdiv (-s) < 0 := by
        have := Int.tdiv_nonneg (a := b - e + -s - 1) (b := -s) (by omega) (by omega); omega
      rw [if_neg hnn]
      have hc : ∀ k : Nat, k < ((b - e + -s - 1).tdiv (-s)).toNat ↔ (k : Int) * -s < b - e :=
        fun k => count_lt k _ (-s) (by omega) (by omega)
      have hmul : ∀ k : Nat, (k : Int) * -s = -((k : Int) * s) := fun k => by ring
      rw [fill_ok]
      · refine ⟨_, rfl, ?_⟩
        intro k x
        rw [getElem_range_map, hc, hmul]
        unfold Before
        constructor
        · rintro ⟨h1, rfl⟩; exact ⟨rfl, Or.inr ⟨hn, by omega⟩⟩
        · rintro ⟨rfl, h | h⟩ <;> omega
      · intro k hk
        have h1 := (hc k).1 hk
        have h2 : 0 ≤ (k : Int) * -s := Int.mul_nonneg (by omega) (by omega)
        rw [hmul] at h1 h2
        exact elem_ok t ht b s k (by omega) (by omega) (between_has he hb (by omega) (by omega))
  · refine ⟨[], ?_, ?_⟩
    · have h0 : oldRangeCount t b e s = .ok 0 := by
        unfold Before at hB
        unfold oldRangeCount
        rcases Int.lt_or_gt_of_ne hs0 with h | h
        · rw [if_neg (by omega), if_pos h, if_pos (by omega)]
        · rw [if_pos h, if_pos (by omega)]
      unfold oldRange
      rw [h0]; rfl
    · intro k x
      simp only [List.getElem?_nil, reduceCtorEq, false_iff, not_and]
      rintro rfl hB'
      apply hB
      unfold Before at *
      have hkk : 0 ≤ (k : Int) := by omega
      rcases hB' with ⟨hp, hlt⟩ | ⟨hneg, hlt⟩
      · left; refine ⟨hp, ?_⟩; nlinarith
      · right; refine ⟨hneg, ?_⟩; nlinarith

/-- **C88** for the types of at most 32 bits: no side condition except the minimal step. -/
theorem old_range_exact_small (t : IntTy) (ht : t.bits = 8 ∨ t.bits = 16 ∨ t.bits = 32)
    (b e s : Int) (hb : t.Has b) (he : t.Has e) (hs : t.Has s) (hs0 : s ≠ 0) (hmin : t.signed = true → s ≠ t.min) :
    ∃ l, oldRange t b e s = .ok l ∧ ∀ (k : Nat) (x : Int), l[k]? = some x ↔ x = b + k * s ∧ Before s x e := by
  apply old_range_exact_partial t (by omega) b e s hb he hs hs0 hmin
  have hI : i64Max = 9223372036854775807 := rfl
  have key : ∀ x, t.Has x → -2147483648 ≤ x ∧ x ≤ 4294967295 := by
    intro x hx
    obtain ⟨bits, sg⟩ := t
    simp only at ht
    rcases ht with rfl | rfl | rfl <;> cases sg <;>
      simp [IntTy.Has, IntTy.min, IntTy.max] at hx ⊢ <;> omega
  intro _
  have h1 := key b hb
  have h2 := key e he
  have h3 := key s hs
  omega

/-- C88: a zero step raises `runtime_error`. -/
theorem old_range_zero_step (t : IntTy) (b e : Int) : oldRange t b e 0 = .throw .runtime := rfl

/-- C88 is violated for the minimal step of a narrow type: `old_range<int8>(127, -128, -128)` is empty (it should be
    `[127, -1]`); for 32 and 64 bits the negation overflows. -/
theorem old_range_min_step_violated :
    oldRange ⟨8, true⟩ 127 (-128) (-128) = .ok [] ∧ Before (-128) 127 (-128) ∧
    oldRange ⟨32, true⟩ 0 (-1) (-2147483648) = .ub ∧ oldRange ⟨64, true⟩ 0 (-1) i64Min = .ub := by
  refine ⟨by decide, Or.inr (by decide), by decide, by decide⟩

/-- C88 is violated for large `uint64` values (`[0, 2^62]` is refused with `bad_alloc`) and for ranges wider than 63 bits. -/
theorem old_range_wide_violated :
    oldRange ⟨64, false⟩ 0 (2 ^ 63) (2 ^ 62) = .throw .badAlloc ∧
    oldRange ⟨64, false⟩ 0 (2 ^ 64 - 1) (2 ^ 63) = .ub ∧
    oldRange ⟨64, true⟩ i64Min i64Max (2 ^ 62) = .ub := by decide

/-- Concrete cases. -/
example : oldRange ⟨32, true⟩ 10 0 (-3) = .ok [10, 7, 4, 1] ∧ oldRange ⟨8, false⟩ 250 255 2 = .ok [250, 252, 254] ∧
    (⟨32, true⟩ : IntTy).Has 10 ∧ (-3 : Int) ≠ (⟨32, true⟩ : IntTy).min := by decide

end Dynd
