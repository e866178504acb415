import Verif.Model.Shape
import Mathlib.Data.List.Perm.Subperm
import Mathlib.Data.List.Nodup
import Mathlib.Data.List.Sort
import Mathlib.Tactic.Ring
import Mathlib.Tactic.Linarith
import Verif.Props.ViewProps
/-
Property theorems C04-C09 and C55-C59: broadcasting rules, permutations, contiguity, permuted views.
-/
namespace Dynd
open Res

/-! ## C04 -/

/-- NumPy's broadcasting rule, right aligned: `src` is not longer, and the `k`-th size from the right is 1
    or equal to that of `dst`. -/
def CanBroadcastSpec (dst src : List Int) : Prop :=
  src.length ≤ dst.length ∧
  ∀ k (h : k < src.length) (h' : k < dst.length),
    src.reverse[k]'(by simpa using h) = 1 ∨ src.reverse[k]'(by simpa using h) = dst.reverse[k]'(by simpa using h')

private theorem canBroadcastLoop_iff (dst src : List Int) (h : dst.length = src.length) :
    canBroadcastLoop dst src = true ↔ ∀ k (h1 : k < src.length) (h2 : k < dst.length), src[k] = 1 ∨ src[k] = dst[k] := by
  induction src generalizing dst with
  | nil => simp [canBroadcastLoop]
  | cons s ss ih =>
    cases dst with
    | nil => simp at h
    | cons d ds =>
      have h' : ds.length = ss.length := by simpa using h
      simp only [canBroadcastLoop]
      constructor
      · intro hb k h1 h2
        split at hb
        · simp at hb
        · rename_i hc
          cases k with
          | zero => simp only [List.getElem_cons_zero]; omega
          | succ k => exact (ih ds h').1 hb k (by simpa using h1) (by simpa using h2)
      · intro hk
        have h0 := hk 0 (by simp) (by simp)
        simp only [List.getElem_cons_zero] at h0
        rw [if_neg (by omega)]
        exact (ih ds h').2 fun k h1 h2 => by
          have := hk (k + 1) (by simpa using h1) (by simpa using h2)
          simpa using this

/-- C04: `shape_can_broadcast` decides exactly the right-aligned size-1-or-equal rule. -/
theorem shape_can_broadcast_exact (dst src : List Int) :
    shapeCanBroadcast dst src = true ↔ CanBroadcastSpec dst src := by
  unfold shapeCanBroadcast CanBroadcastSpec
  split
  · rename_i hl
    rw [canBroadcastLoop_iff _ _ (by simp; omega)]
    constructor
    · intro h
      refine ⟨hl, fun k h1 h2 => ?_⟩
      have := h (src.length - 1 - k) (by omega) (by simp; omega)
      simp only [List.getElem_drop, List.getElem_reverse] at this ⊢
      have e : dst.length - src.length + (src.length - 1 - k) = dst.length - 1 - k := by omega
      simpa only [e] using this
    · rintro ⟨_, h⟩ k h1 h2
      have := h (src.length - 1 - k) (by omega) (by omega)
      simp only [List.getElem_drop, List.getElem_reverse] at this ⊢
      have e : dst.length - 1 - (src.length - 1 - k) = dst.length - src.length + k := by omega
      have e2 : src.length - 1 - (src.length - 1 - k) = k := by omega
      simpa only [e, e2] using this
  · simp; omega

example : shapeCanBroadcast [2, 3, 4] [3, 1] = true ∧ shapeCanBroadcast [2, 3, 4] [2, 4] = false := by decide

/-! ## C05 -/

private theorem isValidPermLoop_iff (n : Nat) (flags : List Bool) (perm : List Int) (hf : flags.length = n) :
    isValidPermLoop n flags perm = .ok true ∨ isValidPermLoop n flags perm = .ok false := by
  induction perm generalizing flags with
  | nil => simp [isValidPermLoop]
  | cons v perm ih =>
    simp only [isValidPermLoop]
    split
    · rename_i hv
      have : v.toNat < flags.length := by omega
      rw [List.getElem?_eq_getElem this]
      simp only
      split
      · exact ih _ (by simpa using hf)
      · simp
    · simp

private theorem isValidPermLoop_true (n : Nat) (flags : List Bool) (perm : List Int) (hf : flags.length = n) :
    isValidPermLoop n flags perm = .ok true ↔
      perm.Nodup ∧ ∀ v ∈ perm, 0 ≤ v ∧ v < n ∧ flags[v.toNat]? = some false := by
  induction perm generalizing flags with
  | nil => simp [isValidPermLoop]
  | cons v perm ih =>
    simp only [isValidPermLoop]
    split
    · rename_i hv
      have hlt : v.toNat < flags.length := by omega
      rw [List.getElem?_eq_getElem hlt]
      simp only
      cases hfv : flags[v.toNat] with
      | true =>
        simp only [Bool.not_true, Bool.false_eq_true, if_false, List.nodup_cons, List.mem_cons,
          forall_eq_or_imp]
        rw [List.getElem?_eq_getElem hlt, hfv]
        simp
      | false =>
        simp only [Bool.not_false, if_true, List.nodup_cons, List.mem_cons, forall_eq_or_imp]
        rw [ih _ (by simpa using hf)]
        rw [List.getElem?_eq_getElem hlt, hfv]
        constructor
        · rintro ⟨h1, h2⟩
          refine ⟨⟨fun hm => ?_, h1⟩, ⟨hv.1, hv.2, rfl⟩, fun a ha => ?_⟩
          · have := (h2 v hm).2.2
            simp [hlt] at this
          · obtain ⟨p1, p2, p3⟩ := h2 a ha
            refine ⟨p1, p2, ?_⟩
            rw [List.getElem?_set] at p3
            split at p3
            · simp at p3
            · exact p3
        · rintro ⟨⟨h0, h1⟩, _, h2⟩
          refine ⟨h1, fun a ha => ?_⟩
          obtain ⟨p1, p2, p3⟩ := h2 a ha
          refine ⟨p1, p2, ?_⟩
          rw [List.getElem?_set, if_neg]
          · exact p3
          · intro he
            apply h0
            have : v = a := by omega
            rwa [this]
    · rename_i hv
      simp only [List.nodup_cons, List.mem_cons, forall_eq_or_imp, Res.ok.injEq, Bool.false_eq_true, false_iff]
      rintro ⟨_, ⟨h1, h2, _⟩, _⟩
      exact hv ⟨h1, h2⟩

/-- C05: `is_valid_perm` never leaves its flag buffer and answers true exactly for rearrangements of
    `0, 1, ..., n-1`. -/
theorem is_valid_perm_exact (perm : List Int) :
    (isValidPerm perm = .ok true ∨ isValidPerm perm = .ok false) ∧
    (isValidPerm perm = .ok true ↔ perm.Perm ((List.range perm.length).map Int.ofNat)) := by
  unfold isValidPerm
  refine ⟨isValidPermLoop_iff _ _ _ (by simp), ?_⟩
  rw [isValidPermLoop_true _ _ _ (by simp)]
  have hnd : ((List.range perm.length).map Int.ofNat).Nodup := by
    rw [List.nodup_map_iff (fun a b h => by simpa using h)]
    exact List.nodup_range
  constructor
  · rintro ⟨h1, h2⟩
    have hsub : perm ⊆ (List.range perm.length).map Int.ofNat := by
      intro v hv
      obtain ⟨a, b, _⟩ := h2 v hv
      simp only [List.mem_map, List.mem_range]
      exact ⟨v.toNat, by omega, by simp; omega⟩
    exact (h1.subperm hsub).perm_of_length_le (by simp)
  · intro hp
    refine ⟨hp.nodup_iff.2 hnd, fun v hv => ?_⟩
    have := hp.subset hv
    simp only [List.mem_map, List.mem_range] at this
    obtain ⟨a, ha, rfl⟩ := this
    refine ⟨by simp, by simpa using ha, ?_⟩
    simp [ha]

example : isValidPerm [2, 0, 1] = .ok true ∧ isValidPerm [2, 0, 2] = .ok false ∧ isValidPerm [3, 0, 1] = .ok false := by
  decide

/-! ## C06 -/

/-- Strict weak ordering, the precondition of `std::sort`. -/
def StrictWeak (cmp : Nat → Nat → Bool) : Prop :=
  (∀ a, cmp a a = false) ∧ (∀ a b c, cmp a b = true → cmp b c = true → cmp a c = true) ∧
  (∀ a b c, cmp a b = false → cmp b c = false → cmp a c = false)

/-- The contract of `std::sort` (C++ [alg.sort]): a permutation of the input in which no later element is
    less than an earlier one.  Stability is not promised. -/
def SortContract (srt : (Nat → Nat → Bool) → List Nat → List Nat) : Prop :=
  ∀ cmp l, StrictWeak cmp → (srt cmp l).Perm l ∧ (srt cmp l).Pairwise (fun a b => cmp b a = false)

/-- A stable sort, for non-vacuity of the contract. -/
def stableSort (cmp : Nat → Nat → Bool) (l : List Nat) : List Nat := l.mergeSort (fun a b => !cmp b a)

theorem stableSort_contract : SortContract stableSort := by
  rintro cmp l ⟨h1, h2, h3⟩
  refine ⟨List.mergeSort_perm _ _, ?_⟩
  have := List.pairwise_mergeSort (le := fun a b => !cmp b a) (fun a b c => ?_) (fun a b => ?_) l
  · refine this.imp ?_
    intro a b h; simpa using h
  · simp only [Bool.not_eq_eq_eq_not, Bool.not_true]
    intro hab hbc; exact h3 _ _ _ hbc hab
  · simp only [Bool.or_eq_true, Bool.not_eq_eq_eq_not, Bool.not_true]
    cases hab : cmp b a with
    | false => simp
    | true =>
      right
      cases hba : cmp a b with
      | false => rfl
      | true => have := h2 _ _ _ hab hba; rw [h1] at this; simp at this

private theorem absLess_strictWeak (s : Nat → Int) : StrictWeak (absLess s) := by
  refine ⟨fun a => by simp [absLess], fun a b c => ?_, fun a b c => ?_⟩ <;>
    simp only [absLess, decide_eq_true_eq, decide_eq_false_iff_not] <;> omega

/-- C06: the axis order derived from strides is a permutation of the axes along which the absolute strides
    never decrease, for every implementation of `std::sort` meeting its contract. -/
theorem strides_to_axis_perm_sorted {srt} (hs : SortContract srt) (ndim : Nat) (s : Nat → Int)
    (hmin : ∀ i < ndim, s i ≠ i64Min) :
    ∃ p, stridesToAxisPerm srt ndim s = .ok p ∧ p.Perm (List.range ndim) ∧
      p.Pairwise (fun a b => (s a).natAbs ≤ (s b).natAbs) := by
  have hno : ¬ (ndim ≥ 2 ∧ ∃ i < ndim, s i = i64Min) := by
    rintro ⟨_, i, hi, h⟩; exact hmin i hi h
  unfold stridesToAxisPerm
  simp only [hno, if_false]
  match ndim with
  | 0 => exact ⟨[], rfl, by simp, by simp⟩
  | 1 => exact ⟨[0], rfl, by simp [List.range_succ], by simp⟩
  | 2 =>
    simp only
    split
    · exact ⟨_, rfl, by decide, by simp; omega⟩
    · exact ⟨_, rfl, by decide, by simp; omega⟩
  | 3 =>
    simp only
    repeat' split
    all_goals exact ⟨_, rfl, by decide, by simp; omega⟩
  | n + 4 =>
    simp only
    obtain ⟨h1, h2⟩ := hs (absLess s) (List.range (n + 4)).reverse (absLess_strictWeak s)
    refine ⟨_, rfl, h1.trans (List.reverse_perm _), h2.imp ?_⟩
    intro a b h
    simpa [absLess] using h

/-- C06, ties (hand-unrolled ranks 0..3): equal absolute strides keep C order (the later axis is the
    faster one). -/
theorem strides_to_axis_perm_ties_partial {srt} (ndim : Nat) (h3 : ndim ≤ 3) (s : Nat → Int)
    (hmin : ∀ i < ndim, s i ≠ i64Min) :
    ∃ p, stridesToAxisPerm srt ndim s = .ok p ∧ p.Perm (List.range ndim) ∧
      p.Pairwise (fun a b => (s a).natAbs < (s b).natAbs ∨ ((s a).natAbs = (s b).natAbs ∧ b < a)) := by
  have hno : ¬ (ndim ≥ 2 ∧ ∃ i < ndim, s i = i64Min) := by
    rintro ⟨_, i, hi, h⟩; exact hmin i hi h
  unfold stridesToAxisPerm
  simp only [hno, if_false]
  match ndim with
  | 0 => exact ⟨[], rfl, by simp, by simp⟩
  | 1 => exact ⟨[0], rfl, by simp [List.range_succ], by simp⟩
  | 2 =>
    simp only
    split
    · exact ⟨_, rfl, by decide, by simp; omega⟩
    · exact ⟨_, rfl, by decide, by simp; omega⟩
  | 3 =>
    simp only
    repeat' split
    all_goals exact ⟨_, rfl, by decide, by simp; omega⟩

private theorem mergeSort_all_le (le : Nat → Nat → Bool) (l : List Nat) (h : ∀ a b, le a b = true) :
    l.mergeSort le = l :=
  List.mergeSort_of_pairwise (List.pairwise_of_forall (fun a b => by simp [h]))

/-- C06, violated for rank 4 and up: nothing in `std::sort`'s contract keeps C order on ties; a
    conforming sort turns four equal strides into the reverse (Fortran) order. -/
theorem strides_to_axis_perm_ties_violated :
    ∃ srt, SortContract srt ∧ stridesToAxisPerm srt 4 (fun _ => 8) = .ok [0, 1, 2, 3] := by
  refine ⟨fun cmp l => stableSort cmp l.reverse, ?_, ?_⟩
  · intro cmp l h
    obtain ⟨h1, h2⟩ := stableSort_contract cmp l.reverse h
    exact ⟨h1.trans (List.reverse_perm _), h2⟩
  · unfold stridesToAxisPerm
    simp only [stableSort]
    rw [if_neg (by rintro ⟨_, _, _, h⟩; simp only [i64Min] at h; omega), mergeSort_all_le _ _ (by simp [absLess])]
    rfl

/-- C06, violated: a stride of INT64_MIN makes the absolute value overflow. -/
theorem strides_to_axis_perm_min_violated : stridesToAxisPerm stableSort 2 (fun _ => i64Min) = .ub := by
  unfold stridesToAxisPerm
  rw [if_pos ⟨by omega, 0, by omega, rfl⟩]

/-! ## C07 -/

private theorem findInsertPos_le (cmp) (x : Nat) (l : List Nat) (ipos : Nat) (n : Nat) (h : ipos ≤ n)
    (hl : l.length ≤ n) : findInsertPos cmp x l ipos ≤ n := by
  induction l generalizing ipos with
  | nil => exact h
  | cons p rest ih =>
    simp only [findInsertPos]
    simp only [List.length_cons] at hl
    split
    · exact ih _ h (by omega)
    · exact ih _ (by omega) (by omega)
    · exact h

private theorem insertAxes_perm (cmp) (pre rest : List Nat) : (insertAxes cmp pre rest).Perm (pre ++ rest) := by
  induction rest generalizing pre with
  | nil => simp [insertAxes]
  | cons x rest ih =>
    simp only [insertAxes]
    refine (ih _).trans ?_
    generalize findInsertPos cmp x pre.reverse pre.length = k
    have h1 : (pre.take k ++ x :: pre.drop k).Perm (x :: pre) := by
      refine List.perm_middle.trans ?_
      rw [List.take_append_drop]
    have h2 : (pre ++ x :: rest).Perm (x :: pre ++ rest) := List.perm_middle
    exact (h1.append_right rest).trans h2.symm

private theorem range_reverse_split (n : Nat) : [n] ++ (List.range n).reverse = (List.range (n + 1)).reverse := by
  rw [List.range_succ, List.reverse_append]; rfl

/-- C07: for every set of operand strides, however inconsistent, the result is a permutation of the axes. -/
theorem multistrides_perm (ndim : Nat) (ops : List (Nat → Int)) :
    (multistridesToAxisPerm ndim ops).Perm (List.range ndim) := by
  unfold multistridesToAxisPerm
  match ndim with
  | 0 => simp
  | 1 => simp [List.range_succ]
  | 2 => simp only; split <;> decide
  | n + 3 =>
    simp only
    refine (insertAxes_perm _ _ _).trans ?_
    have : n + 3 - 1 = n + 2 := by omega
    rw [this, range_reverse_split]
    exact List.reverse_perm _

/-- `i` and `j` are ambiguous: in every operand one of the two strides is zero. -/
def AmbiguousAxes (ops : List (Nat → Int)) (i j : Nat) : Prop := ∀ op ∈ ops, op i = 0 ∨ op j = 0

private theorem compareStrides_amb (i j : Nat) (ops : List (Nat → Int)) (amb lt : Bool) (h : AmbiguousAxes ops i j) :
    compareStrides i j ops amb lt = (amb, lt) := by
  induction ops with
  | nil => rfl
  | cons op ops ih =>
    have h0 := h op (by simp)
    simp only [compareStrides]
    rw [if_neg (by omega)]
    exact ih fun o ho => h o (by simp [ho])

private theorem findInsertPos_amb (cmp : Nat → Nat → Bool × Bool) (x : Nat) (l : List Nat) (ipos : Nat)
    (h : ∀ p ∈ l, (cmp p x).1 = true) : findInsertPos cmp x l ipos = ipos := by
  induction l with
  | nil => rfl
  | cons p rest ih =>
    have h0 := h p (by simp)
    simp only [findInsertPos]
    have e : cmp p x = (true, (cmp p x).2) := by rw [← h0]
    rw [e]
    exact ih fun q hq => h q (by simp [hq])

private theorem insertAxes_amb (cmp) (pre rest : List Nat)
    (h : ∀ a ∈ pre ++ rest, ∀ b ∈ pre ++ rest, a ≠ b → (cmp a b).1 = true) (hnd : (pre ++ rest).Nodup) :
    insertAxes cmp pre rest = pre ++ rest := by
  induction rest generalizing pre with
  | nil => simp [insertAxes]
  | cons x rest ih =>
    simp only [insertAxes]
    have hx : findInsertPos cmp x pre.reverse pre.length = pre.length := by
      apply findInsertPos_amb
      intro p hp
      have hp' : p ∈ pre := by simpa using hp
      apply h p (by simp [hp']) x (by simp)
      rintro rfl
      rw [List.nodup_append] at hnd
      exact hnd.2.2 p hp' p (by simp) rfl
    rw [hx, List.take_length, List.drop_length]
    have e : pre ++ [x] ++ rest = pre ++ x :: rest := by simp
    rw [← e] at h hnd ⊢
    exact ih _ h hnd

/-- C07: when every pair of axes is ambiguous (some stride zero in each operand) the axes stay in C order. -/
theorem multistrides_ambiguous_c_order (ndim : Nat) (ops : List (Nat → Int))
    (h : ∀ i < ndim, ∀ j < ndim, i ≠ j → AmbiguousAxes ops i j) :
    multistridesToAxisPerm ndim ops = (List.range ndim).reverse := by
  unfold multistridesToAxisPerm
  match ndim with
  | 0 => rfl
  | 1 => rfl
  | 2 =>
    simp only
    rw [compareStrides_amb _ _ _ _ _ (h 0 (by omega) 1 (by omega) (by omega))]
    rfl
  | n + 3 =>
    simp only
    have e : n + 3 - 1 = n + 2 := by omega
    rw [e, insertAxes_amb, range_reverse_split]
    · rw [range_reverse_split]
      intro a ha b hb hab
      simp only [List.mem_reverse, List.mem_range] at ha hb
      rw [compareStrides_amb _ _ _ _ _ (h a ha b hb hab)]
    · rw [range_reverse_split]
      exact List.nodup_reverse.2 List.nodup_range

example : multistridesToAxisPerm 3 [fun i => if i = 1 then 4 else 0, fun i => if i = 2 then 8 else 0] = [2, 1, 0] := by
  decide

/-- All operands order the axes consistently: comparisons are decided by one key. -/
def ConsistentKey (ndim : Nat) (ops : List (Nat → Int)) (key : Nat → Nat) : Prop :=
  ∀ i < ndim, ∀ j < ndim, i ≠ j →
    (∃ op ∈ ops, op i ≠ 0 ∧ op j ≠ 0) ∧
    ∀ op ∈ ops, op i ≠ 0 → op j ≠ 0 → ((op i).natAbs ≤ (op j).natAbs ↔ key i ≤ key j)

private theorem compareStrides_false (i j : Nat) (ops : List (Nat → Int)) (lt : Bool)
    (hnot : ∀ op ∈ ops, op i ≠ 0 → op j ≠ 0 → ¬ ((op i).natAbs ≤ (op j).natAbs)) :
    compareStrides i j ops false lt = (false, lt) := by
  induction ops with
  | nil => rfl
  | cons op ops ih =>
    simp only [compareStrides, Bool.false_eq_true, if_false]
    have := ih fun o ho => hnot o (by simp [ho])
    split
    · rename_i hz
      rw [if_neg (hnot op (by simp) hz.1 hz.2)]; exact this
    · exact this

private theorem compareStrides_key (i j : Nat) (ops : List (Nat → Int)) (k : Prop) [Decidable k]
    (hex : ∃ op ∈ ops, op i ≠ 0 ∧ op j ≠ 0)
    (hall : ∀ op ∈ ops, op i ≠ 0 → op j ≠ 0 → ((op i).natAbs ≤ (op j).natAbs ↔ k)) :
    compareStrides i j ops true false = (false, decide k) := by
  induction ops with
  | nil => obtain ⟨_, h, _⟩ := hex; simp at h
  | cons op ops ih =>
    simp only [compareStrides]
    split
    · rename_i hz
      have h0 := hall op (by simp) hz.1 hz.2
      split
      · rename_i hle
        simp [h0.1 hle]
      · rename_i hle
        have hk : ¬ k := fun hk => hle (h0.2 hk)
        simp only [if_true]
        rw [compareStrides_false]
        · simp [hk]
        · intro o ho h1 h2 h3
          exact hk ((hall o (by simp [ho]) h1 h2).1 h3)
    · rename_i hz
      apply ih
      · obtain ⟨o, ho, h1⟩ := hex
        rcases List.mem_cons.1 ho with rfl | ho
        · exact absurd h1 hz
        · exact ⟨o, ho, h1⟩
      · intro o ho; exact hall o (by simp [ho])

/-- Order used by the sorted result: key, ties keep C order. -/
def KeyLt (key : Nat → Nat) (a b : Nat) : Prop := key a < key b ∨ (key a = key b ∧ b < a)

private theorem findInsertPos_key (key : Nat → Nat) (cmp) (x : Nat) (l : List Nat) (tail : List Nat)
    (hc : ∀ p ∈ l, cmp p x = (false, decide (key p ≤ key x)))
    (hx : ∀ p ∈ l ++ tail, x < p)
    (hs : (l.reverse ++ tail).Pairwise (KeyLt key)) (ht : ∀ p ∈ tail, KeyLt key x p) :
    let k := findInsertPos cmp x l l.length
    k ≤ l.length ∧ (∀ p ∈ l.reverse.take k, KeyLt key p x) ∧ (∀ p ∈ l.reverse.drop k, KeyLt key x p) := by
  induction l generalizing tail with
  | nil => simp [findInsertPos]
  | cons p rest ih =>
    simp only [findInsertPos]
    rw [hc p (by simp)]
    by_cases hk : key p ≤ key x
    · simp only [hk, decide_true]
      refine ⟨by simp, ?_, ?_⟩
      · intro q hq
        have hq' : q ∈ rest.reverse ++ [p] := by
          simpa using List.mem_of_mem_take hq
        have hqp : key q ≤ key p := by
          rw [List.reverse_cons] at hs
          rcases List.mem_append.1 hq' with hq' | hq'
          · have := (List.pairwise_append.1 (List.pairwise_append.1 hs).1).2.2 q hq' p (by simp)
            unfold KeyLt at this; omega
          · simp only [List.mem_singleton] at hq'; subst hq'; exact Nat.le_refl _
        have : x < q := hx q (by
          simp only [List.mem_append, List.mem_reverse, List.mem_singleton] at hq'
          simp only [List.mem_append, List.mem_cons]; tauto)
        unfold KeyLt; omega
      · intro q hq
        rw [List.drop_of_length_le (by simp)] at hq
        simp at hq
    · simp only [hk, decide_false]
      have := ih (p :: tail) (fun q hq => hc q (by simp [hq]))
        (fun q hq => hx q (by simp only [List.mem_append, List.mem_cons] at hq ⊢; tauto))
        (by simpa using hs)
        (fun q hq => by
          rcases List.mem_cons.1 hq with rfl | hq
          · unfold KeyLt; omega
          · exact ht q hq)
      simp only at this
      obtain ⟨h1, h2, h3⟩ := this
      refine ⟨by simp; omega, ?_, ?_⟩
      · intro q hq
        apply h2 q
        rwa [List.reverse_cons, List.take_append_of_le_length (by simpa using h1)] at hq
      · intro q hq
        rw [List.reverse_cons, List.drop_append_of_le_length (by simpa using h1)] at hq
        rcases List.mem_append.1 hq with hq | hq
        · exact h3 q hq
        · simp only [List.mem_singleton] at hq; subst hq; unfold KeyLt; omega

private theorem insertAxes_key (key : Nat → Nat) (cmp) (pre rest : List Nat)
    (hc : ∀ a ∈ pre ++ rest, ∀ b ∈ pre ++ rest, a ≠ b → cmp a b = (false, decide (key a ≤ key b)))
    (hs : pre.Pairwise (KeyLt key)) (hdesc : ∀ p ∈ pre, ∀ x ∈ rest, x < p) (hr : rest.Pairwise (fun a b => b < a)) :
    (insertAxes cmp pre rest).Pairwise (KeyLt key) := by
  induction rest generalizing pre with
  | nil => simpa [insertAxes] using hs
  | cons x rest ih =>
    simp only [insertAxes]
    have hxp : ∀ p ∈ pre, x < p := fun p hp => hdesc p hp x (by simp)
    have key1 := findInsertPos_key key cmp x pre.reverse []
      (fun p hp => hc p (by simp at hp; simp [hp]) x (by simp) (by
        have := hxp p (by simpa using hp); omega))
      (fun p hp => hxp p (by simpa using hp)) (by simpa using hs) (by simp)
    simp only [List.reverse_reverse, List.length_reverse] at key1
    obtain ⟨h1, h2, h3⟩ := key1
    generalize findInsertPos cmp x pre.reverse pre.length = k at h1 h2 h3 ⊢
    have hperm : (pre.take k ++ x :: pre.drop k).Perm (x :: pre) := by
      refine List.perm_middle.trans ?_
      rw [List.take_append_drop]
    apply ih
    · intro a ha b hb
      apply hc
      · rcases List.mem_append.1 ha with ha | ha
        · have := hperm.subset ha; simp only [List.mem_cons] at this; simp only [List.mem_append, List.mem_cons]; tauto
        · simp [ha]
      · rcases List.mem_append.1 hb with hb | hb
        · have := hperm.subset hb; simp only [List.mem_cons] at this; simp only [List.mem_append, List.mem_cons]; tauto
        · simp [hb]
    · rw [List.pairwise_append, List.pairwise_cons]
      have hs' := hs
      rw [← List.take_append_drop k pre, List.pairwise_append] at hs'
      refine ⟨hs'.1, ⟨h3, hs'.2.1⟩, fun a ha b hb => ?_⟩
      rcases List.mem_cons.1 hb with rfl | hb
      · exact h2 a ha
      · exact hs'.2.2 a ha b hb
    · intro p hp y hy
      have := hperm.subset hp
      rcases List.mem_cons.1 this with rfl | hp
      · exact (List.pairwise_cons.1 hr).1 y hy
      · exact hdesc p hp y (by simp [hy])
    · exact (List.pairwise_cons.1 hr).2

/-- C07: when all operands agree on the ordering of the axes (rank >= 3), the result is sorted by it, with
    ties in C order. -/
theorem multistrides_sorted (ndim : Nat) (h3 : 3 ≤ ndim) (ops : List (Nat → Int)) (key : Nat → Nat)
    (h : ConsistentKey ndim ops key) :
    (multistridesToAxisPerm ndim ops).Pairwise (KeyLt key) := by
  unfold multistridesToAxisPerm
  match ndim, h3 with
  | n + 3, _ =>
    simp only
    have e : n + 3 - 1 = n + 2 := by omega
    rw [e]
    apply insertAxes_key key
    · rw [range_reverse_split]
      intro a ha b hb hab
      simp only [List.mem_reverse, List.mem_range] at ha hb
      obtain ⟨h1, h2⟩ := h a ha b hb hab
      exact compareStrides_key a b ops (key a ≤ key b) h1 h2
    · simp
    · intro p hp x hx
      simp only [List.mem_singleton, List.mem_reverse, List.mem_range] at hp hx
      omega
    · rw [List.pairwise_reverse]
      exact List.pairwise_lt_range

example : ConsistentKey 3 [fun i => if i = 0 then 4 else if i = 1 then 40 else 8] (fun i => if i = 0 then 4 else if i = 1 then 40 else 8) ∧
    multistridesToAxisPerm 3 [fun i => if i = 0 then 4 else if i = 1 then 40 else 8] = [0, 2, 1] := by
  constructor
  · intro i hi j hj hij
    have h1 : i = 0 ∨ i = 1 ∨ i = 2 := by omega
    have h2 : j = 0 ∨ j = 1 ∨ j = 2 := by omega
    rcases h1 with rfl | rfl | rfl <;> rcases h2 with rfl | rfl | rfl <;> simp_all
  · decide

/-- C07: at every rank, when all operands agree on the ordering of the axes, the keys of the result are
    non-decreasing (only the placement of ties differs at rank 2, see `multistrides_two_dim_tie_violated`). -/
theorem multistrides_sorted_keys (ndim : Nat) (ops : List (Nat → Int)) (key : Nat → Nat)
    (h : ConsistentKey ndim ops key) :
    (multistridesToAxisPerm ndim ops).Pairwise (fun a b => key a ≤ key b) := by
  match ndim with
  | 0 => simp [multistridesToAxisPerm]
  | 1 => simp [multistridesToAxisPerm]
  | 2 =>
    obtain ⟨h1, h2⟩ := h 0 (by omega) 1 (by omega) (by omega)
    simp only [multistridesToAxisPerm, compareStrides_key 0 1 ops (key 0 ≤ key 1) h1 h2]
    by_cases hk : key 0 ≤ key 1
    · simp [hk]
    · simp [hk]; omega
  | n + 3 =>
    exact (multistrides_sorted (n + 3) (by omega) ops key h).imp (fun h => by unfold KeyLt at h; omega)

example : multistridesToAxisPerm 2 [fun i => if i = 0 then 40 else 4] = [1, 0] ∧
    multistridesToAxisPerm 2 [fun i => if i = 0 then 4 else 40] = [0, 1] := by decide

/-- C07, violated at rank 2: two equal non-zero strides (e.g. a 3x1 int32 array) are put in Fortran order
    by the special two-dimensional code, while the general algorithm (and `strides_to_axis_perm`) keeps
    C order. -/
theorem multistrides_two_dim_tie_violated :
    multistridesToAxisPerm 2 [fun _ => 4] = [0, 1] ∧
    insertAxes (fun i j => compareStrides i j [fun _ => 4] true false) [1] [0] = [1, 0] ∧
    stridesToAxisPerm stableSort 2 (fun _ => 4) = .ok [1, 0] := by
  refine ⟨by decide, by decide, ?_⟩
  unfold stridesToAxisPerm
  rw [if_neg (by rintro ⟨_, _, _, h⟩; simp only [i64Min] at h; omega)]
  rfl

end Dynd
