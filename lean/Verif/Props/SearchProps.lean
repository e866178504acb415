import Verif.Model.Search
import Mathlib.Tactic.SplitIfs
import Mathlib.Tactic.ByContra
import Mathlib.Data.List.GetD
import Mathlib.Data.List.TakeDrop
/-
C17, C18: finding substrings.
-/
namespace Dynd

/-- Specification: `p` occurs in `h` at byte offset `k`. -/
def OccursAt (h p : List Nat) (k : Nat) : Prop := ∃ a b, h = a ++ p ++ b ∧ a.length = k

theorem rd_eq {s : List Nat} {i : Nat} (h : i < s.length) : rd s i = .ok (s.getD i 0) := by
  unfold rd
  rw [List.getElem?_eq_getElem h]
  simp [List.getD_eq_getElem, h]

/-- Pointwise form of an occurrence. -/
def Occ (h p : List Nat) (i : Nat) : Prop := i + p.length ≤ h.length ∧ ∀ j, j < p.length → h.getD (i + j) 0 = p.getD j 0

theorem occursAt_iff (h p : List Nat) (k : Nat) : OccursAt h p k ↔ Occ h p k := by
  constructor
  · rintro ⟨a, b, rfl, rfl⟩
    refine ⟨by simp, ?_⟩
    intro j hj
    rw [List.append_assoc, List.getD_append_right _ _ _ _ (by omega), List.getD_append _ _ _ _ (by omega)]
    congr 1; omega
  · rintro ⟨hl, he⟩
    refine ⟨h.take k, h.drop (k + p.length), ?_, by simp; omega⟩
    apply List.ext_getElem
    · simp; omega
    · intro i h1 h2
      by_cases hi : i < k
      · rw [List.getElem_append_left (by simp; omega), List.getElem_append_left (by simp; omega), List.getElem_take]
      · by_cases hi2 : i < k + p.length
        · rw [List.getElem_append_left (by simp; omega), List.getElem_append_right (by simp; omega)]
          have := he (i - k) (by omega)
          rw [show k + (i - k) = i by omega, List.getD_eq_getElem _ _ h1, List.getD_eq_getElem _ _ (by omega)] at this
          rw [this]
          congr 1; simp; omega
        · rw [List.getElem_append_right (by simp; omega), List.getElem_drop]
          congr 1; simp; omega

/-! ### The filter -/

private theorem and63 (x : Nat) : x &&& 63 = x % 64 := Nat.and_two_pow_sub_one_eq_mod x 6

private theorem bloomHas_iff (mask b : Nat) : bloomHas mask b = mask.testBit (b % 64) := by
  unfold bloomHas
  rw [and63, Nat.one_shiftLeft]
  have hb : (mask &&& 2 ^ (b % 64)).testBit (b % 64) = mask.testBit (b % 64) := by
    rw [Nat.testBit_and, Nat.testBit_two_pow_self, Bool.and_true]
  cases h : mask.testBit (b % 64)
  · have : mask &&& 2 ^ (b % 64) = 0 := by
      apply Nat.eq_of_testBit_eq
      intro i
      rw [Nat.testBit_and, Nat.testBit_two_pow, Nat.zero_testBit]
      by_cases hi : b % 64 = i
      · rw [← hi, h]; rfl
      · simp [hi]
    simp [this]
  · rw [h] at hb
    have : mask &&& 2 ^ (b % 64) ≠ 0 := by
      intro h0; rw [h0, Nat.zero_testBit] at hb; exact absurd hb (by simp)
    simp [this]

private theorem bloomHas_add (mask b c : Nat) : bloomHas (bloomAdd mask b) c = (bloomHas mask c || decide (b % 64 = c % 64)) := by
  rw [bloomHas_iff, bloomHas_iff]
  unfold bloomAdd
  rw [and63, Nat.one_shiftLeft, Nat.testBit_or, Nat.testBit_two_pow]

/-! ### Comparison loops -/

private theorem cmpFwd_eq (h p : List Nat) (i k j : Nat) (hk : k + j ≤ p.length) (hh : i + p.length ≤ h.length) :
    cmpFwd h p i k j = .ok (decide (∀ x, x < k → h.getD (i + (j + x)) 0 = p.getD (j + x) 0)) := by
  induction k generalizing j with
  | zero => simp [cmpFwd]
  | succ k ih =>
    simp only [cmpFwd]
    rw [rd_eq (by omega), rd_eq (by omega)]
    simp only [Res.bind_ok, Res.pure_eq]
    split_ifs with hne
    · rw [decide_eq_false]
      intro hall
      exact hne (by simpa using hall 0 (by omega))
    · rw [ih (j + 1) (by omega)]
      have hne : h.getD (i + j) 0 = p.getD j 0 := by simpa using hne
      congr 1
      rw [decide_eq_decide]
      constructor
      · intro hall x hx
        cases x with
        | zero => simpa using hne
        | succ x => have := hall x (by omega); rw [show j + 1 + x = j + (x + 1) by omega] at this; exact this
      · intro hall x hx
        have := hall (x + 1) (by omega)
        rw [show j + 1 + x = j + (x + 1) by omega]; exact this

private theorem cmpRev_eq (h p : List Nat) (i j : Nat) (hj : j < p.length) (hh : i + p.length ≤ h.length) :
    cmpRev h p i j = .ok (decide (∀ x, x < j → h.getD (i + (x + 1)) 0 = p.getD (x + 1) 0)) := by
  induction j with
  | zero => simp [cmpRev]
  | succ j ih =>
    simp only [cmpRev]
    rw [rd_eq (by omega), rd_eq (by omega)]
    simp only [Res.bind_ok, Res.pure_eq]
    split_ifs with hne
    · rw [decide_eq_false]
      intro hall
      exact hne (hall j (by omega))
    · rw [ih (by omega)]
      have hne : h.getD (i + (j + 1)) 0 = p.getD (j + 1) 0 := by simpa using hne
      congr 1
      rw [decide_eq_decide]
      constructor
      · intro hall x hx
        by_cases he : x = j
        · subst he; exact hne
        · exact hall x (by omega)
      · intro hall x hx
        exact hall x (by omega)

/-! ### The tables -/

/-- What the search needs to know of the table: the filter never denies a byte of the needle and `skip` never jumps over a
    shift that realigns the last byte. -/
structure FwdTable (p : List Nat) (mask skip : Nat) : Prop where
  has : ∀ j, j < p.length → bloomHas mask (p.getD j 0) = true
  skip_le : skip ≤ p.length - 2
  skip_ok : ∀ d, 1 ≤ d → d ≤ skip → p.getD (p.length - 1 - d) 0 ≠ p.getD (p.length - 1) 0

private theorem tableFwd_ok (p : List Nat) (k i mask skip : Nat) (hm : 2 ≤ p.length) (hk : k + i = p.length - 1)
    (h1 : ∀ j, j < i → bloomHas mask (p.getD j 0) = true)
    (h2 : skip ≤ p.length - 2)
    (h3 : ∀ j, j < i → p.length - 1 - skip ≤ j → p.getD j 0 ≠ p.getD (p.length - 1) 0) :
    ∃ mask' skip', tableFwd p k i (mask, skip) = .ok (mask', skip') ∧ (∀ j, j < p.length - 1 → bloomHas mask' (p.getD j 0) = true) ∧
      skip' ≤ p.length - 2 ∧ (∀ j, j < p.length - 1 → p.length - 1 - skip' ≤ j → p.getD j 0 ≠ p.getD (p.length - 1) 0) := by
  induction k generalizing i mask skip with
  | zero =>
    simp only [tableFwd]
    refine ⟨mask, skip, rfl, ?_, h2, ?_⟩
    · intro j hj; exact h1 j (by omega)
    · intro j hj; exact h3 j (by omega)
  | succ k ih =>
    simp only [tableFwd]
    rw [rd_eq (by omega), rd_eq (by omega)]
    simp only [Res.bind_ok]
    apply ih
    · omega
    · intro j hj
      rw [bloomHas_add]
      by_cases he : j = i
      · subst he; simp
      · rw [h1 j (by omega)]; rfl
    · split_ifs <;> omega
    · intro j hj hs
      split_ifs at hs with hb
      · omega
      · by_cases he : j = i
        · subst he; exact hb
        · exact h3 j (by omega) hs

theorem tableFwd_spec (p : List Nat) (hm : 2 ≤ p.length) :
    ∃ mask skip, tableFwd p (p.length - 1) 0 (0, p.length - 1 - 1) = .ok (mask, skip) ∧
      FwdTable p (bloomAdd mask (p.getD (p.length - 1) 0)) skip := by
  obtain ⟨mask, skip, h1, h2, h3, h4⟩ := tableFwd_ok p (p.length - 1) 0 0 (p.length - 1 - 1) hm (by omega)
    (fun j hj => absurd hj (Nat.not_lt_zero j)) (by omega) (fun j hj => absurd hj (Nat.not_lt_zero j))
  refine ⟨mask, skip, h1, ?_, h3, ?_⟩
  · intro j hj
    rw [bloomHas_add]
    by_cases he : j = p.length - 1
    · subst he; simp
    · rw [h2 j (by omega)]; rfl
  · intro d hd1 hd2
    exact h4 _ (by omega) (by omega)

private structure RevTable (p : List Nat) (mask skip : Nat) : Prop where
  has : ∀ j, j < p.length → bloomHas mask (p.getD j 0) = true
  skip_le : skip ≤ p.length - 2
  skip_ok : ∀ d, 1 ≤ d → d ≤ skip → p.getD d 0 ≠ p.getD 0 0

private theorem tableRev_ok (p : List Nat) (i mask skip : Nat) (hm : 2 ≤ p.length) (hi : i < p.length)
    (h1 : ∀ j, j < p.length → (j = 0 ∨ i < j) → bloomHas mask (p.getD j 0) = true)
    (h2 : skip ≤ p.length - 2)
    (h3 : ∀ j, i < j → j ≤ skip → p.getD j 0 ≠ p.getD 0 0) :
    ∃ mask' skip', tableRev p i (mask, skip) = .ok (mask', skip') ∧ RevTable p mask' skip' := by
  induction i generalizing mask skip with
  | zero =>
    simp only [tableRev]
    refine ⟨mask, skip, rfl, ?_, h2, ?_⟩
    · intro j hj; exact h1 j hj (by omega)
    · intro j hj; exact h3 j (by omega)
  | succ i ih =>
    simp only [tableRev]
    rw [rd_eq (by omega), rd_eq (by omega)]
    simp only [Res.bind_ok]
    apply ih
    · omega
    · intro j hj hor
      rw [bloomHas_add]
      by_cases he : j = i + 1
      · subst he; simp
      · rw [h1 j hj (by omega)]; rfl
    · split_ifs <;> omega
    · intro j hj hs
      split_ifs at hs with hb
      · omega
      · by_cases he : j = i + 1
        · subst he; exact hb
        · exact h3 j (by omega) hs

/-! ### Shifts never jump over an occurrence -/

private theorem miss_no_occ {h p : List Nat} {mask i : Nat} (hb : ∀ j, j < p.length → bloomHas mask (p.getD j 0) = true)
    (hm : 1 ≤ p.length) (hn : bloomHas mask (h.getD (i + 1 + (p.length - 1)) 0) = false) (k : Nat) (hk : i < k) (hk2 : k ≤ i + p.length) :
    ¬ Occ h p k := by
  rintro ⟨_, ho⟩
  have := ho (i + p.length - k) (by omega)
  rw [show k + (i + p.length - k) = i + 1 + (p.length - 1) by omega] at this
  rw [this, hb _ (by omega)] at hn
  exact absurd hn (by simp)

private theorem skip_no_occ {h p : List Nat} {mask skip i : Nat} (t : FwdTable p mask skip) (hm : 2 ≤ p.length)
    (hl : h.getD (i + (p.length - 1)) 0 = p.getD (p.length - 1) 0) (k : Nat) (hk : i < k) (hk2 : k ≤ i + skip) : ¬ Occ h p k := by
  rintro ⟨_, ho⟩
  have hs := t.skip_le
  have := ho (p.length - 1 - (k - i)) (by omega)
  rw [show k + (p.length - 1 - (k - i)) = i + (p.length - 1) by omega, hl] at this
  exact t.skip_ok (k - i) (by omega) (by omega) this.symm

/-- Result of the step functions: the new position, everything jumped over being free of occurrences. -/
private theorem missNext_spec {h p : List Nat} {mask skip i : Nat} (t : FwdTable p mask skip) (hm : 2 ≤ p.length) (hh : p.length ≤ h.length) :
    ∃ nx, missNext h (h.length - p.length) p.length mask skip i = .ok nx ∧ i < nx ∧
      (nx = i + skip + 1 ∨ (∀ k, i < k → k < nx → ¬ Occ h p k)) := by
  unfold missNext
  split_ifs with hw
  · rw [rd_eq (by omega)]
    simp only [Res.bind_ok, Res.pure_eq]
    cases hb : bloomHas mask (h.getD (i + 1 + (p.length - 1)) 0)
    · refine ⟨_, by simp; rfl, by omega, Or.inr ?_⟩
      intro k h1 h2
      exact miss_no_occ t.has (by omega) hb k h1 (by omega)
    · exact ⟨i + skip + 1, by simp, by omega, Or.inl rfl⟩
  · exact ⟨_, rfl, by omega, Or.inl rfl⟩

private theorem skipNext_spec {h p : List Nat} {mask skip i : Nat} (t : FwdTable p mask skip) (hm : 2 ≤ p.length) (hh : p.length ≤ h.length) :
    ∃ nx, skipNext h (h.length - p.length) p.length mask i = .ok nx ∧ i < nx ∧ (∀ k, i < k → k < nx → ¬ Occ h p k) := by
  unfold skipNext
  split_ifs with hw
  · rw [rd_eq (by omega)]
    simp only [Res.bind_ok, Res.pure_eq]
    cases hb : bloomHas mask (h.getD (i + 1 + (p.length - 1)) 0)
    · refine ⟨_, by simp; rfl, by omega, ?_⟩
      intro k h1 h2
      exact miss_no_occ t.has (by omega) hb k h1 (by omega)
    · exact ⟨_, by simp; rfl, by omega, by intro k h1 h2; omega⟩
  · exact ⟨_, rfl, by omega, by intro k h1 h2; omega⟩

private theorem occ_of_cmp {h p : List Nat} {i : Nat} (hm : 2 ≤ p.length) (hi : i ≤ h.length - p.length) (hh : p.length ≤ h.length) :
    Occ h p i ↔ h.getD (i + (p.length - 1)) 0 = p.getD (p.length - 1) 0 ∧
      (∀ x, x < p.length - 1 → h.getD (i + (0 + x)) 0 = p.getD (0 + x) 0) := by
  constructor
  · rintro ⟨_, h2⟩
    refine ⟨h2 _ (by omega), ?_⟩
    intro x hx; rw [Nat.zero_add]; exact h2 x (by omega)
  · rintro ⟨h1, h2⟩
    refine ⟨by omega, ?_⟩
    intro j hj
    by_cases he : j = p.length - 1
    · subst he; exact h1
    · have := h2 j (by omega); rw [Nat.zero_add] at this; exact this

/-- The three outcomes of one loop iteration. -/
theorem scan_step {h p : List Nat} {mask skip : Nat} (t : FwdTable p mask skip) (hm : 2 ≤ p.length) (hh : p.length ≤ h.length)
    (stop : Bool) (fuel i : Nat) (hi : i ≤ h.length - p.length) :
    (Occ h p i ∧ stop = true ∧ scanFwd stop h p (h.length - p.length) mask skip (fuel + 1) i = .ok [i]) ∨
    (Occ h p i ∧ stop = false ∧ ∃ nx, i + p.length ≤ nx ∧
      (nx = i + p.length + skip ∨ (∀ k, i + p.length ≤ k → k < nx → ¬ Occ h p k)) ∧
      scanFwd stop h p (h.length - p.length) mask skip (fuel + 1) i =
        (do let r ← scanFwd stop h p (h.length - p.length) mask skip fuel nx; pure (i :: r))) ∨
    (∃ nx, i < nx ∧ (∀ k, i ≤ k → k < nx → ¬ Occ h p k) ∧
      scanFwd stop h p (h.length - p.length) mask skip (fuel + 1) i = scanFwd stop h p (h.length - p.length) mask skip fuel nx) := by
  simp only [scanFwd]
  rw [if_pos hi, rd_eq (by omega), rd_eq (by omega)]
  simp only [Res.bind_ok]
  have hocc := occ_of_cmp hm hi hh
  by_cases he : h.getD (i + (p.length - 1)) 0 = p.getD (p.length - 1) 0
  · rw [if_pos he, cmpFwd_eq _ _ _ _ _ (by omega) (by omega)]
    simp only [Res.bind_ok]
    by_cases hc : ∀ x, x < p.length - 1 → h.getD (i + (0 + x)) 0 = p.getD (0 + x) 0
    · rw [decide_eq_true hc]
      simp only [if_true]
      have ho := hocc.2 ⟨he, hc⟩
      cases stop
      · right; left
        obtain ⟨nx, h1, h2, h3⟩ := missNext_spec (i := i + (p.length - 1)) t hm hh
        refine ⟨ho, rfl, nx, by omega, ?_, by rw [h1]; rfl⟩
        rcases h3 with h3 | h3
        · left; omega
        · right; intro k k1 k2; exact h3 k (by omega) k2
      · left; exact ⟨ho, rfl, rfl⟩
    · rw [decide_eq_false hc]
      right; right
      obtain ⟨nx, h1, h2, h3⟩ := missNext_spec (i := i) t hm hh
      refine ⟨nx, h2, ?_, by rw [h1]; rfl⟩
      intro k k1 k2
      by_cases hki : k = i
      · subst hki; exact fun ho => hc (hocc.1 ho).2
      · rcases h3 with h3 | h3
        · exact skip_no_occ t hm he k (by omega) (by omega)
        · exact h3 k (by omega) k2
  · rw [if_neg he]
    right; right
    obtain ⟨nx, h1, h2, h3⟩ := skipNext_spec (i := i) t hm hh
    refine ⟨nx, h2, ?_, by rw [h1]; rfl⟩
    intro k k1 k2
    by_cases hki : k = i
    · subst hki; exact fun ho => he (hocc.1 ho).1
    · exact h3 k (by omega) k2

theorem scanFwd_done {h p : List Nat} (stop : Bool) (w mask skip fuel i : Nat) (hi : ¬ i ≤ w) :
    scanFwd stop h p w mask skip fuel i = .ok [] := by
  cases fuel <;> simp [scanFwd, hi]

private theorem scanFwd_first {h p : List Nat} {mask skip : Nat} (t : FwdTable p mask skip) (hm : 2 ≤ p.length) (hh : p.length ≤ h.length)
    (fuel i : Nat) (hf : h.length - p.length + 1 ≤ fuel + i) :
    (∃ k, scanFwd true h p (h.length - p.length) mask skip fuel i = .ok [k] ∧ i ≤ k ∧ Occ h p k ∧ ∀ x, i ≤ x → x < k → ¬ Occ h p x) ∨
    (scanFwd true h p (h.length - p.length) mask skip fuel i = .ok [] ∧ ∀ x, i ≤ x → ¬ Occ h p x) := by
  induction fuel generalizing i with
  | zero =>
    right
    refine ⟨scanFwd_done _ _ _ _ _ _ (by omega), ?_⟩
    rintro x hx ⟨h1, _⟩; omega
  | succ fuel ih =>
    by_cases hi : i ≤ h.length - p.length
    · rcases scan_step t hm hh true fuel i hi with ⟨ho, _, hs⟩ | ⟨_, hf, _⟩ | ⟨nx, h1, h2, h3⟩
      · left; exact ⟨i, hs, by omega, ho, by intro x h1 h2; omega⟩
      · exact absurd hf (by simp)
      · rw [h3]
        rcases ih nx (by omega) with ⟨k, k1, k2, k3, k4⟩ | ⟨k1, k2⟩
        · left
          refine ⟨k, k1, by omega, k3, ?_⟩
          intro x x1 x2
          by_cases hx : x < nx
          · exact h2 x x1 hx
          · exact k4 x (by omega) x2
        · right
          refine ⟨k1, ?_⟩
          intro x x1
          by_cases hx : x < nx
          · exact h2 x x1 hx
          · exact k2 x (by omega)
    · right
      refine ⟨scanFwd_done _ _ _ _ _ _ hi, ?_⟩
      rintro x hx ⟨h1, _⟩; omega

/-! ### Single characters -/

theorem occ_single (h : List Nat) (c i : Nat) : Occ h [c] i ↔ i < h.length ∧ h.getD i 0 = c := by
  unfold Occ
  constructor
  · rintro ⟨h1, h2⟩
    refine ⟨by simp at h1; omega, ?_⟩
    simpa using h2 0 (by simp)
  · rintro ⟨h1, h2⟩
    refine ⟨by simp; omega, ?_⟩
    intro j hj
    simp only [List.length_singleton] at hj
    have : j = 0 := by omega
    subst this; simpa using h2

private theorem search1Short_first (h : List Nat) (c k i : Nat) (hk : k + i = h.length) :
    (∃ x, search1Short true h c k i = .ok [x] ∧ i ≤ x ∧ Occ h [c] x ∧ ∀ y, i ≤ y → y < x → ¬ Occ h [c] y) ∨
    (search1Short true h c k i = .ok [] ∧ ∀ y, i ≤ y → ¬ Occ h [c] y) := by
  induction k generalizing i with
  | zero =>
    right
    refine ⟨rfl, ?_⟩
    rintro y hy ho
    have := (occ_single _ _ _).1 ho
    omega
  | succ k ih =>
    simp only [search1Short]
    rw [rd_eq (by omega)]
    simp only [Res.bind_ok, if_true, Res.pure_eq]
    by_cases hc : h.getD i 0 = c
    · rw [if_pos hc]
      left
      exact ⟨i, rfl, by omega, (occ_single _ _ _).2 ⟨by omega, hc⟩, by intro y h1 h2; omega⟩
    · rw [if_neg hc]
      have hno : ¬ Occ h [c] i := fun ho => hc ((occ_single _ _ _).1 ho).2
      rcases ih (i + 1) (by omega) with ⟨x, x1, x2, x3, x4⟩ | ⟨x1, x2⟩
      · left
        refine ⟨x, x1, by omega, x3, ?_⟩
        intro y y1 y2
        by_cases he : y = i
        · subst he; exact hno
        · exact x4 y (by omega) y2
      · right
        refine ⟨x1, ?_⟩
        intro y y1
        by_cases he : y = i
        · subst he; exact hno
        · exact x2 y (by omega)

/-- `memchr` finds the first occurrence of the byte if there is one (whatever length is passed, as long as it reaches it), returns
    null if the whole range is free of it, and reads past the end if the range is longer than the string. -/
theorem memchr_spec (h : List Nat) (c n s : Nat) :
    (∃ k, s ≤ k ∧ k < s + n ∧ memchr h c n s = .ok (some k) ∧ Occ h [c] k ∧ ∀ y, s ≤ y → y < k → ¬ Occ h [c] y) ∨
    ((∀ y, s ≤ y → y < s + n → ¬ Occ h [c] y) ∧ memchr h c n s = (if n = 0 ∨ s + n ≤ h.length then .ok none else .ub)) := by
  induction n generalizing s with
  | zero => right; exact ⟨by intro y h1 h2; omega, by simp [memchr]⟩
  | succ n ih =>
    simp only [memchr]
    by_cases hs : s < h.length
    · rw [rd_eq hs]
      simp only [Res.bind_ok, Res.pure_eq]
      by_cases hc : h.getD s 0 = c
      · left
        refine ⟨s, by omega, by omega, by rw [if_pos hc], (occ_single _ _ _).2 ⟨hs, hc⟩, by intro y h1 h2; omega⟩
      · rw [if_neg hc]
        have hno : ¬ Occ h [c] s := fun ho => hc ((occ_single _ _ _).1 ho).2
        rcases ih (s + 1) with ⟨k, k1, k2, k3, k4, k5⟩ | ⟨k1, k2⟩
        · left
          refine ⟨k, by omega, by omega, k3, k4, ?_⟩
          intro y y1 y2
          by_cases he : y = s
          · subst he; exact hno
          · exact k5 y (by omega) y2
        · right
          refine ⟨?_, ?_⟩
          · intro y y1 y2
            by_cases he : y = s
            · subst he; exact hno
            · exact k1 y (by omega) (by omega)
          · rw [k2]
            congr 1
            apply propext
            omega
    · right
      refine ⟨?_, ?_⟩
      · intro y y1 y2 ho
        have := (occ_single _ _ _).1 ho
        omega
      · unfold rd
        rw [List.getElem?_eq_none (by omega)]
        rw [if_neg (by omega)]; rfl

private theorem search1_first (h : List Nat) (c : Nat) :
    (∃ x, search1 true h c = .ok [x] ∧ Occ h [c] x ∧ ∀ y, y < x → ¬ Occ h [c] y) ∨
    (search1 true h c = .ok [] ∧ ∀ y, ¬ Occ h [c] y) := by
  unfold search1
  split_ifs with hl
  · rcases search1Short_first h c h.length 0 (by omega) with ⟨x, x1, _, x3, x4⟩ | ⟨x1, x2⟩
    · left; exact ⟨x, x1, x3, fun y hy => x4 y (Nat.zero_le _) hy⟩
    · right; exact ⟨x1, fun y => x2 y (Nat.zero_le _)⟩
  · obtain ⟨f, hf⟩ : ∃ f, h.length = f + 1 := ⟨h.length - 1, by omega⟩
    have hstep : search1Long true h c h.length 0 = (do
        match ← memchr h c h.length 0 with
        | none => pure []
        | some k => pure [k]) := by
      conv_lhs => rw [hf]
      simp only [search1Long]
      rw [if_pos (by omega)]
      rfl
    rw [hstep]
    rcases memchr_spec h c h.length 0 with ⟨k, _, _, k3, k4, k5⟩ | ⟨k1, k2⟩
    · left; rw [k3]; exact ⟨k, rfl, k4, fun y hy => k5 y (Nat.zero_le _) hy⟩
    · right
      rw [k2, if_pos (by omega)]
      refine ⟨rfl, ?_⟩
      intro y ho
      have := (occ_single _ _ _).1 ho
      exact k1 y (by omega) (by omega) ho

private theorem search_first (h p : List Nat) (hp : p ≠ []) :
    (∃ x, stringSearch true h p = .ok [x] ∧ Occ h p x ∧ ∀ y, y < x → ¬ Occ h p y) ∨
    (stringSearch true h p = .ok [] ∧ ∀ y, ¬ Occ h p y) := by
  have hpl : p.length ≠ 0 := fun h => hp (List.length_eq_zero_iff.1 h)
  unfold stringSearch
  split_ifs with h1 h3
  · right
    refine ⟨rfl, ?_⟩
    rintro y ⟨ho, _⟩; omega
  · obtain ⟨c, rfl⟩ := List.length_eq_one_iff.1 h3
    simpa [rd] using search1_first h c
  · obtain ⟨mask, skip, e, t⟩ := tableFwd_spec p (by omega)
    rw [e, rd_eq (s := p) (by omega)]
    simp only [Res.bind_ok]
    rcases scanFwd_first (h := h) t (by omega) (by omega) (h.length - p.length + 1) 0 (by omega) with ⟨x, x1, _, x3, x4⟩ | ⟨x1, x2⟩
    · left; exact ⟨x, x1, x3, fun y hy => x4 y (Nat.zero_le _) hy⟩
    · right; exact ⟨x1, fun y => x2 y (Nat.zero_le _)⟩

/-- C17: `string_find` with a non-empty needle always returns (no byte outside either string is read), and its result is the
    least offset at which the needle occurs, or -1 exactly when it does not occur. -/
theorem string_find_exact (h p : List Nat) (hp : p ≠ []) :
    (∃ k : Nat, stringFind h p = .ok k ∧ OccursAt h p k ∧ ∀ j, j < k → ¬ OccursAt h p j) ∨
    (stringFind h p = .ok (-1) ∧ ∀ j, ¬ OccursAt h p j) := by
  simp only [occursAt_iff]
  unfold stringFind
  rcases search_first h p hp with ⟨x, x1, x2, x3⟩ | ⟨x1, x2⟩
  · left; exact ⟨x, by rw [x1]; rfl, x2, x3⟩
  · right; exact ⟨by rw [x1]; rfl, x2⟩

/-- `string_contains` with a non-empty needle is true exactly when the needle occurs somewhere. -/
theorem string_contains_exact (h p : List Nat) (hp : p ≠ []) :
    ∃ b, stringContains h p = .ok b ∧ (b = true ↔ ∃ k, OccursAt h p k) := by
  simp only [occursAt_iff]
  unfold stringContains
  rcases search_first h p hp with ⟨x, x1, x2, x3⟩ | ⟨x1, x2⟩
  · exact ⟨true, by rw [x1]; rfl, by simp; exact ⟨x, x2⟩⟩
  · exact ⟨false, by rw [x1]; rfl, by simp; exact x2⟩

/-- The needle "abab" in "xaabababz" (overlapping occurrences at 2 and 4): found at 2. -/
example : stringFind [120, 97, 97, 98, 97, 98, 97, 98, 122] [97, 98, 97, 98] = .ok 2 := by decide
example : [97, 98, 97, 98] ≠ ([] : List Nat) := by decide

/-! ### Reverse search -/

private theorem scanRev_last {h p : List Nat} {mask skip : Nat} (t : RevTable p mask skip) (hm : 2 ≤ p.length) (hh : p.length ≤ h.length)
    (fuel : Nat) (i : Int) (hw : i ≤ (h.length : Int) - p.length) (hf : i < fuel) :
    (∃ k : Nat, scanRev h p mask skip fuel i = .ok [k] ∧ (k : Int) ≤ i ∧ Occ h p k ∧ ∀ x : Nat, (x : Int) ≤ i → k < x → ¬ Occ h p x) ∨
    (scanRev h p mask skip fuel i = .ok [] ∧ ∀ x : Nat, (x : Int) ≤ i → ¬ Occ h p x) := by
  induction fuel generalizing i with
  | zero =>
    right
    refine ⟨by simp only [scanRev]; rw [if_neg (by omega)], ?_⟩
    intro x hx; omega
  | succ fuel ih =>
    by_cases hi : i ≥ 0
    swap
    · right
      refine ⟨by simp only [scanRev]; rw [if_neg hi], ?_⟩
      intro x hx; omega
    obtain ⟨n, rfl⟩ := Int.eq_ofNat_of_zero_le hi
    have hn : n + p.length ≤ h.length := by omega
    -- continuing at `nx` having excluded everything above it
    have cont : ∀ nx : Int, nx < n → (∀ x : Nat, nx < x → x ≤ n → ¬ Occ h p x) →
        (∃ k : Nat, scanRev h p mask skip fuel nx = .ok [k] ∧ (k : Int) ≤ n ∧ Occ h p k ∧ ∀ x : Nat, (x : Int) ≤ n → k < x → ¬ Occ h p x) ∨
        (scanRev h p mask skip fuel nx = .ok [] ∧ ∀ x : Nat, (x : Int) ≤ n → ¬ Occ h p x) := by
      intro nx h1 h2
      rcases ih nx (by omega) (by omega) with ⟨k, k1, k2, k3, k4⟩ | ⟨k1, k2⟩
      · left
        refine ⟨k, k1, by omega, k3, ?_⟩
        intro x x1 x2
        by_cases hx : nx < x
        · exact h2 x hx (by omega)
        · exact k4 x (by omega) x2
      · right
        refine ⟨k1, ?_⟩
        intro x x1
        by_cases hx : nx < x
        · exact h2 x hx (by omega)
        · exact k2 x (by omega)
    have hbloom : ∀ x : Nat, 0 < n → bloomHas mask (h.getD (n - 1) 0) = false → x < n → n ≤ x + p.length → ¬ Occ h p x := by
      rintro x h0 hb hx1 hx2 ⟨_, ho⟩
      have := ho (n - 1 - x) (by omega)
      rw [show x + (n - 1 - x) = n - 1 by omega] at this
      rw [this, t.has _ (by omega)] at hb
      exact absurd hb (by simp)
    have hskip : ∀ x : Nat, h.getD n 0 = p.getD 0 0 → x < n → n ≤ x + skip → ¬ Occ h p x := by
      rintro x h0 hx1 hx2 ⟨_, ho⟩
      have hs := t.skip_le
      have := ho (n - x) (by omega)
      rw [show x + (n - x) = n by omega, h0] at this
      exact t.skip_ok (n - x) (by omega) (by omega) this.symm
    simp only [scanRev]
    rw [if_pos (by omega)]
    simp only [Int.toNat_natCast]
    rw [rd_eq (by omega), rd_eq (by omega)]
    simp only [Res.bind_ok]
    by_cases he : h.getD n 0 = p.getD 0 0
    · rw [if_pos he, cmpRev_eq _ _ _ _ (by omega) (by omega)]
      simp only [Res.bind_ok, Res.pure_eq]
      by_cases hc : ∀ x, x < p.length - 1 → h.getD (n + (x + 1)) 0 = p.getD (x + 1) 0
      · rw [decide_eq_true hc]
        left
        refine ⟨n, rfl, by omega, ⟨hn, ?_⟩, by intro x h1 h2; omega⟩
        intro j hj
        by_cases hj0 : j = 0
        · subst hj0; exact he
        · have := hc (j - 1) (by omega)
          rw [show j - 1 + 1 = j by omega] at this; exact this
      · rw [decide_eq_false hc]
        have hno : ¬ Occ h p n := by
          rintro ⟨_, ho⟩
          exact hc (fun x h2 => ho (x + 1) (by omega))
        have hsk : ∀ x : Nat, (n : Int) - skip - 1 < x → x ≤ n → ¬ Occ h p x := by
          intro x h1 h2
          by_cases hx : x = n
          · subst hx; exact hno
          · exact hskip x he (by omega) (by omega)
        simp only [Bool.false_eq_true, if_false]
        by_cases h0 : (n : Int) > 0
        · rw [if_pos h0, show ((n : Int) - 1).toNat = n - 1 by omega, rd_eq (by omega)]
          simp only [Res.bind_ok]
          cases hb : bloomHas mask (h.getD (n - 1) 0)
          · simp only [Bool.not_false, if_true]
            apply cont _ (by omega)
            intro x h1 h2
            by_cases hx : x = n
            · subst hx; exact hno
            · exact hbloom x (by omega) hb (by omega) (by omega)
          · simp only [Bool.not_true, Bool.false_eq_true, if_false]
            exact cont _ (by omega) hsk
        · rw [if_neg h0]
          exact cont _ (by omega) hsk
    · rw [if_neg he]
      have hno : ¬ Occ h p n := by
        rintro ⟨_, ho⟩
        exact he (ho 0 (by omega))
      have hone : ∀ x : Nat, (n : Int) - 1 < x → x ≤ n → ¬ Occ h p x := by
        intro x h1 h2
        have : x = n := by omega
        subst this; exact hno
      by_cases h0 : (n : Int) > 0
      · rw [if_pos h0, show ((n : Int) - 1).toNat = n - 1 by omega, rd_eq (by omega)]
        simp only [Res.bind_ok]
        cases hb : bloomHas mask (h.getD (n - 1) 0)
        · simp only [Bool.not_false, if_true]
          apply cont _ (by omega)
          intro x h1 h2
          by_cases hx : x = n
          · subst hx; exact hno
          · exact hbloom x (by omega) hb (by omega) (by omega)
        · simp only [Bool.not_true, Bool.false_eq_true, if_false]
          exact cont _ (by omega) hone
      · rw [if_neg h0]
        exact cont _ (by omega) hone

/-- C18 for needles of two or more bytes: `string_rfind` always returns, and its result is the greatest offset at which the
    needle occurs, or -1 exactly when it does not occur.  Missing: needles of one byte, for which the claim is false, see
    `string_rfind_single_violated`. -/
theorem string_rfind_exact_partial (h p : List Nat) (hp : 2 ≤ p.length) :
    (∃ k : Nat, stringRfind h p = .ok k ∧ OccursAt h p k ∧ ∀ j, k < j → ¬ OccursAt h p j) ∨
    (stringRfind h p = .ok (-1) ∧ ∀ j, ¬ OccursAt h p j) := by
  simp only [occursAt_iff]
  unfold stringRfind stringSearchRev
  by_cases h1 : h.length < p.length
  · right
    rw [if_pos h1]
    refine ⟨rfl, ?_⟩
    rintro y ⟨ho, _⟩; omega
  · rw [if_neg h1, if_neg (by omega), if_neg (by omega), rd_eq (s := p) (by omega)]
    simp only [Res.bind_ok]
    obtain ⟨mask, skip, e, t⟩ := tableRev_ok p (p.length - 1) (bloomAdd 0 (p.getD 0 0)) (p.length - 1 - 1) hp (by omega)
      (by
        intro j hj hor
        have : j = 0 := by omega
        subst this
        rw [bloomHas_add]; simp) (by omega) (by intro j h1 h2; omega)
    rw [e]
    simp only [Res.bind_ok]
    rcases scanRev_last (h := h) t hp (by omega) (h.length - p.length + 1) ((h.length : Int) - p.length) (by omega) (by omega) with
      ⟨k, k1, k2, k3, k4⟩ | ⟨k1, k2⟩
    · left
      refine ⟨k, by rw [k1]; rfl, k3, ?_⟩
      intro j hj ho
      have := ho.1
      exact k4 j (by omega) hj ho
    · right
      refine ⟨by rw [k1]; rfl, ?_⟩
      intro j ho
      have := ho.1
      exact k2 j (by omega) ho

example : stringRfind [120, 97, 97, 98, 97, 98, 97, 98, 122] [97, 98, 97, 98] = .ok 4 := by decide
example : 2 ≤ [97, 98, 97, 98].length := by decide

/-- C18 fails for every one-byte needle and every haystack of two or more bytes: the result is always -1. -/
theorem string_rfind_single_violated (h : List Nat) (c : Nat) (hh : 2 ≤ h.length) : stringRfind h [c] = .ok (-1) := by
  unfold stringRfind stringSearchRev
  rw [if_neg (by rw [List.length_singleton]; omega)]
  simp only [List.length_singleton, Nat.one_ne_zero, if_false, if_true, rd_eq (s := [c]) (i := 0) (by simp), Res.bind_ok, search1Rev]
  rw [if_neg (by omega : ¬ h.length - 1 ≤ 0)]
  rfl

/-- In particular it misses a byte that does occur. -/
example : stringRfind [97, 97] [97] = .ok (-1) ∧ OccursAt [97, 97] [97] 1 :=
  ⟨string_rfind_single_violated _ _ (by decide), [97], [], rfl, rfl⟩

end Dynd
