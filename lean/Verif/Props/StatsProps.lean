/-
C80: sums, minima, maxima and `all`; C81: sort; C82: compose.
-/
import Verif.Model.Stats
import Verif.Props.ArithProps
import Verif.Props.ReductionProps
import Verif.Props.KernelProps

namespace Dynd

/-! ## C80: sums -/

/-- The additions a running sum performs, all within the type: every partial sum is a value of `t`. -/
def PartialSumsFit (t : IntTy) (xs : List Int) : Prop := ∀ k ≤ xs.length, t.Has (xs.take k).sum

theorem sumAcc_throw (t : IntTy) (xs : List Int) (e : Exc) : xs.foldl (sumAcc t) (.throw e) = .throw e := by
  induction xs with
  | nil => rfl
  | cons x xs ih => simpa [sumAcc] using ih

theorem sumAcc_ub (t : IntTy) (xs : List Int) : xs.foldl (sumAcc t) .ub = .ub := by
  induction xs with
  | nil => rfl
  | cons x xs ih => simpa [sumAcc] using ih

theorem resTy_self_signed (t : IntTy) (h : t.signed = true) : (resTy t t).signed = true := by
  by_contra hc
  rcases (resTy_unsigned_iff t t).1 (by simpa using hc) with h' | h' <;> simp_all

theorem resTy_self_has {t : IntTy} (hs : t.signed = true) (hb : 32 ≤ t.bits) (x : Int) :
    (resTy t t).Has x ↔ t.Has x := by
  have h1 := resTy_self_signed t hs
  have h2 : (resTy t t).bits = max 32 (max t.bits t.bits) := rfl
  have : resTy t t = t := by
    obtain ⟨n, s⟩ := t
    simp only at hs hb; subst hs
    generalize resTy ⟨n, true⟩ ⟨n, true⟩ = r at *
    obtain ⟨n', s'⟩ := r
    simp only at *
    subst h1
    congr 1
    omega
  rw [this]

theorem sumStep_fit {t : IntTy} {x y : Int} (hb : 1 ≤ t.bits) (hx : t.Has x) (hy : t.Has y) (h : t.Has (x + y)) :
    sumStep t x y = .ok (x + y) := compound_add_no_overflow t t x y hx hy hb h

theorem sumStep_overflow {t : IntTy} {x y : Int} (hs : t.signed = true) (hb : 32 ≤ t.bits) (hx : t.Has x)
    (hy : t.Has y) (h : ¬ t.Has (x + y)) : sumStep t x y = .ub := by
  have := (arith_int_exact .add t t x y hx hy).2.2 (resTy_self_signed t hs)
    (by rw [resTy_self_has hs hb]; exact h)
  unfold sumStep; rw [this]; rfl

/-- **C80** (sum, no overflow): when no partial sum leaves the element type, `nd::sum` of the elements is their sum. -/
theorem sum_exact (t : IntTy) (hb : 1 ≤ t.bits) (xs : List Int) (hx : ∀ x ∈ xs, t.Has x) (h : PartialSumsFit t xs) :
    xs.foldl (sumAcc t) sumInit = .ok xs.sum := by
  have gen : ∀ (xs : List Int) (a : Int), (∀ x ∈ xs, t.Has x) → (∀ k ≤ xs.length, t.Has (a + (xs.take k).sum)) →
      xs.foldl (sumAcc t) (.ok a) = .ok (a + xs.sum) := by
    intro xs
    induction xs with
    | nil => intro a _ _; simp
    | cons x xs ih =>
      intro a h1 h2
      have h3 := h2 0 (by simp)
      have h4 := h2 1 (by simp)
      simp only [List.take_zero, List.sum_nil, Int.add_zero] at h3
      simp only [List.take_succ_cons, List.take_zero, List.sum_cons, List.sum_nil, Int.add_zero] at h4
      simp only [List.foldl_cons, sumAcc, Res.bind_ok]
      rw [sumStep_fit hb h3 (h1 x (by simp)) h4, ih (a + x) (fun y hy => h1 y (by simp [hy])) ?_]
      · simp [Int.add_assoc]
      · intro k hk
        have := h2 (k + 1) (by simpa using hk)
        simpa [Int.add_assoc] using this
  have := gen xs 0 hx (by simpa [PartialSumsFit] using h)
  simpa [sumInit] using this

/-- **C80** (sum, signed 32- and 64-bit elements): a partial sum outside the type is undefined behaviour — even when the
    total would fit. -/
theorem sum_overflow_violated (t : IntTy) (hs : t.signed = true) (hb : 32 ≤ t.bits) (xs : List Int)
    (hx : ∀ x ∈ xs, t.Has x) (h : ¬ PartialSumsFit t xs) : xs.foldl (sumAcc t) sumInit = .ub := by
  have gen : ∀ (xs : List Int) (a : Int), t.Has a → (∀ x ∈ xs, t.Has x) →
      (¬ ∀ k ≤ xs.length, t.Has (a + (xs.take k).sum)) → xs.foldl (sumAcc t) (.ok a) = .ub := by
    intro xs
    induction xs with
    | nil => intro a ha _ h; exact absurd (by simpa using ha) h
    | cons x xs ih =>
      intro a ha h1 h2
      simp only [List.foldl_cons, sumAcc, Res.bind_ok]
      by_cases h3 : t.Has (a + x)
      · rw [sumStep_fit (by omega) ha (h1 x (by simp)) h3]
        refine ih (a + x) h3 (fun y hy => h1 y (by simp [hy])) (fun hc => h2 ?_)
        intro k hk
        cases k with
        | zero => simpa using ha
        | succ k => simpa [Int.add_assoc] using hc k (by simpa using hk)
      · rw [sumStep_overflow hs hb ha (h1 x (by simp)) h3]
        exact sumAcc_ub t xs
  have h0 : t.Has 0 := by
    obtain ⟨n, s⟩ := t
    simp only at hs; subst hs
    rw [IntTy.has_signed]
    have : 0 < 2 ^ (n - 1) := Nat.pow_pos (by omega)
    omega
  have := gen xs 0 h0 hx (by simpa [PartialSumsFit] using h)
  simpa [sumInit] using this

/-- **C80** (sum, unsigned 32- and 64-bit and all 8- and 16-bit elements): always defined; the result is the value of the element type congruent
    to the sum modulo `2^bits`. -/
theorem sum_wraps (t : IntTy) (ht : t.signed = false ∧ 32 ≤ t.bits ∨ t.bits ≤ 16) (hb : 1 ≤ t.bits) (xs : List Int)
    (hx : ∀ x ∈ xs, t.Has x) :
    ∃ v, xs.foldl (sumAcc t) sumInit = .ok v ∧ t.Has v ∧ ((2 ^ t.bits : Nat) : Int) ∣ xs.sum - v := by
  have step : ∀ x y, t.Has x → t.Has y → ∃ v, sumStep t x y = .ok v ∧ t.Has v ∧
      v % ((2 ^ t.bits : Nat) : Int) = (x + y) % ((2 ^ t.bits : Nat) : Int) := by
    intro x y hx hy
    have hv : ∃ r, arithInt .add t t x y = .ok r ∧ r % ((2 ^ t.bits : Nat) : Int) = (x + y) % ((2 ^ t.bits : Nat) : Int) := by
      by_cases hn : t.bits ≤ 16
      · exact ⟨x + y, arith_narrow_exact .add t t x y hx hy ⟨hb, hn⟩ ⟨hb, hn⟩ (by simp), rfl⟩
      · have hs : t.signed = false := by rcases ht with h | h <;> [exact h.1; omega]
        have h32 : 32 ≤ t.bits := by rcases ht with h | h <;> [exact h.2; omega]
        have hu : (resTy t t).signed = false := by
          rw [resTy_unsigned_iff]; left; exact ⟨hs, by omega, by omega⟩
        obtain ⟨r, h1, h2⟩ := (arith_int_exact .add t t x y hx hy).1 hu
        refine ⟨r, h1, ?_⟩
        obtain ⟨-, -, h3⟩ := h2
        rw [Nat.max_self] at h3
        simp only [AOp.Val] at h3
        push_cast
        exact (Int.emod_eq_emod_iff_emod_sub_eq_zero.2 (Int.emod_eq_zero_of_dvd h3)).symm
    obtain ⟨r, h1, h2⟩ := hv
    refine ⟨t.cast r, by unfold sumStep; rw [h1]; rfl, cast_has t r hb, ?_⟩
    rw [cast_emod t r hb]; exact h2
  have gen : ∀ (xs : List Int) (a : Int), t.Has a → (∀ x ∈ xs, t.Has x) →
      ∃ v, xs.foldl (sumAcc t) (.ok a) = .ok v ∧ t.Has v ∧
        v % ((2 ^ t.bits : Nat) : Int) = (a + xs.sum) % ((2 ^ t.bits : Nat) : Int) := by
    intro xs
    induction xs with
    | nil => intro a ha _; exact ⟨a, rfl, ha, by simp⟩
    | cons x xs ih =>
      intro a ha h1
      obtain ⟨v, e1, e2, e3⟩ := step a x ha (h1 x (by simp))
      obtain ⟨w, f1, f2, f3⟩ := ih v e2 (fun y hy => h1 y (by simp [hy]))
      refine ⟨w, by simp only [List.foldl_cons, sumAcc, Res.bind_ok]; rw [e1]; exact f1, f2, ?_⟩
      rw [f3, List.sum_cons, ← Int.add_assoc, Int.add_emod, e3, ← Int.add_emod]
  have h0 : t.Has 0 := by
    have : t.cast 0 = 0 ∨ True := Or.inr trivial
    obtain ⟨n, s⟩ := t
    cases s
    · rw [IntTy.has_unsigned]
      have : 0 < 2 ^ n := Nat.pow_pos (by omega)
      omega
    · rw [IntTy.has_signed]
      have : 0 < 2 ^ (n - 1) := Nat.pow_pos (by omega)
      omega
  obtain ⟨v, e1, e2, e3⟩ := gen xs 0 h0 hx
  refine ⟨v, e1, e2, ?_⟩
  rw [Int.zero_add] at e3
  exact Int.dvd_of_emod_eq_zero (Int.emod_eq_emod_iff_emod_sub_eq_zero.1 e3.symm)

/-- Non-vacuity: a sum of three `int8` values that fits, and one that wraps around. -/
example : PartialSumsFit ⟨8, true⟩ [100, -50, 20] ∧ ([100, 100].foldl (sumAcc ⟨8, true⟩) sumInit = .ok (-56)) := by
  constructor
  · intro k hk
    have : k = 0 ∨ k = 1 ∨ k = 2 ∨ k = 3 := by simp at hk; omega
    rcases this with rfl | rfl | rfl | rfl <;> decide
  · decide

/-! ## C80: minimum, maximum, all -/

/-- What the accumulation `if (lt(s, d)) d = s` leaves: a least element. -/
theorem fold_least {β : Type} (lt : β → β → Bool) (good : β → Prop)
    (trans : ∀ a b c, lt a b = true → lt b c = true → lt a c = true)
    (good_of_lt : ∀ a b, lt a b = true → good a)
    (ntrans : ∀ a b c, good b → lt a b = false → lt b c = false → lt a c = false) (irr : ∀ a, lt a a = false) :
    ∀ (xs : List β) (d : β), good d →
      let r := xs.foldl (fun d s => if lt s d then s else d) d
      (r = d ∨ r ∈ xs) ∧ good r ∧ lt d r = false ∧ ∀ x ∈ xs, lt x r = false := by
  intro xs
  induction xs with
  | nil => intro d hd; exact ⟨Or.inl rfl, hd, irr d, by simp⟩
  | cons s xs ih =>
    intro d hd
    simp only [List.foldl_cons]
    by_cases h : lt s d = true
    · simp only [h, if_true]
      obtain ⟨h1, h2, h3, h4⟩ := ih s (good_of_lt s d h)
      refine ⟨?_, h2, ?_, ?_⟩
      · rcases h1 with h1 | h1
        · right; rw [h1]; simp
        · right; simp [h1]
      · by_contra hc
        have := trans s d _ h (by simpa using hc)
        rw [h3] at this; cases this
      · intro x hx
        rcases List.mem_cons.1 hx with rfl | hx
        · exact h3
        · exact h4 x hx
    · have h' : lt s d = false := by simpa using h
      simp only [h', Bool.false_eq_true, if_false]
      obtain ⟨h1, h2, h3, h4⟩ := ih d hd
      refine ⟨?_, h2, h3, ?_⟩
      · rcases h1 with h1 | h1
        · left; exact h1
        · right; simp [h1]
      · intro x hx
        rcases List.mem_cons.1 hx with rfl | hx
        · exact ntrans _ _ _ hd h' h3
        · exact h4 x hx

/-- **C80** (`nd::min`, integers): the result is the least element; of no elements, the largest value of the type. -/
theorem min_int_exact (t : IntTy) (xs : List Int) (hx : ∀ x ∈ xs, t.Has x) :
    (xs ≠ [] → xs.foldl minStep (minInit t) ∈ xs ∧ ∀ x ∈ xs, xs.foldl minStep (minInit t) ≤ x) ∧
    (xs = [] → xs.foldl minStep (minInit t) = t.max) := by
  refine ⟨fun hne => ?_, fun h => by subst h; rfl⟩
  obtain ⟨h1, -, h3, h4⟩ := fold_least (fun a b : Int => decide (a < b)) (fun _ => True)
    (by intro a b c; simp only [decide_eq_true_eq]; omega) (by intros; trivial)
    (by intro a b c _; simp only [decide_eq_false_iff_not]; omega) (by intro a; simp) xs (minInit t) trivial
  have he : (fun d s : Int => if decide (s < d) = true then s else d) = minStep := by
    funext d s; simp [minStep]
  simp only [he, decide_eq_false_iff_not, Int.not_lt] at h1 h3 h4
  refine ⟨?_, h4⟩
  rcases h1 with h1 | h1
  · obtain ⟨x, hxm⟩ := List.exists_mem_of_ne_nil xs hne
    have a := h4 x hxm
    have b := (hx x hxm).2
    rw [h1] at a ⊢
    have : x = minInit t := by unfold minInit at *; omega
    rw [← this]; exact hxm
  · exact h1

/-- **C80** (`nd::max`, integers). -/
theorem max_int_exact (t : IntTy) (xs : List Int) (hx : ∀ x ∈ xs, t.Has x) :
    (xs ≠ [] → xs.foldl maxStep (maxInit t) ∈ xs ∧ ∀ x ∈ xs, x ≤ xs.foldl maxStep (maxInit t)) ∧
    (xs = [] → xs.foldl maxStep (maxInit t) = t.min) := by
  refine ⟨fun hne => ?_, fun h => by subst h; rfl⟩
  obtain ⟨h1, -, h3, h4⟩ := fold_least (fun a b : Int => decide (b < a)) (fun _ => True)
    (by intro a b c; simp only [decide_eq_true_eq]; omega) (by intros; trivial)
    (by intro a b c _; simp only [decide_eq_false_iff_not]; omega) (by intro a; simp) xs (maxInit t) trivial
  have he : (fun d s : Int => if decide (d < s) = true then s else d) = maxStep := by
    funext d s; simp [maxStep]
  simp only [he, decide_eq_false_iff_not, Int.not_lt] at h1 h3 h4
  refine ⟨?_, h4⟩
  rcases h1 with h1 | h1
  · obtain ⟨x, hxm⟩ := List.exists_mem_of_ne_nil xs hne
    have a := h4 x hxm
    have b := (hx x hxm).1
    rw [h1] at a ⊢
    have : x = maxInit t := by unfold maxInit at *; omega
    rw [← this]; exact hxm
  · exact h1

example : (∀ x ∈ [3, -7, 5], IntTy.Has ⟨8, true⟩ x) ∧ [3, -7, 5].foldl minStep (minInit ⟨8, true⟩) = -7 ∧
    [3, -7, 5].foldl maxStep (maxInit ⟨8, true⟩) = 5 := by decide

/-- **C80** (`nd::all`). -/
theorem all_exact (xs : List Bool) : xs.foldl allStep true = true ↔ ∀ x ∈ xs, x = true := by
  have gen : ∀ (xs : List Bool) (d : Bool), xs.foldl allStep d = true ↔ d = true ∧ ∀ x ∈ xs, x = true := by
    intro xs
    induction xs with
    | nil => intro d; simp
    | cons x xs ih => intro d; simp [ih, allStep, and_assoc]
  simpa using gen xs true

/-! ### floating point -/

theorem fvlt_trans (a b c : FV) (h1 : a.lt b = true) (h2 : b.lt c = true) : a.lt c = true := by
  rcases a with _ | na | a <;> rcases b with _ | nb | b <;> rcases c with _ | nc | c <;>
    (try cases na) <;> (try cases nb) <;> (try cases nc) <;> simp_all [FV.lt]
  exact lt_trans h1 h2

theorem fvlt_ntrans (a b c : FV) (hb : b ≠ .nan) (h1 : a.lt b = false) (h2 : b.lt c = false) : a.lt c = false := by
  rcases a with _ | na | a <;> rcases b with _ | nb | b <;> rcases c with _ | nc | c <;>
    (try cases na) <;> (try cases nb) <;> (try cases nc) <;> simp_all [FV.lt]
  exact le_trans h2 h1

theorem fvlt_irr (a : FV) : a.lt a = false := by
  rcases a with _ | na | a <;> (try cases na) <;> simp [FV.lt]

theorem fvlt_left (a b : FV) (h : a.lt b = true) : a ≠ .nan := by rintro rfl; simp [FV.lt] at h
theorem fvlt_right (a b : FV) (h : a.lt b = true) : b ≠ .nan := by
  rintro rfl; rcases a with _ | na | a <;> (try cases na) <;> simp [FV.lt] at h

/-- The largest finite number. -/
def Fmt.top (F : Fmt) : ℚ := (F.maxMag : ℚ) / 2 ^ F.unit

theorem maxPat_spec {F : Fmt} (hF : Std F) (s : Nat) (hs : s < 2) :
    ¬ F.IsNan (F.pack s (F.expMax - 1) (2 ^ F.m - 1)) ∧ ¬ F.IsInf (F.pack s (F.expMax - 1) (2 ^ F.m - 1)) ∧
    F.val (F.pack s (F.expMax - 1) (2 ^ F.m - 1)) = if s = 1 then -F.top else F.top := by
  obtain ⟨h1, h2, h3, h4, h5⟩ := std_facts hF
  have p : 0 < 2 ^ F.m := Nat.pow_pos (by omega)
  obtain ⟨e1, e2, e3⟩ := Fmt.pack_fields (F := F) (s := s) (e := F.expMax - 1) (g := 2 ^ F.m - 1) hs (by omega) (by omega)
  refine ⟨?_, ?_, ?_⟩
  · unfold Fmt.IsNan; rw [e2]; omega
  · unfold Fmt.IsInf; rw [e2]; omega
  · have hm : F.mag (F.pack s (F.expMax - 1) (2 ^ F.m - 1)) = F.maxMag := by
      unfold Fmt.mag Fmt.maxMag
      rw [e2, e3, if_neg (by omega), Nat.pow_succ]
      congr 1
      omega
    rw [val_sign, e1, hm]; rfl

theorem val_bounds {F : Fmt} (hF : Std F) {b : Nat} (hb : F.IsFinite b) : -F.top ≤ F.val b ∧ F.val b ≤ F.top := by
  obtain ⟨h1, h2, h3, h4, h5⟩ := std_facts hF
  have hm := mag_lt hb h4 (by omega)
  have : (F.mag b : ℚ) / 2 ^ F.unit ≤ F.top := by
    unfold Fmt.top
    have : (F.mag b : ℚ) ≤ F.maxMag := by exact_mod_cast hm
    gcongr
  have h := val_abs (F := F) b
  rw [← h] at this
  exact abs_le.1 this

theorem decode_nan_iff (F : Fmt) (b : Nat) : F.decode b = .nan ↔ F.IsNan b := by
  rcases decode_cases F b with ⟨h1, h2⟩ | ⟨h1, h2, h3⟩ | ⟨h1, h2, h4, h3⟩ <;> simp_all

theorem not_lt_iff (F : Fmt) (x y : Nat) (hx : ¬ F.IsNan x) (hy : ¬ F.IsNan y) :
    (F.decode x).lt (F.decode y) = false ↔ FloatVsFloat F F .le y x := by
  rw [← onFV_floats]
  rw [← decode_nan_iff] at hx hy
  simp only [Cmp.onFV]
  generalize F.decode x = a at *
  generalize F.decode y = b at *
  rcases a with _ | na | a <;> rcases b with _ | nb | b <;> (try cases na) <;> (try cases nb) <;>
    simp_all [FV.lt, FV.eq, le_iff_lt_or_eq]

/-- **C80** (`nd::min`, floats): NaNs are skipped; the result is not above any other element, and equals one of the
    elements as soon as there is a finite element or a negative infinity. -/
theorem min_float_partial (F : Fmt) (hF : Std F) (xs : List Nat) :
    ¬ F.IsNan (xs.foldl (minStepF F) F.maxPat) ∧
    (∀ x ∈ xs, ¬ F.IsNan x → FloatVsFloat F F .le (xs.foldl (minStepF F) F.maxPat) x) ∧
    ((∃ x ∈ xs, F.IsFinite x ∨ F.IsInf x ∧ F.sgn x = 1) →
      ∃ y ∈ xs, FloatVsFloat F F .eq (xs.foldl (minStepF F) F.maxPat) y) := by
  obtain ⟨m1, m2, m3⟩ := maxPat_spec hF 0 (by omega)
  have mp : F.decode F.maxPat = .fin F.top := by
    rcases decode_cases F F.maxPat with ⟨h1, h2⟩ | ⟨h1, h2, h3⟩ | ⟨h1, h2, h4, h3⟩
    · exact absurd h1 m1
    · exact absurd h2 m2
    · rw [h3]; unfold Fmt.maxPat; rw [m3]; simp
  obtain ⟨h1, h2, h3, h4⟩ := fold_least (fun a b : Nat => (F.decode a).lt (F.decode b)) (fun a => F.decode a ≠ .nan)
    (fun a b c => fvlt_trans _ _ _) (fun a b => fvlt_left _ _) (fun a b c => fvlt_ntrans _ _ _)
    (fun a => fvlt_irr _) xs F.maxPat (by rw [mp]; simp)
  change (List.foldl (minStepF F) F.maxPat xs = _ ∨ List.foldl (minStepF F) F.maxPat xs ∈ _) at h1
  change F.decode (List.foldl (minStepF F) F.maxPat xs) ≠ _ at h2
  change FV.lt _ (F.decode (List.foldl (minStepF F) F.maxPat xs)) = _ at h3
  change ∀ x ∈ xs, FV.lt _ (F.decode (List.foldl (minStepF F) F.maxPat xs)) = _ at h4
  generalize List.foldl (minStepF F) F.maxPat xs = r at *
  have hr : ¬ F.IsNan r := by rwa [← decode_nan_iff]
  refine ⟨hr, fun x hx hn => (not_lt_iff F x r hn hr).1 (h4 x hx), ?_⟩
  rintro ⟨x, hx, hx2⟩
  rcases h1 with h1 | h1
  · subst h1
    have h5 := h4 x hx
    rw [mp] at h5
    refine ⟨x, hx, ?_⟩
    rw [← onFV_floats]
    rcases decode_cases F x with ⟨g1, g2⟩ | ⟨g1, g2, g3⟩ | ⟨g1, g2, g4, g3⟩
    · exfalso
      rcases hx2 with h | h
      · exact h g1.1
      · exact g1.2 h.1.2
    · exfalso
      rcases hx2 with h | h
      · exact h g2.1
      · rw [g3, h.2] at h5; simp [FV.lt] at h5
    · have := (val_bounds hF g4).2
      rw [g3] at h5
      simp only [FV.lt, decide_eq_false_iff_not, not_lt] at h5
      have e : F.val x = F.top := le_antisymm this h5
      rw [mp, g3, e]; simp [Cmp.onFV, FV.eq]
  · refine ⟨r, h1, ?_⟩
    rw [← onFV_floats]
    simp only [Cmp.onFV]
    rcases hd : F.decode r with _ | n | q
    · exact absurd hd h2
    · simp [FV.eq]
    · simp [FV.eq]

/-- **C80** (`nd::max`, floats). -/
theorem max_float_partial (F : Fmt) (hF : Std F) (xs : List Nat) :
    ¬ F.IsNan (xs.foldl (maxStepF F) F.lowestPat) ∧
    (∀ x ∈ xs, ¬ F.IsNan x → FloatVsFloat F F .le x (xs.foldl (maxStepF F) F.lowestPat)) ∧
    ((∃ x ∈ xs, F.IsFinite x ∨ F.IsInf x ∧ F.sgn x = 0) →
      ∃ y ∈ xs, FloatVsFloat F F .eq (xs.foldl (maxStepF F) F.lowestPat) y) := by
  obtain ⟨m1, m2, m3⟩ := maxPat_spec hF 1 (by omega)
  have mp : F.decode F.lowestPat = .fin (-F.top) := by
    rcases decode_cases F F.lowestPat with ⟨h1, h2⟩ | ⟨h1, h2, h3⟩ | ⟨h1, h2, h4, h3⟩
    · exact absurd h1 m1
    · exact absurd h2 m2
    · rw [h3]; unfold Fmt.lowestPat; rw [m3]; simp
  obtain ⟨h1, h2, h3, h4⟩ := fold_least (fun a b : Nat => (F.decode b).lt (F.decode a)) (fun a => F.decode a ≠ .nan)
    (fun a b c h1 h2 => fvlt_trans _ _ _ h2 h1) (fun a b => fvlt_right _ _)
    (fun a b c h h1 h2 => fvlt_ntrans _ _ _ h h2 h1)
    (fun a => fvlt_irr _) xs F.lowestPat (by rw [mp]; simp)
  change (List.foldl (maxStepF F) F.lowestPat xs = _ ∨ List.foldl (maxStepF F) F.lowestPat xs ∈ _) at h1
  change F.decode (List.foldl (maxStepF F) F.lowestPat xs) ≠ _ at h2
  change FV.lt (F.decode (List.foldl (maxStepF F) F.lowestPat xs)) _ = _ at h3
  change ∀ x ∈ xs, FV.lt (F.decode (List.foldl (maxStepF F) F.lowestPat xs)) _ = _ at h4
  generalize List.foldl (maxStepF F) F.lowestPat xs = r at *
  have hr : ¬ F.IsNan r := by rwa [← decode_nan_iff]
  refine ⟨hr, fun x hx hn => (not_lt_iff F r x hr hn).1 (h4 x hx), ?_⟩
  rintro ⟨x, hx, hx2⟩
  rcases h1 with h1 | h1
  · subst h1
    have h5 := h4 x hx
    rw [mp] at h5
    refine ⟨x, hx, ?_⟩
    rw [← onFV_floats]
    rcases decode_cases F x with ⟨g1, g2⟩ | ⟨g1, g2, g3⟩ | ⟨g1, g2, g4, g3⟩
    · exfalso
      rcases hx2 with h | h
      · exact h g1.1
      · exact g1.2 h.1.2
    · exfalso
      rcases hx2 with h | h
      · exact h g2.1
      · rw [g3, h.2] at h5; simp [FV.lt] at h5
    · have := (val_bounds hF g4).1
      rw [g3] at h5
      simp only [FV.lt, decide_eq_false_iff_not, not_lt] at h5
      have e : F.val x = -F.top := le_antisymm h5 this
      rw [mp, g3, e]; simp [Cmp.onFV, FV.eq]
  · refine ⟨r, h1, ?_⟩
    rw [← onFV_floats]
    simp only [Cmp.onFV]
    rcases hd : F.decode r with _ | n | q
    · exact absurd hd h2
    · simp [FV.eq]
    · simp [FV.eq]

/-- C80 is violated for floats when every element is `+inf` (or NaN): `nd::min` answers the largest *finite* number, and
    `nd::max` of negative infinities answers the lowest finite number. -/
theorem min_float_infinite_violated (F : Fmt) (hF : Std F) (xs : List Nat)
    (h : ∀ x ∈ xs, F.IsNan x ∨ F.IsInf x ∧ F.sgn x = 0) : xs.foldl (minStepF F) F.maxPat = F.maxPat := by
  obtain ⟨m1, m2, m3⟩ := maxPat_spec hF 0 (by omega)
  have mp : F.decode F.maxPat = .fin F.top := by
    rcases decode_cases F F.maxPat with ⟨h1, h2⟩ | ⟨h1, h2, h3⟩ | ⟨h1, h2, h4, h3⟩
    · exact absurd h1 m1
    · exact absurd h2 m2
    · rw [h3]; unfold Fmt.maxPat; rw [m3]; simp
  induction xs with
  | nil => rfl
  | cons x xs ih =>
    have hx := h x (by simp)
    have : minStepF F F.maxPat x = F.maxPat := by
      unfold minStepF
      rw [mp, if_neg]
      rcases decode_cases F x with ⟨g1, g2⟩ | ⟨g1, g2, g3⟩ | ⟨g1, g2, g4, g3⟩
      · rw [g2]; simp [FV.lt]
      · rcases hx with hx | hx
        · exact absurd hx g1
        · rw [g3, hx.2]; simp [FV.lt]
      · exfalso
        rcases hx with hx | hx
        · exact g1 hx
        · exact g2 hx.1
    rw [List.foldl_cons, this]
    exact ih (fun y hy => h y (by simp [hy]))

/-- The hypothesis is met by an array of two positive infinities. -/
example : ∀ x ∈ [0x7F800000, 0x7F800000], Fmt.single.IsNan x ∨ Fmt.single.IsInf x ∧ Fmt.single.sgn x = 0 := by
  intro x hx
  have : x = 0x7F800000 := by simpa using hx
  subst this
  right
  unfold Fmt.IsInf
  decide

/-! ### over the axes of an array -/

/-- The elements of the operand that belong to the result element `o`, in row-major order. -/
def elemsAt (src : Dims) (keepdims : Bool) (kept : List Bool) (srcMem : Int → Int) (o : List Nat) : List Int :=
  ((gridIdx (src.map (·.1))).filter fun idx => decide (resultIdx keepdims kept idx = o)).map
    fun idx => srcMem (dstOff (src.map (·.2)) idx)

/-- **C80** over axes: `nd::sum(a, axes, keepdims)` stores at every index of the result the sum of the elements that
    project to it, when no partial sum leaves the element type; `nd::min` (`nd::max`) their least (greatest) element. -/
theorem reduce_sum_min_max_partial (t : IntTy) (hb : 1 ≤ t.bits) (srcMem : Int → Int) (memS : Int → Res Int)
    (mem : Int → Int) (hty : ∀ a, t.Has (srcMem a))
    (axes : Option (List Int)) (keepdims : Bool) (es : Nat) (src : Dims)
    (kept : List Bool) (hkept : kept = keptDims axes src.length)
    (shape : List Nat) (hshape : shape = resultShape keepdims kept (src.map (·.1)))
    (hsrc : src ≠ []) (hes : 0 < es)
    (hkeep : keepdims = true ∨ kept.count true ≤ 1)
    (hne : ∀ (i n : Nat), i + 1 < src.length → kept[i]? = some false → (src.map (·.1))[i]? = some n → 1 ≤ n)
    (hsh : ∀ n ∈ shape.tail, 1 ≤ n) :
    ∃ evs, redApply axes keepdims (rowMajor es) src = .ok (shape, evs) ∧
      ∀ o ∈ gridIdx shape,
        (PartialSumsFit t (elemsAt src keepdims kept srcMem o) →
          runEv (sumAcc t) sumInit srcMem evs memS (dstOff (rowMajor es shape) o) =
            .ok (elemsAt src keepdims kept srcMem o).sum) ∧
        (elemsAt src keepdims kept srcMem o ≠ [] →
          (runEv minStep (minInit t) srcMem evs mem (dstOff (rowMajor es shape) o) ∈ elemsAt src keepdims kept srcMem o ∧
            ∀ x ∈ elemsAt src keepdims kept srcMem o,
              runEv minStep (minInit t) srcMem evs mem (dstOff (rowMajor es shape) o) ≤ x) ∧
          (runEv maxStep (maxInit t) srcMem evs mem (dstOff (rowMajor es shape) o) ∈ elemsAt src keepdims kept srcMem o ∧
            ∀ x ∈ elemsAt src keepdims kept srcMem o,
              x ≤ runEv maxStep (maxInit t) srcMem evs mem (dstOff (rowMajor es shape) o))) := by
  obtain ⟨evs, h1, h2, -, -⟩ := reduction_fresh_partial (sumAcc t) sumInit srcMem memS axes keepdims es src kept hkept
    shape hshape hsrc hes hkeep hne hsh
  obtain ⟨evs2, h3, h4, -, -⟩ := reduction_fresh_partial minStep (minInit t) srcMem mem axes keepdims es src kept hkept
    shape hshape hsrc hes hkeep hne hsh
  obtain ⟨evs3, h5, h6, -, -⟩ := reduction_fresh_partial maxStep (maxInit t) srcMem mem axes keepdims es src kept hkept
    shape hshape hsrc hes hkeep hne hsh
  have e2 : evs2 = evs := by rw [h1] at h3; simpa using h3.symm
  have e3 : evs3 = evs := by rw [h1] at h5; simpa using h5.symm
  subst e2; subst e3
  refine ⟨evs3, h1, fun o ho => ?_⟩
  have hel : ∀ x ∈ elemsAt src keepdims kept srcMem o, t.Has x := by
    intro x hx
    obtain ⟨i, -, rfl⟩ := List.mem_map.1 hx
    exact hty _
  have hf : ∀ {γ : Type} (op : γ → Int → γ) (e : γ),
      ((gridIdx (src.map (·.1))).filter fun idx => decide (resultIdx keepdims kept idx = o)).foldl
          (fun x idx => op x (srcMem (dstOff (src.map (·.2)) idx))) e =
        (elemsAt src keepdims kept srcMem o).foldl op e := by
    intro γ op e
    unfold elemsAt
    rw [List.foldl_map]
  rw [h2 o ho, h4 o ho, h6 o ho, hf, hf, hf]
  exact ⟨fun h => sum_exact t hb _ hel h, fun h => ⟨(min_int_exact t _ hel).1 h, (max_int_exact t _ hel).1 h⟩⟩

/-- Non-vacuity: a `2 * 2` array summed over its first axis (with `keepdims`). -/
example : keptDims (some [0]) 2 = [false, true] ∧
    elemsAt [(2, 2), (2, 1)] true [false, true] (fun a => a + 1) [0, 1] = [2, 4] ∧
    PartialSumsFit ⟨8, true⟩ [2, 4] := by
  refine ⟨by decide, by decide, ?_⟩
  intro k hk
  have : k = 0 ∨ k = 1 ∨ k = 2 := by simp at hk; omega
  rcases this with rfl | rfl | rfl <;> decide

/-! ## C81: sort -/

/-- The contract of `std::sort`: for a comparison that is a strict weak order on the elements, the result is a sorted
    permutation of them. -/
def StdSort {α : Type} (srt : (α → α → Bool) → List α → List α) : Prop :=
  ∀ less l, (∀ a ∈ l, ∀ b ∈ l, less a b = true → less b a = false) →
    (∀ a ∈ l, ∀ b ∈ l, ∀ c ∈ l, less a b = false → less b c = false → less a c = false) →
    (srt less l).Perm l ∧ SortedBy less (srt less l)

/-- **C81** (iterator): with a positive stride, `strided_iterator`s over an array are a random access range: the distance
    between two positions is the difference of their indices and the order and equality of iterators are those of the
    indices. -/
theorem strided_iterator_positions (base stride : Int) (hs : 0 < stride) (i j : Nat) :
    let it := (SIter.mk base stride).add i
    let jt := (SIter.mk base stride).add j
    it.sub jt = .ok ((i : Int) - j) ∧ (it.lt jt = true ↔ i < j) ∧ (it.eq jt = true ↔ i = j) ∧
      it.inc = (SIter.mk base stride).add (i + 1) ∧ it.inc.dec = it ∧ it.add ((j : Int) - i) = jt := by
  refine ⟨?_, ?_, ?_, ?_, ?_, ?_⟩
  · show (if stride = 0 then Res.ub else Res.ok ((base + (i : Int) * stride - (base + (j : Int) * stride)).tdiv stride)) = _
    rw [if_neg (by omega)]
    have : base + (i : Int) * stride - (base + (j : Int) * stride) = ((i : Int) - j) * stride := by
      rw [Int.sub_mul]; omega
    rw [this, Int.mul_tdiv_cancel _ (by omega)]
  · show decide (base + (i : Int) * stride < base + (j : Int) * stride) = true ↔ _
    rw [decide_eq_true_eq]
    constructor
    · intro h
      have h' : (i : Int) * stride < j * stride := by omega
      have := lt_of_mul_lt_mul_right h' (by omega)
      omega
    · intro h
      have : (i : Int) * stride < j * stride := Int.mul_lt_mul_of_pos_right (by omega) hs
      omega
  · show decide (base + (i : Int) * stride = base + (j : Int) * stride) = true ↔ _
    rw [decide_eq_true_eq]
    constructor
    · intro h
      have h' : (i : Int) * stride = j * stride := by omega
      have := Int.eq_of_mul_eq_mul_right (by omega) h'
      omega
    · rintro rfl; rfl
  · show SIter.mk (base + (i : Int) * stride + stride) stride = SIter.mk (base + ((i : Int) + 1) * stride) stride
    congr 1; rw [Int.add_mul]; omega
  · show SIter.mk (base + (i : Int) * stride + stride - stride) stride = SIter.mk (base + (i : Int) * stride) stride
    congr 1; omega
  · show SIter.mk (base + (i : Int) * stride + ((j : Int) - i) * stride) stride = SIter.mk (base + (j : Int) * stride) stride
    congr 1; rw [Int.sub_mul]; omega

/-- With a negative stride the order of the iterators is reversed: `first + 1 < first`. -/
theorem strided_iterator_negative_violated (base stride : Int) (hs : stride < 0) :
    ((SIter.mk base stride).inc).lt (SIter.mk base stride) = true ∧
    (SIter.mk base stride).lt ((SIter.mk base stride).inc) = false := by
  constructor
  · show decide (base + stride < base) = true
    rw [decide_eq_true_eq]; omega
  · show decide (base < base + stride) = false
    rw [decide_eq_false_iff_not]; omega

/-- Elements read with stride 0 are all the same object. -/
def OneObject {α : Type} (stride : Int) (xs : List α) : Prop := stride = 0 → ∃ x, ∀ y ∈ xs, y = x

/-- **C81**: sorting a one-dimensional array of integers with a non-negative stride yields the same elements in
    non-decreasing order. -/
theorem sort_int_partial (srt : (Int → Int → Bool) → List Int → List Int) (hs : StdSort srt) (t : IntTy)
    (xs : List Int) (stride : Int) (h0 : 0 ≤ stride) (hz : OneObject stride xs) :
    ∃ ys, sortKernel srt (cmpInt .lt t t) stride xs = .ok ys ∧ ys.Perm xs ∧ ys.Pairwise (· ≤ ·) := by
  by_cases h : stride = 0
  · subst h
    obtain ⟨x, hx⟩ := hz rfl
    refine ⟨xs, by simp [sortKernel], List.Perm.refl _, ?_⟩
    rw [List.pairwise_iff_forall_sublist]
    intro a b hab
    have ha := hx a (hab.subset (by simp))
    have hb := hx b (hab.subset (by simp))
    omega
  have hl : cmpInt .lt t t = fun a b : Int => decide (a < b) := by
    funext a b; simp [cmpInt, Cmp.onInt]
  refine ⟨srt (cmpInt .lt t t) xs, ?_, ?_⟩
  · unfold sortKernel
    rw [if_neg (by omega), if_neg (by omega)]
  · obtain ⟨h1, h2⟩ := hs (cmpInt .lt t t) xs
      (by intro a _ b _; rw [hl]; simp only [decide_eq_true_eq, decide_eq_false_iff_not]; omega)
      (by intro a _ b _ c _; rw [hl]; simp only [decide_eq_false_iff_not]; omega)
    refine ⟨h1, h2.imp ?_⟩
    intro a b hab
    rw [hl] at hab
    simpa using hab

/-- **C81** for floats without NaN. -/
theorem sort_float_partial (F : Fmt) (hF : Std F) (srt : (Nat → Nat → Bool) → List Nat → List Nat) (hs : StdSort srt)
    (xs : List Nat) (hn : ∀ x ∈ xs, ¬ F.IsNan x) (stride : Int) (h0 : 0 ≤ stride) (hz : OneObject stride xs) :
    ∃ ys, sortKernel srt (lessF F) stride xs = .ok ys ∧ ys.Perm xs ∧ ys.Pairwise (fun a b => FloatVsFloat F F .le a b) := by
  by_cases h : stride = 0
  · subst h
    obtain ⟨x, hx⟩ := hz rfl
    refine ⟨xs, by simp [sortKernel], List.Perm.refl _, ?_⟩
    rw [List.pairwise_iff_forall_sublist]
    intro a b hab
    have ha := hx a (hab.subset (by simp))
    have hb := hx b (hab.subset (by simp))
    rw [ha, hb]
    have hxx := hn x (by rw [← ha]; exact hab.subset (by simp))
    exact (not_lt_iff F x x hxx hxx).1 (fvlt_irr _)
  have hl : ∀ a b, lessF F a b = (F.decode a).lt (F.decode b) := by
    intro a b; simp [lessF, cmpFloat, Cmp.onFV]
  refine ⟨srt (lessF F) xs, ?_, ?_⟩
  · unfold sortKernel
    rw [if_neg (by omega), if_neg (by omega)]
  · obtain ⟨h1, h2⟩ := hs (lessF F) xs
      (by
        intro a _ b _ hab
        rw [hl] at *
        by_contra hc
        have := fvlt_trans _ _ _ hab (by simpa using hc)
        rw [fvlt_irr] at this; cases this)
      (by
        intro a _ b hb c _ h1 h2
        rw [hl] at *
        exact fvlt_ntrans _ _ _ (by rw [Ne, decode_nan_iff]; exact hn b hb) h1 h2)
    refine ⟨h1, ?_⟩
    refine List.Pairwise.imp_of_mem ?_ h2
    intro a b ha hb hab
    rw [hl] at hab
    exact (not_lt_iff F b a (hn b (h1.mem_iff.1 hb)) (hn a (h1.mem_iff.1 ha))).1 hab

/-- C81 is violated for a reversed view (negative stride). -/
theorem sort_reversed_violated {α : Type} (srt : (α → α → Bool) → List α → List α) (less : α → α → Bool) (xs : List α)
    (stride : Int) (h : stride < 0) (hx : 2 ≤ xs.length) : sortKernel srt less stride xs = .ub := by
  unfold sortKernel; rw [if_pos ⟨h, hx⟩]

/-- C81 is violated for floats containing a NaN: the comparison handed to `std::sort` is not a strict weak order (being
    equivalent is not transitive: 1 ~ NaN ~ 2 but 1 < 2), so the contract of `std::sort` does not apply. -/
theorem sort_nan_violated : ∃ a b c : Nat, lessF .single a b = false ∧ lessF .single b a = false ∧
    lessF .single b c = false ∧ lessF .single c b = false ∧ lessF .single a c = true := by
  refine ⟨0x3F800000, 0x7FC00000, 0x40000000, ?_⟩
  have d1 : Fmt.single.decode 0x3F800000 = .fin 1 := by
    simp [Fmt.decode, Fmt.ex, Fmt.expMax, Fmt.single, Fmt.val, Fmt.smag, Fmt.sgn, Fmt.mag, Fmt.sig, Fmt.unit, Fmt.bias]
    norm_num
  have d2 : Fmt.single.decode 0x7FC00000 = .nan := by
    simp [Fmt.decode, Fmt.ex, Fmt.expMax, Fmt.single, Fmt.sig]
  have d3 : Fmt.single.decode 0x40000000 = .fin 2 := by
    simp [Fmt.decode, Fmt.ex, Fmt.expMax, Fmt.single, Fmt.val, Fmt.smag, Fmt.sgn, Fmt.mag, Fmt.sig, Fmt.unit, Fmt.bias]
    norm_num
  simp only [lessF, cmpFloat, if_true, Cmp.onFV, d1, d2, d3]
  simp [FV.lt]

/-- A sort that meets the contract exists (merge sort), and the hypotheses of the theorems are met. -/
example : ∃ srt : (Int → Int → Bool) → List Int → List Int, StdSort srt := by
  refine ⟨fun less l => (l.attach.mergeSort (fun a b => !less b.1 a.1)).map Subtype.val, ?_⟩
  intro less l h1 h2
  constructor
  · have := (List.mergeSort_perm l.attach (fun a b => !less b.1 a.1)).map Subtype.val
    simpa using this
  · unfold SortedBy
    rw [List.pairwise_map]
    have := List.pairwise_mergeSort (le := fun a b : {x // x ∈ l} => !less b.1 a.1) (l := l.attach)
      (by
        intro a b c hab hbc
        simp only [Bool.not_eq_true'] at *
        exact h2 c.1 c.2 b.1 b.2 a.1 a.2 hbc hab)
      (by
        intro a b
        simp only [Bool.or_eq_true, Bool.not_eq_true']
        by_cases h : less b.1 a.1 = true
        · right; exact h1 _ b.2 _ a.2 h
        · left; simpa using h)
    exact this.imp (by intro a b hab; simpa using hab)

/-! ## C82: compose -/

/-- The elementwise application of `g ∘ f`: what composing two callables means. -/
def applyBoth {α β γ : Type} (f : α → Res β) (g : β → Res γ) (x : α) : Res γ := f x >>= g

/-- One element after the other: `D[dst + i*ds] := g (f (S[src + i*ss]))` for `i = 0 … n-1`. -/
def mapStrided {α γ : Type} (h : α → Res γ) (S : Int → α) (ds ss : Int) : Nat → Int → Int → (Int → γ) → Res (Int → γ)
  | 0, _, _, D => .ok D
  | n + 1, dst, src, D => do
    let v ← h (S src)
    mapStrided h S ds ss n (dst + ds) (src + ss) (fun a => if a = dst then v else D a)


theorem mapStrided_add {α γ : Type} (h : α → Res γ) (S : Int → α) (ds ss : Int) (m : Nat) :
    ∀ (n : Nat) (dst src : Int) (D : Int → γ), mapStrided h S ds ss (n + m) dst src D =
      (mapStrided h S ds ss n dst src D >>= fun D' => mapStrided h S ds ss m (dst + n * ds) (src + n * ss) D') := by
  intro n
  induction n with
  | zero => intro dst src D; simp [mapStrided]
  | succ n ih =>
    intro dst src D
    rw [show n + 1 + m = (n + m) + 1 by omega]
    simp only [mapStrided]
    cases hv : h (S src) with
    | ok v =>
      simp only [Res.bind_ok]
      rw [ih]
      congr 1
      funext D'
      congr 1 <;> push_cast <;> rw [Int.add_mul] <;> omega
    | throw e => simp
    | ub => simp

theorem fillBuf_spec {α β : Type} (f : α → Res β) (S : Int → α) (ss : Int) :
    ∀ (n : Nat) (src : Int) (i : Nat) (B : Nat → β), (∀ k < n, ∃ v, f (S (src + k * ss)) = .ok v) →
      ∃ B', fillBuf f S ss n src i B = .ok B' ∧ (∀ k < n, f (S (src + k * ss)) = .ok (B' (i + k))) ∧
        ∀ k < i, B' k = B k := by
  intro n
  induction n with
  | zero => intro src i B _; exact ⟨B, rfl, by omega, fun _ _ => rfl⟩
  | succ n ih =>
    intro src i B h
    obtain ⟨v, hv⟩ := h 0 (by omega)
    simp only [Int.natCast_zero, Int.zero_mul, Int.add_zero] at hv
    have hk : ∀ k : Nat, src + ((k + 1 : Nat) : Int) * ss = src + ss + (k : Int) * ss := by
      intro k; push_cast; rw [Int.add_mul]; omega
    obtain ⟨B', e1, e2, e3⟩ := ih (src + ss) (i + 1) (fun k => if k = i then v else B k) (fun k hk' => by
      obtain ⟨w, hw⟩ := h (k + 1) (by omega)
      exact ⟨w, by rw [← hk]; exact hw⟩)
    refine ⟨B', by rw [fillBuf, hv]; exact e1, ?_, ?_⟩
    · intro k hk'
      cases k with
      | zero =>
        have := e3 i (by omega)
        simp only [if_true] at this
        rw [Nat.add_zero, this]
        simpa using hv
      | succ k =>
        rw [hk, show i + (k + 1) = i + 1 + k by omega]
        exact e2 k (by omega)
    · intro k hk'
      rw [e3 k (by omega), if_neg (by omega)]

theorem fillBuf_fail {α β : Type} (f : α → Res β) (S : Int → α) (ss : Int) :
    ∀ (n : Nat) (src : Int) (i : Nat) (B : Nat → β), (¬ ∀ k < n, ∃ v, f (S (src + k * ss)) = .ok v) →
      ∀ B', fillBuf f S ss n src i B ≠ .ok B' := by
  intro n
  induction n with
  | zero => intro src i B h; exact absurd (by omega) h
  | succ n ih =>
    intro src i B h B' he
    rw [fillBuf] at he
    obtain ⟨v, hv, he⟩ := Res.bind_eq_ok.1 he
    refine ih _ _ _ (fun hc => h ?_) B' he
    intro k hk
    cases k with
    | zero => exact ⟨v, by simpa using hv⟩
    | succ k =>
      obtain ⟨w, hw⟩ := hc k (by omega)
      refine ⟨w, ?_⟩
      rw [show src + ((k + 1 : Nat) : Int) * ss = src + ss + (k : Int) * ss by push_cast; rw [Int.add_mul]; omega]
      exact hw

theorem drainBuf_eq {α β γ : Type} (f : α → Res β) (g : β → Res γ) (S : Int → α) (B : Nat → β) (ds ss : Int) :
    ∀ (n i : Nat) (dst src : Int) (D : Int → γ), (∀ k < n, f (S (src + k * ss)) = .ok (B (i + k))) →
      drainBuf g B ds n i dst D = mapStrided (applyBoth f g) S ds ss n dst src D := by
  intro n
  induction n with
  | zero => intro i dst src D _; rfl
  | succ n ih =>
    intro i dst src D h
    have h0 := h 0 (by omega)
    simp only [Int.natCast_zero, Int.zero_mul, Int.add_zero, Nat.add_zero] at h0
    rw [drainBuf, mapStrided]
    have : applyBoth f g (S src) = g (B i) := by unfold applyBoth; rw [h0]; rfl
    rw [this]
    congr 1
    funext v
    apply ih
    intro k hk
    have := h (k + 1) (by omega)
    rw [show src + ((k + 1 : Nat) : Int) * ss = src + ss + (k : Int) * ss by push_cast; rw [Int.add_mul]; omega,
      show i + (k + 1) = i + 1 + k by omega] at this
    exact this

theorem mapStrided_ok {α γ : Type} (h : α → Res γ) (S : Int → α) (ds ss : Int) :
    ∀ (n : Nat) (dst src : Int) (D : Int → γ),
      (∃ D', mapStrided h S ds ss n dst src D = .ok D') ↔ ∀ k < n, ∃ v, h (S (src + k * ss)) = .ok v := by
  intro n
  induction n with
  | zero => intro dst src D; exact ⟨fun _ => by omega, fun _ => ⟨D, rfl⟩⟩
  | succ n ih =>
    intro dst src D
    have hk : ∀ k : Nat, src + ((k + 1 : Nat) : Int) * ss = src + ss + (k : Int) * ss := by
      intro k; push_cast; rw [Int.add_mul]; omega
    rw [mapStrided]
    constructor
    · rintro ⟨D', hD⟩
      obtain ⟨v, hv, he⟩ := Res.bind_eq_ok.1 hD
      intro k hk'
      cases k with
      | zero => exact ⟨v, by simpa using hv⟩
      | succ k => rw [hk]; exact (ih _ _ _).1 ⟨D', he⟩ k (by omega)
    · intro hall
      obtain ⟨v, hv⟩ := hall 0 (by omega)
      simp only [Int.natCast_zero, Int.zero_mul, Int.add_zero] at hv
      rw [hv]
      exact (ih _ _ _).2 (fun k hk' => by rw [← hk]; exact hall (k + 1) (by omega))

/-- Auxiliary form of `compose_exact`. -/
theorem composeLoop_eq {α β γ : Type} (f : α → Res β) (g : β → Res γ) (S : Int → α) (ds ss : Int) :
    ∀ (fuel count : Nat) (dst src : Int) (B : Nat → β) (D D' : Int → γ), count < fuel →
      (composeLoop f g S ds ss fuel count dst src B D = .ok D' ↔
        mapStrided (applyBoth f g) S ds ss count dst src D = .ok D') := by
  intro fuel
  induction fuel with
  | zero => intro count dst src B D D' h; omega
  | succ fuel ih =>
    intro count dst src B D D' hf
    rw [composeLoop]
    have hcs : chunkSize = 128 := rfl
    obtain ⟨c, hc⟩ : ∃ c, c = min count chunkSize := ⟨_, rfl⟩
    rw [← hc]
    have hsplit : count = c + (count - c) := by omega
    have hms := mapStrided_add (applyBoth f g) S ds ss (count - c) c dst src D
    rw [← hsplit] at hms
    rw [hms]
    by_cases hfill : ∀ k < c, ∃ v, f (S (src + k * ss)) = .ok v
    · obtain ⟨B', e1, e2, -⟩ := fillBuf_spec f S ss c src 0 B hfill
      rw [e1]
      simp only [Res.bind_ok]
      rw [drainBuf_eq f g S B' ds ss c 0 dst src D (by simpa using e2)]
      cases hm : mapStrided (applyBoth f g) S ds ss c dst src D with
      | ok D1 =>
        simp only [Res.bind_ok]
        by_cases h0 : count - c = 0
        · rw [if_pos h0, h0]; simp [mapStrided]
        · rw [if_neg h0]
          exact ih _ _ _ _ _ _ (by omega)
      | throw e => simp
      | ub => simp
    · constructor
      · intro h
        obtain ⟨B', hB, -⟩ := Res.bind_eq_ok.1 h
        exact absurd hB (fillBuf_fail f S ss c src 0 B hfill B')
      · intro h
        obtain ⟨D1, hD, -⟩ := Res.bind_eq_ok.1 h
        exfalso
        apply hfill
        intro k hk
        obtain ⟨v, hv⟩ := (mapStrided_ok _ _ _ _ _ _ _ _).1 ⟨D1, hD⟩ k hk
        unfold applyBoth at hv
        obtain ⟨w, hw, -⟩ := Res.bind_eq_ok.1 hv
        exact ⟨w, hw⟩

theorem mapStrided_at {α γ : Type} (h : α → Res γ) (S : Int → α) (ds ss : Int) (hds : ds ≠ 0) :
    ∀ (n : Nat) (dst src : Int) (D D' : Int → γ), mapStrided h S ds ss n dst src D = .ok D' →
      (∀ k < n, h (S (src + k * ss)) = .ok (D' (dst + k * ds))) ∧
      ∀ a, (∀ k < n, a ≠ dst + (k : Int) * ds) → D' a = D a := by
  intro n
  induction n with
  | zero =>
    intro dst src D D' hD
    simp only [mapStrided, Res.ok.injEq] at hD
    subst hD
    exact ⟨by omega, fun _ _ => rfl⟩
  | succ n ih =>
    intro dst src D D' hD
    rw [mapStrided] at hD
    obtain ⟨v, hv, he⟩ := Res.bind_eq_ok.1 hD
    obtain ⟨h1, h2⟩ := ih _ _ _ _ he
    have hk : ∀ (x y : Int) (k : Nat), x + ((k + 1 : Nat) : Int) * y = x + y + (k : Int) * y := by
      intro x y k; push_cast; rw [Int.add_mul]; omega
    constructor
    · intro k hk'
      cases k with
      | zero =>
        have hd : D' dst = v := by
          rw [h2 dst]
          · simp
          · intro k _ hc
            have : ((k : Int) + 1) * ds = 0 := by rw [Int.add_mul]; omega
            rcases Int.mul_eq_zero.1 this with h | h
            · omega
            · exact hds h
        simp only [Int.natCast_zero, Int.zero_mul, Int.add_zero]
        rw [hd]; exact hv
      | succ k => rw [hk, hk]; exact h1 k (by omega)
    · intro a ha
      rw [h2 a (fun k hk' => by rw [← hk]; exact ha (k + 1) (by omega)), if_neg]
      have := ha 0 (by omega)
      simpa using this

/-- **C82**: applying the composition of two callables to a strided array of any length (the intermediate values go
    through a buffer of 128 elements) succeeds exactly when both steps succeed on every element, and then stores
    `second(first(x))` for every element and changes nothing else. -/
theorem compose_exact {α β γ : Type} (f : α → Res β) (g : β → Res γ) (S : Int → α) (ds ss : Int) (hds : ds ≠ 0)
    (count : Nat) (dst src : Int) (B : Nat → β) (D : Int → γ) :
    ((∃ D', composeStrided f g S ds ss count dst src B D = .ok D') ↔
      ∀ k < count, ∃ v w, f (S (src + k * ss)) = .ok v ∧ g v = .ok w) ∧
    ∀ D', composeStrided f g S ds ss count dst src B D = .ok D' →
      (∀ k < count, ∃ v, f (S (src + k * ss)) = .ok v ∧ g v = .ok (D' (dst + k * ds))) ∧
      ∀ a, (∀ k < count, a ≠ dst + (k : Int) * ds) → D' a = D a := by
  have heq : ∀ D', composeStrided f g S ds ss count dst src B D = .ok D' ↔
      mapStrided (applyBoth f g) S ds ss count dst src D = .ok D' :=
    fun D' => composeLoop_eq f g S ds ss (count + 1) count dst src B D D' (by omega)
  constructor
  · simp only [heq]
    rw [mapStrided_ok]
    constructor
    · intro h k hk
      obtain ⟨w, hw⟩ := h k hk
      obtain ⟨v, hv, hg⟩ := Res.bind_eq_ok.1 hw
      exact ⟨v, w, hv, hg⟩
    · intro h k hk
      obtain ⟨v, w, hv, hg⟩ := h k hk
      exact ⟨w, Res.bind_eq_ok.2 ⟨v, hv, hg⟩⟩
  · intro D' hD
    obtain ⟨h1, h2⟩ := mapStrided_at _ S ds ss hds _ _ _ _ _ ((heq D').1 hD)
    refine ⟨fun k hk => ?_, h2⟩
    obtain ⟨v, hv, hg⟩ := Res.bind_eq_ok.1 (h1 k hk)
    exact ⟨v, hv, hg⟩

/-- Non-vacuity: 300 elements (three chunks). -/
example : ∃ D', composeStrided (fun x : Int => Res.ok (x + 1)) (fun x : Int => Res.ok (2 * x)) (fun a => a) 1 1 300 0 0
    (fun _ => 0) (fun _ => 0) = .ok D' ∧ D' 299 = 600 := by
  obtain ⟨h1, h2⟩ := compose_exact (fun x : Int => Res.ok (x + 1)) (fun x : Int => Res.ok (2 * x)) (fun a => a) 1 1
    (by decide) 300 0 0 (fun _ => 0) (fun _ => 0)
  obtain ⟨D', hD⟩ := h1.2 (fun k _ => ⟨_, _, rfl, rfl⟩)
  refine ⟨D', hD, ?_⟩
  obtain ⟨v, hv, hg⟩ := (h2 D' hD).1 299 (by omega)
  simp only [Res.ok.injEq] at hv hg
  subst hv
  have : D' (0 + ((299 : Nat) : Int) * 1) = D' 299 := by norm_num
  rw [this] at hg
  rw [← hg]; norm_num

end Dynd
