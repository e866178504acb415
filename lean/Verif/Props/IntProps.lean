/-
C23 (checked integer assignment), C24 (parsing unsigned integers), C25 (parsing signed integers),
C26 (print / parse round trip).
-/
import Verif.Model.Ints
import Mathlib.Tactic.SplitIfs
import Mathlib.Tactic.Ring
import Mathlib.Tactic.Linarith
import Mathlib.Tactic.ByContra

namespace Dynd

/-! ## C23: checked integer assignment -/

theorem two_pow_succ_pred {b : Nat} (h : 1 ≤ b) : (2 : Nat) ^ b = 2 * 2 ^ (b - 1) := by
  obtain ⟨k, rfl⟩ : ∃ k, b = k + 1 := ⟨b - 1, by omega⟩
  simp [Nat.pow_succ, Nat.mul_comm]

theorem IntTy.has_signed {b : Nat} {x : Int} :
    (IntTy.mk b true).Has x ↔ -((2 ^ (b - 1) : Nat) : Int) ≤ x ∧ x < ((2 ^ (b - 1) : Nat) : Int) := by
  simp only [IntTy.Has, IntTy.min, IntTy.max, if_true]; omega

theorem IntTy.has_unsigned {b : Nat} {x : Int} :
    (IntTy.mk b false).Has x ↔ 0 ≤ x ∧ x < ((2 ^ b : Nat) : Int) := by
  simp only [IntTy.Has, IntTy.min, IntTy.max, Bool.false_eq_true, if_false]; omega

theorem IntTy.cast_signed {b : Nat} {x : Int} (hb : 1 ≤ b)
    (h : -((2 ^ (b - 1) : Nat) : Int) ≤ x ∧ x < ((2 ^ (b - 1) : Nat) : Int)) :
    (IntTy.mk b true).cast x = x := by
  simp only [IntTy.cast, if_true]
  rw [two_pow_succ_pred hb]
  rw [Int.emod_eq_of_lt] <;> omega

theorem IntTy.cast_unsigned {b : Nat} {x : Int} (h : 0 ≤ x ∧ x < ((2 ^ b : Nat) : Int)) :
    (IntTy.mk b false).cast x = x := by
  simp only [IntTy.cast, Bool.false_eq_true, if_false]
  rw [Int.emod_eq_of_lt] <;> omega

/-- A cast to a type that holds the value does not change it. -/
theorem IntTy.cast_of_has {t : IntTy} {x : Int} (hb : 1 ≤ t.bits) (h : t.Has x) : t.cast x = x := by
  obtain ⟨b, sg⟩ := t
  cases sg
  · exact IntTy.cast_unsigned (IntTy.has_unsigned.1 h)
  · exact IntTy.cast_signed hb (IntTy.has_signed.1 h)

theorem isOverflow_iff {d s : IntTy} {x : Int} (hd : d.Valid) (hs : s.Valid) (hx : s.Has x) :
    isOverflow d s x = true ↔ ¬ d.Has x := by
  obtain ⟨db, ds⟩ := d
  obtain ⟨sb, ss⟩ := s
  simp only [IntTy.Valid] at hd hs
  have hd2 := two_pow_succ_pred (show 1 ≤ db by omega)
  have hs2 := two_pow_succ_pred (show 1 ≤ sb by omega)
  have hmono : ∀ {m n : Nat}, m ≤ n → (2:Nat) ^ m ≤ 2 ^ n := fun h => Nat.pow_le_pow_right (by omega) h
  have hpos : ∀ m : Nat, 0 < (2:Nat) ^ m := fun m => Nat.pow_pos (by omega)
  have p1 := hpos (db - 1)
  have p2 := hpos (sb - 1)
  cases ds <;> cases ss
  · -- unsigned <- unsigned
    rw [IntTy.has_unsigned] at hx ⊢
    simp only [isOverflow]
    split_ifs with hlt
    · have h1 := hmono (show db ≤ sb by omega)
      rw [IntTy.cast_unsigned]
      · simp only [IntTy.max, Bool.false_eq_true, if_false, decide_eq_true_eq]; omega
      · simp only [IntTy.max, Bool.false_eq_true, if_false]; omega
    · have h1 := hmono (show sb ≤ db by omega)
      simp only [Bool.false_eq_true, false_iff, not_not]; omega
  · -- unsigned <- signed
    rw [IntTy.has_signed] at hx
    rw [IntTy.has_unsigned]
    have c0 : (IntTy.mk sb true).cast 0 = 0 := IntTy.cast_signed (by omega) (by omega)
    simp only [isOverflow]
    split_ifs with hlt
    · have h1 := hmono (show db ≤ sb - 1 by omega)
      rw [c0, IntTy.cast_signed (by omega)]
      · simp only [IntTy.max, Bool.false_eq_true, if_false, Bool.or_eq_true, decide_eq_true_eq]; omega
      · simp only [IntTy.max, Bool.false_eq_true, if_false]; omega
    · have h1 := hmono (show sb ≤ db by omega)
      rw [c0]
      simp only [decide_eq_true_eq]; omega
  · -- signed <- unsigned
    rw [IntTy.has_unsigned] at hx
    rw [IntTy.has_signed]
    simp only [isOverflow, decide_eq_true_eq]
    rcases Nat.lt_or_ge sb db with hlt | hge
    · have h1 := hmono (show sb ≤ db - 1 by omega)
      have h2 : (IntTy.mk sb false).cast (IntTy.mk db true).max = ((2 ^ sb : Nat) : Int) - 1 := by
        obtain ⟨k, hk⟩ := Nat.exists_eq_add_of_le (show sb ≤ db - 1 by omega)
        simp only [IntTy.cast, IntTy.max, Bool.false_eq_true, if_false, if_true]
        rw [hk, Nat.pow_add]
        have hq : 0 < (2:Nat) ^ k := hpos k
        obtain ⟨q, hq'⟩ : ∃ q, (2:Nat) ^ k = q + 1 := ⟨2 ^ k - 1, by omega⟩
        rw [hq']
        have e : (((2 ^ sb * (q + 1) : Nat) : Int) - 1)
            = (((2 ^ sb : Nat) : Int) - 1) + ((2 ^ sb : Nat) : Int) * (q : Int) := by
          push_cast; ring
        rw [e, Int.add_mul_emod_self_left, Int.emod_eq_of_lt] <;> omega
      rw [h2]; omega
    · have h1 := hmono (show db - 1 ≤ sb - 1 by omega)
      rw [IntTy.cast_unsigned]
      · simp only [IntTy.max, if_true]; omega
      · simp only [IntTy.max, if_true]; omega
  · -- signed <- signed
    rw [IntTy.has_signed] at hx ⊢
    simp only [isOverflow]
    split_ifs with hlt
    · have h1 := hmono (show db - 1 ≤ sb - 1 by omega)
      rw [IntTy.cast_signed (by omega), IntTy.cast_signed (by omega)]
      · simp only [IntTy.max, IntTy.min, if_true, Bool.or_eq_true, decide_eq_true_eq]; omega
      · simp only [IntTy.max, if_true]; omega
      · simp only [IntTy.min, if_true]; omega
    · have h1 := hmono (show sb - 1 ≤ db - 1 by omega)
      simp only [Bool.false_eq_true, false_iff, not_not]; omega

/-- **C23.** For every pair of integer types and every source value, checked assignment stores exactly
    the source value if the destination type can represent it, and raises an overflow error otherwise. -/
theorem int_assign_exact (d s : IntTy) (x : Int) (hd : d.Valid) (hs : s.Valid) (hx : s.Has x) :
    overflowCast d s x = if d.min ≤ x ∧ x ≤ d.max then .ok x else .throw .overflow := by
  unfold overflowCast
  by_cases h : d.Has x
  · have h1 : ¬ isOverflow d s x = true := by rw [isOverflow_iff hd hs hx]; simpa using h
    rw [if_neg h1, IntTy.cast_of_has (by unfold IntTy.Valid at hd; omega) h]
    exact (if_pos h).symm
  · rw [if_pos ((isOverflow_iff hd hs hx).2 h)]
    exact (if_neg h).symm

/-- **C23, booleans.** Assignment to `bool` accepts exactly 0 and 1. -/
theorem int_assign_bool_exact (x : Int) (b : Bool) :
    overflowCastBool x = .ok b ↔ x = (if b then 1 else 0) := by
  unfold overflowCastBool
  split_ifs <;> cases b <;> simp_all

/-- The range of the types, in numbers. -/
example : (IntTy.mk 8 true).min = -128 ∧ (IntTy.mk 8 true).max = 127 ∧ (IntTy.mk 64 false).max = 18446744073709551615 ∧
    (IntTy.mk 64 true).min = i64Min := by decide
example : overflowCast ⟨8, true⟩ ⟨64, false⟩ 127 = .ok 127 ∧ overflowCast ⟨8, true⟩ ⟨64, false⟩ 128 = .throw .overflow ∧
    overflowCast ⟨64, false⟩ ⟨8, true⟩ (-1) = .throw .overflow ∧ overflowCast ⟨16, true⟩ ⟨8, false⟩ 255 = .ok 255 := by
  decide

/-! ## Text of an integer: the specification -/

/-- Every byte is an ASCII digit. -/
def Digits (ds : List Nat) : Prop := ∀ c ∈ ds, 48 ≤ c ∧ c ≤ 57
instance (ds : List Nat) : Decidable (Digits ds) := by unfold Digits; infer_instance

/-- Positional value of a digit string. -/
def digVal (ds : List Nat) : Nat := ds.foldl (fun a c => 10 * a + (c - 48)) 0

/-- The texts accepted as unsigned integers, with their values: digits; digits `.` zeros;
    digits `e` [`+`] exponent, the exponent below one hundred. -/
inductive UIntText : List Nat → Nat → Prop
  | plain (ds : List Nat) : Digits ds → ds ≠ [] → UIntText ds (digVal ds)
  | point (ds : List Nat) (k : Nat) : Digits ds → UIntText (ds ++ 46 :: List.replicate k 48) (digVal ds)
  | exp (ds es : List Nat) (c : Nat) (plus : Bool) : Digits ds → Digits es → es ≠ [] → digVal es < 100 →
      (c = 101 ∨ c = 69) →
      UIntText (ds ++ c :: ((if plus then [43] else []) ++ es)) (digVal ds * 10 ^ digVal es)

/-- Signed: an optional `-` in front. -/
inductive SIntText : List Nat → Int → Prop
  | pos (s : List Nat) (n : Nat) : UIntText s n → SIntText s n
  | neg (s : List Nat) (n : Nat) : UIntText s n → SIntText (45 :: s) (-(n : Int))

theorem isDig_iff {c : Nat} : isDig c = true ↔ 48 ≤ c ∧ c ≤ 57 := by simp [isDig]

theorem foldl_dig (ds : List Nat) (a : Nat) :
    ds.foldl (fun a c => 10 * a + (c - 48)) a = a * 10 ^ ds.length + digVal ds := by
  unfold digVal
  induction ds generalizing a with
  | nil => simp
  | cons c r ih =>
    simp only [List.foldl_cons, List.length_cons]
    rw [ih, ih (10 * 0 + (c - 48))]
    ring

theorem digVal_cons (c : Nat) (r : List Nat) : digVal (c :: r) = (c - 48) * 10 ^ r.length + digVal r := by
  have := foldl_dig r (10 * 0 + (c - 48))
  simp only [digVal, List.foldl_cons]
  simpa [digVal] using this

theorem digVal_append (a b : List Nat) : digVal (a ++ b) = digVal a * 10 ^ b.length + digVal b := by
  conv_lhs => unfold digVal
  rw [List.foldl_append, foldl_dig]
  rfl

theorem digVal_snoc (a : List Nat) (c : Nat) : digVal (a ++ [c]) = 10 * digVal a + (c - 48) := by
  rw [digVal_append, digVal_cons]; simp [digVal]; ring

theorem digVal_nil : digVal [] = 0 := rfl

theorem digVal_replicate_zero (k : Nat) : digVal (List.replicate k 48) = 0 := by
  induction k with
  | zero => rfl
  | succ k ih => rw [List.replicate_succ, digVal_cons, ih]; simp

theorem Digits.cons {c : Nat} {r : List Nat} (h : Digits (c :: r)) : (48 ≤ c ∧ c ≤ 57) ∧ Digits r :=
  ⟨h c (by simp), fun x hx => h x (by simp [hx])⟩

/-! ## The exponent -/

theorem dropZeros_eq (s : List Nat) :
    ∃ k, s = List.replicate k 48 ++ dropZeros s ∧ ∀ c r, dropZeros s = c :: r → c ≠ 48 := by
  induction s with
  | nil => exact ⟨0, by simp [dropZeros]⟩
  | cons c r ih =>
    by_cases h : c = 48
    · obtain ⟨k, h1, h2⟩ := ih
      subst h
      refine ⟨k + 1, ?_, ?_⟩
      · simp only [dropZeros, if_true, List.replicate_succ, List.cons_append]
        rw [← h1]
      · simpa only [dropZeros, if_true] using h2
    · refine ⟨0, by simp [dropZeros, h], ?_⟩
      intro c' r' he
      simp only [dropZeros, if_neg h, List.cons.injEq] at he
      rw [← he.1]; exact h

theorem dropZeros_replicate (k : Nat) : dropZeros (List.replicate k 48) = [] := by
  induction k with
  | zero => rfl
  | succ k ih => simp [List.replicate_succ, dropZeros, ih]

theorem mulPow10_sound {bits n r v : Nat} (h : mulPow10 bits n r = .ok v) :
    v % 2 ^ bits = (r * 10 ^ n) % 2 ^ bits := by
  induction n generalizing r with
  | zero => simp only [mulPow10, Res.ok.injEq] at h; simp [h]
  | succ n ih =>
    simp only [mulPow10] at h
    split_ifs at h
    rw [ih h, Nat.mod_mul_mod]
    congr 1; ring

theorem mulPow10_lt {bits n r v : Nat} (hr : r < 2 ^ bits) (h : mulPow10 bits n r = .ok v) : v < 2 ^ bits := by
  induction n generalizing r with
  | zero => simp only [mulPow10, Res.ok.injEq] at h; omega
  | succ n ih =>
    simp only [mulPow10] at h
    split_ifs at h
    exact ih (Nat.mod_lt _ (by omega)) h

theorem mulPow10_exact {bits n r : Nat} (h : r * 10 ^ n < 2 ^ bits) : mulPow10 bits n r = .ok (r * 10 ^ n) := by
  induction n generalizing r with
  | zero => simp [mulPow10]
  | succ n ih =>
    have hp : 0 < 10 ^ n := Nat.pow_pos (by omega)
    have e : r * 10 ^ (n + 1) = (r * 10) * 10 ^ n := by ring
    rw [e] at h ⊢
    have h1 : r * 10 < 2 ^ bits := Nat.lt_of_le_of_lt (Nat.le_mul_of_pos_right _ hp) h
    simp only [mulPow10]
    rw [Nat.mod_eq_of_lt h1, if_neg (by omega), ih h]

theorem mulPow10_no_ub {bits n r : Nat} : mulPow10 bits n r ≠ .ub := by
  induction n generalizing r with
  | zero => simp [mulPow10]
  | succ n ih =>
    simp only [mulPow10]
    split_ifs
    · simp
    · exact ih

/-- The two optional digits consumed after the zeros. -/
theorem two_digits {s2 s3 s4 : List Nat} {e1 e2 : Nat} (h1 : expDigit 0 s2 = (e1, s3)) (h2 : expDigit e1 s3 = (e2, s4))
    (h4 : s4 = []) : Digits s2 ∧ digVal s2 = e2 ∧ s2.length ≤ 2 := by
  subst h4
  match s2, h1 with
  | [], h1 =>
    simp only [expDigit, Prod.mk.injEq] at h1
    obtain ⟨rfl, rfl⟩ := h1
    simp only [expDigit, Prod.mk.injEq] at h2
    refine ⟨by intro c hc; simp at hc, ?_, by simp⟩
    rw [digVal_nil]; exact h2.1
  | c :: r, h1 =>
    simp only [expDigit] at h1
    split_ifs at h1 with hc
    · simp only [Prod.mk.injEq] at h1
      obtain ⟨rfl, rfl⟩ := h1
      match r, h2 with
      | [], h2 =>
        simp only [expDigit, Prod.mk.injEq] at h2
        refine ⟨?_, ?_, by simp⟩
        · intro x hx; simp only [List.mem_singleton] at hx; subst hx; exact isDig_iff.1 hc
        · rw [digVal_cons, digVal_nil]; simp only [List.length_nil]; omega
      | c' :: r', h2 =>
        simp only [expDigit] at h2
        split_ifs at h2 with hc'
        · simp only [Prod.mk.injEq] at h2
          obtain ⟨h2, rfl⟩ := h2
          refine ⟨?_, ?_, by simp⟩
          · intro x hx
            simp only [List.mem_cons, List.not_mem_nil, or_false] at hx
            rcases hx with rfl | rfl
            · exact isDig_iff.1 hc
            · exact isDig_iff.1 hc'
          · rw [digVal_cons, digVal_cons, digVal_nil]; simp only [List.length_nil, List.length_cons]; omega
        · simp at h2
    · simp only [Prod.mk.injEq] at h1
      obtain ⟨rfl, rfl⟩ := h1
      simp only [expDigit, if_neg hc] at h2
      simp at h2

theorem digVal_lt {ds : List Nat} (h : Digits ds) : digVal ds < 10 ^ ds.length := by
  induction ds with
  | nil => simp [digVal]
  | cons c r ih =>
    have hh := h.cons
    have h1 := ih hh.2
    rw [digVal_cons, List.length_cons, Nat.pow_succ]
    have : (c - 48) * 10 ^ r.length ≤ 9 * 10 ^ r.length := Nat.mul_le_mul_right _ (by omega)
    omega

theorem digVal_ge {c : Nat} {r : List Nat} (hc : 49 ≤ c) : 10 ^ r.length ≤ digVal (c :: r) := by
  rw [digVal_cons]
  have : 1 * 10 ^ r.length ≤ (c - 48) * 10 ^ r.length := Nat.mul_le_mul_right _ (by omega)
  omega

/-- Parsing the exponent digits: on digits with value below 100 the two optional digits suffice. -/
theorem expDigits_of {es : List Nat} (he : Digits es) (hv : digVal es < 100) :
    ∃ e1 s3 , expDigit 0 (dropZeros es) = (e1, s3) ∧ expDigit e1 s3 = (digVal es, []) := by
  obtain ⟨k, h1, h2⟩ := dropZeros_eq es
  have hd : Digits (dropZeros es) := fun c hc => he c (by rw [h1]; simp [hc])
  have hval : digVal es = digVal (dropZeros es) := by
    conv_lhs => rw [h1]
    rw [digVal_append, digVal_replicate_zero]; simp
  rw [hval] at hv ⊢
  generalize hz : dropZeros es = z at *
  match z, hz with
  | [], _ => exact ⟨0, [], rfl, rfl⟩
  | [a], _ =>
    have ha := (hd.cons).1
    have hi : isDig a = true := isDig_iff.2 ha
    refine ⟨a - 48, [], ?_, ?_⟩
    · simp [expDigit, hi]
    · rw [digVal_cons, digVal_nil]; simp [expDigit]
  | [a, b], _ =>
    have ha := (hd.cons).1
    have hb := (hd.cons).2.cons.1
    have hi : isDig a = true := isDig_iff.2 ha
    have hj : isDig b = true := isDig_iff.2 hb
    refine ⟨a - 48, [b], ?_, ?_⟩
    · simp [expDigit, hi]
    · rw [digVal_cons, digVal_cons, digVal_nil]; simp [expDigit, hj]; omega
  | a :: b :: c :: r, _ =>
    exfalso
    have ha := (hd.cons).1
    have hne := h2 a _ rfl
    have := digVal_ge (c := a) (r := b :: c :: r) (by omega)
    simp only [List.length_cons] at this
    have h3 : (10 : Nat) ^ 2 ≤ 10 ^ (r.length + 1 + 1) := Nat.pow_le_pow_right (by omega) (by omega)
    omega

theorem parseExp_sound {bits : Nat} {s : List Nat} {r v : Nat} (h : parseExp bits s r = .ok v) :
    ∃ (plus : Bool) (es : List Nat), s = (if plus then [43] else []) ++ es ∧ Digits es ∧ es ≠ [] ∧ digVal es < 100 ∧
      mulPow10 bits (digVal es) r = .ok v := by
  unfold parseExp at h
  -- optional plus
  obtain ⟨plus, s1, hs, hs1⟩ : ∃ (plus : Bool) (s1 : List Nat), s = (if plus then [43] else []) ++ s1 ∧
      skipPlus s = s1 := by
    unfold skipPlus
    split
    · exact ⟨true, _, by simp, rfl⟩
    · exact ⟨false, _, by simp, rfl⟩
  simp only [hs1] at h
  match s1, hs, h with
  | [], _, h => simp at h
  | x :: y, hs, h =>
    simp only at h
    generalize h1 : expDigit 0 (dropZeros (x :: y)) = p1 at h
    obtain ⟨e1, s3⟩ := p1
    simp only at h
    generalize h2 : expDigit e1 s3 = p2 at h
    obtain ⟨e2, s4⟩ := p2
    simp only at h
    match s4, h2, h with
    | [], h2, h =>
      simp only at h
      obtain ⟨d1, d2, d3⟩ := two_digits h1 h2 rfl
      obtain ⟨k, hk, _⟩ := dropZeros_eq (x :: y)
      have hval : digVal (x :: y) = e2 := by
        rw [hk, digVal_append, digVal_replicate_zero]; simp [d2]
      refine ⟨plus, x :: y, hs, ?_, by simp, ?_, ?_⟩
      · intro c hc
        rw [hk] at hc
        simp only [List.mem_append, List.mem_replicate] at hc
        rcases hc with hc | hc
        · omega
        · exact d1 c hc
      · rw [hval, ← d2]
        have := digVal_lt d1
        have h3 : (10 : Nat) ^ (dropZeros (x :: y)).length ≤ 10 ^ 2 := Nat.pow_le_pow_right (by omega) d3
        omega
      · rw [hval]; exact h
    | _ :: _, _, h => simp at h

theorem parseExp_of {bits : Nat} (plus : Bool) {es : List Nat} (r : Nat) (he : Digits es) (hne : es ≠ [])
    (hv : digVal es < 100) :
    parseExp bits ((if plus then [43] else []) ++ es) r = mulPow10 bits (digVal es) r := by
  have key : skipPlus ((if plus then [43] else []) ++ es) = es := by
    unfold skipPlus
    cases plus
    · match es, hne with
      | c :: t, _ =>
        have hc := he.cons.1
        simp only [Bool.false_eq_true, if_false, List.nil_append]
        split
        · rename_i heq
          simp only [List.cons.injEq] at heq; omega
        · rfl
    · simp
  unfold parseExp
  simp only [key]
  obtain ⟨e1, s3, h1, h2⟩ := expDigits_of he hv
  match es, hne with
  | c :: t, _ =>
    simp only [h1, h2]

theorem parseExp_no_ub {bits : Nat} {s : List Nat} {r : Nat} : parseExp bits s r ≠ .ub := by
  unfold parseExp
  simp only
  split
  · simp
  · split
    · exact mulPow10_no_ub
    · simp

/-! ## C24: unsigned parsing -/

theorem parseULoop_sound {bits : Nat} {s : List Nat} {r v : Nat} (hr : r < 2 ^ bits) (h : parseULoop bits s r = .ok v) :
    v < 2 ^ bits ∧ ∃ ds, Digits ds ∧
      ((s = ds ∧ v % 2 ^ bits = (r * 10 ^ ds.length + digVal ds) % 2 ^ bits) ∨
       (∃ k, s = ds ++ 46 :: List.replicate k 48 ∧ v % 2 ^ bits = (r * 10 ^ ds.length + digVal ds) % 2 ^ bits) ∨
       (∃ (c : Nat) (plus : Bool) (es : List Nat), (c = 101 ∨ c = 69) ∧ s = ds ++ c :: ((if plus then [43] else []) ++ es) ∧ Digits es ∧ es ≠ [] ∧
          digVal es < 100 ∧ v % 2 ^ bits = ((r * 10 ^ ds.length + digVal ds) * 10 ^ digVal es) % 2 ^ bits)) := by
  induction s generalizing r with
  | nil =>
    simp only [parseULoop, Res.ok.injEq] at h
    subst h
    exact ⟨hr, [], by intro c hc; simp at hc, .inl ⟨rfl, by simp [digVal]⟩⟩
  | cons c t ih =>
    simp only [parseULoop] at h
    split_ifs at h with hc hov hp he
    · obtain ⟨hv, ds, hds, hcase⟩ := ih (Nat.mod_lt _ (by omega)) h
      have hcd := isDig_iff.1 hc
      have hstep : ((r * 10 + (c - 48)) % 2 ^ bits * 10 ^ ds.length + digVal ds) % 2 ^ bits
          = (r * 10 ^ (c :: ds).length + digVal (c :: ds)) % 2 ^ bits := by
        rw [digVal_cons, List.length_cons, Nat.add_mod, Nat.mod_mul_mod, ← Nat.add_mod]
        congr 1; ring
      refine ⟨hv, c :: ds, ?_, ?_⟩
      · intro x hx
        simp only [List.mem_cons] at hx
        rcases hx with rfl | hx
        · exact hcd
        · exact hds x hx
      · rcases hcase with ⟨h1, h2⟩ | ⟨k, h1, h2⟩ | ⟨c', plus, es, hc', h1, h2, h3, h4, h5⟩
        · exact .inl ⟨by rw [h1], by rw [h2, hstep]⟩
        · exact .inr (.inl ⟨k, by rw [h1]; rfl, by rw [h2, hstep]⟩)
        · refine .inr (.inr ⟨c', plus, es, hc', by rw [h1]; rfl, h2, h3, h4, ?_⟩)
          rw [h5, ← Nat.mod_mul_mod, hstep, Nat.mod_mul_mod]
    · -- '.'
      split at h
      · rename_i hz
        simp only [Res.ok.injEq] at h
        subst h
        obtain ⟨k, hk, _⟩ := dropZeros_eq t
        refine ⟨hr, [], by intro c hc; simp at hc, .inr (.inl ⟨k, ?_, by simp [digVal]⟩)⟩
        rw [hz] at hk
        simp only [List.append_nil] at hk
        rw [hp, hk]; rfl
      · simp at h
    · obtain ⟨plus, es, h1, h2, h3, h4, h5⟩ := parseExp_sound h
      refine ⟨mulPow10_lt hr h5, [], by intro c hc; simp at hc, .inr (.inr ⟨c, plus, es, he, by rw [h1]; rfl, h2, h3, h4, ?_⟩)⟩
      rw [mulPow10_sound h5]; simp [digVal]

/-- **C24 (soundness).** Whatever string the unsigned parser accepts is the text of an unsigned integer, and the
    value it returns agrees with that integer modulo `2^bits`. -/
theorem parse_unsigned_sound {bits : Nat} {s : List Nat} {r : Nat} (h : parseU bits s = .ok r) :
    ∃ v, UIntText s v ∧ r = v % 2 ^ bits := by
  unfold parseU at h
  match s, h with
  | [], h => simp at h
  | c :: t, h =>
    simp only at h
    obtain ⟨hlt, ds, hds, hcase⟩ := parseULoop_sound (Nat.pow_pos (by omega)) h
    rcases hcase with ⟨h1, h2⟩ | ⟨k, h1, h2⟩ | ⟨c', plus, es, hc', h1, h2, h3, h4, h5⟩
    · refine ⟨digVal ds, ?_, ?_⟩
      · rw [h1]; exact .plain ds hds (by rw [← h1]; simp)
      · simp only [Nat.zero_mul, Nat.zero_add] at h2; rw [← h2, Nat.mod_eq_of_lt hlt]
    · refine ⟨digVal ds, ?_, ?_⟩
      · rw [h1]; exact .point ds k hds
      · simp only [Nat.zero_mul, Nat.zero_add] at h2; rw [← h2, Nat.mod_eq_of_lt hlt]
    · refine ⟨digVal ds * 10 ^ digVal es, ?_, ?_⟩
      · rw [h1]; exact .exp ds es c' plus hds h2 h3 h4 hc'
      · simp only [Nat.zero_mul, Nat.zero_add] at h5; rw [← h5, Nat.mod_eq_of_lt hlt]

theorem parseULoop_digits {bits : Nat} {ds : List Nat} (t : List Nat) (r : Nat) (hds : Digits ds)
    (h : r * 10 ^ ds.length + digVal ds < 2 ^ bits) :
    parseULoop bits (ds ++ t) r = parseULoop bits t (r * 10 ^ ds.length + digVal ds) := by
  induction ds generalizing r with
  | nil => simp [digVal]
  | cons c ds ih =>
    have hc := hds.cons
    have e : r * 10 ^ (c :: ds).length + digVal (c :: ds) = (r * 10 + (c - 48)) * 10 ^ ds.length + digVal ds := by
      rw [digVal_cons, List.length_cons]; ring
    rw [e] at h ⊢
    have hp : 0 < 10 ^ ds.length := Nat.pow_pos (by omega)
    have h1 : r * 10 + (c - 48) ≤ (r * 10 + (c - 48)) * 10 ^ ds.length := Nat.le_mul_of_pos_right _ hp
    simp only [List.cons_append, parseULoop]
    rw [if_pos (isDig_iff.2 hc.1), Nat.mod_eq_of_lt (by omega), if_neg (by omega), ih _ hc.2 h]

/-- **C24 (exactness).** The text of an unsigned integer that the type can represent parses to exactly that
    integer, for strings of any length and every width. -/
theorem parse_unsigned_exact {bits : Nat} {s : List Nat} {v : Nat} (ht : UIntText s v) (hv : v < 2 ^ bits) :
    parseU bits s = .ok v := by
  have hne : s ≠ [] := by cases ht <;> simp_all
  have : parseU bits s = parseULoop bits s 0 := by
    match s, hne with
    | c :: t, _ => rfl
  rw [this]
  cases ht with
  | plain ds hds _ =>
    have := parseULoop_digits (bits := bits) [] 0 hds (by simpa using hv)
    simp only [List.append_nil, Nat.zero_mul, Nat.zero_add] at this
    rw [this]; rfl
  | point ds k hds =>
    rw [parseULoop_digits _ 0 hds (by simpa using hv)]
    simp [parseULoop, isDig, dropZeros_replicate]
  | exp ds es c plus hds hes hne' hlt hc =>
    have hp : 0 < 10 ^ digVal es := Nat.pow_pos (by omega)
    have h1 : digVal ds ≤ digVal ds * 10 ^ digVal es := Nat.le_mul_of_pos_right _ hp
    rw [parseULoop_digits _ 0 hds (by simp only [Nat.zero_mul, Nat.zero_add]; omega)]
    simp only [Nat.zero_mul, Nat.zero_add, parseULoop]
    have hd : ¬ isDig c = true := by rw [isDig_iff]; omega
    rw [if_neg hd, if_neg (by omega), if_pos hc, parseExp_of plus _ hes hne' hlt, mulPow10_exact hv]

/-- A text has one value (so "its value" is meaningful). -/
theorem UIntText.unique {s : List Nat} {v w : Nat} (h1 : UIntText s v) (h2 : UIntText s w) : v = w := by
  have lt_pow : ∀ n : Nat, n < 2 ^ n := fun n => Nat.lt_two_pow_self
  have a := parse_unsigned_exact (bits := v + w) h1
    (Nat.lt_of_lt_of_le (lt_pow v) (Nat.pow_le_pow_right (by omega) (by omega)))
  have b := parse_unsigned_exact (bits := v + w) h2
    (Nat.lt_of_lt_of_le (lt_pow w) (Nat.pow_le_pow_right (by omega) (by omega)))
  rw [a] at b; simpa using b

theorem parseULoop_no_ub {bits : Nat} {s : List Nat} {r : Nat} : parseULoop bits s r ≠ .ub := by
  induction s generalizing r with
  | nil => simp [parseULoop]
  | cons c t ih =>
    simp only [parseULoop]
    split_ifs
    · simp
    · exact ih
    · split <;> simp
    · exact parseExp_no_ub
    · simp

/-- **C24 (totality).** The parser always returns or raises; in particular a string that is not the text of an
    unsigned integer is always rejected, and a raised error on an integer text means it is not representable. -/
theorem parse_unsigned_total (bits : Nat) (s : List Nat) :
    (∃ v, UIntText s v ∧ (parseU bits s = .ok (v % 2 ^ bits) ∨ (2 ^ bits ≤ v ∧ (parseU bits s).Throws))) ∨
    ((¬ ∃ v, UIntText s v) ∧ (parseU bits s).Throws) := by
  have hnub : parseU bits s ≠ .ub := by
    match s with
    | [] => simp [parseU]
    | c :: t => exact parseULoop_no_ub
  rcases hp : parseU bits s with r | e | _
  · obtain ⟨v, hv, hr⟩ := parse_unsigned_sound hp
    exact .inl ⟨v, hv, .inl (by rw [hr])⟩
  · by_cases hx : ∃ v, UIntText s v
    · obtain ⟨v, hv⟩ := hx
      refine .inl ⟨v, hv, .inr ⟨?_, e, rfl⟩⟩
      by_contra hlt
      rw [parse_unsigned_exact hv (by omega)] at hp
      simp at hp
    · exact .inr ⟨hx, e, rfl⟩
  · exact absurd hp hnub

/-- **C24 (what is proved of it).** For digit strings: exactly the value when representable; otherwise an overflow
    error *or* — the defect — the value reduced modulo `2^bits`.  Missing for the full property: that the
    unrepresentable case always raises, which is false (see `parse_unsigned_violated`). -/
theorem parse_unsigned_partial (bits : Nat) (ds : List Nat) (hd : Digits ds) (hne : ds ≠ []) :
    (digVal ds < 2 ^ bits → parseU bits ds = .ok (digVal ds)) ∧
    (2 ^ bits ≤ digVal ds → (parseU bits ds).Throws ∨ parseU bits ds = .ok (digVal ds % 2 ^ bits)) := by
  refine ⟨fun h => parse_unsigned_exact (.plain ds hd hne) h, fun _ => ?_⟩
  rcases parse_unsigned_total bits ds with ⟨v, hv, h⟩ | ⟨h, _⟩
  · have := hv.unique (.plain ds hd hne)
    subst this
    rcases h with h | ⟨_, h⟩
    · exact .inr h
    · exact .inl h
  · exact absurd ⟨_, .plain ds hd hne⟩ h

/-! ## Printing -/

theorem decDigits_spec (n : Nat) : Digits (decDigits n) ∧ decDigits n ≠ [] ∧ digVal (decDigits n) = n := by
  induction n using Nat.strong_induction_on with
  | _ n ih =>
    rw [decDigits]
    split_ifs with h
    · refine ⟨?_, by simp, ?_⟩
      · intro c hc; simp only [List.mem_singleton] at hc; omega
      · rw [digVal_cons, digVal_nil]; simp
    · obtain ⟨h1, h2, h3⟩ := ih (n / 10) (by omega)
      refine ⟨?_, by simp, ?_⟩
      · intro c hc
        simp only [List.mem_append, List.mem_singleton] at hc
        rcases hc with hc | hc
        · exact h1 c hc
        · omega
      · rw [digVal_snoc, h3]; omega

/-- The decimal text of `2^(bits+1) - 1` is accepted as `2^bits - 1`. -/
theorem parseU_wraps (bits : Nat) (hb : 4 ≤ bits) : parseU bits (decDigits (2 * 2 ^ bits - 1)) = .ok (2 ^ bits - 1) := by
  have hp : (2:Nat) ^ 4 ≤ 2 ^ bits := Nat.pow_le_pow_right (by omega) hb
  obtain ⟨h1, h2, h3⟩ := decDigits_spec (2 * 2 ^ bits - 1)
  obtain ⟨g1, g2, g3⟩ := decDigits_spec ((2 * 2 ^ bits - 1) / 10)
  have hsplit : decDigits (2 * 2 ^ bits - 1) = decDigits ((2 * 2 ^ bits - 1) / 10) ++ [48 + (2 * 2 ^ bits - 1) % 10] := by
    rw [decDigits, if_neg (by omega)]
  have hU : parseU bits (decDigits (2 * 2 ^ bits - 1)) = parseULoop bits (decDigits (2 * 2 ^ bits - 1)) 0 := by
    generalize decDigits (2 * 2 ^ bits - 1) = l at h2 ⊢
    match l, h2 with
    | _ :: _, _ => rfl
  rw [hU, hsplit, parseULoop_digits _ 0 g1 (by rw [g3]; omega), g3]
  simp only [Nat.zero_mul, Nat.zero_add, parseULoop]
  rw [if_pos (isDig_iff.2 (by omega))]
  have e : (2 * 2 ^ bits - 1) / 10 * 10 + (48 + (2 * 2 ^ bits - 1) % 10 - 48) = 2 ^ bits + (2 ^ bits - 1) := by omega
  rw [e, Nat.add_mod_left, Nat.mod_eq_of_lt (by omega), if_neg (by omega)]

/-- **C24 is violated.** For *every* width (of at least four bits) there is a digit string denoting an
    unrepresentable number that is accepted with a wrong value: the decimal text of `2^(bits+1) - 1` parses to
    `2^bits - 1`, because the wrapped-around value is not smaller than the value before the last digit. -/
theorem parse_unsigned_violated (bits : Nat) (hb : 4 ≤ bits) :
    ∃ ds, Digits ds ∧ 2 ^ bits ≤ digVal ds ∧ parseU bits ds = .ok (2 ^ bits - 1) ∧ digVal ds ≠ 2 ^ bits - 1 := by
  have hp : (2:Nat) ^ 4 ≤ 2 ^ bits := Nat.pow_le_pow_right (by omega) hb
  obtain ⟨h1, h2, h3⟩ := decDigits_spec (2 * 2 ^ bits - 1)
  exact ⟨decDigits (2 * 2 ^ bits - 1), h1, by omega, parseU_wraps bits hb, by omega⟩

/-- `"511"` parsed as `uint8` is 255; `"300"` is 44. -/
example : parseU 8 [53, 49, 49] = .ok 255 ∧ parseU 8 [51, 48, 48] = .ok 44 ∧ parseU 8 [50, 53, 53] = .ok 255 ∧
    parseU 8 [50, 53, 54] = .throw .overflow ∧ parseU 32 [49, 101, 51] = .ok 1000 ∧ parseU 32 [49, 46, 53] = .throw .invalidArg := by
  decide
example : UIntText [49, 101, 43, 51] 1000 := .exp [49] [51] 101 true (by decide) (by decide) (by decide) (by decide) (by decide)

/-! ## C25: signed parsing -/

theorem cast_min_unsigned {b : Nat} (hb : 1 ≤ b) :
    (IntTy.mk b false).cast (IntTy.mk b true).min = ((2 ^ (b - 1) : Nat) : Int) := by
  simp only [IntTy.cast, IntTy.min, Bool.false_eq_true, if_false, if_true]
  rw [two_pow_succ_pred hb]
  have p := Nat.pow_pos (n := b - 1) (show 0 < 2 by omega)
  rw [← Int.add_emod_right, Int.emod_eq_of_lt] <;> omega

/-- What `parse<signed>` does once the magnitude has been parsed to `n`. -/
theorem parseS_eq {bits : Nat} (hb : 8 ≤ bits) {s : List Nat} {n : Nat}
    (h : parseU bits (takeMinus s).2 = .ok n) (hn : n < 2 ^ bits) :
    parseS bits s =
      if (takeMinus s).1 then (if n ≤ 2 ^ (bits - 1) then .ok (-(n : Int)) else .throw .overflow)
      else (if n < 2 ^ (bits - 1) then .ok (n : Int) else .throw .overflow) := by
  unfold parseS
  rcases hm : takeMinus s with ⟨neg, s'⟩
  rw [hm] at h
  simp only at h ⊢
  rw [h]
  simp only [Res.bind_ok]
  have hov : isOverflow ⟨bits, true⟩ ⟨bits, false⟩ (n : Int) = true ↔ ¬ (IntTy.mk bits true).Has n := by
    refine isOverflow_iff hb hb ?_
    rw [IntTy.has_unsigned]; omega
  rw [IntTy.has_signed] at hov
  rw [cast_min_unsigned (by omega)]
  have p := Nat.pow_pos (n := bits - 1) (show 0 < 2 by omega)
  by_cases hlt : n < 2 ^ (bits - 1)
  · have hc : (IntTy.mk bits true).cast (n : Int) = n := IntTy.cast_signed (by omega) (by omega)
    have hno : ¬ isOverflow ⟨bits, true⟩ ⟨bits, false⟩ (n : Int) = true := by rw [hov]; omega
    rw [if_neg hno, hc]
    have hd : decide ((n : Int) = ((2 ^ (bits - 1) : Nat) : Int)) = false := by
      rw [decide_eq_false_iff_not]; omega
    rw [hd, Bool.and_false, if_neg (by simp)]
    cases neg
    · simp [hlt]
    · simp only [if_true]
      rw [if_pos (IntTy.has_signed.2 (by omega)), if_pos (by omega)]
  · have hyes : isOverflow ⟨bits, true⟩ ⟨bits, false⟩ (n : Int) = true := by rw [hov]; omega
    rw [if_pos hyes]
    cases neg
    · simp [hlt]
    · simp only [Bool.true_and, if_true, decide_eq_true_eq]
      by_cases he : n = 2 ^ (bits - 1)
      · rw [if_pos (by omega), if_pos (by omega)]
        simp only [IntTy.min, if_true, Res.ok.injEq]
        omega
      · rw [if_neg (by omega), if_neg (by omega)]

theorem UIntText.not_minus {s : List Nat} {v : Nat} (h : UIntText s v) : takeMinus s = (false, s) := by
  have key : ∀ {c : Nat} {t : List Nat}, s = c :: t → c ≠ 45 → takeMinus s = (false, s) := by
    intro c t e hc
    subst e
    unfold takeMinus
    split
    · rename_i heq; simp only [List.cons.injEq] at heq; omega
    · rfl
  cases h with
  | plain _ hds hne =>
    match s, hne with
    | c :: t, _ => exact key rfl (by have := hds.cons.1; omega)
  | point ds k hds =>
    match ds, hds with
    | [], _ => exact key rfl (by omega)
    | c :: t, hds => exact key rfl (by have := hds.cons.1; omega)
  | exp ds es c plus hds _ _ _ hc =>
    match ds, hds with
    | [], _ => exact key rfl (by omega)
    | c :: t, hds => exact key rfl (by have := hds.cons.1; omega)

/-- **C25, the parser.** If the magnitude written in the text fits the unsigned type of the same width (in
    particular, whenever the number is representable), `parse<T>` returns exactly the number written, the most
    negative one included, if `T` can represent it, and raises otherwise.  Missing for the full property: magnitudes
    of `2^bits` and more, which inherit the defect of C24 (`parse_signed_violated`). -/
theorem parse_signed_partial {bits : Nat} (hb : 8 ≤ bits) {s : List Nat} {v : Int} (ht : SIntText s v)
    (hv : v.natAbs < 2 ^ bits) :
    parseS bits s = if (IntTy.mk bits true).min ≤ v ∧ v ≤ (IntTy.mk bits true).max then .ok v else .throw .overflow := by
  simp only [IntTy.min, IntTy.max, if_true]
  cases ht with
  | pos s n h =>
    have hm := h.not_minus
    have hn : n < 2 ^ bits := by omega
    rw [parseS_eq hb (n := n) (by rw [hm]; exact parse_unsigned_exact h hn) hn, hm]
    simp only [Bool.false_eq_true, if_false]
    by_cases hlt : n < 2 ^ (bits - 1)
    · rw [if_pos hlt, if_pos (by omega)]
    · rw [if_neg hlt, if_neg (by omega)]
  | neg s n h =>
    have hn : n < 2 ^ bits := by omega
    have hm : takeMinus (45 :: s) = (true, s) := rfl
    have p := Nat.pow_pos (n := bits - 1) (show 0 < 2 by omega)
    rw [parseS_eq hb (n := n) (by rw [hm]; exact parse_unsigned_exact h hn) hn, hm]
    simp only [if_true]
    by_cases hlt : n ≤ 2 ^ (bits - 1)
    · rw [if_pos hlt, if_pos (by omega)]
    · rw [if_neg hlt, if_neg (by omega)]

/-- **C25, the parser, exactness.** Every representable number, however it is written, parses to itself. -/
theorem parse_signed_exact {bits : Nat} (hb : 8 ≤ bits) {s : List Nat} {v : Int} (ht : SIntText s v)
    (hv : (IntTy.mk bits true).Has v) : parseS bits s = .ok v := by
  have h2 := two_pow_succ_pred (show 1 ≤ bits by omega)
  have hv' := IntTy.has_signed.1 hv
  have p := Nat.pow_pos (n := bits - 1) (show 0 < 2 by omega)
  rw [parse_signed_partial hb ht (by omega)]
  exact if_pos hv

theorem parseU_lt {bits : Nat} {s : List Nat} {n : Nat} (h : parseU bits s = .ok n) : n < 2 ^ bits := by
  obtain ⟨v, _, hr⟩ := parse_unsigned_sound h
  rw [hr]; exact Nat.mod_lt _ (Nat.pow_pos (by omega))

/-- **C25, the parser, soundness.** An accepted string is the text of an integer, congruent to the result modulo
    `2^bits`; the result is a value of the type; and there is no undefined behaviour. -/
theorem parse_signed_sound {bits : Nat} (hb : 8 ≤ bits) (s : List Nat) :
    parseS bits s ≠ .ub ∧ ∀ r, parseS bits s = .ok r →
      (IntTy.mk bits true).Has r ∧ ∃ v, SIntText s v ∧ ((2 ^ bits : Nat) : Int) ∣ v - r := by
  rcases hp : parseU bits (takeMinus s).2 with n | e | _
  · have hn := parseU_lt hp
    rw [parseS_eq hb hp hn]
    obtain ⟨v, hv, hr⟩ := parse_unsigned_sound hp
    have hdvd : ((2 ^ bits : Nat) : Int) ∣ (v : Int) - n := by
      rw [hr]; exact ⟨((v / 2 ^ bits : Nat) : Int), by
        have := congrArg (Nat.cast (R := Int)) (Nat.div_add_mod v (2 ^ bits))
        rw [Nat.cast_add, Nat.cast_mul] at this; omega⟩
    have hs2 : takeMinus s = (true, (takeMinus s).2) ∧ s = 45 :: (takeMinus s).2 ∨ takeMinus s = (false, s) := by
      unfold takeMinus
      split
      · exact .inl ⟨rfl, rfl⟩
      · exact .inr rfl
    rcases hs2 with ⟨h1, h2⟩ | h1
    · rw [h1]
      simp only [if_true]
      split_ifs with hle
      · refine ⟨by simp, fun r hrr => ?_⟩
        simp only [Res.ok.injEq] at hrr
        subst hrr
        refine ⟨IntTy.has_signed.2 ?_, -(v : Int), ?_, ?_⟩
        · have p := Nat.pow_pos (n := bits - 1) (show 0 < 2 by omega)
          omega
        · rw [h2]; exact .neg _ _ hv
        · obtain ⟨k, hk⟩ := hdvd
          exact ⟨-k, by rw [Int.mul_neg, ← hk]; ring⟩
      · exact ⟨by simp, fun r hrr => by simp at hrr⟩
    · rw [h1]
      rw [h1] at hv
      simp only [Bool.false_eq_true, if_false]
      split_ifs with hle
      · refine ⟨by simp, fun r hrr => ?_⟩
        simp only [Res.ok.injEq] at hrr
        subst hrr
        exact ⟨IntTy.has_signed.2 (by omega), v, .pos _ _ hv, hdvd⟩
      · exact ⟨by simp, fun r hrr => by simp at hrr⟩
  · have : parseS bits s = .throw e := by
      unfold parseS
      rcases hm : takeMinus s with ⟨neg, s'⟩
      rw [hm] at hp
      simp only at hp ⊢
      rw [hp]; rfl
    rw [this]; simp
  · exfalso
    generalize (takeMinus s).2 = t at hp
    match t, hp with
    | [], hp => simp [parseU] at hp
    | c :: t, hp => exact parseULoop_no_ub hp

/-- **C25 is violated** for the parser: `"511"`-like strings (decimal text of `2^(bits+1) - 1 + …`) — concretely, for
    `int8`, `"300"` is accepted as 44 and `"-300"` as -44. -/
theorem parse_signed_violated :
    SIntText [51, 48, 48] 300 ∧ parseS 8 [51, 48, 48] = .ok 44 ∧
    SIntText [45, 51, 48, 48] (-300) ∧ parseS 8 [45, 51, 48, 48] = .ok (-44) := by
  refine ⟨?_, by decide, ?_, by decide⟩
  · exact .pos _ 300 (.plain [51, 48, 48] (by decide) (by decide))
  · exact .neg _ 300 (.plain [51, 48, 48] (by decide) (by decide))

/-! ### The string → signed integer assignment -/

theorem mask_test {v k : Nat} (hk : k ≤ 64) (hv : v < 2 ^ 64) :
    v &&& (2 ^ 64 - 1 - (2 ^ k - 1)) ≠ 0 ↔ 2 ^ k ≤ v := by
  have hm : (2:Nat) ^ 64 - 1 - (2 ^ k - 1) = 2 ^ k * (2 ^ (64 - k) - 1) := by
    have e : (2:Nat) ^ 64 = 2 ^ k * 2 ^ (64 - k) := by rw [← Nat.pow_add]; congr 1; omega
    have p := Nat.pow_pos (n := k) (show 0 < 2 by omega)
    rw [e, Nat.mul_sub, Nat.mul_one]; omega
  rw [hm]
  constructor
  · intro h
    by_contra hlt
    apply h
    apply Nat.eq_of_testBit_eq
    intro i
    rw [Nat.testBit_and, Nat.testBit_two_pow_mul, Nat.zero_testBit]
    by_cases hi : i ≥ k
    · rw [Nat.testBit_lt_two_pow (Nat.lt_of_lt_of_le (Nat.lt_of_not_le hlt) (Nat.pow_le_pow_right (by omega) hi))]
      simp
    · simp [hi]
  · intro h h0
    have h1 : (v &&& 2 ^ k * (2 ^ (64 - k) - 1)) >>> k = 0 >>> k := by rw [h0]
    rw [Nat.shiftRight_and_distrib, Nat.zero_shiftRight, Nat.shiftRight_eq_div_pow, Nat.shiftRight_eq_div_pow,
      Nat.mul_div_cancel_left _ (Nat.pow_pos (by omega)), Nat.and_two_pow_sub_one_eq_mod, Nat.mod_eq_of_lt] at h1
    · have := (Nat.div_eq_zero_iff_lt (Nat.pow_pos (by omega))).1 h1
      omega
    · rw [Nat.div_lt_iff_lt_mul (Nat.pow_pos (by omega)), ← Nat.pow_add]
      rw [show 64 - k + k = 64 by omega]; exact hv

theorem overflowCheck_eq {bits v : Nat} {neg : Bool} (hb : 1 ≤ bits) (hb64 : bits < 64) (hv : v < 2 ^ 64) :
    overflowCheck bits v neg = .ok (if neg then decide (2 ^ (bits - 1) < v) else decide (2 ^ (bits - 1) ≤ v)) := by
  unfold overflowCheck
  have p := Nat.pow_pos (n := bits - 1) (show 0 < 2 by omega)
  have hmax : (IntTy.mk bits true).max.toNat = 2 ^ (bits - 1) - 1 := by
    simp only [IntTy.max, if_true]; omega
  have hmask := mask_test (k := bits - 1) (by omega) hv
  simp only [hmax]
  rw [show decide (v &&& 2 ^ 64 - 1 - (2 ^ (bits - 1) - 1) ≠ 0) = decide (2 ^ (bits - 1) ≤ v) from
    decide_eq_decide.2 hmask]
  cases neg
  · simp
  · simp only [if_true, IntTy.min]
    have hle : (2:Nat) ^ (bits - 1) ≤ 2 ^ 62 := Nat.pow_le_pow_right (by omega) (by omega)
    have h62 : (2:Nat) ^ 62 = 4611686018427387904 := by decide
    rw [i64_ok (by omega) (by omega)]
    simp only [Res.bind_ok, Res.pure_eq, Int.neg_neg]
    by_cases he : v = 2 ^ (bits - 1)
    · rw [if_pos (by omega)]
      congr 1
      symm; rw [decide_eq_false_iff_not]; omega
    · rw [if_neg (by omega)]
      congr 1
      rw [decide_eq_decide]; omega

/-- **C25, assignment of strings to `int8`/`int16`/`int32`** (any signed type narrower than 64 bits): after
    trimming white space, a number whose magnitude fits 64 bits is stored exactly if representable and raises
    otherwise.  Missing: magnitudes of `2^64` and more (defect of C24). -/
theorem string_to_signed_partial {bits : Nat} (hb : 8 ≤ bits) (hb64 : bits < 64) {s : List Nat} {v : Int}
    (ht : SIntText (trim s) v) (hv : v.natAbs < 2 ^ 64) :
    stringToSigned bits s =
      if (IntTy.mk bits true).min ≤ v ∧ v ≤ (IntTy.mk bits true).max then .ok v else .throw .overflow := by
  unfold stringToSigned
  simp only [IntTy.min, IntTy.max, if_true]
  generalize trim s = s' at ht
  have hle : (2:Nat) ^ (bits - 1) ≤ 2 ^ 62 := Nat.pow_le_pow_right (by omega) (by omega)
  have h62 : (2:Nat) ^ 62 = 4611686018427387904 := by decide
  have h63 : (2:Nat) ^ 63 = 9223372036854775808 := by decide
  have p := Nat.pow_pos (n := bits - 1) (show 0 < 2 by omega)
  cases ht with
  | pos s' n h =>
    have hn : n < 2 ^ 64 := by omega
    rw [h.not_minus]
    simp only
    rw [parse_unsigned_exact h hn]
    simp only [Res.bind_ok]
    rw [overflowCheck_eq (by omega) hb64 hn]
    simp only [Res.bind_ok, Bool.false_eq_true, if_false, decide_eq_true_eq]
    by_cases hlt : 2 ^ (bits - 1) ≤ n
    · rw [if_pos hlt, if_neg (by omega)]
    · rw [if_neg hlt, if_pos (by omega), IntTy.cast_signed (by omega) (by omega)]; rfl
  | neg s' n h =>
    have hn : n < 2 ^ 64 := by omega
    simp only [takeMinus]
    rw [parse_unsigned_exact h hn]
    simp only [Res.bind_ok]
    rw [overflowCheck_eq (by omega) hb64 hn]
    simp only [Res.bind_ok, if_true, decide_eq_true_eq]
    by_cases hlt : 2 ^ (bits - 1) < n
    · rw [if_pos hlt, if_neg (by omega)]
    · rw [if_neg hlt, if_pos (by omega)]
      have hc : (IntTy.mk 64 true).cast (n : Int) = n :=
        IntTy.cast_signed (by omega) (by simp only [show 64 - 1 = 63 from rfl, h63]; omega)
      rw [hc, i64_ok (by omega) (by omega)]
      simp only [Res.bind_ok, Res.pure_eq, Res.ok.injEq]
      exact IntTy.cast_signed (by omega) (by omega)

/-- **C25, assignment of strings to `int64`, non-negative numbers.** -/
theorem string_to_int64_nonneg_partial {s : List Nat} {n : Nat} (ht : UIntText (trim s) n) (hv : n < 2 ^ 64) :
    stringToSigned 64 s = if n < 2 ^ 63 then .ok (n : Int) else .throw .overflow := by
  unfold stringToSigned
  simp only
  generalize trim s = s' at ht
  rw [ht.not_minus]
  simp only
  rw [parse_unsigned_exact ht hv]
  simp only [Res.bind_ok]
  have hmask := mask_test (k := 63) (by omega) hv
  have hmax : (IntTy.mk 64 true).max.toNat = 2 ^ 63 - 1 := by decide
  unfold overflowCheck
  simp only [hmax, Bool.false_eq_true, if_false, Res.bind_ok, Res.pure_eq, decide_eq_true_eq]
  by_cases hlt : 2 ^ 63 ≤ n
  · rw [if_pos (hmask.2 hlt), if_neg (by omega)]
  · rw [if_neg (by rw [hmask]; exact hlt), if_pos (by omega), IntTy.cast_signed (by omega)]
    simp only [show 64 - 1 = 63 from rfl]; omega

/-- **C25 is violated for `int64`:** assigning any negative number written in a string evaluates
    `-static_cast<int64_t>(INT64_MIN)`, a signed overflow. -/
theorem string_to_int64_violated {s s' : List Nat} {n : Nat} (ht : trim s = 45 :: s') (hs : UIntText s' n)
    (hv : n < 2 ^ 64) : stringToSigned 64 s = .ub := by
  unfold stringToSigned
  simp only
  rw [ht]
  simp only [takeMinus]
  rw [parse_unsigned_exact hs hv]
  have : overflowCheck 64 n true = .ub := by
    have hi : i64 (-(IntTy.mk 64 true).min) = .ub := by decide
    unfold overflowCheck
    simp only [if_true, hi]
    rfl
  simp only [Res.bind_ok, this]
  rfl

/-- `trim` removes exactly the surrounding white space. -/
theorem trim_spec (l m r : List Nat) (hl : ∀ c ∈ l, isSpace c = true) (hr : ∀ c ∈ r, isSpace c = true)
    (hm : ∀ c, m.head? = some c → isSpace c = false) (hm2 : ∀ c, m.getLast? = some c → isSpace c = false)
    (hne : m ≠ []) : trim (l ++ m ++ r) = m := by
  have drop : ∀ (a b : List Nat), (∀ c ∈ a, isSpace c = true) → (∀ c, b.head? = some c → isSpace c = false) →
      trimLeft (a ++ b) = b := by
    intro a
    induction a with
    | nil =>
      intro b _ hb
      match b, hb with
      | [], _ => rfl
      | c :: t, hb => simp [trimLeft, hb c rfl]
    | cons c t ih =>
      intro b ha hb
      simp only [List.cons_append, trimLeft]
      rw [if_pos (ha c (by simp)), ih b (fun x hx => ha x (by simp [hx])) hb]
  unfold trim
  have e : (l ++ m ++ r).reverse = r.reverse ++ (m.reverse ++ l.reverse) := by simp
  rw [e, drop r.reverse _ (by intro c hc; exact hr c (by simpa using hc))]
  · rw [show (m.reverse ++ l.reverse).reverse = l ++ m by simp]
    exact drop l m hl hm
  · intro c hc
    match hmr : m.reverse with
    | [] => simp at hmr; exact absurd hmr hne
    | d :: t =>
      rw [hmr] at hc
      simp only [List.cons_append, List.head?_cons, Option.some.injEq] at hc
      subst hc
      apply hm2
      rw [← List.head?_reverse, hmr]; rfl

example : stringToSigned 8 [32, 45, 49, 50, 56, 10] = .ok (-128) ∧ stringToSigned 8 [45, 49, 50, 57] = .throw .overflow ∧
    stringToSigned 8 [49, 50, 55] = .ok 127 ∧ stringToSigned 8 [49, 50, 56] = .throw .overflow ∧
    stringToSigned 64 [45, 49] = .ub := by decide

/-! ## C26: printing and parsing back -/

theorem printInt_text (x : Int) : SIntText (printInt x) x := by
  obtain ⟨h1, h2, h3⟩ := decDigits_spec x.natAbs
  have ht : UIntText (decDigits x.natAbs) x.natAbs := by
    have := UIntText.plain _ h1 h2
    rwa [h3] at this
  unfold printInt
  split_ifs with h
  · have e : x = -((x.natAbs : Nat) : Int) := by omega
    rw [e]
    simp only [Int.natAbs_neg, Int.natAbs_natCast]
    exact .neg _ _ ht
  · have e : x = ((x.natAbs : Nat) : Int) := by omega
    rw [e]
    simp only [Int.natAbs_natCast]
    exact .pos _ _ ht

/-- **C26.** For every builtin integer type and every value of it, printing the value in decimal and parsing the
    text back as that type returns the value. -/
theorem print_parse_int (t : IntTy) (ht : t.Valid) (x : Int) (hx : t.Has x) : parseInt t (printInt x) = .ok x := by
  obtain ⟨b, sg⟩ := t
  simp only [IntTy.Valid] at ht
  unfold parseInt
  cases sg
  · have h := IntTy.has_unsigned.1 hx
    simp only [Bool.false_eq_true, if_false]
    obtain ⟨h1, h2, h3⟩ := decDigits_spec x.natAbs
    have htx := UIntText.plain _ h1 h2
    rw [h3] at htx
    have hp : printInt x = decDigits x.natAbs := by unfold printInt; rw [if_neg (by omega)]
    rw [hp, parse_unsigned_exact htx (by omega)]
    simp only [Res.map_ok, Res.ok.injEq]; omega
  · simp only [if_true]
    exact parse_signed_exact ht (printInt_text x) hx

/-- The printed text contains no white space, so the assignment path (which trims) sees it unchanged;
    together with `string_to_signed_partial` this gives the round trip through string assignment. -/
theorem print_assign_int {bits : Nat} (hb : 8 ≤ bits) (hb64 : bits < 64) (x : Int)
    (hx : (IntTy.mk bits true).Has x) : stringToSigned bits (printInt x) = .ok x := by
  have htrim : trim (printInt x) = printInt x := by
    obtain ⟨h1, h2, _⟩ := decDigits_spec x.natAbs
    have hns : ∀ c ∈ printInt x, isSpace c = false := by
      intro c hc
      unfold printInt at hc
      split_ifs at hc
      · simp only [List.mem_cons] at hc
        rcases hc with rfl | hc
        · decide
        · have := h1 c hc
          simp [isSpace]; omega
      · have := h1 c hc
        simp [isSpace]; omega
    have := trim_spec [] (printInt x) [] (by simp) (by simp) (fun c hc => hns c (List.mem_of_head? hc))
      (fun c hc => hns c (List.mem_of_getLast? hc)) (by unfold printInt; split_ifs <;> simp [h2])
    simpa using this
  have hs := IntTy.has_signed.1 hx
  have hle : (2:Nat) ^ (bits - 1) ≤ 2 ^ 62 := Nat.pow_le_pow_right (by omega) (by omega)
  have h62 : (2:Nat) ^ 62 = 4611686018427387904 := by decide
  have h64 : (2:Nat) ^ 64 = 18446744073709551616 := by decide
  rw [string_to_signed_partial hb hb64 (v := x) (by rw [htrim]; exact printInt_text x) (by omega)]
  exact if_pos hx

example : printInt (-128) = [45, 49, 50, 56] ∧ printInt 0 = [48] ∧ printInt 1205 = [49, 50, 48, 53] := by
  simp [printInt, decDigits]
example : parseInt ⟨64, true⟩ (printInt i64Min) = .ok i64Min :=
  print_parse_int ⟨64, true⟩ (by decide) _ (by decide)

end Dynd
