import Verif.Model.Bool1
/-
Truth values (C113).
-/
namespace Dynd

/-! ### Specification -/

/-- What an operation does to a truth value: `none` where it has no truth value as its result (`true + true`, `false - true`) or
    no meaning (a division by `false`). -/
def truthOp (x : Bool) : B1Op → Option Bool
  | .assign b => some b
  | .plus => some x
  | .minus => some x
  | .not => some !x
  | .compl => some !x
  | .land y => some (x && y ≠ 0)
  | .lor y => some (x || y ≠ 0)
  | .add y => if x && y ≠ 0 then none else some (x || y ≠ 0)
  | .sub y => if !x && y ≠ 0 then none else some (x && y = 0)
  | .mul y => some (x && y ≠ 0)
  | .div y => if y = 0 then none else some x

def truthRun (x : Bool) : List B1Op → Option Bool
  | [] => some x
  | op :: ops => (truthOp x op).bind fun x => truthRun x ops

/-- 1 for true and 0 for false -/
def number (b : Bool) : Int := if b then 1 else 0

/-- The right operands are truth values themselves. -/
def TruthOperand : B1Op → Prop
  | .land y | .lor y | .add y | .sub y | .mul y | .div y => y = 0 ∨ y = 1
  | _ => True

/-! ### Theorems -/

theorem b1Make_eq (b : Bool) : b1Make b = number b := rfl

theorem b1Step_exact (x z : Bool) (op : B1Op) (ho : TruthOperand op) (h : truthOp x op = some z) : b1Step (number x) op = .ok (number z) := by
  cases op with
  | assign b => cases b <;> cases z <;> simp_all [truthOp, b1Step, b1Make, number]
  | plus => cases x <;> cases z <;> simp_all [truthOp, b1Step, number]
  | minus => cases x <;> cases z <;> simp_all [truthOp, b1Step, number]
  | not => cases x <;> cases z <;> simp_all [truthOp, b1Step, b1Make, number]
  | compl => cases x <;> cases z <;> simp_all [truthOp, b1Step, b1Make, number]
  | land y => rcases ho with rfl | rfl <;> cases x <;> cases z <;> simp_all [truthOp, b1Step, b1Make, number]
  | lor y => rcases ho with rfl | rfl <;> cases x <;> cases z <;> simp_all [truthOp, b1Step, b1Make, number]
  | add y => rcases ho with rfl | rfl <;> cases x <;> cases z <;> simp_all [truthOp, b1Step, toChar, number]
  | sub y => rcases ho with rfl | rfl <;> cases x <;> cases z <;> simp_all [truthOp, b1Step, toChar, number]
  | mul y => rcases ho with rfl | rfl <;> cases x <;> cases z <;> simp_all [truthOp, b1Step, toChar, number]
  | div y => rcases ho with rfl | rfl <;> cases x <;> cases z <;> simp_all [truthOp, b1Step, toChar, number]

/-- C113: after any history of operations that have truth values as results the stored byte is that of the truth value. -/
theorem bool1_history_partial (x z : Bool) (ops : List B1Op) (ho : ∀ op ∈ ops, TruthOperand op) (h : truthRun x ops = some z) :
    b1Run (number x) ops = .ok (number z) := by
  induction ops generalizing x with
  | nil => simp only [truthRun, Option.some.injEq] at h; rw [h]; rfl
  | cons op ops ih =>
    rw [truthRun, Option.bind_eq_some_iff] at h
    obtain ⟨y, h1, h2⟩ := h
    rw [b1Run, b1Step_exact x y op (ho op (by simp)) h1]
    exact ih y (fun o h => ho o (List.mem_cons_of_mem _ h)) h2

/-- C113: the arithmetic of truth values is that of 0 and 1. -/
theorem bool1_arith_exact (x y : Bool) : b1Arith (number x) (number y) .add = .ok (number x + number y) ∧
    b1Arith (number x) (number y) .sub = .ok (number x - number y) ∧ b1Arith (number x) (number y) .mul = .ok (number (x && y)) ∧
    (y = true → b1Arith (number x) (number y) .div = .ok (number x)) := by
  cases x <;> cases y <;> simp [b1Arith, number]

/-- C113: comparisons look only at the truth value, also with numbers of any size. -/
theorem bool1_compare_exact (c : B1Cmp) (x y n : Int) :
    b1Cmp c x y = cmpInts c (number (decide (x ≠ 0))) (number (decide (y ≠ 0))) ∧
    b1CmpInt c x n = cmpInts c (number (decide (x ≠ 0))) n ∧ b1IntCmp c n x = cmpInts c n (number (decide (x ≠ 0))) := by
  simp [b1Cmp, b1CmpInt, b1IntCmp, b1Bool, b1Make, number]

/-- C113: a true value is printed as 1, a false one as 0. -/
theorem bool1_print_exact (x : Int) : b1Print x = if x = 0 then 48 else 49 := by
  by_cases h : x = 0 <;> simp [b1Print, b1Bool, h]

/-- C113: truth values are available as optional values. -/
theorem bool1_avail (x : Bool) : b1Avail (number x) = true := by cases x <;> decide

/-- adding `true` again and again -/
theorem bool1_add_true (x : Bool) : ∀ (k : Nat) (m : Int), b1Run m (List.replicate k (.add 1)) = .ok (if k = 0 then m else toChar (m + k)) := by
  intro k
  induction k with
  | zero => intro m; rfl
  | succ k ih =>
    intro m
    rw [List.replicate_succ, b1Run]
    show b1Run (toChar (m + 1)) _ = _
    rw [ih]
    by_cases h : k = 0
    · subst h; simp
    · rw [if_neg h, if_neg (by omega)]
      simp only [toChar]
      congr 1
      omega

/-- C113 violated: `true += true` any number of times below 255: the value is true, equal to `true`, but not the value `true`: the
    sum with `false` is larger than 1, and as an optional value it is missing.  After 255 times it is false. -/
theorem bool1_add_violated (k : Nat) (hk : 0 < k) :
    ∃ m, b1Run (number true) (List.replicate k (.add 1)) = .ok m ∧
      (k < 255 → b1Cmp .eq m (number true) = true ∧ b1Avail m = false ∧ b1Arith m (number false) .add ≠ .ok 1) ∧
      (k = 255 → b1Cmp .eq m (number true) = false ∧ b1Bool m = false) := by
  refine ⟨toChar (1 + k), ?_, fun h => ?_, fun h => ?_⟩
  · rw [bool1_add_true true, if_neg (by omega)]; rfl
  · have e : toChar (1 + k) = (1 + k : Int) ∧ (1 + k : Int) < 128 ∨ toChar (1 + k) = (1 + k : Int) - 256 ∧ 128 ≤ (1 + k : Int) := by
      simp only [toChar]; omega
    refine ⟨?_, ?_, ?_⟩
    · have : toChar (1 + k) ≠ 0 := by omega
      simp [b1Cmp, b1Bool, this, b1Make, number, cmpInts]
    · simp only [b1Avail, decide_eq_false_iff_not]; omega
    · simp only [b1Arith, number, Bool.false_eq_true, if_false, Int.add_zero, ne_eq, Res.ok.injEq]; omega
  · subst h; decide

/-- C113 violated: `false -= true` gives a true value that is missing as an optional value. -/
theorem bool1_sub_violated : b1Step (number false) (.sub (number true)) = .ok (-1) ∧ b1Bool (-1) = true ∧ b1Avail (-1) = false := by decide

/-- C113 violated: a division by `false` is undefined. -/
theorem bool1_div_violated (x : Int) : b1Step x (.div (number false)) = .ub ∧ b1Arith x (number false) .div = .ub := by
  simp [b1Step, b1Arith, number]

/-- a history -/
theorem bool1_history_case : truthRun true [.not, .add 1, .mul 1, .compl, .lor 1, .sub 1] = some false ∧
    ∀ op ∈ [B1Op.not, .add 1, .mul 1, .compl, .lor 1, .sub 1], TruthOperand op := by
  refine ⟨by decide, ?_⟩
  intro op h
  simp only [List.mem_cons, List.not_mem_nil, or_false] at h
  rcases h with rfl | rfl | rfl | rfl | rfl | rfl <;> simp [TruthOperand]

end Dynd
