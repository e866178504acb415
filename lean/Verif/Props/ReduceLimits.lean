/-
C123: sums, least and greatest elements as numbers; what does not hold.
-/
import Verif.Props.ReduceCall
import Verif.Props.StatsProps

namespace Dynd

/-! ### Integers -/

/-- values of an integer type -/
def IVal (t : IntTy) : Type := { x : Int // t.Has x }

/-- two's complement -/
def IVal.enc {t : IntTy} (x : IVal t) : Nat := (x.val % ((2 ^ t.bits : Nat) : Int)).toNat

theorem ival_dec_has {t : IntTy} (hb : 1 ≤ t.bits) (n : Nat) : t.Has (t.cast n) := cast_has t n hb

def IVal.dec {t : IntTy} (hb : 1 ≤ t.bits) (n : Nat) : IVal t := ⟨t.cast n, ival_dec_has hb n⟩

theorem ival_enc_cast {t : IntTy} (x : IVal t) : ((x.enc : Nat) : Int) = x.val % ((2 ^ t.bits : Nat) : Int) := by
  have h : (0 : Int) < ((2 ^ t.bits : Nat) : Int) := by exact_mod_cast Nat.two_pow_pos _
  unfold IVal.enc
  exact Int.toNat_of_nonneg (Int.emod_nonneg _ (by omega))

theorem cast_congr {t : IntTy} (x : Int) : t.cast (x % ((2 ^ t.bits : Nat) : Int)) = t.cast x := by
  unfold IntTy.cast
  split
  · rw [Int.emod_add_emod]
  · rw [Int.emod_emod_of_dvd _ (Int.dvd_refl _)]

theorem ival_dec_enc {t : IntTy} (hb : 1 ≤ t.bits) (x : IVal t) : IVal.dec hb x.enc = x := by
  apply Subtype.ext
  show t.cast _ = x.val
  rw [ival_enc_cast, cast_congr, IntTy.cast_of_has hb x.2]

theorem ival_enc_lt {t : IntTy} (x : IVal t) : x.enc < 2 ^ t.bits := by
  have h : (0 : Int) < ((2 ^ t.bits : Nat) : Int) := by exact_mod_cast Nat.two_pow_pos _
  have := Int.emod_lt_of_pos x.val h
  rw [← ival_enc_cast] at this
  exact_mod_cast this

/-- the scalar kernels on integers: `sum_kernel`, `min_kernel`, `max_kernel` -/
def intStep (t : IntTy) : RedFn → Int → Int → Int
  | .sum, d, s => t.cast (d + s)
  | .min, d, s => minStep d s
  | .max, d, s => maxStep d s
  | .all, d, _ => d

theorem intStep_has {t : IntTy} (hb : 1 ≤ t.bits) (fn : RedFn) {d s : Int} (hd : t.Has d) (hs : t.Has s) :
    t.Has (intStep t fn d s) := by
  cases fn with
  | sum => exact cast_has t _ hb
  | min =>
    show t.Has (if s < d then s else d)
    split <;> assumption
  | max =>
    show t.Has (if s > d then s else d)
    split <;> assumption
  | all => exact hd

def ivalStep {t : IntTy} (hb : 1 ≤ t.bits) (fn : RedFn) (d s : IVal t) : IVal t :=
  ⟨intStep t fn d.val s.val, intStep_has hb fn d.2 s.2⟩

theorem ival_fold {t : IntTy} (hb : 1 ≤ t.bits) (fn : RedFn) {ι : Type} (f : ι → IVal t) : ∀ (l : List ι) (e : IVal t),
    (l.foldl (fun x i => ivalStep hb fn x (f i)) e).val = (l.map fun i => (f i).val).foldl (intStep t fn) e.val
  | [], _ => rfl
  | i :: l, e => by
    rw [List.foldl_cons, ival_fold hb fn f l, List.map_cons, List.foldl_cons]; rfl

theorem sum_fold (t : IntTy) : ∀ (xs : List Int) (e : Int), xs.foldl (intStep t .sum) (t.cast e) = t.cast (e + xs.sum)
  | [], e => by simp
  | x :: xs, e => by
    rw [List.foldl_cons]
    have : intStep t .sum (t.cast e) x = t.cast (e + x) := by
      show t.cast (t.cast e + x) = _
      unfold IntTy.cast
      split
      · congr 1
        rw [show (e + (2 ^ (t.bits - 1) : Nat)) % ((2 ^ t.bits : Nat) : Int) - (2 ^ (t.bits - 1) : Nat) + x + (2 ^ (t.bits - 1) : Nat)
          = (e + (2 ^ (t.bits - 1) : Nat)) % ((2 ^ t.bits : Nat) : Int) + x by ring, Int.emod_add_emod]
        congr 1; ring
      · rw [Int.emod_add_emod]
    rw [this, sum_fold t xs, List.sum_cons]
    congr 1; ring

/-- the integer type of a built-in type -/
def BTy.toInt : BTy → Option IntTy
  | .int w => some ⟨8 * w.size, true⟩
  | .uint w => some ⟨8 * w.size, false⟩
  | _ => none

theorem toInt_width {a : BTy} {t : IntTy} (h : a.toInt = some t) : t.bits = 8 * a.width ∧ 1 ≤ t.bits := by
  cases a <;> simp only [BTy.toInt, Option.some.injEq, reduceCtorEq] at h
  all_goals
    subst h
    rename_i w
    exact ⟨rfl, by cases w <;> simp [Wd.size]⟩

/-- what an accumulation of integers starts from -/
def intStart (t : IntTy) : RedFn → Int
  | .min => t.max
  | .max => t.min
  | _ => 0

theorem intStart_has {t : IntTy} (hb : 1 ≤ t.bits) (fn : RedFn) : t.Has (intStart t fn) := by
  have h : (1 : Int) ≤ (2 ^ (t.bits - 1) : Nat) := by exact_mod_cast Nat.one_le_two_pow
  have h' : (1 : Int) ≤ (2 ^ t.bits : Nat) := by exact_mod_cast Nat.one_le_two_pow
  obtain ⟨b, s⟩ := t
  cases s <;> cases fn <;> simp only [IntTy.Has, intStart, IntTy.min, IntTy.max, if_true, Bool.false_eq_true, if_false] at * <;>
    omega

theorem intStart_bits {a : BTy} {t : IntTy} (ht : a.toInt = some t) {fn : RedFn} (hfn : fn ≠ .all) :
    (IVal.enc (t := t) ⟨intStart t fn, intStart_has (toInt_width ht).2 fn⟩) = startBits fn a := by
  cases a <;> simp only [BTy.toInt, Option.some.injEq, reduceCtorEq] at ht
  all_goals
    subst ht
    rename_i w
    cases fn <;> first | exact absurd rfl hfn | (cases w <;> rfl) | (cases w <;> decide +kernel)

/-- The numbers read from the result of a call on integers at offset `x`. -/
def readInt (t : IntTy) (w : Nat) (mem : Int → Nat) (x : Int) : Int := t.cast (rdBytes mem x w)

/-- The bytes of the result after a call on integers. -/
def intRun {t : IntTy} (hb : 1 ≤ t.bits) (fn : RedFn) (a : BTy) (srcMem : Int → IVal t) (evs : List REv) (mem : Int → Nat) :
    Int → Nat :=
  runBytes a.width IVal.enc (IVal.dec hb) (leBytes (fn.startType a).width (startBits fn a)) (ivalStep hb fn) srcMem evs mem

/-- C123 for integers: `nd::min` and `nd::max` on fixed dimensions store the least and the greatest of the elements that
    belong to a result element (the largest and the smallest number of the type when there are none), `nd::sum` on
    elements of 4 bytes their sum, as long as every partial sum is a number of the type. -/
theorem reduce_int_partial (same : List Nat → Bool) {fn : RedFn} {a : BTy} {t : IntTy} (ht : a.toInt = some t)
    (ha : a ∈ fn.worksOn) (hfn : fn = .sum → a.width = 4) (axes : Option (List Int)) (keep : Bool) (src : Dims) (h0 : src ≠ [])
    (kept : List Bool) (hkept : kept = keptDims axes src.length)
    (shape : List Nat) (hshape : shape = resultShape keep kept (src.map (·.1)))
    (hkeep : keep = true ∨ kept.count true ≤ 1)
    (hne : ∀ (i n : Nat), i + 1 < src.length → kept[i]? = some false → (src.map (·.1))[i]? = some n → 1 ≤ n)
    (hsh : ∀ n ∈ shape.tail, 1 ≤ n) (vd : VarData) (srcMem : Int → IVal t) (mem : Int → Nat) :
    ∃ evs, reduceRun (resolveReduce same fn axes keep (arrTy (src.map fun p => some p.1) (.prim a))) a.width vd
        (fixMetas src) = .ok (arrTy (shape.map some) (.prim a), fixMetas (shape.zip (rowMajor a.width shape)),
          fn.startType a, evs) ∧
      ∀ o ∈ gridIdx shape, ∀ xs : List Int, xs = elemsAt src keep kept (fun p => (srcMem p).val) o →
        ∀ r : Int, r = readInt t a.width (intRun (toInt_width ht).2 fn a srcMem evs mem) (dstOff (rowMajor a.width shape) o) →
        (fn = .sum → PartialSumsFit t xs → r = xs.sum) ∧
        (fn = .min → (xs ≠ [] → r ∈ xs ∧ ∀ x ∈ xs, r ≤ x) ∧ (xs = [] → r = t.max)) ∧
        (fn = .max → (xs ≠ [] → r ∈ xs ∧ ∀ x ∈ xs, x ≤ r) ∧ (xs = [] → r = t.min)) := by
  have hb := (toInt_width ht).2
  have hall : fn ≠ .all := by
    rintro rfl
    simp only [RedFn.worksOn, List.mem_singleton] at ha
    subst ha; cases ht
  have hw : (fn.startType a).width = a.width := by
    cases fn with
    | sum => exact (hfn rfl).symm
    | min => rfl
    | max => rfl
    | all => exact absurd rfl hall
  obtain ⟨evs, h1, h2, -⟩ := reduce_call_partial same ha hw axes keep src h0 kept hkept shape hshape hkeep hne hsh vd
    (enc := IVal.enc (t := t)) (dec := IVal.dec hb) (ival_dec_enc hb)
    (fun x => by
      have := ival_enc_lt x
      rw [(toInt_width ht).1, Nat.pow_mul] at this
      exact this)
    ⟨intStart t fn, intStart_has hb fn⟩ (intStart_bits ht hall) (ivalStep hb fn) srcMem mem
  refine ⟨evs, h1, ?_⟩
  rintro o ho xs hxs r hr
  have hr' : r = xs.foldl (intStep t fn) (intStart t fn) := by
    rw [hr]
    have := congrArg Subtype.val (h2 o ho)
    refine this.trans ((ival_fold hb fn (fun idx => srcMem (dstOff (src.map (·.2)) idx)) _ _).trans ?_)
    rw [hxs]
    rfl
  have hx : ∀ x ∈ xs, t.Has x := by
    intro x hx
    rw [hxs] at hx
    obtain ⟨i, -, rfl⟩ := List.mem_map.1 hx
    exact (srcMem _).2
  refine ⟨?_, ?_, ?_⟩
  · rintro rfl hfit
    have h0' : t.cast 0 = 0 := IntTy.cast_of_has hb (intStart_has hb .sum)
    rw [hr']
    show xs.foldl (intStep t .sum) 0 = _
    rw [← h0', sum_fold, Int.zero_add]
    apply IntTy.cast_of_has hb
    have := hfit xs.length (Nat.le_refl _)
    rwa [List.take_length] at this
  · rintro rfl
    rw [hr']
    exact min_int_exact t xs hx
  · rintro rfl
    rw [hr']
    exact max_int_exact t xs hx

/-- What an accumulation starts from, for the other types: `nd::all` from `true`, `nd::min` on floating point from the
    largest finite number, `nd::max` from the smallest, `nd::sum` from zero. -/
theorem reduce_start_others : startBits .all .bool = 1 ∧ (∀ a, startBits .sum a = 0) ∧
    ∀ F : Fmt, ∀ a, (F = .single ∧ a = .flt .f32 ∨ F = .double ∧ a = .flt .f64) →
      (F.IsFinite (startBits .min a) ∧ ∀ b, F.IsFinite b → F.val b ≤ F.val (startBits .min a)) ∧
      (F.IsFinite (startBits .max a) ∧ ∀ b, F.IsFinite b → F.val (startBits .max a) ≤ F.val b) := by
  have key : ∀ F : Fmt, Std F →
      (F.IsFinite F.maxPat ∧ ∀ b, F.IsFinite b → F.val b ≤ F.val F.maxPat) ∧
      (F.IsFinite F.lowestPat ∧ ∀ b, F.IsFinite b → F.val F.lowestPat ≤ F.val b) := by
    intro F hF
    obtain ⟨a1, a2, a3⟩ := maxPat_spec hF 0 (by omega)
    obtain ⟨b1, b2, b3⟩ := maxPat_spec hF 1 (by omega)
    rw [if_neg (by decide : ¬ (0 : Nat) = 1)] at a3
    rw [if_pos rfl] at b3
    have fin : ∀ b, ¬ F.IsNan b → ¬ F.IsInf b → F.IsFinite b := by
      intro b h1 h2
      rcases decode_cases F b with ⟨h, _⟩ | ⟨_, h, _⟩ | ⟨_, _, h, _⟩
      · exact absurd h h1
      · exact absurd h h2
      · exact h
    refine ⟨⟨fin _ a1 a2, fun b hb => ?_⟩, fin _ b1 b2, fun b hb => ?_⟩
    · exact (val_bounds hF hb).2.trans (le_of_eq a3.symm)
    · exact (le_of_eq b3).trans (val_bounds hF hb).1
  refine ⟨rfl, fun a => rfl, ?_⟩
  rintro F a (⟨rfl, rfl⟩ | ⟨rfl, rfl⟩)
  · exact key _ (by simp [Std])
  · exact key _ (by simp [Std])

/-- The hypotheses are met by the least elements of the rows of a `2 * var * int16` array, with `keepdims`, and by the sum
    of a `2 * 3 * int32` array over its first axis. -/
example (same : List Nat → Bool) (vd : VarData) (srcMem : Int → IVal ⟨16, true⟩) (mem : Int → Nat) :
    ∃ evs dm, reduceRun (resolveReduce same .min (some [1]) true (.fixedDim 2 (.varDim (.prim (.int .w16))))) 2 vd
      [.fixed 2 16, .var 2 0] = .ok (.fixedDim 2 (.fixedDim 1 (.prim (.int .w16))), dm, .int .w16, evs) := by
  obtain ⟨evs, h, -⟩ := reduce_rows_partial same (fn := .min) (a := .int .w16) (by decide) rfl (some [1]) true [(2, 16)]
    (by simp) [true] (by decide) [2, 1] (by decide) (.inl rfl) (by intro i n h; cases i <;> simp at h) (by simp) vd 2
    (enc := IVal.enc (t := ⟨16, true⟩)) (dec := IVal.dec (t := ⟨16, true⟩) (by decide)) (ival_dec_enc _) ival_enc_lt
    ⟨intStart ⟨16, true⟩ .min, intStart_has (by decide) .min⟩ (intStart_bits rfl (by decide)) (ivalStep (by decide) .min) srcMem mem
  exact ⟨evs, _, h⟩

example (same : List Nat → Bool) (vd : VarData) (srcMem : Int → IVal ⟨32, true⟩) (mem : Int → Nat) :
    ∃ evs dm, reduceRun (resolveReduce same .sum (some [0]) false (.fixedDim 2 (.fixedDim 3 (.prim (.int .w32))))) 4 vd
      [.fixed 2 12, .fixed 3 4] = .ok (.fixedDim 3 (.prim (.int .w32)), dm, .int .w32, evs) := by
  obtain ⟨evs, h, -⟩ := reduce_int_partial same (fn := .sum) (a := .int .w32) (t := ⟨32, true⟩) rfl (by decide) (fun _ => rfl)
    (some [0]) false [(2, 12), (3, 4)] (by simp) [false, true] (by decide) [3] (by decide) (.inr (by decide))
    (by
      intro i n hi _ hn
      have : i = 0 := by simp at hi; omega
      subst this; simp at hn; omega) (by simp) vd srcMem mem
  exact ⟨evs, _, h⟩

/-! ### What does not hold -/

theorem leaf_bytes {α β : Type} (w : Nat) (enc : α → Nat) (dec : Nat → α) (hdec : ∀ x, dec (enc x) = x)
    (henc : ∀ x, enc x < 256 ^ w) (st : List Nat) (op : α → β → α) (src : Int → β) (ss : Int) : ∀ (n : Nat) (s : Int) (mem : Int → Nat),
    dec (rdBytes (runBytes w enc dec st op src (leafAcc n 0 0 s ss) mem) 0 w) =
      ((List.range n).map fun j : Nat => src (s + (j : Int) * ss)).foldl op (dec (rdBytes mem 0 w))
  | 0, _, _ => by simp [leafAcc, runBytes]
  | n + 1, s, mem => by
    rw [leafAcc, runBytes, Int.add_zero, leaf_bytes w enc dec hdec henc st op src ss n, rd_wr _ _ _ _ (henc _), hdec,
      List.range_succ_eq_map, List.map_cons, List.foldl_cons, List.map_map]
    congr 1
    · simp
    · apply List.map_congr_left
      intro j _
      simp only [Function.comp]
      congr 1
      push_cast; ring

/-- the run of a complete reduction of one fixed dimension -/
theorem reduce_one (same : List Nat → Bool) {fn : RedFn} {a : BTy} (ha : a ∈ fn.worksOn) (n : Nat) (ss : Int) (vd : VarData) :
    reduceRun (resolveReduce same fn none false (.fixedDim n (.prim a))) a.width vd [.fixed n ss] =
      .ok (.prim a, [], fn.startType a, .init 0 :: leafAcc n 0 0 0 ss) := by
  have := reduce_resolve same ha none false (ds := [some n]) (by simp)
  rw [show arrTy [some n] (.prim a) = .fixedDim n (.prim a) from rfl] at this
  rw [this]; rfl

/-- C123 violated: `nd::sum` of elements of 8 bytes (of type `int64`, `uint64`, `float64`): only the lower half of the
    result is set to zero before the accumulation.  The sum starts from whatever number the upper 4 bytes of the
    memory of the result, which is not initialised, make. -/
theorem reduce_wide_violated {α β : Type} (same : List Nat → Bool) {a : BTy} (ha : a ∈ RedFn.sum.worksOn) (h8 : a.width = 8)
    (n : Nat) (ss : Int) (vd : VarData) (enc : α → Nat) (dec : Nat → α) (hdec : ∀ x, dec (enc x) = x)
    (henc : ∀ x, enc x < 256 ^ 8) (op : α → β → α) (srcMem : Int → β) (mem : Int → Nat) :
    ∃ evs, reduceRun (resolveReduce same .sum none false (.fixedDim n (.prim a))) a.width vd [.fixed n ss] =
        .ok (.prim a, [], .int .w32, evs) ∧
      dec (rdBytes (runBytes a.width enc dec (leBytes (BTy.int .w32).width (startBits .sum a)) op srcMem evs mem) 0 a.width) =
        ((List.range n).map fun j : Nat => srcMem ((j : Int) * ss)).foldl op (dec (2 ^ 32 * rdBytes mem 4 4)) := by
  refine ⟨_, reduce_one same ha n ss vd, ?_⟩
  have e1 : leBytes (BTy.int .w32).width (startBits .sum a) = leBytes 4 0 := rfl
  have e2 : rdBytes (wrBytes mem 0 (leBytes 4 0)) 0 (4 + 4) = 2 ^ 32 * rdBytes mem 4 4 := by
    rw [rd_split, rd_wr 4 0 mem 0 (by decide)]
    rw [rdBytes_congr (m' := mem) 4 (0 + ((4 : Nat) : Int)) (fun x h1 _ => wrBytes_out x _ _ _ (.inr (by
      rw [leBytes_length]; exact h1)))]
    rw [show (0 : Int) + ((4 : Nat) : Int) = 4 from rfl, Nat.zero_add, show (256 : Nat) ^ 4 = 2 ^ 32 by decide]
  rw [h8, e1, runBytes, leaf_bytes 8 enc dec hdec henc, e2]
  simp only [Int.zero_add]

/-- so the sum of `1, 2, 3` of type `int64` is 6 only if the memory happens to be zero -/
example : (BTy.int .w64) ∈ RedFn.sum.worksOn ∧ (BTy.int .w64).width = 8 ∧
    rdBytes (runBytes 8 (fun x : Nat => x % 2 ^ 64) (fun x => x) (leBytes 4 0) (fun x y : Nat => x + y) (fun s : Int => (s / 8).toNat + 1)
      (.init 0 :: leafAcc 3 0 0 0 8) (fun _ => 0)) 0 8 = 6 ∧
    rdBytes (runBytes 8 (fun x : Nat => x % 2 ^ 64) (fun x => x) (leBytes 4 0) (fun x y : Nat => x + y) (fun s : Int => (s / 8).toNat + 1)
      (.init 0 :: leafAcc 3 0 0 0 8) (fun _ => 165)) 0 8 = 6 + 2 ^ 32 * 0xa5a5a5a5 := by decide +kernel

theorem run_keeps {α β : Type} (w : Nat) (enc : α → Nat) (dec : Nat → α) (st : List Nat) (op : α → β → α) (src : Int → β)
    (ss : Int) (x : Int) (hx : (w : Int) ≤ x) : ∀ (n : Nat) (s : Int) (mem : Int → Nat),
    runBytes w enc dec st op src (leafAcc n 0 0 s ss) mem x = mem x
  | 0, _, _ => rfl
  | n + 1, s, mem => by
    rw [leafAcc, runBytes, Int.add_zero, run_keeps w enc dec st op src ss x hx n, wrBytes_out]
    rw [leBytes_length]; omega

/-- C123 violated: `nd::sum` of elements of 1 or 2 bytes writes 4 bytes at every start: the bytes after the result are
    overwritten with zeros, whatever was there. -/
theorem reduce_narrow_violated {α β : Type} (same : List Nat → Bool) {a : BTy} (ha : a ∈ RedFn.sum.worksOn) (h4 : a.width < 4)
    (n : Nat) (ss : Int) (vd : VarData) (enc : α → Nat) (dec : Nat → α) (op : α → β → α) (srcMem : Int → β)
    (mem : Int → Nat) (x : Int) (h1 : (a.width : Int) ≤ x) (h2 : x < 4) :
    ∃ evs, reduceRun (resolveReduce same .sum none false (.fixedDim n (.prim a))) a.width vd [.fixed n ss] =
        .ok (.prim a, [], .int .w32, evs) ∧
      runBytes a.width enc dec (leBytes (BTy.int .w32).width (startBits .sum a)) op srcMem evs mem x = 0 := by
  refine ⟨_, reduce_one same ha n ss vd, ?_⟩
  rw [runBytes, run_keeps _ _ _ _ _ _ _ x h1]
  rw [show leBytes (BTy.int .w32).width (startBits .sum a) = leBytes 4 0 from rfl,
    show leBytes 4 0 = [0, 0, 0, 0] by decide]
  have h0 : 0 ≤ x := by omega
  have h : x = 0 ∨ x = 1 ∨ x = 2 ∨ x = 3 := by omega
  rcases h with rfl | rfl | rfl | rfl <;> rfl

/-- C123 violated: an array with a `var` dimension that is not the last, below any fixed dimensions: the call takes a
    node past the end of the call graph. -/
theorem reduce_outer_var_violated (keep : Bool) (a b : BTy) (st off : Int) (d : Option Nat) (rest : List (Option Nat))
    (sm : List UMeta) : ∀ (bs : List Bool) (src : Dims) (dm : List UMeta), bs.length = src.length + rest.length + 2 →
    instR (redNodes keep bs ((src.map fun p => some p.1) ++ none :: d :: rest) ++ [.kern a, .start b]) dm
      (fixMetas src ++ .var st off :: sm) = .ub
  | [], _, _, h => by simp at h
  | [_], [], _, h => by simp at h
  | b1 :: b2 :: bs, [], dm, _ => by
    simp only [List.map_nil, List.nil_append, redNodes, List.cons_append, fixMetas, Option.isNone]
    rw [instR.eq_def]
  | bb :: bs, (n, ss) :: src, dm, h => by
    have ih := fun dm => reduce_outer_var_violated keep a b st off d rest sm bs src dm (by simp at h; omega)
    simp only [List.map_cons, fixMetas, redNodes, List.cons_append, Option.isNone]
    rw [instR_red]
    have hemp : ((src.map fun p : Nat × Int => some p.1) ++ none :: d :: rest).isEmpty = false := by cases src <;> rfl
    rw [hemp]
    simp only [Bool.false_eq_true, if_false]
    have ih' := ih (if keep then dm.tail else dm)
    simp only [fixMetas] at ih'
    rw [ih']
    have hub : ∀ r : Res Int, (∀ e, r ≠ .throw e) → ∀ f : Int → Res RKern, (∀ v, f v = .ub) → (r >>= f) = .ub := by
      intro r hr f hf
      cases r with
      | ok v => exact hf v
      | ub => rfl
      | throw e => exact absurd rfl (hr e)
    refine hub _ (fun e hx => ?_) _ (fun v => rfl)
    cases bb
    · simp at hx
    · simp only [if_true] at hx
      split at hx <;> simp at hx

/-- C123 violated: a `var` dimension that is kept (the axes do not include it): the result's type says `var`, but its
    record is never filled; the elements are reduced all the same and the number is written over the record's
    first bytes. -/
theorem reduce_kept_var_violated (same : List Nat → Bool) {fn : RedFn} {a : BTy} (ha : a ∈ fn.worksOn) (vd : VarData) (st : Int) :
    reduceRun (resolveReduce same fn (some []) false (.varDim (.prim a))) a.width vd [.var st 0] =
      .ok (.varDim (.prim a), [.var a.width 0], fn.startType a, .init 0 :: leafAcc (vd 0).2 0 0 (vd 0).1 st) := by
  have := reduce_resolve same ha (some []) false (ds := [none]) (by simp)
  rw [show arrTy [none] (.prim a) = .varDim (.prim a) from rfl] at this
  rw [this]; rfl

end Dynd
