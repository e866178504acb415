/-
C131: the theorems about `nd::limits::max` and `nd::limits::min`.
-/
import Verif.Model.LimitsCall
import Verif.Props.NaCallProps
import Verif.Props.Ieee

namespace Dynd

/-! ### Specification -/

/-- The types that have limits, with the number of bits of an integer type. -/
inductive LimTy : BTy → Prop
  | int (w : Wd) : w ≠ .w128 → LimTy (.int w)
  | uint (w : Wd) : w ≠ .w128 → LimTy (.uint w)
  | f32 : LimTy (.flt .f32)
  | f64 : LimTy (.flt .f64)

/-- the format of a floating-point type -/
def limFmt : FW → Fmt
  | .f32 => Fmt.single
  | _ => Fmt.double

/-- The finite values of a type. -/
def ValueOf : BTy → LimVal → Prop
  | .int w, .int n => -(2 ^ (8 * w.size - 1)) ≤ n ∧ n < 2 ^ (8 * w.size - 1)
  | .uint w, .int n => 0 ≤ n ∧ n < 2 ^ (8 * w.size)
  | .flt f, .bits b => b < 2 ^ (limFmt f).size ∧ (limFmt f).IsFinite b
  | _, _ => False

/-- The order of the values: that of the numbers. -/
def ValLe : BTy → LimVal → LimVal → Prop
  | .flt f, .bits a, .bits b => (limFmt f).val a ≤ (limFmt f).val b
  | _, .int a, .int b => a ≤ b
  | _, _, _ => False

/-! ### Floating-point numbers -/

theorem mag_le (F : Fmt) (hw : 2 ≤ F.w) {b : Nat} (hf : F.IsFinite b) :
    F.mag b ≤ (2 ^ (F.m + 1) - 1) * 2 ^ (F.expMax - 2) := by
  have hp : 0 < 2 ^ F.m := Nat.pow_pos (by omega)
  have hs : F.sig b < 2 ^ F.m := Nat.mod_lt _ hp
  have he : F.ex b < 2 ^ F.w := Nat.mod_lt _ (Nat.pow_pos (by omega))
  have hne : F.ex b ≠ F.expMax := hf
  have h2 : 2 ^ (F.m + 1) = 2 * 2 ^ F.m := by rw [Nat.pow_succ]; omega
  have hx : F.expMax = 2 ^ F.w - 1 := rfl
  unfold Fmt.mag
  by_cases h0 : F.ex b = 0
  · rw [if_pos h0]
    have h1 : 1 ≤ 2 ^ (F.expMax - 2) := Nat.one_le_two_pow
    calc F.sig b ≤ 2 ^ (F.m + 1) - 1 := by omega
      _ = (2 ^ (F.m + 1) - 1) * 1 := by omega
      _ ≤ _ := Nat.mul_le_mul_left _ h1
  · rw [if_neg h0]
    exact Nat.mul_le_mul (by omega) (Nat.pow_le_pow_right (by omega) (by omega))

theorem val_le_of_smag (F : Fmt) {a b : Nat} (h : F.smag a ≤ F.smag b) : F.val a ≤ F.val b := by
  unfold Fmt.val
  have : (F.smag a : ℚ) ≤ F.smag b := by exact_mod_cast h
  exact div_le_div_of_nonneg_right this (by positivity)

theorem smag_le (F : Fmt) (b : Nat) : -(F.mag b : Int) ≤ F.smag b ∧ F.smag b ≤ F.mag b := by
  unfold Fmt.smag
  split_ifs <;> constructor <;> omega

theorem float_limits (F : Fmt) (hw : 2 ≤ F.w) {hi lo : Nat}
    (h1 : F.smag hi = ((2 ^ (F.m + 1) - 1) * 2 ^ (F.expMax - 2) : Nat))
    (h2 : F.smag lo = -((2 ^ (F.m + 1) - 1) * 2 ^ (F.expMax - 2) : Nat)) {b : Nat} (hf : F.IsFinite b) :
    F.val b ≤ F.val hi ∧ F.val lo ≤ F.val b := by
  have h := mag_le F hw hf
  have h' := smag_le F b
  constructor
  · exact val_le_of_smag F (by rw [h1]; omega)
  · exact val_le_of_smag F (by rw [h2]; omega)

theorem single_limits : ∀ {b : Nat}, Fmt.single.IsFinite b →
    Fmt.single.val b ≤ Fmt.single.val 0x7f7fffff ∧ Fmt.single.val 0xff7fffff ≤ Fmt.single.val b :=
  fun hf => float_limits Fmt.single (by decide) (by decide +kernel) (by decide +kernel) hf

theorem double_limits : ∀ {b : Nat}, Fmt.double.IsFinite b →
    Fmt.double.val b ≤ Fmt.double.val 0x7fefffffffffffff ∧ Fmt.double.val 0xffefffffffffffff ≤ Fmt.double.val b :=
  fun hf => float_limits Fmt.double (by decide) (by decide +kernel) (by decide +kernel) hf

/-! ### The limits -/

/-- C131: what `max` writes is the greatest finite value of the type. -/
theorem limit_max_greatest {T : BTy} (h : LimTy T) : ValueOf T (limitMax T) ∧ ∀ v, ValueOf T v → ValLe T v (limitMax T) := by
  cases h with
  | int w hw =>
    cases w <;> first | exact absurd rfl hw | skip
    all_goals
      refine ⟨by simp [ValueOf, limitMax, Wd.size], ?_⟩
      intro v hv
      cases v with
      | int n => simp only [ValueOf, Wd.size] at hv; simp only [ValLe, limitMax, Wd.size]; omega
      | bits b => exact hv.elim
  | uint w hw =>
    cases w <;> first | exact absurd rfl hw | skip
    all_goals
      refine ⟨by simp [ValueOf, limitMax, Wd.size], ?_⟩
      intro v hv
      cases v with
      | int n => simp only [ValueOf, Wd.size] at hv; simp only [ValLe, limitMax, Wd.size]; omega
      | bits b => exact hv.elim
  | f32 =>
    refine ⟨⟨by decide, (show Fmt.single.ex 0x7f7fffff ≠ Fmt.single.expMax by decide +kernel)⟩, ?_⟩
    intro v hv
    cases v with
    | int n => exact hv.elim
    | bits b => exact (single_limits hv.2).1
  | f64 =>
    refine ⟨⟨by decide, (show Fmt.double.ex 0x7fefffffffffffff ≠ Fmt.double.expMax by decide +kernel)⟩, ?_⟩
    intro v hv
    cases v with
    | int n => exact hv.elim
    | bits b => exact (double_limits hv.2).1

/-- C131: what `min` writes is the least finite value of the type. -/
theorem limit_min_least {T : BTy} (h : LimTy T) : ValueOf T (limitMin T) ∧ ∀ v, ValueOf T v → ValLe T (limitMin T) v := by
  cases h with
  | int w hw =>
    cases w <;> first | exact absurd rfl hw | skip
    all_goals
      refine ⟨by simp [ValueOf, limitMin, Wd.size], ?_⟩
      intro v hv
      cases v with
      | int n => simp only [ValueOf, Wd.size] at hv; simp only [ValLe, limitMin, Wd.size]; omega
      | bits b => exact hv.elim
  | uint w hw =>
    cases w <;> first | exact absurd rfl hw | skip
    all_goals
      refine ⟨by simp [ValueOf, limitMin, Wd.size], ?_⟩
      intro v hv
      cases v with
      | int n => simp only [ValueOf, Wd.size] at hv; simp only [ValLe, limitMin]; omega
      | bits b => exact hv.elim
  | f32 =>
    refine ⟨⟨by decide, (show Fmt.single.ex 0xff7fffff ≠ Fmt.single.expMax by decide +kernel)⟩, ?_⟩
    intro v hv
    cases v with
    | int n => exact hv.elim
    | bits b => exact (single_limits hv.2).2
  | f64 =>
    refine ⟨⟨by decide, (show Fmt.double.ex 0xffefffffffffffff ≠ Fmt.double.expMax by decide +kernel)⟩, ?_⟩
    intro v hv
    cases v with
    | int n => exact hv.elim
    | bits b => exact (double_limits hv.2).2

/-! ### The call -/

theorem limits_table (same : List Nat → Bool) :
    makeLimits same = .ok ((limTypes.reverse.map .num).map some) := by
  have e := uInsert_ok same [] (limTypes.map .num) (by simp [limTypes]) (by
    intro e he
    obtain ⟨t, _, rfl⟩ := List.mem_map.1 (by simpa using he)
    exact ⟨_, rfl, .prim t⟩)
  simp only [makeLimits, uInserts]
  rw [show (List.map some ([] : List UEntry)) = [] from rfl] at e
  rw [e, Res.bind_ok]
  simp [limTypes]

theorem limTy_iff (T : BTy) : LimTy T ↔ T ∈ limTypes.reverse := by
  simp only [limTypes, List.mem_reverse, List.mem_cons, List.not_mem_nil, or_false]
  constructor
  · intro h
    cases h with
    | int w hw => cases w <;> simp_all
    | uint w hw => cases w <;> simp_all
    | f32 => simp
    | f64 => simp
  · rintro (rfl | rfl | rfl | rfl | rfl | rfl | rfl | rfl | rfl | rfl)
    iterate 4 exact .int _ (by simp)
    iterate 4 exact .uint _ (by simp)
    · exact .f32
    · exact .f64

theorem lim_bind (same : List Nat → Bool) {t : Ty} (ht : Concrete t) {kws : List (String × Option NaArg)}
    (hk : kws = [("dst", some (.dst t))] ∨ kws = [("dst_tp", some (.tp t))]) :
    ∃ σ, bindCall (naOps same) limSig [] kws = .ok ⟨[], [], 1, some (.dst t), t, σ⟩ := by
  have hb : bindKwds (naOps same) limSig kws [] none Env.empty = .ok ([], some (.dst t), Env.empty) := by
    rcases hk with rfl | rfl
    · rfl
    · simp [bindKwds, limSig, kwdIndex, naOps, emptyNaArg, concrete_symbolic ht, Res.bind_ok]
  have hlen : kws.length = 1 := by rcases hk with rfl | rfl <;> rfl
  have e0 : (naOps same).noVars = Env.empty := rfl
  obtain ⟨σ, e⟩ := (match_iff_partial same (p := .kind .any) (by simp [CPat]) ht).2
    ⟨Env.empty, (show InKind .any t from trivial)⟩
  refine ⟨σ, ?_⟩
  have hc : checkDst (naOps same) limSig (some (.dst t)) Env.empty = .ok σ := by
    have e' : matchTy same (.kind .any) t Env.empty = .ok (true, σ) := e
    simp only [checkDst, limSig, naOps, NaArg.typeOf, e', Res.bind_ok, if_true]
  unfold bindCall
  rw [e0]
  simp only [limSig, List.length_nil, Nat.lt_irrefl, and_false, if_false, Bool.false_eq_true, checkArgs, Res.bind_ok,
    List.drop_nil, putExtras, Nat.zero_add, List.take_nil, Nat.sub_self, Nat.not_lt_zero, gt_iff_lt, List.replicate]
  simp only [limSig] at hb hc
  rw [hb, Res.bind_ok, hc, Res.bind_ok, hlen]
  rfl

/-- C131: `max` and `min` with a destination `x` of a number type: `x` is afterwards the limit; nothing else is changed;
    with `dst_tp` they return a new array of that type with the limit. -/
theorem limits_call (same : List Nat → Bool) {T : BTy} (h : LimTy T) (lim : BTy → LimVal) (d : Int) (m : UDst LimVal)
    (base : Int) :
    (∃ m', limInto lim same (.prim T) d m = .ok m' ∧ m'.cells d = some (lim T) ∧
      (∀ a, a ≠ d → m'.cells a = m.cells a) ∧ m'.recs = m.recs) ∧
    ∃ m', limNew lim same (.prim T) base = .ok (.prim T, m') ∧ m'.cells base = some (lim T) := by
  have hp := pick_num same T limTypes.reverse ((limTy_iff T).1 h)
  have hc : Concrete (.prim T) := by simp [Concrete]
  obtain ⟨σ, e⟩ := lim_bind same hc (.inl rfl)
  obtain ⟨σ', e'⟩ := lim_bind same hc (.inr rfl)
  refine ⟨⟨{ m with cells := putAt m.cells d (lim T) }, ?_, by simp [putAt], fun a ha => by simp [putAt, ha], rfl⟩,
    ⟨putAt (fun _ => none) base (lim T), fun _ => none, base⟩, ?_, by simp [putAt]⟩
  · simp only [limInto, limResolve, e, Res.bind_ok, limits_table, hp]; rfl
  · simp only [limNew, limResolve, e', Res.bind_ok, limits_table, hp]; rfl

/-- C131: other types, arrays among them, are refused, and so is a call without a destination. -/
theorem limits_rejected (same : List Nat → Bool) {t : Ty} (ht : Concrete t) (h : ∀ T, LimTy T → t ≠ .prim T)
    (lim : BTy → LimVal) (d : Int) (m : UDst LimVal) (base : Int) :
    limInto lim same t d m = .throw .outOfRange ∧ limNew lim same t base = .throw .outOfRange ∧
    limResolve same [] = .throw .outOfRange := by
  have hp := pick_none same t limTypes.reverse (fun T hT => h T ((limTy_iff T).2 hT))
  have hp' := pick_none same (.kind .any) limTypes.reverse (fun T _ => by simp)
  obtain ⟨σ, e⟩ := lim_bind same ht (.inl rfl)
  obtain ⟨σ', e'⟩ := lim_bind same ht (.inr rfl)
  have e'' : bindCall (naOps same) limSig [] [] = .ok ⟨[], [], 0, none, .kind .any, Env.empty⟩ := rfl
  refine ⟨?_, ?_, ?_⟩
  · simp only [limInto, limResolve, e, Res.bind_ok, limits_table, hp, Res.bind_throw]
  · simp only [limNew, limResolve, e', Res.bind_ok, limits_table, hp, Res.bind_throw]
  · simp only [limResolve, e'', Res.bind_ok, limits_table, hp', Res.bind_throw]

/-! ### Cases -/

example : LimTy (.int .w16) ∧ limitMax (.int .w16) = .int 32767 ∧ limitMin (.int .w16) = .int (-32768) :=
  ⟨.int _ (by simp), rfl, rfl⟩

example : ∀ T, LimTy T → arrTy [some 2] (.prim (.int .w32)) ≠ .prim T := fun T _ h => by cases h

end Dynd
