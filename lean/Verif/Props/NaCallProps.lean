/-
C130: the theorems about calls of `nd::assign_na`.
-/
import Verif.Model.NaCall
import Verif.Props.RandomProps
import Verif.Props.UnaryCall
import Verif.Props.MatchProps

namespace Dynd

/-! ### The binding -/

theorem cpat_opt_any : CPat (.option (.kind .any)) := by simp [CPat]

theorem namesOk_opt_any : NamesOk (.option (.kind .any)) := by simp [NamesOk]

/-- the destination is bound when it is an option -/
theorem na_bind_dst (same : List Nat → Bool) {t : Ty} (ht : Concrete t) {kws : List (String × Option NaArg)}
    (hk : kws = [("dst", some (.dst t))] ∨ kws = [("dst_tp", some (.tp t))]) :
    ((∃ e, t = .option e) → ∃ σ, bindCall (naOps same) assignNaSig [] kws = .ok ⟨[], [], 1, some (.dst t), t, σ⟩) ∧
    ((¬ ∃ e, t = .option e) → bindCall (naOps same) assignNaSig [] kws = .throw .invalidArg) := by
  have hb : bindKwds (naOps same) assignNaSig kws [] none Env.empty = .ok ([], some (.dst t), Env.empty) := by
    rcases hk with rfl | rfl
    · rfl
    · simp [bindKwds, assignNaSig, kwdIndex, naOps, emptyNaArg, concrete_symbolic ht, Res.bind_ok]
  have hlen : kws.length = 1 := by rcases hk with rfl | rfl <;> rfl
  have hI : (∃ σ, Inst σ (.option (.kind .any)) t) ↔ ∃ e, t = .option e := by
    constructor
    · rintro ⟨σ, h⟩
      obtain ⟨e, he, _⟩ := (show ∃ e, t = .option e ∧ Inst σ (.kind .any) e from h)
      exact ⟨e, he⟩
    · rintro ⟨e, he⟩
      exact ⟨Env.empty, (show ∃ e, t = .option e ∧ Inst Env.empty (.kind .any) e from ⟨e, he, trivial⟩)⟩
  have e0 : (naOps same).noVars = Env.empty := rfl
  constructor
  · intro h
    obtain ⟨σ, e⟩ := (match_iff_partial same cpat_opt_any ht).2 (hI.2 h)
    refine ⟨σ, ?_⟩
    have hc : checkDst (naOps same) assignNaSig (some (.dst t)) Env.empty = .ok σ := by
      have e' : matchTy same (.option (.kind .any)) t Env.empty = .ok (true, σ) := e
      simp only [checkDst, assignNaSig, naOps, NaArg.typeOf, e', Res.bind_ok, if_true]
    unfold bindCall
    rw [e0]
    simp only [assignNaSig, List.length_nil, Nat.lt_irrefl, and_false, if_false, Bool.false_eq_true, checkArgs, Res.bind_ok,
      List.drop_nil, putExtras, Nat.zero_add, List.take_nil, Nat.sub_self, Nat.not_lt_zero, gt_iff_lt, List.replicate]
    simp only [assignNaSig] at hb hc
    rw [hb, Res.bind_ok, hc, Res.bind_ok, hlen]
    rfl
  · intro h
    obtain ⟨σ, e⟩ := (match_false_iff same cpat_opt_any namesOk_opt_any ht).2 (fun h' => h (hI.1 h'))
    have hc : checkDst (naOps same) assignNaSig (some (.dst t)) Env.empty = .throw .invalidArg := by
      have e' : matchTy same (.option (.kind .any)) t Env.empty = .ok (false, σ) := e
      simp only [checkDst, assignNaSig, naOps, NaArg.typeOf, e', Res.bind_ok, Bool.false_eq_true, if_false]
    unfold bindCall
    rw [e0]
    simp only [assignNaSig, List.length_nil, Nat.lt_irrefl, and_false, if_false, Bool.false_eq_true, checkArgs, Res.bind_ok,
      List.drop_nil, putExtras, Nat.zero_add, List.take_nil, Nat.sub_self, Nat.not_lt_zero, gt_iff_lt, List.replicate]
    simp only [assignNaSig] at hb hc
    rw [hb, Res.bind_ok, hc]
    rfl

/-! ### The calls -/

/-- C130: `x.assign_na()` for an optional scalar `x` of a type with a missing value: afterwards the element of `x` is the
    missing value of its type; nothing else is changed. -/
theorem assign_na_scalar {V : Type} (same : List Nat → Bool) (fuel : Nat) (na : Ty → V) {t : Ty} (ht : t ∈ naTypes)
    (d : Int) (m : UDst V) :
    ∃ m', arrAssignNa same (fuel + 1) na (.option t) [] d m = .ok m' ∧ m'.cells d = some (na t) ∧
      (∀ a, a ≠ d → m'.cells a = m.cells a) ∧ m'.recs = m.recs ∧ m'.next = m.next := by
  have hc : Concrete (.option t) := by
    simp only [naTypes, List.mem_cons, List.not_mem_nil, or_false] at ht
    rcases ht with rfl | rfl | rfl | rfl | rfl | rfl | rfl | rfl | rfl | rfl | rfl | rfl | rfl | rfl <;>
      simp [Concrete]
  obtain ⟨σ, e⟩ := (na_bind_dst same hc (.inl rfl)).1 ⟨t, rfl⟩
  refine ⟨{ m with cells := putAt m.cells d (na t) }, ?_, by simp [putAt], fun a ha => by simp [putAt, ha], rfl, rfl⟩
  simp only [arrAssignNa, naResolve, e, Res.bind_ok, is_na_table, resolveNa, na_choice same ht]
  rfl

/-- C130: `is_na` of the result is the test of the missing value of the type, which is true by C33. -/
theorem assign_na_then_is_na {V β : Type} (same : List Nat → Bool) (fuel fuel' : Nat) (na : Ty → V) {t : Ty}
    (ht : t ∈ naTypes) (d : Int) (m : UDst V) (op : UNode → V → β) (base : Int) :
    ∃ m', arrAssignNa same (fuel + 1) na (.option t) [] d m = .ok m' ∧
      ∃ tbl, makeIsNa same = .ok tbl ∧ ∃ dm r,
        unaryRun (resolveU same (fun _ => .bool) tbl (fuel' + 2) (.kind .any) (.option t)) op 1 ⟨m'.cells, m'.recs⟩ [] d base =
          .ok (.prim .bool, dm, r) ∧
        viewArr r.cells r.recs dm base = some (.elem (op (.isNa t) (na t))) := by
  obtain ⟨m', e, h1, _⟩ := assign_na_scalar same fuel na ht d m
  refine ⟨m', e, ?_⟩
  obtain ⟨tbl, h2, dm, r, h3, _, h4⟩ := is_na_call_partial same ht (ds := []) trivial op ⟨m'.cells, m'.recs⟩ .nil
    (s := d) (v := .elem (na t)) (by simp [viewArr, h1]) base fuel'
  exact ⟨tbl, h2, dm, r, h3, h4⟩

/-- C130: `assign_na({}, {{"dst_tp", t}})` makes a new missing value. -/
theorem assign_na_new {V : Type} (same : List Nat → Bool) (fuel : Nat) (na : Ty → V) {t : Ty} (ht : t ∈ naTypes)
    (sz : Nat) (base : Int) :
    ∃ m, newNa same (fuel + 1) na (.option t) sz base = .ok (.option t, [], m) ∧ m.cells base = some (na t) := by
  have hc : Concrete (.option t) := by
    simp only [naTypes, List.mem_cons, List.not_mem_nil, or_false] at ht
    rcases ht with rfl | rfl | rfl | rfl | rfl | rfl | rfl | rfl | rfl | rfl | rfl | rfl | rfl | rfl <;>
      simp [Concrete]
  obtain ⟨σ, e⟩ := (na_bind_dst same hc (.inr rfl)).1 ⟨t, rfl⟩
  refine ⟨⟨putAt (fun _ => none) base (na t), fun _ => none, base + dataSize sz []⟩, ?_, by simp [putAt]⟩
  simp only [newNa, naResolve, e, Res.bind_ok, is_na_table, resolveNa, na_choice same ht]
  rfl

/-- C130: what is not an option is refused. -/
theorem assign_na_rejected {V : Type} (same : List Nat → Bool) (fuel : Nat) (na : Ty → V) {t : Ty} (ht : Concrete t)
    (h : ¬ ∃ e, t = .option e) (dm : List UMeta) (d : Int) (m : UDst V) (sz : Nat) (base : Int) :
    arrAssignNa same fuel na t dm d m = .throw .invalidArg ∧ newNa same fuel na t sz base = .throw .invalidArg := by
  constructor
  · simp only [arrAssignNa, naResolve, (na_bind_dst same ht (.inl rfl)).2 h, Res.bind_throw]
  · simp only [newNa, naResolve, (na_bind_dst same ht (.inr rfl)).2 h, Res.bind_throw]

/-- C130: an option of a type that has no missing value is refused. -/
theorem assign_na_unsupported {V : Type} (same : List Nat → Bool) (fuel : Nat) (na : Ty → V) {el : Ty}
    (hc : Concrete (.option el)) (hn : el ∉ naTypes) (dm : List UMeta) (d : Int) (m : UDst V) (sz : Nat) (base : Int) :
    arrAssignNa same (fuel + 1) na (.option el) dm d m = .throw .outOfRange ∧
    newNa same (fuel + 1) na (.option el) sz base = .throw .outOfRange := by
  have hno : dispCall (tyMatch same) UEntry.sig [.option el]
      ((uTable naEntries (.fixedDimKind (.kind .any)) (.varDim (.kind .any))).map some) = .throw .outOfRange := by
    refine choose_none same na_scalar _ _ hc (fun h => h) ?_
    intro e he p hp
    cases h : uPat p (.option el) with
    | false => rfl
    | true =>
      simp only [naEntries, List.mem_append, List.mem_map, List.mem_singleton] at he
      rcases he with ⟨t, ht, rfl⟩ | rfl
      · simp only [UEntry.sig, List.cons.injEq, and_true] at hp
        subst hp
        have : tyEq t el = true := by
          have ht' := ht
          simp only [naTypes, List.mem_cons, List.not_mem_nil, or_false] at ht'
          rcases ht' with rfl | rfl | rfl | rfl | rfl | rfl | rfl | rfl | rfl | rfl | rfl | rfl | rfl | rfl <;>
            simpa [uPat] using h
        rw [(tyEq_iff _ _).1 this] at ht
        exact absurd ht hn
      · simp only [UEntry.sig, List.cons.injEq, and_true] at hp
        subst hp
        have h2 : ∀ n e, el ≠ .fixedDim n e := fun n e he => hc.2.1 n e he
        cases el <;> simp_all [uPat, Concrete]
  obtain ⟨σ, e⟩ := (na_bind_dst same hc (.inl rfl)).1 ⟨el, rfl⟩
  obtain ⟨σ', e'⟩ := (na_bind_dst same hc (.inr rfl)).1 ⟨el, rfl⟩
  constructor
  · simp only [arrAssignNa, naResolve, e, Res.bind_ok, is_na_table, resolveNa, hno, Res.bind_throw]
  · simp only [newNa, naResolve, e', Res.bind_ok, is_na_table, resolveNa, hno, Res.bind_throw]

/-- C130 is violated for arrays: an array of optional elements is refused, though there are overloads for arrays. -/
theorem assign_na_array_violated {V : Type} (same : List Nat → Bool) (fuel : Nat) (na : Ty → V) {el : Ty}
    (hc : Concrete (.option el)) (p : Option Nat) (ds : List (Option Nat)) (dm : List UMeta) (d : Int) (m : UDst V) (sz : Nat)
    (base : Int) :
    arrAssignNa same fuel na (arrTy (p :: ds) (.option el)) dm d m = .throw .invalidArg ∧
    newNa same fuel na (arrTy (p :: ds) (.option el)) sz base = .throw .invalidArg :=
  assign_na_rejected same fuel na (concrete_arrTy hc _) (by rintro ⟨e, he⟩; cases p <;> cases he) dm d m sz base

/-- C130: without a destination the call is refused. -/
theorem assign_na_no_dst (same : List Nat → Bool) (fuel : Nat) : naResolve same (fuel + 1) [] = .throw .outOfRange := by
  have hb : bindCall (naOps same) assignNaSig [] [] = .ok ⟨[], [], 0, none, .option (.kind .any), Env.empty⟩ := rfl
  have hno : dispCall (tyMatch same) UEntry.sig [.option (.kind .any)]
      ((uTable naEntries (.fixedDimKind (.kind .any)) (.varDim (.kind .any))).map some) = .throw .outOfRange := by
    simp only [uTable, List.map_cons, dispCall]
    rw [sup_u same (e := elwV _) rfl .var, show uPat (.varDim (.kind .any)) (.option (.kind .any)) = false from rfl,
      if_neg (by simp), dispCall_skip]
    · simp only [List.map_cons, dispCall]
      rw [sup_u same (e := elwF _) rfl .fixed, show uPat (.fixedDimKind (.kind .any)) (.option (.kind .any)) = false from rfl,
        if_neg (by simp)]
      rfl
    · intro e he
      have he' : e ∈ naEntries := by simpa using he
      obtain ⟨p, h', hp, _, _⟩ := na_scalar e he'
      rw [sup_u same h' hp]
      simp only [naEntries, naTypes, List.map_cons, List.map_nil, List.cons_append, List.nil_append, List.mem_cons,
        List.not_mem_nil, or_false] at he'
      rcases he' with rfl | rfl | rfl | rfl | rfl | rfl | rfl | rfl | rfl | rfl | rfl | rfl | rfl | rfl | rfl <;>
      · simp only [UEntry.sig, List.cons.injEq, and_true] at h'
        subst h'; rfl
  simp only [naResolve, hb, Res.bind_ok, is_na_table, resolveNa, hno, Res.bind_throw]

/-- C130 is violated for an optional fixed array: only its first element is written. -/
theorem assign_na_option_array_violated {V : Type} (same : List Nat → Bool) (fuel : Nat) (na : Ty → V) (n : Nat)
    (d : Int) (m : UDst V) :
    ∃ m', arrAssignNa same (fuel + 1) na (.option (.fixedDim n (.prim (.int .w32)))) [] d m = .ok m' ∧
      m'.cells d = some (na (.prim (.int .w32))) ∧ ∀ a, a ≠ d → m'.cells a = m.cells a := by
  have hm : ∃ σ, matchTy same (.option (.kind .any)) (.option (.fixedDim n (.prim (.int .w32)))) Env.empty = .ok (true, σ) := by
    unfold matchTy
    split
    · exact ⟨_, rfl⟩
    · exact ⟨Env.empty, by simp [matchTy, matchKind]⟩
  obtain ⟨σ, hm⟩ := hm
  have hb : bindCall (naOps same) assignNaSig [] [("dst", some (.dst (.option (.fixedDim n (.prim (.int .w32))))))] =
      .ok ⟨[], [], 1, some (.dst (.option (.fixedDim n (.prim (.int .w32))))), .option (.fixedDim n (.prim (.int .w32))), σ⟩ := by
    simp [bindCall, assignNaSig, checkArgs, putExtras, bindKwds, kwdIndex, checkDst, fillLeftOut, optionKwdIndices, naOps,
      NaArg.typeOf, hm, Res.bind_ok]
  obtain ⟨e, he, ⟨p, h1, h2⟩, h3⟩ := choose_scalar same na_scalar (.fixedDimKind (.kind .any)) (.varDim (.kind .any))
      (c := .option (.fixedDim n (.prim (.int .w32)))) (by simp [IsDim])
      ⟨.optFixed, by simp [naEntries], _, rfl, rfl⟩
  have : e = .optFixed := by
    simp only [naEntries, List.mem_append, List.mem_map, List.mem_singleton] at he
    rcases he with ⟨t, ht, rfl⟩ | rfl
    · exfalso
      simp only [UEntry.sig, List.cons.injEq, and_true] at h1
      subst h1
      simp only [naTypes, List.mem_cons, List.not_mem_nil, or_false] at ht
      rcases ht with rfl | rfl | rfl | rfl | rfl | rfl | rfl | rfl | rfl | rfl | rfl | rfl | rfl | rfl <;>
        simp [uPat, tyEq] at h2
    · rfl
  subst this
  refine ⟨{ m with cells := putAt m.cells d (na (.prim (.int .w32))) }, ?_, by simp [putAt], fun a ha => by simp [putAt, ha]⟩
  simp only [arrAssignNa, naResolve, hb, Res.bind_ok, is_na_table, resolveNa, h3]
  simp [Ty.ndim, Ty.atDim, naFixedTypes, tyEq, naWrite, inst0, run0, Res.bind_ok]

/-! ### A case -/

/-- A missing value of type `int32` between two other elements; and types the theorems speak of. -/
example : ∃ m', arrAssignNa (V := Int) (fun _ => false) 1 (fun _ => -2147483648) (.option (.prim (.int .w32))) [] 4
      ⟨fun a => if a = 0 then some 1 else if a = 4 then some 2 else if a = 8 then some 3 else none, fun _ => none, 12⟩ = .ok m' ∧
    m'.cells 0 = some 1 ∧ m'.cells 4 = some (-2147483648) ∧ m'.cells 8 = some 3 := by
  obtain ⟨m', e, h1, h2, _⟩ := assign_na_scalar (V := Int) (fun _ => false) 0 (fun _ => -2147483648)
    (t := .prim (.int .w32)) (by simp [naTypes]) 4
    ⟨fun a => if a = 0 then some 1 else if a = 4 then some 2 else if a = 8 then some 3 else none, fun _ => none, 12⟩
  exact ⟨m', e, by rw [h2 0 (by omega)]; rfl, h1, by rw [h2 8 (by omega)]; rfl⟩

example : Concrete (.option (.prim (.uint .w64))) ∧ Ty.prim (.uint .w64) ∉ naTypes := by
  simp [Concrete, naTypes]

end Dynd
