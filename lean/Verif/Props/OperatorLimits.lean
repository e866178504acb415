/-
C118: what the two-argument operators refuse, and where they fail.
-/
import Verif.Props.OperatorCall

namespace Dynd

/-! ### Nothing to apply the operator to -/

theorem ndim0_elwSS {same : List Nat → Bool} {ret : BTy → BTy → BTy} {tbl : List (Option OEntry)} {a b : Ty}
    (ha : a.ndim = 0) (hb : b.ndim = 0) (h : dispCall (tyMatch same) OEntry.sig [a, b] tbl = .ok .elwSS) :
    ∀ fuel, resolveOp same ret tbl fuel 2 (.kind .any) a b = .ub
  | 0 => rfl
  | fuel + 1 => by
    have anyS : (Ty.kind .any).symbolic = true := by simp [Ty.symbolic]
    simp only [resolveOp]
    rw [h, Res.bind_ok]
    simp only [OEntry.ret, anyS, if_true]
    unfold resolveElw2
    simp only []
    rw [if_neg (by omega : ¬ (2 : Nat) = 1), if_pos anyVariadic, ha, hb, if_pos (by rfl)]
    exact ndim0_elwSS ha hb h fuel

/-- VIOLATION.  An arithmetic operator is called on two values that are no arrays, cannot be missing, and for which
    it is not defined: no exception is thrown; the resolution calls itself without end. -/
theorem arith_undefined_overflow_violation (same : List Nat → Bool) (ret : BTy → BTy → BTy) {ps : List (BTy × BTy)}
    (h0 : ps ≠ []) {a b : Ty} (ha : Concrete a) (hb : Concrete b) (da : ¬ IsDim a) (db : ¬ IsDim b)
    (oa : ∀ t, a ≠ .option t) (ob : ∀ t, b ≠ .option t) (hn : ∀ x y, a = .prim x → b = .prim y → (x, y) ∉ ps) :
    ∃ tbl, makeArith same ps = .ok tbl ∧ ∀ fuel, opCall same ret tbl fuel a b = .ub := by
  refine ⟨_, arith_table same h0, fun fuel => ?_⟩
  unfold opCall
  rw [ndim0_elwSS (not_dim_ndim ha da) (not_dim_ndim hb db) ?_ fuel, Res.bind_ub]
  have : (arithTable ps) = ([.elwDD, .elwSD, .elwDS, .na01, .na1, .na0] ++ numEntries ps) ++ .elwSS :: [] := rfl
  rw [this]
  refine choice_first same ha hb ?_ rfl ⟨da, db⟩
  intro x hx
  rcases List.mem_append.1 hx with hx | hx
  · simp only [List.mem_cons, List.not_mem_nil, or_false] at hx
    rcases hx with rfl | rfl | rfl | rfl | rfl | rfl <;> simp [OHandles, OEntry.builtin, da, db, oa, ob]
  · obtain ⟨p, q, hm, rfl⟩ := mem_numEntries.1 hx
    exact ⟨rfl, fun h => hn p q h.1 h.2 hm⟩

/-- adding a string to a string -/
example (same : List Nat → Bool) : ∃ tbl, makeArith same [(.int .w32, .int .w32)] = .ok tbl ∧
    ∀ fuel, opCall same (fun _ _ => .int .w32) tbl fuel (.leaf .string) (.leaf .string) = .ub :=
  arith_undefined_overflow_violation same _ (by simp) trivial trivial (fun h => h) (fun h => h) (by simp) (by simp) (by simp)

/-- What a comparison is defined for, among values that are no arrays and cannot be missing; `eq`: equality. -/
def CmpDefined (eq : Prop) (a b : Ty) : Prop :=
  (∃ x y, a = .prim x ∧ b = .prim y ∧ CmpPair eq x y) ∨ (a = .leaf .string ∧ b = .leaf .string) ∨
  (eq ∧ ((∃ ts v us w, a = .tuple ts v ∧ b = .tuple us w) ∨ (∃ ns ts v ms us w, a = .struct ns ts v ∧ b = .struct ms us w) ∨
    (a = .leaf .typeT ∧ b = .leaf .typeT) ∨ (a = .leaf (.bytes 1) ∧ b = .leaf (.bytes 1))))

theorem dispCall_none {T F : Type} {m : T → T → Bool} {sig : F → List T} {args : List T} {l : List F}
    (h : ∀ x ∈ l, supercedes m args (sig x) = false) : dispCall m sig args (l.map some) = .throw .outOfRange := by
  have := dispCall_skip l [] h
  rw [List.append_nil] at this
  rw [this]; rfl

theorem cmp_reject {same : List Nat → Bool} {ret : BTy → BTy → BTy} {eq : Prop} {tbl : List OEntry}
    (hm : ∀ e, e ∈ tbl ↔ InCmp eq e) {a b : Ty} (ha : Concrete a) (hb : Concrete b) (da : ¬ IsDim a) (db : ¬ IsDim b)
    (oa : ∀ t, a ≠ .option t) (ob : ∀ t, b ≠ .option t) (hn : ¬ CmpDefined eq a b) (fuel : Nat) :
    opCall same ret (tbl.map some) (fuel + 1) a b = .throw .outOfRange := by
  unfold opCall
  simp only [resolveOp]
  rw [dispCall_none]
  · rfl
  · intro x hx
    have hi := (hm x).1 hx
    refine oHandles_false same (inCmp_builtin hi) ha hb (fun hh => ?_)
    cases x <;> simp only [OHandles] at hh
    case num x y => exact hn (.inl ⟨x, y, hh.1, hh.2, hi⟩)
    case na0 => obtain ⟨t, h⟩ := hh; exact oa t h
    case na1 => obtain ⟨t, h⟩ := hh; exact ob t h
    case na01 => obtain ⟨⟨t, h⟩, _⟩ := hh; exact oa t h
    case elwDS => exact da hh.1
    case elwSD => exact db hh.2
    case elwDD => exact da hh.1
    case elwSS => exact hi
    case elwDO => exact da hh.1
    case elwOD => exact db hh.2
    case strStr => exact hn (.inr (.inl hh))
    case tupTup =>
      obtain ⟨⟨ts, v, h1⟩, us, w, h2⟩ := hh
      exact hn (.inr (.inr ⟨hi, .inl ⟨ts, v, us, w, h1, h2⟩⟩))
    case structStruct =>
      obtain ⟨⟨ns, ts, v, h1⟩, ms, us, w, h2⟩ := hh
      exact hn (.inr (.inr ⟨hi, .inr (.inl ⟨ns, ts, v, ms, us, w, h1, h2⟩)⟩))
    case typeType => exact hn (.inr (.inr ⟨hi, .inr (.inr (.inl hh))⟩))
    case bytesBytes => exact hn (.inr (.inr ⟨hi, .inr (.inr (.inr hh))⟩))

/-- Comparing two values that are no arrays, cannot be missing and for which the comparison is not defined throws. -/
theorem compare_undefined_rejected (same : List Nat → Bool) (ret : BTy → BTy → BTy) :
    (∃ tbl, makeLess same = .ok tbl ∧ ∀ a b, Concrete a → Concrete b → ¬ IsDim a → ¬ IsDim b →
      (∀ t, a ≠ .option t) → (∀ t, b ≠ .option t) → ¬ CmpDefined False a b →
      ∀ fuel, opCall same ret tbl (fuel + 1) a b = .throw .outOfRange) ∧
    (∃ tbl, makeEqual same = .ok tbl ∧ ∀ a b, Concrete a → Concrete b → ¬ IsDim a → ¬ IsDim b →
      (∀ t, a ≠ .option t) → (∀ t, b ≠ .option t) → ¬ CmpDefined True a b →
      ∀ fuel, opCall same ret tbl (fuel + 1) a b = .throw .outOfRange) := by
  obtain ⟨t1, e1, m1, _⟩ := less_table same
  obtain ⟨t2, e2, m2, _⟩ := eq_table same
  exact ⟨⟨_, e1, fun a b ha hb da db oa ob hn fuel => cmp_reject m1 ha hb da db oa ob hn fuel⟩,
    ⟨_, e2, fun a b ha hb da db oa ob hn fuel => cmp_reject m2 ha hb da db oa ob hn fuel⟩⟩

/-- a string is not compared with a number, complex numbers have no order -/
example : ¬ CmpDefined True (.leaf .string) (.prim (.int .w32)) ∧
    ¬ CmpDefined False (.prim (.cplx .c64)) (.prim (.cplx .c64)) := by
  simp [CmpDefined, CmpPair, CmpNum]

/-! ### Sizes that do not fit -/

theorem clash_call {same : List Nat → Bool} {ret : BTy → BTy → BTy} {tbl : List (Option OEntry)}
    {nums : BTy → BTy → Prop} {strs recs : Prop} (C : Chooses same tbl nums strs recs) {ea eb : Ty} {n m : Int}
    (ha : Concrete (.fixedDim n ea)) (hb : Concrete (.fixedDim m eb)) (hd : ea.ndim = eb.ndim) (h : n ≠ m) (h1 : n ≠ 1)
    (h2 : m ≠ 1) (fuel : Nat) : opCall same ret tbl (fuel + 1) (.fixedDim n ea) (.fixedDim m eb) = .throw .runtime := by
  obtain ⟨e, he, hc⟩ := C.elw _ _ ha hb (.inl trivial)
  have na : n ≠ -1 := by have := ha.1; omega
  have nb : m ≠ -1 := by have := hb.1; omega
  have e1 : ∀ n (t : Ty), (Ty.fixedDim n t).ndim = t.ndim + 1 := fun _ _ => rfl
  have hm : max (Ty.fixedDim n ea).ndim (Ty.fixedDim m eb).ndim = ea.ndim + 1 := by rw [e1, e1, hd]; omega
  unfold opCall
  rw [resolveOp_elw he hc (by rw [hm]; omega), hm, resolveDims2]
  have hcl : elwClass (.kind .any) (.fixedDim n ea) (.fixedDim m eb) = .ok .ff := by
    simp [elwClass, isVarId, anyVariadic]
  have ia : ∀ (k : Int) (t : Ty), t.ndim = ea.ndim → argInfo (ea.ndim + 1) (.fixedDim k t) = .ok (k == 1, k, t) := by
    intro k t ht
    unfold argInfo
    rw [if_neg (by rw [e1, ht]; omega)]; rfl
  rw [hcl, Res.bind_ok, ia n ea rfl, Res.bind_ok, ia m eb hd.symm, Res.bind_ok, if_pos anyVariadic, Res.bind_ok]
  have f1 : (n == 1) = false := by simpa using h1
  have f2 : (m == 1) = false := by simpa using h2
  have hrs : resSize (n == 1, n, ea) (m == 1, m, eb) = n := by
    simp [resSize, f1, na, h1]
  simp only [hrs]
  rw [if_pos (by simp [sizeClash, f2, nb, na, h, h2])]
  rfl

/-- Two fixed dimensions of different sizes, neither of them 1, are refused. -/
theorem operator_sizes_rejected (same : List Nat → Bool) (ret : BTy → BTy → BTy) {ps : List (BTy × BTy)} (h0 : ps ≠ [])
    {ea eb : Ty} {n m : Int} (ha : Concrete (.fixedDim n ea)) (hb : Concrete (.fixedDim m eb)) (hd : ea.ndim = eb.ndim)
    (h : n ≠ m) (h1 : n ≠ 1) (h2 : m ≠ 1) :
    ∃ ta tl te, makeArith same ps = .ok ta ∧ makeLess same = .ok tl ∧ makeEqual same = .ok te ∧
      ∀ tbl ∈ [ta, tl, te], ∀ fuel, opCall same ret tbl (fuel + 1) (.fixedDim n ea) (.fixedDim m eb) = .throw .runtime := by
  obtain ⟨t1, e1, _, c1⟩ := less_table same
  obtain ⟨t2, e2, _, c2⟩ := eq_table same
  refine ⟨_, _, _, arith_table same h0, e1, e2, fun tbl ht fuel => ?_⟩
  simp only [List.mem_cons, List.not_mem_nil, or_false] at ht
  rcases ht with rfl | rfl | rfl
  · exact clash_call (arith_chooses same ps) ha hb hd h h1 h2 fuel
  · exact clash_call c1 ha hb hd h h1 h2 fuel
  · exact clash_call c2 ha hb hd h h1 h2 fuel

/-- `2 * int32` and `3 * float64` -/
example : Concrete (.fixedDim 2 (.prim (.int .w32))) ∧ Concrete (.fixedDim 3 (.prim (.flt .f64))) ∧
    (Ty.prim (.int .w32)).ndim = (Ty.prim (.flt .f64)).ndim := ⟨⟨by omega, trivial⟩, ⟨by omega, trivial⟩, rfl⟩

/-! ### A variable dimension and a scalar -/

/-- VIOLATION.  `var * int32` and a scalar: the type of the result is `var` but the kernel built is the one that
    writes a fixed dimension, which takes the size and the stride of the result from a `fixed_dim` metadata. -/
theorem var_scalar_violation (same : List Nat → Bool) (ret : BTy → BTy → BTy) {ps : List (BTy × BTy)} {x y : BTy}
    (hp : (x, y) ∈ ps) : ∃ tbl F, makeArith same ps = .ok tbl ∧ ∀ fuel, F ≤ fuel →
      opCall same ret tbl fuel (.varDim (.prim x)) (.prim y) =
        .ok (.mk (.elw .fv false true true false) [.mk (.kern x y) []], .varDim (.prim (ret x y))) := by
  have C := arith_chooses same ps
  refine ⟨_, 2, arith_table same (List.ne_nil_of_mem hp), fun fuel hf => ?_⟩
  obtain ⟨f, rfl⟩ : ∃ f, fuel = f + 2 := ⟨fuel - 2, by omega⟩
  have ca : Concrete (.varDim (.prim x)) := by exact (trivial : Concrete (.prim x))
  obtain ⟨e, he, hc⟩ := C.elw (.varDim (.prim x)) (.prim y) ca trivial (.inl trivial)
  have hm : max (Ty.varDim (.prim x)).ndim (Ty.prim y).ndim = 0 + 1 := rfl
  have anyS : (Ty.kind .any).symbolic = true := by simp [Ty.symbolic]
  have inner : resolveDims2 (resolveOp same ret ((arithTable ps).map some) (f + 1) 2) 0 (.kind .any) (.prim x) (.prim y) =
      .ok ([.kern x y], .prim (ret x y)) := by
    simp only [resolveDims2, resolveOp]
    rw [C.num x y hp, Res.bind_ok]
    simp [anyS, OEntry.ret]
  have hr : resolveOp same ret ((arithTable ps).map some) (f + 2) 2 (.kind .any) (.varDim (.prim x)) (.prim y) =
      .ok (.elw .fv false true true false :: [.kern x y], .varDim (.prim (ret x y))) := by
    rw [resolveOp_elw he hc (by rw [hm]; omega), hm]
    refine (dims2_core (c := .fv) (ba := false) (bb := true) (sa := -1) (sb := 1) (s := 1) ?_ ?_ ?_ ?_ ?_ inner).trans ?_
    · simp [elwClass, isVarId, anyVariadic, varOrOne, otherDim, isFixedId, Ty.ndim]
    · simp [argInfo, dimSizeOf, Ty.ndim]
    · simp [argInfo, Ty.ndim]
    · simp [resSize]
    · simp [sizeClash]
    · simp [isVarId, withRet]
  unfold opCall
  rw [hr, Res.bind_ok]
  have : instO (f + 2) [.elw .fv false true true false, .kern x y] =
      .ok (.mk (.elw .fv false true true false) [.mk (.kern x y) []], []) := by
    simp [instO, instOKids, ONode.arity]
  rw [this, Res.bind_ok, Res.pure_eq]

/-! ### Tuples and structs -/

theorem eq_tuple_step {same : List Nat → Bool} {ret : BTy → BTy → BTy} {tbl : List (Option OEntry)}
    {nums : BTy → BTy → Prop} {strs : Prop} (C : Chooses same tbl nums strs True) {as bs : List Ty}
    (ha : Concrete (.tuple as false)) (hb : Concrete (.tuple bs false)) (f : Nat) :
    resolveOp same ret tbl (f + 1) 2 (.kind .any) (.tuple as false) (.tuple bs false) =
      if as.length > 8 then .ub
      else (resolveFields2 (resolveOp same ret tbl f 1 (.prim .bool)) as bs).bind fun r =>
        .ok (.eqTuple as.length :: r, .prim .bool) := by
  have anyS : (Ty.kind .any).symbolic = true := by simp [Ty.symbolic]
  simp only [resolveOp]
  rw [C.tup trivial as bs ha hb, Res.bind_ok]
  simp only [OEntry.ret, anyS, if_true]
  rfl

/-- VIOLATION.  Comparing tuples of more than eight fields writes behind the end of a buffer. -/
theorem eq_tuple_size_violation (same : List Nat → Bool) (ret : BTy → BTy → BTy) : ∃ tbl, makeEqual same = .ok tbl ∧
    ∀ as bs, Concrete (.tuple as false) → Concrete (.tuple bs false) → 8 < as.length →
      ∀ fuel, opCall same ret tbl fuel (.tuple as false) (.tuple bs false) = .ub := by
  obtain ⟨tbl, e, _, C⟩ := eq_table same
  refine ⟨_, e, fun as bs ha hb h fuel => ?_⟩
  unfold opCall
  cases fuel with
  | zero => rfl
  | succ f => rw [eq_tuple_step C ha hb, if_pos h]; rfl

theorem resolveFields2_short {f : Ty → Ty → Res (List ONode × Ty)} : ∀ (as bs : List Ty),
    (∀ (i : Nat) a b, as[i]? = some a → bs[i]? = some b → ∃ x, f a b = .ok x) → bs.length < as.length →
    resolveFields2 f as bs = .ub
  | [], _, _, h => by simp at h
  | _ :: _, [], _, _ => rfl
  | a :: as, b :: bs, h, hl => by
    obtain ⟨x, hx⟩ := h 0 a b rfl rfl
    rw [resolveFields2, hx, Res.bind_ok,
      resolveFields2_short as bs (fun i a b h1 h2 => h (i + 1) a b h1 h2) (by simpa using hl)]
    rfl

/-- VIOLATION.  The second tuple is shorter: its fields are read behind their end instead of an exception being
    thrown or `false` being returned. -/
theorem eq_tuple_short_violation (same : List Nat → Bool) : ∃ tbl, makeEqual same = .ok tbl ∧
    ∀ xs ys : List BTy, ys.length < xs.length →
      (∀ (i : Nat) x y, xs[i]? = some x → ys[i]? = some y → CmpPair True x y) →
      ∀ fuel, opCall same (fun _ _ => .bool) tbl fuel (.tuple (xs.map .prim) false) (.tuple (ys.map .prim) false) = .ub := by
  obtain ⟨tbl, e, _, C⟩ := eq_table same
  refine ⟨_, e, fun xs ys hl h fuel => ?_⟩
  have conc : ∀ zs : List BTy, ConcreteAll (zs.map .prim) := by
    intro zs
    induction zs with
    | nil => trivial
    | cons z zs ih => exact ⟨trivial, ih⟩
  unfold opCall
  cases fuel with
  | zero => rfl
  | succ f =>
    rw [eq_tuple_step C ⟨rfl, conc xs⟩ ⟨rfl, conc ys⟩]
    split
    · rfl
    · cases f with
      | zero =>
        have : resolveFields2 (resolveOp same (fun _ _ => .bool) (tbl.map some) 0 1 (.prim .bool)) (xs.map .prim) (ys.map .prim) = .ub := by
          cases xs with
          | nil => simp at hl
          | cons x xs => cases ys <;> rfl
        rw [this]; rfl
      | succ f =>
        rw [resolveFields2_short]
        · rfl
        · intro i a b h1 h2
          rw [List.getElem?_map] at h1 h2
          cases hx : xs[i]? with
          | none => rw [hx] at h1; cases h1
          | some x =>
            cases hy : ys[i]? with
            | none => rw [hy] at h2; cases h2
            | some y =>
              rw [hx] at h1; rw [hy] at h2
              cases h1; cases h2
              refine ⟨([.kern x y], .prim .bool), ?_⟩
              simp only [resolveOp]
              rw [C.num x y (h i x y hx hy), Res.bind_ok]
              simp [Ty.symbolic]
        · simpa using hl

/-- VIOLATION.  Fields that can be missing: the kernel that forwards a missing value stores the marker of a missing
    `bool` into the plain `bool` the tuples are compared with. -/
theorem eq_tuple_missing_violation (same : List Nat → Bool) : ∃ tbl, makeEqual same = .ok tbl ∧ ∀ fuel, 3 ≤ fuel →
    opCall same (fun _ _ => .bool) tbl fuel (.tuple [.option (.prim (.int .w32))] false) (.tuple [.option (.prim (.int .w32))] false) =
      .ok (.mk (.eqTuple 1) [.mk (.forwardNa true true) [.mk (.kern (.int .w32) (.int .w32)) [],
        .mk (.isNa (.prim (.int .w32))) [], .mk (.isNa (.prim (.int .w32))) [], .mk (.assignNa (.prim .bool)) []]], .prim .bool) := by
  obtain ⟨tbl, e, _, C⟩ := eq_table same
  refine ⟨_, e, fun fuel hf => ?_⟩
  obtain ⟨f, rfl⟩ : ∃ f, fuel = f + 3 := ⟨fuel - 3, by omega⟩
  have co : Concrete (.option (.prim (.int .w32))) := ⟨trivial, by simp, by simp⟩
  have ct : Concrete (.tuple [.option (.prim (.int .w32))] false) := ⟨rfl, co, trivial⟩
  have hv : HasNa (.prim (.int .w32)) := by simp [HasNa]
  have hb : HasNa (.prim .bool) := by simp [HasNa]
  have bS : (Ty.prim .bool).symbolic = false := by simp [Ty.symbolic]
  have e2 : resolveOp same (fun _ _ => .bool) (tbl.map some) (f + 1) 2 (.prim .bool) (.prim (.int .w32)) (.prim (.int .w32)) =
      .ok ([.kern (.int .w32) (.int .w32)], .prim .bool) := by
    simp only [resolveOp]
    rw [C.num _ _ (.inl ⟨by simp [CmpNum], by simp [CmpNum]⟩), Res.bind_ok]
    simp [bS]
  have e1 : resolveOp same (fun _ _ => .bool) (tbl.map some) (f + 2) 1 (.prim .bool) (.option (.prim (.int .w32))) (.option (.prim (.int .w32))) =
      .ok (.forwardNa true true :: ([.kern (.int .w32) (.int .w32)] ++ [.isNa (.prim (.int .w32)), .isNa (.prim (.int .w32)), .assignNa (.prim .bool)]),
        .option (.prim .bool)) := by
    rw [resolveOp, C.na01 _ _ co co, Res.bind_ok]
    simp only [bS, Bool.false_eq_true, if_false]
    rw [e2, Res.bind_ok, isNa_ok hv, Res.bind_ok, Res.bind_ok, assignNa_ok hb, Res.bind_ok, Res.pure_eq]
  unfold opCall
  rw [eq_tuple_step C ct ct, if_neg (by simp), resolveFields2, e1, Res.bind_ok]
  rfl

/-- VIOLATION.  Only the second tuple has an array as a field: the comparison of the fields is passed a single
    argument, sees no dimension and calls itself without end. -/
theorem eq_tuple_dim_violation (same : List Nat → Bool) (ret : BTy → BTy → BTy) : ∃ tbl, makeEqual same = .ok tbl ∧
    ∀ a b, Concrete a → Concrete b → ¬ IsDim a → IsDim b →
      ∀ fuel, opCall same ret tbl fuel (.tuple [a] false) (.tuple [b] false) = .ub := by
  obtain ⟨tbl, e, _, C⟩ := eq_table same
  refine ⟨_, e, fun a b ha hb da db fuel => ?_⟩
  have bS : (Ty.prim .bool).symbolic = false := by simp [Ty.symbolic]
  have bV : (Ty.prim .bool).variadicDims = false := by simp [Ty.variadicDims]
  obtain ⟨x, hx, hc⟩ := C.elw a b ha hb (.inr db)
  have loop : ∀ f, resolveOp same ret (tbl.map some) f 1 (.prim .bool) a b = .ub := by
    intro f
    induction f with
    | zero => rfl
    | succ f ih =>
      simp only [resolveOp]
      rw [hc, Res.bind_ok]
      have : resolveElw2 (resolveOp same ret (tbl.map some) f 1) 1 (.prim .bool) a b = .ub := by
        unfold resolveElw2
        simp only []
        rw [if_pos trivial, if_neg (by simp [bV]), not_dim_ndim ha da, if_neg (by simp),
          if_pos (by rfl)]
        exact ih
      cases x <;> first | exact Bool.noConfusion hx | (simp only [bS, Bool.false_eq_true, if_false]; exact this)
  unfold opCall
  cases fuel with
  | zero => rfl
  | succ f =>
    have ca : Concrete (.tuple [a] false) := ⟨rfl, ha, trivial⟩
    have cb : Concrete (.tuple [b] false) := ⟨rfl, hb, trivial⟩
    rw [eq_tuple_step C ca cb]
    split
    · rfl
    · rw [resolveFields2, loop]; rfl

/-- VIOLATION.  Structs are compared field by field by position: the field names are not looked at. -/
theorem eq_struct_names_violation (same : List Nat → Bool) : ∃ tbl, makeEqual same = .ok tbl ∧
    ∀ (n m : String) (x y : BTy), CmpPair True x y → ∀ fuel, 2 ≤ fuel →
      opCall same (fun _ _ => .bool) tbl fuel (.struct [n] [.prim x] false) (.struct [m] [.prim y] false) =
        .ok (.mk (.eqStruct 1) [.mk (.kern x y) []], .prim .bool) := by
  obtain ⟨tbl, e, _, C⟩ := eq_table same
  refine ⟨_, e, fun n m x y h fuel hf => ?_⟩
  obtain ⟨f, rfl⟩ : ∃ f, fuel = f + 2 := ⟨fuel - 2, by omega⟩
  have anyS : (Ty.kind .any).symbolic = true := by simp [Ty.symbolic]
  have e1 : resolveOp same (fun _ _ => .bool) (tbl.map some) (f + 1) 1 (.prim .bool) (.prim x) (.prim y) =
      .ok ([.kern x y], .prim .bool) := by
    simp only [resolveOp]
    rw [C.num x y h, Res.bind_ok]
    simp [Ty.symbolic]
  have ca : Concrete (.struct [n] [.prim x] false) := ⟨rfl, rfl, trivial, trivial⟩
  have cb : Concrete (.struct [m] [.prim y] false) := ⟨rfl, rfl, trivial, trivial⟩
  unfold opCall
  rw [resolveOp, C.stru trivial _ _ _ _ ca cb, Res.bind_ok]
  simp only [OEntry.ret, anyS, if_true]
  rw [if_neg (by simp), resolveFields2, e1, Res.bind_ok]
  rfl

/-! ### Adding an overload -/

theorem d1Idx_prefix (es : List (List Nat)) : ∀ (js done : List Nat), ∃ X, d1Idx es done js = done ++ X
  | [], done => ⟨[], by simp [d1Idx]⟩
  | i :: js, done => by
    have pp : ∀ (es done : List Nat), ∃ X, pushNew done es = done ++ X := by
      intro es
      induction es with
      | nil => intro done; exact ⟨[], by simp [pushNew]⟩
      | cons j es ih =>
        intro done
        rw [pushNew]
        split
        · exact ih done
        · obtain ⟨X, h⟩ := ih (done ++ [j]); exact ⟨j :: X, by rw [h]; simp⟩
    rw [d1Idx]
    split
    · exact d1Idx_prefix es js done
    · obtain ⟨Y, hY⟩ := pp (es.getD i []) done
      obtain ⟨X, hX⟩ := d1Idx_prefix es js (pushNew done (es.getD i []) ++ [i])
      exact ⟨Y ++ [i] ++ X, by rw [hX, hY]; simp⟩

/-- VIOLATION.  Adding an overload for two strings to an arithmetic operator (`overload`) re-sorts the table so that
    afterwards the operator no longer works on values that can be missing: the resolution calls itself without end. -/
theorem arith_overload_violation (same : List Nat → Bool) (ret : BTy → BTy → BTy) {ps : List (BTy × BTy)} (h0 : ps ≠ []) :
    ∃ t0 tbl, makeArith same ps = .ok t0 ∧ opInsert same t0 [.strStr] = .ok tbl ∧
      ∀ a b, Concrete a → Concrete b → ¬ IsDim a → ¬ IsDim b → ((∃ t, a = .option t) ∨ ∃ t, b = .option t) →
        ∀ fuel, opCall same ret tbl fuel a b = .ub := by
  obtain ⟨T, hT⟩ : ∃ T, T = arithTable ps ++ [OEntry.strStr] := ⟨_, rfl⟩
  have hmem : ∀ e ∈ T, (∃ x y, e = .num x y) ∨ e ∈ [OEntry.elwDD, .elwSD, .elwDS, .na01, .na1, .na0, .elwSS, .strStr] := by
    intro e he
    rw [hT, arithTable] at he
    simp only [List.mem_append, List.mem_cons, List.not_mem_nil, or_false] at he ⊢
    rcases he with (((h | h | h | h | h | h) | h) | h) | h
    case inl.inl.inr => obtain ⟨x, y, _, e⟩ := mem_numEntries.1 h; exact .inl ⟨x, y, e⟩
    all_goals simp [h]
  have hB : ∀ e ∈ T, e.builtin = true := by
    intro e he
    rcases hmem e he with ⟨x, y, rfl⟩ | h
    · rfl
    · simp only [List.mem_cons, List.not_mem_nil, or_false] at h
      rcases h with rfl | rfl | rfl | rfl | rfl | rfl | rfl | rfl <;> rfl
  have hT0 : T ≠ [] := by rw [hT]; simp
  obtain ⟨es, hl, hd, hE, e⟩ := d1_dispAssign (ch := (arithTable ps).map some) hT0
    (oamb_resolved same hB (fun _ _ => by rw [hT, arithTable]; simp)) (o_depthOne same hB)
  have hget : ∀ i, i < 6 → T[i]? = [OEntry.elwDD, .elwSD, .elwDS, .na01, .na1, .na0][i]? := by
    intro i hi
    rw [hT, arithTable, List.append_assoc, List.append_assoc, List.getElem?_append_left (by simpa using hi)]
  have hlater : ∀ i e, 6 ≤ i → T[i]? = some e → (∃ x y, e = .num x y) ∨ e = .elwSS ∨ e = .strStr := by
    intro i e hi h
    rw [hT, arithTable, List.append_assoc, List.append_assoc, List.getElem?_append_right (by simpa using hi)] at h
    have := List.mem_of_getElem? h
    simp only [List.mem_append, List.mem_cons, List.not_mem_nil, or_false] at this
    rcases this with h | h | h
    · obtain ⟨x, y, _, e⟩ := mem_numEntries.1 h; exact .inl ⟨x, y, e⟩
    · exact .inr (.inl h)
    · exact .inr (.inr h)
  -- the first six are finished before the others
  have hlen : ∃ r, T.length = 6 + r := ⟨T.length - 6, by
    have : 6 ≤ T.length := by rw [hT, arithTable]; simp
    omega⟩
  obtain ⟨r, hr⟩ := hlen
  obtain ⟨X, hX⟩ := d1Idx_prefix es ((List.range r).map (6 + ·)) (d1Idx es [] (List.range 6))
  have hall : d1Idx es [] (List.range T.length) = d1Idx es [] (List.range 6) ++ X := by
    rw [hr, List.range_add, d1Idx_append, hX]
  have hnd : (d1Idx es [] (List.range 6) ++ X).Nodup := by
    rw [← hall]; exact nodup_d1Idx hd _ _ (by simp)
  have h6 : ∀ i, i < 6 → i ∈ d1Idx es [] (List.range 6) := fun i hi =>
    (mem_d1Idx (List.range 6) []).1 (.inr (by simpa using hi))
  have hX6 : ∀ i ∈ X, 6 ≤ i := by
    intro i hi
    rcases Nat.lt_or_ge i 6 with h | h
    · exact absurd rfl ((List.nodup_append.1 hnd).2.2 i (h6 i h) i hi)
    · exact h
  have hd6 : ∀ i ∈ d1Idx es [] (List.range 6), i < 6 := by
    intro i hi
    rcases (mem_d1Idx (List.range 6) []).2 hi with h | h | ⟨k, hk, h⟩
    · simp at h
    · simpa using h
    · have hk : k < 6 := by simpa using hk
      obtain ⟨u, v, hu, hv, he⟩ := (hE k i).1 h
      have hu' := hB u (List.mem_of_getElem? hu)
      have hv' := hB v (List.mem_of_getElem? hv)
      rcases Nat.lt_or_ge i 6 with h | h
      · exact h
      · exfalso
        rw [oedge_eq same hu' hv'] at he
        rw [hget k hk] at hu
        have hu : u ∈ [OEntry.elwDD, .elwSD, .elwDS, .na01, .na1, .na0] := List.mem_of_getElem? hu
        simp only [List.mem_cons, List.not_mem_nil, or_false] at hu
        rcases hlater i v h hv with ⟨x, y, rfl⟩ | rfl | rfl <;> rcases hu with rfl | rfl | rfl | rfl | rfl | rfl <;> cases he
  have hS : ∃ s ∈ X, T[s]? = some .elwSS := by
    have : OEntry.elwSS ∈ T := by rw [hT, arithTable]; simp
    obtain ⟨s, hs⟩ := List.mem_iff_getElem?.1 this
    have hsl : s < T.length := by
      rcases Nat.lt_or_ge s T.length with h | h
      · exact h
      · rw [List.getElem?_eq_none h] at hs; cases hs
    have hm : s ∈ d1Idx es [] (List.range T.length) := (mem_d1Idx _ []).1 (.inr (by simpa using hsl))
    rw [hall] at hm
    rcases List.mem_append.1 hm with h | h
    · exfalso
      have := hd6 s h
      rw [hget s this] at hs
      have := List.mem_of_getElem? hs
      simp at this
    · exact ⟨s, h, hs⟩
  have hin : opInsert same ((arithTable ps).map some) [.strStr] = .ok ((d1Idx es [] (List.range T.length)).reverse.map fun i => T[i]?) := by
    unfold opInsert
    rw [if_pos (by simp), filterMap_some, ← hT, e]
  refine ⟨_, _, arith_table same h0, hin, fun a b ha hb da db ho fuel => ?_⟩
  unfold opCall
  rw [ndim0_elwSS (not_dim_ndim ha da) (not_dim_ndim hb db) ?_ fuel, Res.bind_ub]
  rw [hall, List.reverse_append, List.map_append]
  have pre : ∀ (l : List Nat) (R : List (Option OEntry)), (∀ i ∈ l, ∃ e, T[i]? = some e ∧ ((∃ x y, e = .num x y) ∨ e = .elwSS ∨ e = .strStr)) →
      (∃ s ∈ l, T[s]? = some .elwSS) → dispCall (tyMatch same) OEntry.sig [a, b] ((l.map fun i => T[i]?) ++ R) = .ok .elwSS := by
    intro l R
    induction l with
    | nil => intro _ h; obtain ⟨s, hs, _⟩ := h; simp at hs
    | cons i l ih =>
      intro h1 h2
      obtain ⟨x, hx, hk⟩ := h1 i (by simp)
      have hxb := hB x (List.mem_of_getElem? hx)
      rw [List.map_cons, List.cons_append, hx, dispCall]
      have no : ¬ OHandles x a b → dispCall (tyMatch same) OEntry.sig [a, b] ((l.map fun i => T[i]?) ++ R) = .ok .elwSS →
          (if supercedes (tyMatch same) [a, b] x.sig = true then Res.ok x
            else dispCall (tyMatch same) OEntry.sig [a, b] ((l.map fun i => T[i]?) ++ R)) = .ok .elwSS := by
        intro hn hr
        rw [oHandles_false same hxb ha hb hn]
        exact hr
      have rest : x ≠ .elwSS → dispCall (tyMatch same) OEntry.sig [a, b] ((l.map fun i => T[i]?) ++ R) = .ok .elwSS := by
        intro hne
        refine ih (fun j hj => h1 j (by simp [hj])) ?_
        obtain ⟨s, hs, hss⟩ := h2
        rcases List.mem_cons.1 hs with rfl | hs
        · rw [hx] at hss; cases hss; exact absurd rfl hne
        · exact ⟨s, hs, hss⟩
      rcases hk with ⟨p, q, rfl⟩ | rfl | rfl
      · refine no ?_ (rest (by simp))
        rintro ⟨rfl, rfl⟩
        simp at ho
      · rw [if_pos ((oHandles_iff same (e := .elwSS) rfl ha hb).2 ⟨da, db⟩)]
      · refine no ?_ (rest (by simp))
        rintro ⟨rfl, rfl⟩
        simp at ho
  refine pre X.reverse _ ?_ ?_
  · intro i hi
    have hi : i ∈ X := by simpa using hi
    have hlt : i < T.length := by
      have : i ∈ d1Idx es [] (List.range T.length) := by rw [hall]; simp [hi]
      rcases (mem_d1Idx _ []).2 this with h | h | ⟨k, hk, h⟩
      · simp at h
      · simpa using h
      · obtain ⟨u, v, _, hv, _⟩ := (hE k i).1 h
        rcases Nat.lt_or_ge i T.length with h | h
        · exact h
        · rw [List.getElem?_eq_none h] at hv; cases hv
    exact ⟨T[i], List.getElem?_eq_getElem hlt, hlater i _ (hX6 i hi) (List.getElem?_eq_getElem hlt)⟩
  · obtain ⟨s, hs, h⟩ := hS
    exact ⟨s, by simpa using hs, h⟩

/-! ### Examples -/

/-- `3 * ?int32` plus `int32`: the hypotheses of the call theorem are met. -/
example : OpOK (fun _ _ => .int .w32) (fun x y => (x, y) ∈ [(BTy.int .w32, BTy.int .w32)]) False False
    (.mk (.elw .ff false true false false) [.mk (.forwardNa true false)
      [.mk (.kern (.int .w32) (.int .w32)) [], .mk (.isNa (.prim (.int .w32))) [], .mk (.assignNa (.prim (.int .w32))) []]])
    (.fixedDim 3 (.option (.prim (.int .w32)))) (.fixedDim 3 (.option (.prim (.int .w32)))) (.prim (.int .w32)) :=
  .repeatR _ _ _ _ 3 (by simp [Ty.ndim]) (by simp)
    (.na0 _ _ _ _ (.num _ _ (by simp)) (fun h => h) (by simp) (by simp [HasNa]) (by simp [HasNa]))

/-- `var * int32` plus `4 * int64`, and tuples of a string and a number compared -/
example : OpOK (fun _ _ => .int .w64) (fun x y => (x, y) ∈ [(BTy.int .w32, BTy.int .w64)]) False False
    (.mk (.elw .fv false false true false) [.mk (.kern (.int .w32) (.int .w64)) []])
    (.fixedDim 4 (.prim (.int .w64))) (.varDim (.prim (.int .w32))) (.fixedDim 4 (.prim (.int .w64))) ∧
  OpOK (fun _ _ => .bool) (CmpPair True) True True
    (.mk (.eqTuple 2) [.mk .eqStr [], .mk (.kern (.int .w32) (.flt .f64)) []])
    (.prim .bool) (.tuple [.leaf .string, .prim (.int .w32)] false) (.tuple [.leaf .string, .prim (.flt .f64)] false) := by
  refine ⟨.dims _ _ _ _ _ _ none (some 4) _ _ (.var _) (.fixed _ _) rfl (.varFixed 4 (by omega)) (.num _ _ (by simp)),
    .cmp _ _ _ (.tup [.leaf .string, .prim (.int .w32)] [.leaf .string, .prim (.flt .f64)] [_, _] trivial rfl rfl (by simp) ?_) (by simp)⟩
  intro i a b k h1 h2 h3
  match i with
  | 0 => simp at h1 h2 h3; subst h1 h2 h3; exact .str trivial
  | 1 => simp at h1 h2 h3; subst h1 h2 h3; exact .num _ _ trivial (.inl ⟨by simp [CmpNum], .inr rfl⟩)
  | i + 2 => exact absurd h1 (by simp)

end Dynd
