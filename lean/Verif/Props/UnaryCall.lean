/-
C119: the theorems about calls of the functions of one argument.
-/
import Verif.Props.UnaryProps

namespace Dynd

theorem num_choice (same : List Nat → Bool) {ts : List BTy} {a : BTy} (ha : a ∈ ts) (rf rv : Ty) :
    dispCall (tyMatch same) UEntry.sig [.prim a] ((uTable (ts.map .num) rf rv).map some) = .ok (.num a) := by
  obtain ⟨e, he, ⟨p, h1, h2⟩, h3⟩ := choose_scalar same (num_scalar ts) rf rv (c := .prim a) (by simp [IsDim])
    ⟨.num a, List.mem_map.2 ⟨a, ha, rfl⟩, .prim a, rfl, by simp [uPat, tyEq]⟩
  rw [h3]
  obtain ⟨t, _, rfl⟩ := List.mem_map.1 he
  simp only [UEntry.sig, List.cons.injEq, and_true] at h1
  subst h1
  simp only [uPat, tyEq, decide_eq_true_eq] at h2
  rw [h2]

/-- the resolution of a call on an array, once the elements' is known -/
theorem resolve_arr (same : List Nat → Bool) (ret : BTy → BTy) {ss : List UEntry} (hs : ∀ e ∈ ss, e.Scalar) {rf rv : Ty}
    (hf : rf.variadicDims = true ∧ rf.symbolic = true) (hv : rv.variadicDims = true ∧ rv.symbolic = true) {el : Ty}
    (hel : el.ndim = 0) (fuel : Nat) (d : Option Nat) (ds : List (Option Nat)) :
    ∃ dst : Ty, dst.variadicDims = true ∧
      resolveU same ret ((uTable ss rf rv).map some) (fuel + 1) (.kind .any) (arrTy (d :: ds) el) =
        resolveDims1 (resolveU same ret ((uTable ss rf rv).map some) fuel) (.kind .any) (ds.length + 1) dst
          (arrTy (d :: ds) el) := by
  cases d with
  | none =>
    refine ⟨rv, hv.1, ?_⟩
    rw [resolveU, show arrTy (none :: ds) el = .varDim (arrTy ds el) from rfl, choose_var, Res.bind_ok]
    exact elw_dims hv.1 hel none ds
  | some n =>
    refine ⟨rf, hf.1, ?_⟩
    rw [resolveU, show arrTy (some n :: ds) el = .fixedDim n (arrTy ds el) from rfl, choose_fixed same hs, Res.bind_ok]
    exact elw_dims hf.1 hel (some n) ds

theorem resolve_ok (same : List Nat → Bool) (ret : BTy → BTy) {ss : List UEntry} (hs : ∀ e ∈ ss, e.Scalar) {rf rv : Ty}
    (hf : rf.variadicDims = true ∧ rf.symbolic = true) (hv : rv.variadicDims = true ∧ rv.symbolic = true) {el rt : Ty}
    {nd : UNode} (hel : el.ndim = 0)
    (h : ∀ fuel, resolveU same ret ((uTable ss rf rv).map some) (fuel + 1) (.kind .any) el = .ok ([nd], rt))
    (fuel : Nat) (ds : List (Option Nat)) :
    resolveU same ret ((uTable ss rf rv).map some) (fuel + 2) (.kind .any) (arrTy ds el) =
      .ok (loopNodes ds ++ [nd], arrTy ds rt) := by
  cases ds with
  | nil => exact h (fuel + 1)
  | cons d ds =>
    obtain ⟨dst, h1, h2⟩ := resolve_arr same ret hs hf hv hel (fuel + 1) d ds
    rw [h2]
    exact dims_ok h1 hel (h fuel) d ds

theorem resolve_throw (same : List Nat → Bool) (ret : BTy → BTy) {ss : List UEntry} (hs : ∀ e ∈ ss, e.Scalar) {rf rv : Ty}
    (hf : rf.variadicDims = true ∧ rf.symbolic = true) (hv : rv.variadicDims = true ∧ rv.symbolic = true) {el : Ty}
    {x : Exc} (hel : el.ndim = 0)
    (h : ∀ fuel, resolveU same ret ((uTable ss rf rv).map some) (fuel + 1) (.kind .any) el = .throw x)
    (fuel : Nat) (ds : List (Option Nat)) :
    resolveU same ret ((uTable ss rf rv).map some) (fuel + 2) (.kind .any) (arrTy ds el) = .throw x := by
  cases ds with
  | nil => exact h (fuel + 1)
  | cons d ds =>
    obtain ⟨dst, h1, h2⟩ := resolve_arr same ret hs hf hv hel (fuel + 1) d ds
    rw [h2]
    exact dims_throw h1 hel (h fuel) d ds

/-- C119: an operator of one argument on an array of any nesting of fixed and `var` dimensions whose elements are of a
    type the operator is defined for: the result has the same dimensions and the operator's result type, and every
    scalar of it is the operator applied to the corresponding scalar of the operand.  The operand may have any strides
    and offsets. -/
theorem unary_call_partial {α β : Type} (same : List Nat → Bool) (ret : BTy → BTy) {ts : List BTy} {a : BTy} (ha : a ∈ ts)
    {ds : List (Option Nat)} (ho : OnesLast ds) (op : UNode → α → β) (src : USrc α) {sm : List UMeta}
    (hf : MetaFits ds sm) {s : Int} {v : NestVal α} (hv : viewArr src.cells src.recs sm s = some v) {sz : Nat} (hsz : 0 < sz)
    (base : Int) (fuel : Nat) :
    ∃ tbl, makeUnaryFn same ts = .ok tbl ∧ ∃ dm m,
      unaryRun (resolveU same ret tbl (fuel + 2) (.kind .any) (arrTy ds (.prim a))) op sz src sm s base =
        .ok (arrTy ds (.prim (ret a)), dm, m) ∧
      MetaFits ds dm ∧ viewArr m.cells m.recs dm base = some (v.map (op (.kern a))) := by
  refine ⟨_, unary_table same (List.ne_nil_of_mem ha), ?_⟩
  rw [resolve_ok same ret (num_scalar ts) ⟨rfl, rfl⟩ ⟨rfl, rfl⟩ (el := .prim a) (nd := .kern a) (rt := .prim (ret a)) rfl
    (fun fuel => by rw [resolveU, num_choice same ha, Res.bind_ok]; rfl)]
  exact run_ok op src hsz (nd := .kern a) trivial hf ho rfl hv base

/-- C119: on elements of any other type the call is refused, nothing is computed. -/
theorem unary_rejected (same : List Nat → Bool) (ret : BTy → BTy) {ts : List BTy} (h0 : ts ≠ []) {el : Ty} (hc : Concrete el)
    (hd : ¬ IsDim el) (hn : ∀ a ∈ ts, el ≠ .prim a) (ds : List (Option Nat)) (fuel : Nat) :
    ∃ tbl, makeUnaryFn same ts = .ok tbl ∧
      resolveU same ret tbl (fuel + 2) (.kind .any) (arrTy ds el) = .throw .outOfRange := by
  refine ⟨_, unary_table same h0, ?_⟩
  refine resolve_throw same ret (num_scalar ts) ⟨rfl, rfl⟩ ⟨rfl, rfl⟩ ((concrete_ndim hc).2 hd) (fun fuel => ?_) fuel ds
  rw [resolveU, choose_none same (num_scalar ts) _ _ hc hd, Res.bind_throw]
  intro e he p hp
  obtain ⟨t, ht, rfl⟩ := List.mem_map.1 he
  simp only [UEntry.sig, List.cons.injEq, and_true] at hp
  subst hp
  cases h : uPat (.prim t) el with
  | false => rfl
  | true =>
    simp only [uPat] at h
    exact absurd ((tyEq_iff _ _).1 h).symm (hn t ht)

/-- C119: every concrete operand is decided by one of the two theorems above. -/
theorem unary_operands {c : Ty} (hc : Concrete c) (ts : List BTy) :
    (∃ ds a, a ∈ ts ∧ c = arrTy ds (.prim a)) ∨
    ∃ ds el, c = arrTy ds el ∧ Concrete el ∧ ¬ IsDim el ∧ ∀ a ∈ ts, el ≠ .prim a := by
  obtain ⟨ds, el, rfl, h1, h2⟩ := concrete_arr hc
  by_cases h : ∃ a ∈ ts, el = .prim a
  · obtain ⟨a, ha, rfl⟩ := h
    exact .inl ⟨ds, a, ha, rfl⟩
  · refine .inr ⟨ds, el, rfl, h1, h2, fun a ha e => h ⟨a, ha, e⟩⟩

theorem na_choice (same : List Nat → Bool) {t : Ty} (ht : t ∈ naTypes) (rf rv : Ty) :
    dispCall (tyMatch same) UEntry.sig [.option t] ((uTable naEntries rf rv).map some) = .ok (.opt t) := by
  have htt : t ≠ .fixedDimKind (.kind .any) ∧ uPat (.option (.fixedDimKind (.kind .any))) (.option t) = false ∧
      uPat (.option t) (.option t) = true := by
    simp only [naTypes, List.mem_cons, List.not_mem_nil, or_false] at ht
    rcases ht with rfl | rfl | rfl | rfl | rfl | rfl | rfl | rfl | rfl | rfl | rfl | rfl | rfl | rfl <;>
      exact ⟨by simp, rfl, by simp [uPat, tyEq]⟩
  obtain ⟨e, he, ⟨p, h1, h2⟩, h3⟩ := choose_scalar same na_scalar rf rv (c := .option t) (by simp [IsDim])
    ⟨.opt t, List.mem_append_left _ (List.mem_map.2 ⟨t, ht, rfl⟩), .option t, rfl, htt.2.2⟩
  rw [h3]
  simp only [naEntries, List.mem_append, List.mem_map, List.mem_singleton] at he
  rcases he with ⟨t', ht', rfl⟩ | rfl
  · simp only [UEntry.sig, List.cons.injEq, and_true] at h1
    subst h1
    have : tyEq t' t = true := by
      simp only [naTypes, List.mem_cons, List.not_mem_nil, or_false] at ht'
      rcases ht' with rfl | rfl | rfl | rfl | rfl | rfl | rfl | rfl | rfl | rfl | rfl | rfl | rfl | rfl <;>
        simpa [uPat] using h2
    rw [(tyEq_iff _ _).1 this]
  · simp only [UEntry.sig, List.cons.injEq, and_true] at h1
    subst h1
    rw [htt.2.1] at h2; cases h2

/-- C119: `is_na` of an array of any nesting with optional elements: an array of the same dimensions of `bool`, every
    element the test of the corresponding one. -/
theorem is_na_call_partial {α β : Type} (same : List Nat → Bool) {t : Ty} (ht : t ∈ naTypes) {ds : List (Option Nat)}
    (ho : OnesLast ds) (op : UNode → α → β) (src : USrc α) {sm : List UMeta} (hf : MetaFits ds sm) {s : Int} {v : NestVal α}
    (hv : viewArr src.cells src.recs sm s = some v) (base : Int) (fuel : Nat) :
    ∃ tbl, makeIsNa same = .ok tbl ∧ ∃ dm m,
      unaryRun (resolveU same (fun _ => .bool) tbl (fuel + 2) (.kind .any) (arrTy ds (.option t))) op 1 src sm s base =
        .ok (arrTy ds (.prim .bool), dm, m) ∧
      MetaFits ds dm ∧ viewArr m.cells m.recs dm base = some (v.map (op (.isNa t))) := by
  have hn : (Ty.option t).ndim = 0 := by
    simp only [naTypes, List.mem_cons, List.not_mem_nil, or_false] at ht
    rcases ht with rfl | rfl | rfl | rfl | rfl | rfl | rfl | rfl | rfl | rfl | rfl | rfl | rfl | rfl <;>
      simp [Ty.ndim]
  refine ⟨_, is_na_table same, ?_⟩
  rw [resolve_ok same (fun _ => .bool) na_scalar ⟨rfl, rfl⟩ ⟨rfl, rfl⟩ (el := .option t) (nd := .isNa t)
    (rt := .prim .bool) hn (fun fuel => by rw [resolveU, na_choice same ht, Res.bind_ok]; rfl)]
  exact run_ok op src (by omega) (nd := .isNa t) trivial hf ho rfl hv base

/-- C119: elements that are not optional, or optional of a type without a missing value, are refused by `is_na`. -/
theorem is_na_rejected (same : List Nat → Bool) {el : Ty} (hc : Concrete el) (hd : ¬ IsDim el)
    (hn : ∀ t ∈ naTypes, el ≠ .option t) (ds : List (Option Nat)) (fuel : Nat) :
    ∃ tbl, makeIsNa same = .ok tbl ∧
      resolveU same (fun _ => .bool) tbl (fuel + 2) (.kind .any) (arrTy ds el) = .throw .outOfRange := by
  refine ⟨_, is_na_table same, ?_⟩
  refine resolve_throw same _ na_scalar ⟨rfl, rfl⟩ ⟨rfl, rfl⟩ ((concrete_ndim hc).2 hd) (fun fuel => ?_) fuel ds
  rw [resolveU, choose_none same na_scalar _ _ hc hd, Res.bind_throw]
  intro e he p hp
  cases h : uPat p el with
  | false => rfl
  | true =>
    simp only [naEntries, List.mem_append, List.mem_map, List.mem_singleton] at he
    rcases he with ⟨t, ht, rfl⟩ | rfl
    · simp only [UEntry.sig, List.cons.injEq, and_true] at hp
      subst hp
      have hn' := hn t ht
      simp only [naTypes, List.mem_cons, List.not_mem_nil, or_false] at ht
      cases el
      case option u =>
        have : tyEq t u = true := by
          rcases ht with rfl | rfl | rfl | rfl | rfl | rfl | rfl | rfl | rfl | rfl | rfl | rfl | rfl | rfl <;>
            simpa [uPat] using h
        rw [(tyEq_iff _ _).1 this] at hn'
        exact absurd rfl hn'
      all_goals
        exfalso
        rcases ht with rfl | rfl | rfl | rfl | rfl | rfl | rfl | rfl | rfl | rfl | rfl | rfl | rfl | rfl <;>
          simp [uPat] at h
    · simp only [UEntry.sig, List.cons.injEq, and_true] at hp
      subst hp
      cases el <;> first | (simp [uPat] at h; done) | skip
      rename_i u
      cases u <;> simp_all [uPat, Concrete]

/-- C119: a lifted function (`cos`, `sin`, `tan`, `exp`: `x` and `r` both `float64`). -/
theorem lifted_call_partial {α β : Type} (x r : BTy) {ds : List (Option Nat)} (ho : OnesLast ds) (op : UNode → α → β)
    (src : USrc α) {sm : List UMeta} (hf : MetaFits ds sm) {s : Int} {v : NestVal α}
    (hv : viewArr src.cells src.recs sm s = some v) {sz : Nat} (hsz : 0 < sz) (base : Int) :
    ∃ dm m, unaryRun (resolveLift x r (arrTy ds (.prim x))) op sz src sm s base = .ok (arrTy ds (.prim r), dm, m) ∧
      MetaFits ds dm ∧ viewArr m.cells m.recs dm base = some (v.map (op (.kern x))) := by
  have e : resolveLift x r (arrTy ds (.prim x)) = .ok (loopNodes ds ++ [.kern x], arrTy ds (.prim r)) := by
    unfold resolveLift
    rw [arr_ndim (el := .prim x) rfl, arr_atDim, Res.bind_ok, if_pos ((tyEq_iff _ _).2 rfl)]
    cases ds with
    | nil => rfl
    | cons d ds =>
      rw [elw_dims rfl rfl]
      exact dims_ok (f := fun d _ => pure ([.kern x], d)) (cret := .prim r) (el := .prim x) (rt := .prim r) rfl rfl rfl d ds
  rw [e]
  exact run_ok op src hsz (nd := .kern x) trivial hf ho rfl hv base

/-- C119: a lifted function refuses elements of any other type. -/
theorem lifted_rejected (x r : BTy) {el : Ty} (hc : Concrete el) (hd : ¬ IsDim el) (hn : el ≠ .prim x)
    (ds : List (Option Nat)) : resolveLift x r (arrTy ds el) = .throw .invalidArg := by
  unfold resolveLift
  rw [arr_ndim ((concrete_ndim hc).2 hd), arr_atDim, Res.bind_ok, if_neg]
  intro h
  exact hn ((tyEq_iff _ _).1 h)

/-! ### What does not hold -/

/-- A size-1 dimension before a longer one: the loop over the longer one goes by the stride of the size-1 dimension. -/
theorem unary_leading_one (nd : UNode) (hn : nd.IsLeaf) (n : Nat) (h1 : n ≠ 1) (s0 s1 : Int) (sz : Nat) :
    instU (loopNodes [some 1, some n] ++ [nd]) (freshMeta sz [some 1, some n]) [.fixed 1 s0, .fixed n s1] =
      .ok ([.ff 1 (n * sz : Nat) 0, .ff n sz s0], nd) := by
  have hb : (n == 1) = false := by simpa using h1
  simp only [loopNodes, freshMeta, List.cons_append, List.nil_append, instU, hb, BEq.rfl, if_true, Bool.false_eq_true,
    if_false, instU_leaf hn, dataSize]
  rfl

/-- C119, false of the code: the negation of a `1 * 2` array [[7, 8]] is computed from [[7, 99]], 99 being outside the
    array. -/
theorem unary_leading_one_violation :
    ∃ (src : USrc Int) (sm : List UMeta), MetaFits [some 1, some 2] sm ∧
      viewArr src.cells src.recs sm 0 = some (.list [.list [.elem 7, .elem 8]]) ∧
      ∃ dm m, unaryRun (.ok (loopNodes [some 1, some 2] ++ [.kern (.int .w32)], arrTy [some 1, some 2] (.prim (.int .w32))))
        (fun _ x => -x) 4 src sm 0 1000 = .ok (arrTy [some 1, some 2] (.prim (.int .w32)), dm, m) ∧
        viewArr m.cells m.recs dm 1000 = some (.list [.list [.elem (-7), .elem (-99)]]) := by
  refine ⟨{ cells := fun a => if a = 0 then some 7 else if a = 4 then some 8 else if a = 8 then some 99 else none,
            recs := fun _ => none }, [.fixed 1 8, .fixed 2 4], .fixed _ _ (.fixed _ _ .nil), ?_, freshMeta 4 [some 1, some 2], _, rfl, ?_⟩
  · simp [viewArr, viewList]
  · simp [viewArr, viewList, freshMeta, dataSize, putAt, dimsOf, arrTy]

/-- C119, false of the code: a size-1 dimension before a `var` one makes the kernel read the metadata of the former as
    that of the latter. -/
theorem unary_one_var_violation (nd : UNode) (s0 s1 o1 : Int) (sz : Nat) :
    instU (loopNodes [some 1, none] ++ [nd]) (freshMeta sz [some 1, none]) [.fixed 1 s0, .var s1 o1] = .ub := by
  simp [loopNodes, freshMeta, instU, Res.bind_ub]

/-- C119, false of the code: a missing value makes the result of an operator of two arguments missing; an operator of
    one argument refuses optional operands, whatever it is defined for. -/
theorem unary_optional_violation (same : List Nat → Bool) (ret : BTy → BTy) {ts : List BTy} (h0 : ts ≠ []) (t : BTy)
    (ds : List (Option Nat)) (fuel : Nat) :
    ∃ tbl, makeUnaryFn same ts = .ok tbl ∧
      resolveU same ret tbl (fuel + 2) (.kind .any) (arrTy ds (.option (.prim t))) = .throw .outOfRange :=
  unary_rejected same ret h0 (el := .option (.prim t)) ⟨trivial, by simp, by simp⟩ (by simp [IsDim]) (by simp) ds fuel

/-- C119, false of the code: into a destination of whatever type `d` without dimensions, the kernel of the operand's
    type is run as it is: it writes a value of type `ret a` where a value of type `d` is expected. -/
theorem unary_dst_type_violation (same : List Nat → Bool) (ret : BTy → BTy) {ts : List BTy} {a : BTy} (ha : a ∈ ts) {d : Ty}
    (hd : Concrete d) (fuel : Nat) :
    ∃ tbl, makeUnaryFn same ts = .ok tbl ∧ resolveU same ret tbl (fuel + 1) d (.prim a) = .ok ([.kern a], d) := by
  refine ⟨_, unary_table same (List.ne_nil_of_mem ha), ?_⟩
  rw [resolveU, num_choice same ha, Res.bind_ok]
  simp only [concrete_symbolic hd, Bool.false_eq_true, if_false]
  rfl

/-- C119, false of the code: `self += rhs` and `self /= rhs` are refused for all arrays. -/
theorem in_place_violation {A V : Type} (ops : CallOps Ty A V) (self rhs : A) :
    inPlace ops self rhs = .throw .invalidArg := by
  simp [inPlace, bindCall, compoundSig]

/-- C119, false of the code: `is_na` of an optional fixed array tests one element only; of an array of such the type is
    read as one it is not. -/
theorem is_na_option_array_violation (same : List Nat → Bool) (n m : Nat) (fuel : Nat) :
    ∃ tbl, makeIsNa same = .ok tbl ∧
      resolveU same (fun _ => .bool) tbl (fuel + 2) (.kind .any) (.option (.fixedDim n (.prim (.int .w32)))) =
        .ok ([.isNaFixed (.prim (.int .w32))], .prim .bool) ∧
      resolveU same (fun _ => .bool) tbl (fuel + 2) (.kind .any) (.fixedDim m (.option (.fixedDim n (.prim (.int .w32))))) = .ub := by
  refine ⟨_, is_na_table same, ?_, ?_⟩
  · obtain ⟨e, he, ⟨p, h1, h2⟩, h3⟩ := choose_scalar same na_scalar (.fixedDimKind (.kind .any)) (.varDim (.kind .any))
      (c := .option (.fixedDim n (.prim (.int .w32)))) (by simp [IsDim])
      ⟨.optFixed, by simp [naEntries], _, rfl, rfl⟩
    have : e = .optFixed := by
      simp only [naEntries, List.mem_append, List.mem_map, List.mem_singleton] at he
      rcases he with ⟨t, ht, rfl⟩ | rfl
      · exfalso
        simp only [UEntry.sig, List.cons.injEq, and_true] at h1
        subst h1
        simp only [naTypes, List.mem_cons, List.not_mem_nil, or_false] at ht
        rcases ht with rfl | rfl | rfl | rfl | rfl | rfl | rfl | rfl | rfl | rfl | rfl | rfl | rfl | rfl <;>
          simp [uPat, tyEq] at h2
      · rfl
    subst this
    rw [resolveU, h3, Res.bind_ok]
    simp [Ty.ndim, Ty.atDim, naFixedTypes, tyEq, UEntry.ret, Ty.symbolic]
  · rw [resolveU, choose_fixed same na_scalar, Res.bind_ok]
    simp [resolveElw1, UEntry.ret, elwF, Ty.symbolic, Ty.variadicDims, Ty.ndim, resolveDims1, elwClass1, isVarId, argInfo,
      dimSizeOf, resSize1, sizeClash]
    intro h _ h'
    exact absurd h' h

/-! ### Examples -/

/-- the hypotheses are met: `-a` for `a` = [[1, 2], [3]] of type `2 * var * int32` -/
example : ∃ dm m, unaryRun (resolveLift (.int .w32) (.int .w32) (arrTy [some 2, none] (.prim (.int .w32))))
      (fun _ x => -x) 4
      { cells := fun a => if a = 100 then some (1 : Int) else if a = 104 then some 2 else if a = 200 then some 3 else none,
        recs := fun a => if a = 0 then some (100, 2) else if a = 16 then some (200, 1) else none }
      [.fixed 2 16, .var 4 0] 0 1000 = .ok (arrTy [some 2, none] (.prim (.int .w32)), dm, m) ∧
      MetaFits [some 2, none] dm ∧
      viewArr m.cells m.recs dm 1000 = some (.list [.list [.elem (-1), .elem (-2)], .list [.elem (-3)]]) :=
  lifted_call_partial (.int .w32) (.int .w32) (ds := [some 2, none]) (by simp [OnesLast]) (fun _ x => -x) _
    (sm := [.fixed 2 16, .var 4 0]) (.fixed _ _ (.var _ _ .nil)) (s := 0)
    (v := .list [.list [.elem 1, .elem 2], .list [.elem 3]]) (by simp [viewArr, viewList]) (by omega) 1000

end Dynd
