/-
C119: calls of the functions of one argument: which operands are accepted, the type of the result, and its value.
-/
import Verif.Props.UnaryRun
import Verif.Props.OperatorLimits

namespace Dynd

/-! ### Specification -/

/-- The type of an array with these dimensions (`none`: `var`) and elements of type `el`. -/
def arrTy : List (Option Nat) → Ty → Ty
  | [], el => el
  | some n :: ds, el => .fixedDim n (arrTy ds el)
  | none :: ds, el => .varDim (arrTy ds el)

/-- A dimension of size 1 is followed only by dimensions of size 1. -/
def OnesLast : List (Option Nat) → Prop
  | [] => True
  | d :: ds => (d = some 1 → ∀ x ∈ ds, x = some 1) ∧ OnesLast ds

/-! ### Resolution along the dimensions -/

/-- the loops the dimensions give rise to -/
def loopNodes : List (Option Nat) → List UNode
  | [] => []
  | some n :: ds => .elw .ff (n == 1) false :: loopNodes ds
  | none :: ds => .elw .vf false true :: loopNodes ds

theorem arr_ndim {el : Ty} (h : el.ndim = 0) : ∀ ds, (arrTy ds el).ndim = ds.length
  | [] => h
  | some n :: ds => by simp [arrTy, Ty.ndim, arr_ndim h ds]
  | none :: ds => by simp [arrTy, Ty.ndim, arr_ndim h ds]

theorem arr_atDim {el : Ty} : ∀ ds, (arrTy ds el).atDim ds.length = .ok el
  | [] => by cases el <;> rfl
  | some n :: ds => by simp [arrTy, Ty.atDim, arr_atDim ds]
  | none :: ds => by simp [arrTy, Ty.atDim, arr_atDim ds]

theorem arr_dims {rt : Ty} (h : dimsOf rt = []) : ∀ ds, dimsOf (arrTy ds rt) = ds
  | [] => h
  | some n :: ds => by simp [arrTy, dimsOf, arr_dims h ds]
  | none :: ds => by simp [arrTy, dimsOf, arr_dims h ds]

/-- every concrete type is an array, of no dimensions perhaps, of something that is no array -/
theorem concrete_arr {c : Ty} (hc : Concrete c) : ∃ ds el, c = arrTy ds el ∧ Concrete el ∧ ¬ IsDim el := by
  cases c
  case fixedDim n el =>
    obtain ⟨ds, e, rfl, h1, h2⟩ := concrete_arr (c := el) hc.2
    obtain ⟨m, rfl⟩ := Int.eq_ofNat_of_zero_le hc.1
    exact ⟨some m :: ds, e, rfl, h1, h2⟩
  case varDim el =>
    obtain ⟨ds, e, rfl, h1, h2⟩ := concrete_arr (c := el) hc
    exact ⟨none :: ds, e, rfl, h1, h2⟩
  all_goals exact ⟨[], _, rfl, hc, by simp [IsDim]⟩
termination_by sizeOf c

theorem step_fixed {f : Ty → Ty → Res (List UNode × Ty)} {cret dst el : Ty} {k n : Nat} (hd : dst.variadicDims = true)
    (hel : el.ndim = k) :
    resolveDims1 f cret (k + 1) dst (.fixedDim n el) =
      (if k = 0 then f cret el else resolveDims1 f cret k dst el) >>= fun e =>
        pure (.elw .ff (n == 1) false :: e.1, .fixedDim n e.2) := by
  have h1 : elwClass1 dst (.fixedDim n el) = .ok .ff := by simp [elwClass1, hd, isVarId]
  have h2 : argInfo (k + 1) (.fixedDim n el) = .ok ((n : Int) == 1, (n : Int), el) := by
    simp [argInfo, Ty.ndim, hel, dimSizeOf]
  have h3 : resSize1 ((n : Int) == 1, (n : Int), el) = n := by
    simp only [resSize1]
    by_cases h : (n : Int) = 1
    · simp [h]
    · have : ((n : Int) == 1) = false := by simpa using h
      rw [this]
      have : ((n : Int) != -1) = true := by simp
      rw [this]; rfl
  have h4 : sizeClash n ((n : Int) == 1, (n : Int), el) = false := by simp [sizeClash]
  have h5 : ((n : Int) == 1) = (n == 1) := by
    by_cases h : n = 1
    · subst h; rfl
    · have a : ((n : Int) == 1) = false := by simp; omega
      have b : (n == 1) = false := by simpa using h
      rw [a, b]
  rw [resolveDims1, h1, Res.bind_ok, h2, Res.bind_ok]
  simp only [hd, if_true, h3, Res.bind_ok, h4, Bool.false_eq_true, if_false, withRet, isVarId]
  rw [h5]

theorem step_var {f : Ty → Ty → Res (List UNode × Ty)} {cret dst el : Ty} {k : Nat} (hd : dst.variadicDims = true)
    (hel : el.ndim = k) :
    resolveDims1 f cret (k + 1) dst (.varDim el) =
      (if k = 0 then f cret el else resolveDims1 f cret k dst el) >>= fun e =>
        pure (.elw .vf false true :: e.1, .varDim e.2) := by
  have h1 : elwClass1 dst (.varDim el) = .ok .vf := by simp [elwClass1, hd, isVarId, varOrOne]
  have h2 : argInfo (k + 1) (.varDim el) = .ok (false, -1, el) := by simp [argInfo, Ty.ndim, hel, dimSizeOf]
  rw [resolveDims1, h1, Res.bind_ok, h2, Res.bind_ok]
  simp only [hd, if_true, Res.bind_ok]
  rfl

theorem dims_ok {f : Ty → Ty → Res (List UNode × Ty)} {cret dst el rt : Ty} {nd : UNode} (hd : dst.variadicDims = true)
    (hel : el.ndim = 0) (hf : f cret el = .ok ([nd], rt)) : ∀ (d : Option Nat) (ds : List (Option Nat)),
    resolveDims1 f cret (ds.length + 1) dst (arrTy (d :: ds) el) = .ok (loopNodes (d :: ds) ++ [nd], arrTy (d :: ds) rt)
  | some n, [] => by
    simp only [arrTy, List.length_nil]
    rw [step_fixed hd hel, if_pos rfl, hf, Res.bind_ok]; rfl
  | none, [] => by
    simp only [arrTy, List.length_nil]
    rw [step_var hd hel, if_pos rfl, hf, Res.bind_ok]; rfl
  | some n, d' :: ds => by
    rw [show arrTy (some n :: d' :: ds) el = .fixedDim n (arrTy (d' :: ds) el) from rfl,
      step_fixed hd (arr_ndim hel _), if_neg (by simp)]
    have ih := dims_ok hd hel hf d' ds
    simp only [List.length_cons]
    rw [ih, Res.bind_ok]; rfl
  | none, d' :: ds => by
    rw [show arrTy (none :: d' :: ds) el = .varDim (arrTy (d' :: ds) el) from rfl,
      step_var hd (arr_ndim hel _), if_neg (by simp)]
    have ih := dims_ok hd hel hf d' ds
    simp only [List.length_cons]
    rw [ih, Res.bind_ok]; rfl

theorem dims_throw {f : Ty → Ty → Res (List UNode × Ty)} {cret dst el : Ty} {x : Exc} (hd : dst.variadicDims = true)
    (hel : el.ndim = 0) (hf : f cret el = .throw x) : ∀ (d : Option Nat) (ds : List (Option Nat)),
    resolveDims1 f cret (ds.length + 1) dst (arrTy (d :: ds) el) = .throw x
  | some n, [] => by
    simp only [arrTy, List.length_nil]
    rw [step_fixed hd hel, if_pos rfl, hf, Res.bind_throw]
  | none, [] => by
    simp only [arrTy, List.length_nil]
    rw [step_var hd hel, if_pos rfl, hf, Res.bind_throw]
  | some n, d' :: ds => by
    rw [show arrTy (some n :: d' :: ds) el = .fixedDim n (arrTy (d' :: ds) el) from rfl,
      step_fixed hd (arr_ndim hel _), if_neg (by simp)]
    have ih := dims_throw hd hel hf d' ds
    simp only [List.length_cons]
    rw [ih, Res.bind_throw]
  | none, d' :: ds => by
    rw [show arrTy (none :: d' :: ds) el = .varDim (arrTy (d' :: ds) el) from rfl,
      step_var hd (arr_ndim hel _), if_neg (by simp)]
    have ih := dims_throw hd hel hf d' ds
    simp only [List.length_cons]
    rw [ih, Res.bind_throw]

theorem elw_dims {f : Ty → Ty → Res (List UNode × Ty)} {cret dst el : Ty} (hd : dst.variadicDims = true)
    (hel : el.ndim = 0) (d : Option Nat) (ds : List (Option Nat)) :
    resolveElw1 f cret dst (arrTy (d :: ds) el) = resolveDims1 f cret (ds.length + 1) dst (arrTy (d :: ds) el) := by
  unfold resolveElw1
  simp only [hd, Bool.not_true, Bool.false_and, Bool.false_eq_true, if_false, if_true]
  rw [arr_ndim hel, List.length_cons, if_neg (by omega)]

/-! ### Instantiation -/

/-- a scalar node -/
def UNode.IsLeaf : UNode → Prop
  | .elw _ _ _ => False
  | _ => True

theorem instU_leaf {nd : UNode} (h : nd.IsLeaf) (dm sm : List UMeta) : instU [nd] dm sm = .ok ([], nd) := by
  cases nd <;> first | rfl | exact h.elim

theorem loop_one {β : Type} (body : Int → Int → UDst β → Res (UDst β)) (ds ss d s : Int) (m : UDst β) :
    uLoop body 1 ds ss d s m = body d s m := by
  simp only [uLoop]
  cases body d s m <;> rfl

/-- dimensions of size 1 leave the metadata where it is, which does not matter when nothing else follows -/
theorem inst_ones {α β : Type} (op : α → β) (src : USrc α) (sz : Nat) {nd : UNode} (hn : nd.IsLeaf) :
    ∀ (ds : List (Option Nat)), (∀ x ∈ ds, x = some 1) → ∀ sm,
      ∃ l, instU (loopNodes ds ++ [nd]) (freshMeta sz ds) sm = .ok (l, nd) ∧
        ∀ d s m, runU op src l d s m = runU op src [] d s m
  | [], _, sm => ⟨[], instU_leaf hn _ _, fun _ _ _ => rfl⟩
  | x :: ds, h, sm => by
    have := h x (by simp)
    subst this
    obtain ⟨l, e, hr⟩ := inst_ones op src sz hn ds (fun x hx => h x (by simp [hx])) sm
    refine ⟨.ff 1 (dataSize sz ds) 0 :: l, ?_, ?_⟩
    · simp only [loopNodes, freshMeta, List.cons_append, instU, BEq.rfl, if_true]
      rw [e, Res.bind_ok]; rfl
    · intro d s m
      show uLoop (runU op src l) 1 _ 0 d s m = _
      rw [loop_one, hr]

theorem ideal_ones {α β : Type} (op : α → β) (src : USrc α) (sz : Nat) {ds : List (Option Nat)} {sm : List UMeta}
    (hf : MetaFits ds sm) (h : ∀ x ∈ ds, x = some 1) (d s : Int) (m : UDst β) :
    runU op src (idealLevels (freshMeta sz ds) sm) d s m = runU op src [] d s m := by
  induction hf generalizing d s m with
  | nil => rfl
  | fixed n ss _ ih =>
    have := h (some n) (by simp)
    simp only [Option.some.injEq] at this
    subst this
    simp only [freshMeta, idealLevels]
    show uLoop (runU op src _) 1 _ ss d s m = _
    rw [loop_one, ih (fun x hx => h x (by simp [hx]))]
  | var _ _ _ _ => exact absurd (h none (by simp)) (by simp)

theorem inst_ok {α β : Type} (op : α → β) (src : USrc α) (sz : Nat) {nd : UNode} (hn : nd.IsLeaf)
    {ds : List (Option Nat)} {sm : List UMeta} (hf : MetaFits ds sm) (ho : OnesLast ds) :
    ∃ l, instU (loopNodes ds ++ [nd]) (freshMeta sz ds) sm = .ok (l, nd) ∧
      runU op src l = (runU op src (idealLevels (freshMeta sz ds) sm) : Int → Int → UDst β → Res (UDst β)) := by
  induction hf with
  | nil => exact ⟨[], instU_leaf hn _ _, rfl⟩
  | @fixed n ss ds ms hf ih =>
    by_cases h1 : n = 1
    · subst h1
      obtain ⟨l, e, hr⟩ := inst_ones op src sz hn (some 1 :: ds) (by
        intro x hx
        simp only [List.mem_cons] at hx
        rcases hx with rfl | hx
        · rfl
        · exact ho.1 rfl x hx) (.fixed 1 ss :: ms)
      refine ⟨l, e, ?_⟩
      funext d s m
      rw [hr, ideal_ones op src sz (.fixed 1 ss hf)]
      intro x hx
      simp only [List.mem_cons] at hx
      rcases hx with rfl | hx
      · rfl
      · exact ho.1 rfl x hx
    · obtain ⟨l, e, hr⟩ := ih ho.2
      refine ⟨.ff n (dataSize sz ds) ss :: l, ?_, ?_⟩
      · have hb : (n == 1) = false := by simpa using h1
        simp only [loopNodes, freshMeta, List.cons_append, hb, instU, Bool.false_eq_true, if_false]
        rw [e, Res.bind_ok]; rfl
      · funext d s m
        simp only [freshMeta, idealLevels, runU, hr]
  | @var ss so ds ms hf ih =>
    obtain ⟨l, e, hr⟩ := ih ho.2
    refine ⟨.vf (dataSize sz ds) 0 ss so :: l, ?_, ?_⟩
    · simp only [loopNodes, freshMeta, List.cons_append, instU, if_true]
      rw [e, Res.bind_ok]; rfl
    · funext d s m
      simp only [freshMeta, idealLevels, runU, hr]

theorem fresh_fits (sz : Nat) : ∀ ds, MetaFits ds (freshMeta sz ds)
  | [] => .nil
  | some _ :: ds => .fixed _ _ (fresh_fits sz ds)
  | none :: ds => .var _ _ (fresh_fits sz ds)

/-- What a successful call returns: type and value. -/
theorem run_ok {α β : Type} (op : UNode → α → β) (src : USrc α) {sz : Nat} (hsz : 0 < sz) {nd : UNode} (hn : nd.IsLeaf)
    {ds : List (Option Nat)} {sm : List UMeta} (hf : MetaFits ds sm) (ho : OnesLast ds) {rt : Ty} (hrt : dimsOf rt = [])
    {s : Int} {v : NestVal α} (hv : viewArr src.cells src.recs sm s = some v) (base : Int) :
    ∃ dm m, unaryRun (.ok (loopNodes ds ++ [nd], arrTy ds rt)) op sz src sm s base = .ok (arrTy ds rt, dm, m) ∧
      MetaFits ds dm ∧ viewArr m.cells m.recs dm base = some (v.map (op nd)) := by
  obtain ⟨l, e, hr⟩ := inst_ok (β := β) (op nd) src sz hn hf ho
  obtain ⟨m, e', _, _, _, h4⟩ := run_nested (op nd) src sz hsz hf base s
    { cells := fun _ => none, recs := fun _ => none, next := base + dataSize sz ds } v hv
    ⟨Int.le_refl _, fun _ _ _ => rfl, fun _ _ => rfl⟩
  refine ⟨freshMeta sz ds, m, ?_, ?_, h4 _ _ (fun _ _ => ⟨rfl, rfl⟩)⟩
  · unfold unaryRun
    rw [Res.bind_ok]
    simp only [arr_dims hrt]
    rw [e, Res.bind_ok]
    simp only [hr]
    rw [e', Res.bind_ok]; rfl
  · exact fresh_fits sz ds

end Dynd
