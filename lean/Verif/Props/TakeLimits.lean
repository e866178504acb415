/-
C122: the calls of `nd::take` that do not do what they should, those that are refused, and examples.
-/
import Verif.Props.TakeCall
import Verif.Props.CopyLimits

namespace Dynd

section
variable (same : List Nat → Bool)

theorem prim_dims (x : BTy) : dimsOf (.prim x) = [] := rfl

/-- C122 and C48, false of the code: `take` with indices.  Whatever the indices are, the call copies the first element of the
    source to the first place of the result and does nothing else. -/
theorem indexed_take_call_violation {x : BTy} (hx : IsNum x) {α β : Type} (op : KTree → α → Res β) (src : USrc α) (n k : Nat)
    {sm : List UMeta} {s : Int} {v : α} (hv : src.cells s = some v) {w : β}
    (hop : op (.mk (.cast x x .nocheck) []) v = .ok w) (mem : Int → Option UInt8) (mm : List UMeta) (a base : Int) (sz fuel : Nat) :
    ∃ tbl, makeAssign same = .ok tbl ∧
      takeRun (fuel + 1) (resolveTake same tbl (fuel + 1) (arrTy [some n] (.prim x)) (arrTy [some k] (.prim (.int .w64)))) op sz
        src sm s mem mm a base =
      .ok (arrTy [some k] (.prim x), freshMeta sz [some k],
        ⟨putAt (fun _ => none) base w, fun _ => none, base + dataSize sz [some k]⟩) := by
  refine ⟨_, assign_table same, ?_⟩
  have e0 : (arrTy [some k] (.prim (.int .w64))).atDim 1 = .ok (.prim (.int .w64)) := by simp only [arrTy, Ty.atDim]
  have e1 : (arrTy [some n] (.prim x)).atDim 1 = .ok (.prim x) := by simp only [arrTy, Ty.atDim]
  have hR : resolveTake same (assignTable.map some) (fuel + 1) (arrTy [some n] (.prim x)) (arrTy [some k] (.prim (.int .w64))) =
      .ok ([.assign (.cast x x .nocheck), .indexed], arrTy [some k] (.prim x)) := by
    unfold resolveTake
    rw [e0, Res.bind_ok]
    simp only [resolveIndexed, e1, Res.bind_ok]
    rw [assign_elems same (some .default) hx hx fuel false, Res.bind_ok]
    rfl
  have hd : dimsOf (arrTy [some k] (.prim x)) = [some k] := arr_dims (prim_dims x) _
  simp only [takeRun, hR, Res.bind_ok, takeMeta, hd, assignFront]
  have hi : instCp (fuel + 1) [.cast x x .nocheck] (freshMeta sz [some k]) (some sm) = .ok ([], .mk (.cast x x .nocheck) []) := by
    rfl
  rw [hi, Res.bind_ok]
  simp only [runCp, hv, hop, Res.bind_ok, Res.pure_eq]

/-- so, with one index, whichever it is, the result is the first element, and with more than one the result has elements
    that were never written -/
theorem indexed_take_result {β : Type} (w : β) (sz k : Nat) (hsz : 0 < sz) (base : Int) :
    viewArr (putAt (fun _ => none) base w) (fun _ => none) (freshMeta sz [some 1]) base = some (.list [.elem w]) ∧
      viewArr (putAt (fun _ => none) base w) (fun _ => none) (freshMeta sz [some (k + 2)]) base = none := by
  constructor
  · simp [viewArr, viewList, freshMeta, putAt]
  · have h : (base + (sz : Int) = base) = False := by simp; omega
    simp only [viewArr, freshMeta, viewList, dataSize, putAt, h]
    simp

/-- C122, false of the code: a mask for a ragged array: metadata read as of another kind. -/
theorem masked_take_var_violation {x : BTy} (hx : IsNum x) {α β : Type} (op : KTree → α → Res β) (src : USrc α) (n : Nat)
    {sm mm : List UMeta} (f : MetaFits [none] sm) (s : Int) (mem : Int → Option UInt8) (a base : Int) (sz fuel : Nat) :
    ∃ tbl, makeAssign same = .ok tbl ∧
      takeRun (fuel + 1) (resolveTake same tbl (fuel + 1) (arrTy [none] (.prim x)) (arrTy [some n] (.prim .bool))) op sz
        src sm s mem mm a base = .ub := by
  refine ⟨_, assign_table same, ?_⟩
  have e0 : (arrTy [some n] (.prim .bool)).atDim 1 = .ok (.prim .bool) := by simp only [arrTy, Ty.atDim]
  have hR : resolveTake same (assignTable.map some) (fuel + 1) (arrTy [none] (.prim x)) (arrTy [some n] (.prim .bool)) =
      .ok ([.masked, .assign (.cast x x .nocheck)], arrTy [none] (.prim x)) := by
    unfold resolveTake
    rw [e0, Res.bind_ok]
    simp only [resolveMasked, arrTy, dimSizeOf]
    rw [assign_elems same (some .default) hx hx fuel false, Res.bind_ok]
    rfl
  simp only [takeRun, hR, Res.bind_ok]
  cases f with
  | var st o h =>
    cases h
    simp only [maskedRun, Res.bind_ub]

/-- C122, false of the code: a mask that is itself ragged. -/
theorem take_var_mask_violation {x : BTy} (hx : IsNum x) {α β : Type} (op : KTree → α → Res β) (src : USrc α) (n : Nat)
    {sm mm : List UMeta} (f : MetaFits [none] mm) (s : Int) (mem : Int → Option UInt8) (a base : Int) (sz fuel : Nat) :
    ∃ tbl, makeAssign same = .ok tbl ∧
      takeRun (fuel + 1) (resolveTake same tbl (fuel + 1) (arrTy [some n] (.prim x)) (arrTy [none] (.prim .bool))) op sz
        src sm s mem mm a base = .ub := by
  refine ⟨_, assign_table same, ?_⟩
  have e0 : (arrTy [none] (.prim .bool)).atDim 1 = .ok (.prim .bool) := by simp only [arrTy, Ty.atDim]
  have hR : resolveTake same (assignTable.map some) (fuel + 1) (arrTy [some n] (.prim x)) (arrTy [none] (.prim .bool)) =
      .ok ([.masked, .assign (.cast x x .nocheck)], arrTy [none] (.prim x)) := by
    unfold resolveTake
    rw [e0, Res.bind_ok]
    simp only [resolveMasked, arrTy, dimSizeOf]
    rw [assign_elems same (some .default) hx hx fuel false, Res.bind_ok]
    rfl
  simp only [takeRun, hR, Res.bind_ok]
  cases f with
  | var st o h =>
    cases h
    match sm with
    | [] => rfl
    | .var _ _ :: _ => rfl
    | .fixed _ _ :: _ => rfl

/-- Indices that are neither truth values nor `int64` are refused; so is a second argument that is no array. -/
theorem take_index_type (tbl : List (Option AEntry)) {α β : Type} (op : KTree → α → Res β) (src : USrc α) {sm mm : List UMeta}
    (s : Int) (mem : Int → Option UInt8) (a base : Int) (sz fuel : Nat) (s0 : Ty) (d : Option Nat) {y : BTy} (h1 : y ≠ .bool)
    (h2 : y ≠ .int .w64) :
    takeRun (β := β) fuel (resolveTake same tbl fuel s0 (arrTy [d] (.prim y))) op sz src sm s mem mm a base = .throw .invalidArg ∧
      takeRun (β := β) fuel (resolveTake same tbl fuel s0 (.prim y)) op sz src sm s mem mm a base = .throw .tooManyIndices := by
  constructor
  · have e0 : (arrTy [d] (.prim y)).atDim 1 = .ok (.prim y) := by cases d <;> simp only [arrTy, Ty.atDim]
    have : resolveTake same tbl fuel s0 (arrTy [d] (.prim y)) = .throw .invalidArg := by
      unfold resolveTake
      rw [e0, Res.bind_ok]
      cases y with
      | bool => exact absurd rfl h1
      | int w => cases w <;> first | rfl | exact absurd rfl h2
      | _ => rfl
    rw [this]
    simp only [takeRun, Res.bind_throw]
  · have : resolveTake same tbl fuel s0 (.prim y) = .throw .tooManyIndices := by
      unfold resolveTake
      rw [show (Ty.prim y).atDim 1 = .throw .tooManyIndices by simp [Ty.atDim]]
      rfl
    rw [this]
    simp only [takeRun, Res.bind_throw]

end

/-! ### Examples -/

/-- elements: scalars, ragged rows, rows of two, rows of one -/
example : CopyFits [] [] ∧ CopyFits [none] [none] ∧ CopyFits [some 2] [some 2] ∧ CopyFits [some 1] [some 1] :=
  ⟨.nil, .both _ _ rfl (.toVar _) (by simp [Below]) .nil, .both _ _ rfl (.same 2) (by simp [Below]) .nil,
    .both _ _ rfl (.same 1) (by simp [Below]) .nil⟩

/-- the selection of the specification -/
example : selected [10, 20, 30, 40, 50] [0, 1, 0, 1, 1] = [20, 40, 50] := by decide

end Dynd
