/-
C121: the arrays for which an assignment does not do what broadcasting asks for, and examples for the theorems.
-/
import Verif.Props.CopyCall
import Verif.Props.BinaryLimits

namespace Dynd

section
variable (same : List Nat → Bool) (om : Option AMode) {x y : BTy}

theorem assign_elems (hx : IsNum x) (hy : IsNum y) (fuel : Nat) (l : Bool) :
    resolveA same (assignTable.map some) (some om) (fuel + 1) l (.prim x) (.prim y) =
      .ok [.cast x y (specMode (callMode om))] := by
  unfold resolveA
  rw [assign_choice same (num_mem hx hy) (concrete_prim x) (concrete_prim y) ⟨rfl, rfl⟩ (by simp) (by simp), Res.bind_ok]
  have : modeOf true (some om) = .ok (callMode om) := by cases om <;> rfl
  simp only [this, Res.bind_ok, effMode_spec]; rfl

theorem assign_dims (fuel : Nat) {p q : Option Nat} {a b : List (Option Nat)} (h : b.length ≤ a.length) :
    resolveA same (assignTable.map some) (some om) (fuel + 1) true (arrTy (p :: a) (.prim x)) (arrTy (q :: b) (.prim y)) =
      resolveDims (resolveA same (assignTable.map some) (some om) fuel false) (a.length + 1) (arrTy (p :: a) (.prim x))
        (arrTy (q :: b) (.prim y)) := by
  have z0 : (Ty.prim x).ndim = 0 := rfl
  have z1 : (Ty.prim y).ndim = 0 := rfl
  conv => lhs; unfold resolveA
  rw [assign_choice same (e := .elwDD) (tbl_mem (by simp)) (concrete_arrTy (concrete_prim _) _)
    (concrete_arrTy (concrete_prim _) _) ⟨isDim_arr, isDim_arr⟩ (by simp) (by simp), Res.bind_ok]
  simp only [resolveElw]
  rw [arr_ndim z0, arr_ndim z1, if_neg (by simp; omega)]
  rfl

/-- C121, false of the code: the copy of a `1 * 2` array [[7, 8]] into a new one of the same type is [[7, 99]], 99 being
    outside the source. -/
theorem assign_leading_one_violation (hx : IsNum x) (hy : IsNum y) (fuel : Nat) :
    ∃ (src : USrc Int) (sm : List UMeta), MetaFits [some 1, some 2] sm ∧
      viewArr src.cells src.recs sm 0 = some (.list [.list [.elem 7, .elem 8]]) ∧
      ∃ tbl, makeAssign same = .ok tbl ∧ ∃ m,
        assignRun (fuel + 2) (resolveA same tbl (some om) (fuel + 2) true (arrTy [some 1, some 2] (.prim x))
            (arrTy [some 1, some 2] (.prim y))) (fun _ v => .ok v) src sm 0 (freshMeta 4 [some 1, some 2]) 1000
          ⟨fun _ => none, fun _ => none, 1008⟩ = .ok m ∧
        viewArr m.cells m.recs (freshMeta 4 [some 1, some 2]) 1000 = some (.list [.list [.elem 7, .elem 99]]) := by
  refine ⟨{ cells := fun a => if a = 0 then some 7 else if a = 4 then some 8 else if a = 8 then some 99 else none,
            recs := fun _ => none }, [.fixed 1 8, .fixed 2 4], .fixed _ _ (.fixed _ _ .nil), by simp [viewArr, viewList], _,
    assign_table same, { cells := putAt (putAt (fun _ => none) 1000 7) 1004 99, recs := fun _ => none, next := 1008 }, ?_, ?_⟩
  · rw [assign_dims same om (fuel + 1) (by simp)]
    have h0 : resolveDims (resolveA same (assignTable.map some) (some om) (fuel + 1) false) 2 (arrTy [some 1, some 2] (.prim x))
        (arrTy [some 1, some 2] (.prim y)) = .ok [.elw false false true, .elw false false false, .cast x y (specMode (callMode om))] := by
      have i := dims_step (f := resolveA same (assignTable.map some) (some om) (fuel + 1) false) (.fixed 2 (.prim x))
        (.fixed 2 (.prim y)) rfl (.inl rfl) (assign_elems same om hx hy fuel false)
      exact dims_step (.fixed 1 (arrTy [some 2] (.prim x))) (.fixed 1 (arrTy [some 2] (.prim y))) rfl (.inl rfl) i
    have h1 : [some 2].length + 1 = 2 := rfl
    rw [h1, h0]
    rfl
  · simp [viewArr, viewList, freshMeta, dataSize, putAt]

/-- C121, false of the code: a ragged row assigned to a matrix, which broadcasting allows: the `var` dimension of the row
    is opened once for every dimension of the matrix. -/
theorem assign_matrix_var_violation (hx : IsNum x) (hy : IsNum y) (n m fuel : Nat) {α β : Type} (op : KTree → α → Res β)
    (src : USrc α) {sm dm : List UMeta} (f0 : MetaFits [none] sm) (s d : Int) (mem : UDst β) :
    ∃ tbl, makeAssign same = .ok tbl ∧
      assignRun (fuel + 2) (resolveA same tbl (some om) (fuel + 2) true (arrTy [some n, some m] (.prim x))
        (arrTy [none] (.prim y))) op src sm s dm d mem = .ub := by
  refine ⟨_, assign_table same, ?_⟩
  rw [assign_dims same om (fuel + 1) (by simp)]
  have h0 : resolveDims (resolveA same (assignTable.map some) (some om) (fuel + 1) false) 2 (arrTy [some n, some m] (.prim x))
      (arrTy [none] (.prim y)) = .ok [.elw false true true, .elw false true false, .cast x y (specMode (callMode om))] := by
    have i := dims_step (f := resolveA same (assignTable.map some) (some om) (fuel + 1) false) (.fixed m (.prim x))
      (.var (.prim y)) rfl trivial (assign_elems same om hx hy fuel false)
    exact bcast_step (s := arrTy [none] (.prim y)) (.fixed n (arrTy [some m] (.prim x))) (by simp [arrTy, Ty.ndim]) i
  have h1 : [some m].length + 1 = 2 := rfl
  rw [h1, h0]
  cases f0 with
  | var st o h =>
    cases h
    simp only [assignRun, Res.bind_ok]
    match dm with
    | [] => rfl
    | .var _ _ :: _ => rfl
    | [.fixed _ _] => rfl
    | .fixed _ _ :: .var _ _ :: _ => rfl
    | .fixed _ _ :: .fixed _ _ :: _ => rfl

/-- C121, false of the code: rows of a fixed number of elements assigned to a ragged array of such rows: the metadata of
    the rows of the source is not set. -/
theorem assign_fixed_to_var_violation (hx : IsNum x) (hy : IsNum y) {n m : Nat} (hn : n ≠ 1) (hm : m ≠ 1) (fuel : Nat)
    {α β : Type} (op : KTree → α → Res β) (src : USrc α) {sm dm : List UMeta} (f0 : MetaFits [some n, some m] sm) (s d : Int)
    (mem : UDst β) :
    ∃ tbl, makeAssign same = .ok tbl ∧
      assignRun (fuel + 2) (resolveA same tbl (some om) (fuel + 2) true (arrTy [none, some m] (.prim x))
        (arrTy [some n, some m] (.prim y))) op src sm s dm d mem = .ub := by
  refine ⟨_, assign_table same, ?_⟩
  rw [assign_dims same om (fuel + 1) (by simp)]
  have b1 : (some (n : Int) == some 1) = false := by simpa using (by omega : ¬ (n : Int) = 1)
  have b2 : (some (m : Int) == some 1) = false := by simpa using (by omega : ¬ (m : Int) = 1)
  have h0 : resolveDims (resolveA same (assignTable.map some) (some om) (fuel + 1) false) 2 (arrTy [none, some m] (.prim x))
      (arrTy [some n, some m] (.prim y)) = .ok [.elw true false false, .elw false false false, .cast x y (specMode (callMode om))] := by
    have i : resolveDims (resolveA same (assignTable.map some) (some om) (fuel + 1) false) 1 (arrTy [some m] (.prim x))
        (arrTy [some m] (.prim y)) = .ok [.elw false false false, .cast x y (specMode (callMode om))] := by
      have := dims_step (f := resolveA same (assignTable.map some) (some om) (fuel + 1) false) (.fixed m (.prim x)) (.fixed m (.prim y))
        rfl (.inl rfl) (assign_elems same om hx hy fuel false)
      rw [b2] at this
      exact this
    have := dims_step (.var (arrTy [some m] (.prim x))) (.fixed n (arrTy [some m] (.prim y))) rfl trivial i
    rw [b1] at this
    exact this
  have h1 : [some m].length + 1 = 2 := rfl
  rw [h1, h0]
  cases f0 with
  | fixed _ st h =>
    cases h with
    | fixed _ st2 h =>
      cases h
      simp only [assignRun, Res.bind_ok]
      match dm with
      | [] => rfl
      | .fixed _ _ :: _ => rfl
      | [.var _ _] => rfl
      | .var _ _ :: .var _ _ :: _ => rfl
      | .var _ _ :: .fixed _ _ :: _ => rfl

end

/-! ### Examples -/

/-- `3 * var ← 3 * var`, `2 * 3 ← 3`, `var ← 4`, `3 ← 1`, `2 * var * 3 ← 3`, `4 * 4 ← 4 * 1` -/
example : CopyFits [some 3, none] [some 3, none] ∧ CopyFits [some 2, some 3] [some 3] ∧ CopyFits [none] [some 4] ∧
    CopyFits [some 3] [some 1] ∧ CopyFits [some 2, none, some 3] [some 3] ∧ CopyFits [some 4, some 4] [some 4, some 1] := by
  refine ⟨.both _ _ rfl (.same 3) (by simp [Below]) (.both _ _ rfl (.toVar _) (by simp [Below]) .nil), ?_, ?_, ?_, ?_, ?_⟩
  · exact .rep _ (by simp) (by simp) (.both _ _ rfl (.same 3) (by simp [Below]) .nil)
  · exact .both _ _ rfl (.toVar _) (by simp [Below]) .nil
  · exact .both _ _ rfl (.one 3) (by simp [Below]) .nil
  · exact .rep _ (by simp) (by simp) (.rep _ (by simp) (by simp) (.both _ _ rfl (.same 3) (by simp [Below]) .nil))
  · exact .both _ _ rfl (.same 4) (by simp [Below]) (.both _ _ rfl (.one 4) (by simp [Below]) .nil)

/-- element types: `int32 ← float64`, `string ← string`, `option[int32] ← option[int64]`, `int32 ← string` -/
example : Works false true (.prim (.int .w32)) (.prim (.flt .f64)) ∧ Works false true (.leaf .string) (.leaf .string) ∧
    Works false true (.option (.prim (.int .w32))) (.option (.prim (.int .w64))) ∧
    Works false true (.prim (.int .w32)) (.leaf .string) := by
  refine ⟨.num _ _ _ _ ⟨by simp, by simp, by simp⟩ ⟨by simp, by simp, by simp⟩, .string _ _, ?_, .intStr _ _ _ (by simp)⟩
  exact .optOpt _ _ _ _ (by simp [HasNa]) (by simp [HasNa]) (.num _ _ _ _ ⟨by simp, by simp, by simp⟩ ⟨by simp, by simp, by simp⟩)

/-- A destination with a history: a `2 * var` array, the first row having 2 elements, the second none yet; the columns of
    a matrix in Fortran order. -/
example : Ready (β := Int) 4 [.fixed 2 16, .var 4 0] 0
      ⟨fun _ => none, fun a => if a = 0 then some (100, 2) else none, 200⟩ ∧
    Ready (β := Int) 4 [.fixed 2 4, .fixed 3 8] 0 ⟨fun _ => none, fun _ => none, 24⟩ := by
  constructor
  · refine ⟨by simp [cellsAt, alongPlaces], by simp [recsAt, alongPlaces], ?_, ?_, ?_, ?_⟩
    · simp [cellsAt, alongPlaces]
    · simp [recsAt, alongPlaces]
    · intro a h; simp at h ⊢; omega
    · simp only [NewBelow, alongAll]
      simp
      exact ⟨⟨trivial, trivial, trivial⟩, [], rfl, rfl⟩
  · refine ⟨by decide, by simp [recsAt, alongPlaces], ?_, ?_, fun _ _ => rfl, ?_⟩
    · simp [cellsAt, alongPlaces]
    · simp [recsAt, alongPlaces]
    · simp [NewBelow, alongAll]

end Dynd
