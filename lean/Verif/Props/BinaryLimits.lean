/-
C120: what broadcasting is (order of the operands), and the arrays for which the code does not do it.
-/
import Verif.Props.BinaryCall

namespace Dynd

/-! ### The specification does not depend on the order of the operands -/

theorem agreedSize_swap (a b : Nat) : agreedSize a b = agreedSize b a := by
  unfold agreedSize
  by_cases h1 : a = 1
  · subst h1
    by_cases h2 : b = 1
    · subst h2; rfl
    · simp [h2, Ne.symm h2]
  · by_cases h2 : b = 1
    · subst h2; simp [h1, Ne.symm h1]
    · by_cases h : a = b
      · subst h; rfl
      · simp [h1, h2, h, Ne.symm h]

theorem zipAll_swap {A B C : Type} {f : A → B → Option C} {g : B → A → Option C} (h : ∀ x y, f x y = g y x) :
    ∀ xs ys, zipAll f xs ys = zipAll g ys xs
  | [], [] => rfl
  | [], _ :: _ => rfl
  | _ :: _, [] => rfl
  | x :: xs, y :: ys => by simp only [zipAll, h x y, zipAll_swap h xs ys]

/-- Swapping the operands swaps the arguments of the operator, nothing else. -/
theorem combine_swap {α β γ : Type} (op : α → β → γ) : ∀ (k d0 d1 : Nat) (u : NestVal α) (v : NestVal β),
    combine op k d0 d1 u v = combine (fun y x => op x y) k d1 d0 v u
  | 0, _, _, .elem _, .elem _ => rfl
  | 0, _, _, .elem _, .list _ => rfl
  | 0, _, _, .list _, .elem _ => rfl
  | 0, _, _, .list _, .list _ => rfl
  | k + 1, d0, d1, u, v => by
    simp only [combine]
    rw [agreedSize_swap]
    congr 1
    funext n
    rw [zipAll_swap (fun x y => combine_swap op k (min d0 k) (min d1 k) x y)]

theorem dimRes_swap {p q t : Option Nat} (h : DimRes p q t) : DimRes q p t := by
  cases h with
  | same n => exact .same n
  | left m => exact .right m
  | right n => exact .left n
  | varVar => exact .varVar
  | varOne => exact .oneVar
  | oneVar => exact .varOne
  | varFixed m h => exact .fixedVar m h
  | fixedVar n h => exact .varFixed n h

/-- The pairs of arrays that are combined correctly do not depend on the order either. -/
theorem bcast_swap {a b r : List (Option Nat)} (h : Bcast a b r) : Bcast b a r := by
  induction h with
  | nil => exact .nil
  | both p q t hl hd ha hb _ ih => exact .both q p t hl.symm (dimRes_swap hd) hb ha ih
  | repeatR p hl hp ha _ ih => exact .repeatL p hl hp ha ih
  | repeatL q hl hp hb _ ih => exact .repeatR q hl hp hb ih

/-! ### What does not hold -/

section
variable (same : List Nat → Bool) (ret : BTy → BTy → BTy) {ps : List (BTy × BTy)} {x y : BTy}

theorem concrete_prim (z : BTy) : Concrete (.prim z) := trivial

theorem arith_elems (h : (x, y) ∈ ps) : ∃ tbl, makeArith same ps = .ok tbl ∧
    (∀ fuel, resolveOp same ret tbl (fuel + 1) 2 (.kind .any) (.prim x) (.prim y) = .ok ([.kern x y], .prim (ret x y))) ∧
    ∀ (fuel : Nat) (a b : Ty), Concrete a → Concrete b → IsDim a ∨ IsDim b → max a.ndim b.ndim ≠ 0 →
      resolveOp same ret tbl (fuel + 1) 2 (.kind .any) a b =
        resolveDims2 (resolveOp same ret tbl fuel 2) (max a.ndim b.ndim) (.kind .any) a b := by
  have C := arith_chooses same ps
  refine ⟨_, arith_table same (List.ne_nil_of_mem h), fun fuel => ?_, fun fuel a b ha hb hd h0 => ?_⟩
  · rw [resolveOp, C.num x y h, Res.bind_ok]
    simp [Ty.symbolic, OEntry.ret]
  · obtain ⟨e, he, hc⟩ := C.elw a b ha hb hd
    exact resolveOp_elw he hc h0

/-- C120, false of the code: a `1 * 2` array [[7, 8]] and a scalar: computed from [[7, 99]], 99 being outside the array. -/
theorem binary_leading_one_violation (h : (x, y) ∈ ps) (fuel : Nat) :
    ∃ (src0 src1 : USrc Int) (sm : List UMeta), MetaFits [some 1, some 2] sm ∧
      viewArr src0.cells src0.recs sm 0 = some (.list [.list [.elem 7, .elem 8]]) ∧
      viewArr src1.cells src1.recs [] 0 = some (.elem 5) ∧
      ∃ tbl, makeArith same ps = .ok tbl ∧ ∃ dm m,
        binaryRun (fuel + 2) (resolveOp same ret tbl (fuel + 2) 2 (.kind .any) (arrTy [some 1, some 2] (.prim x)) (.prim y))
          (fun _ a b => a + b) 4 src0 sm 0 src1 [] 0 1000 = .ok (arrTy [some 1, some 2] (.prim (ret x y)), dm, m) ∧
        viewArr m.cells m.recs dm 1000 = some (.list [.list [.elem 12, .elem 104]]) := by
  obtain ⟨tbl, e, he, hd⟩ := arith_elems same ret h
  have ca : Concrete (arrTy [some 1, some 2] (.prim x)) := concrete_arrTy (concrete_prim _) _
  have cb : Concrete (.prim y) := trivial
  have hr : resolveOp same ret tbl (fuel + 2) 2 (.kind .any) (arrTy [some 1, some 2] (.prim x)) (.prim y) =
      .ok ([.elw .ff true true false false, .elw .ff false true false false, .kern x y],
        arrTy [some 1, some 2] (.prim (ret x y))) := by
    rw [hd (fuel + 1) _ _ ca cb (.inl isDim_arr) (by simp [arrTy, Ty.ndim])]
    have h1 := repeatR_step (f := resolveOp same ret tbl (fuel + 1) 2) (n := 2) (ea := .prim x) (b := .prim y) (by omega) (Nat.le_refl _) (by simp) (he fuel)
    exact repeatR_step (n := 1) (by omega) (by simp [Ty.ndim]) (by simp) h1
  refine ⟨{ cells := fun a => if a = 0 then some 7 else if a = 4 then some 8 else if a = 8 then some 99 else none,
            recs := fun _ => none }, { cells := fun a => if a = 0 then some 5 else none, recs := fun _ => none },
    [.fixed 1 8, .fixed 2 4], .fixed _ _ (.fixed _ _ .nil), by simp [viewArr, viewList], by simp [viewArr], tbl, e,
    freshMeta 4 [some 1, some 2],
    { cells := putAt (putAt (fun _ => none) 1000 12) 1004 104, recs := fun _ => none, next := 1008 }, ?_, ?_⟩
  · rw [hr]; rfl
  · simp [viewArr, viewList, freshMeta, dataSize, putAt, dimsOf, arrTy]

/-- C120, false of the code: a matrix and a ragged row: the `var` dimension of the row is opened once for every
    dimension of the matrix. -/
theorem binary_matrix_var_violation (h : (x, y) ∈ ps) {n m : Nat} (hn : n ≠ 1) (fuel : Nat) (src0 src1 : USrc Int)
    (op : OTree → Int → Int → Int) {sm0 sm1 : List UMeta} (f0 : MetaFits [some n, some m] sm0) (f1 : MetaFits [none] sm1)
    (s0 s1 base : Int) (sz : Nat) :
    ∃ tbl, makeArith same ps = .ok tbl ∧
      binaryRun (fuel + 2) (resolveOp same ret tbl (fuel + 2) 2 (.kind .any) (arrTy [some n, some m] (.prim x)) (arrTy [none] (.prim y)))
        op sz src0 sm0 s0 src1 sm1 s1 base = .ub := by
  obtain ⟨tbl, e, he, hd⟩ := arith_elems same ret h
  have ca : Concrete (arrTy [some n, some m] (.prim x)) := concrete_arrTy (concrete_prim _) _
  have cb : Concrete (arrTy [none] (.prim y)) := concrete_arrTy (concrete_prim _) _
  refine ⟨tbl, e, ?_⟩
  have hn' : (n : Int) ≠ 1 := by omega
  have hnm : (n : Int) ≠ -1 := by omega
  have hmm : (m : Int) ≠ -1 := by omega
  rw [hd (fuel + 1) _ _ ca cb (.inl isDim_arr) (by simp [arrTy, Ty.ndim])]
  have hin : ∃ c s, resolveDims2 (resolveOp same ret tbl (fuel + 1) 2) 1 (.kind .any) (.fixedDim m (.prim x)) (.varDim (.prim y)) =
      .ok ([.elw c ((m : Int) == 1) false false true, .kern x y], withRet c s (.prim (ret x y))) ∧ (c = .fv ∨ c = .vf) := by
    by_cases hm : (m : Int) = 1
    · refine ⟨.vf, 1, dims2_core (ea := .prim x) (eb := .prim y) (sa := m) (sb := -1) ?_ ?_ rfl ?_ ?_ (he fuel), .inr rfl⟩
      · simp [elwClass, isVarId, varOrOne, anyVariadic, hm]
      · simp [argInfo, dimSizeOf, Ty.ndim]
      · simp [resSize, hm]
      · simp [sizeClash, hm]
    · refine ⟨.fv, m, dims2_core (ea := .prim x) (eb := .prim y) (sa := m) (sb := -1) ?_ ?_ rfl ?_ ?_ (he fuel), .inl rfl⟩
      · simp [elwClass, isVarId, varOrOne, anyVariadic, hm, otherDim]
      · simp [argInfo, dimSizeOf, Ty.ndim]
      · simp [resSize, hm, hmm]
      · simp [sizeClash]
  obtain ⟨c, s, hin, hc⟩ := hin
  have hout : resolveDims2 (resolveOp same ret tbl (fuel + 1) 2)
      (max (arrTy [some n, some m] (.prim x)).ndim (arrTy [none] (.prim y)).ndim) (.kind .any)
      (arrTy [some n, some m] (.prim x)) (arrTy [none] (.prim y)) =
      .ok ([.elw .fv ((n : Int) == 1) true false true, .elw c ((m : Int) == 1) false false true, .kern x y],
        .fixedDim n (withRet c s (.prim (ret x y)))) := by
    have := dims2_core (f := resolveOp same ret tbl (fuel + 1) 2) (k := 1) (a := .fixedDim n (.fixedDim m (.prim x)))
      (b := .varDim (.prim y)) (ea := .fixedDim m (.prim x)) (eb := .varDim (.prim y)) (c := .fv) (ba := (n : Int) == 1) (bb := true)
      (sa := n) (sb := 1) (s := n) (by simp [elwClass, isVarId, varOrOne, anyVariadic, hn', otherDim])
      (by simp [argInfo, dimSizeOf, Ty.ndim]) (by simp [argInfo, Ty.ndim]) (by simp [resSize, hn', hnm]) (by simp [sizeClash]) hin
    refine Eq.trans this ?_
    simp [withRet, hn', isVarId]
  cases f0 with
  | fixed _ st0 f0 =>
    cases f1 with
    | var st1 o1 f1 =>
      cases f1
      have hb : ((n : Int) == 1) = false := by simpa using hn'
      rw [hout, hb]
      rcases hc with rfl | rfl
      · have hmi : (m : Int) = 1 ↔ m = 1 := by omega
        by_cases hm : m = 1
        · simp [binaryRun, dimsOf, freshMeta, inst2, instSrcV, Res.bind_ok, hm, Res.bind_ub, withRet]
          try split <;> simp [inst2, instSrcV, Res.bind_ok, Res.bind_ub, freshMeta, dimsOf, hm]
        · simp [binaryRun, dimsOf, freshMeta, inst2, instSrcV, Res.bind_ok, hm, Res.bind_ub, withRet, hmi]
          try split <;> simp [inst2, instSrcV, Res.bind_ok, Res.bind_ub, freshMeta, dimsOf, hm]
      · by_cases hm : (m : Int) = 1
        · simp [binaryRun, dimsOf, freshMeta, inst2, instSrcV, Res.bind_ok, hm, Res.bind_ub, withRet]
        · simp [binaryRun, dimsOf, freshMeta, inst2, instSrcV, Res.bind_ok, hm, Res.bind_ub, withRet]

/-- C120, false of the code: rows of a run-time number and a fixed number of rows: the metadata of the fixed rows is
    looked for in the wrong place. -/
theorem binary_var_matrix_violation (h : (x, y) ∈ ps) {n m : Nat} (hn : n ≠ 1) (hm : m ≠ 1) (fuel : Nat) (src0 src1 : USrc Int)
    (op : OTree → Int → Int → Int) {sm0 sm1 : List UMeta} (f0 : MetaFits [none, some m] sm0) (f1 : MetaFits [some n, some m] sm1)
    (s0 s1 base : Int) (sz : Nat) :
    ∃ tbl, makeArith same ps = .ok tbl ∧
      binaryRun (fuel + 2) (resolveOp same ret tbl (fuel + 2) 2 (.kind .any) (arrTy [none, some m] (.prim x))
        (arrTy [some n, some m] (.prim y))) op sz src0 sm0 s0 src1 sm1 s1 base = .ub := by
  obtain ⟨tbl, e, he, hd⟩ := arith_elems same ret h
  have ca : Concrete (arrTy [none, some m] (.prim x)) := concrete_arrTy (concrete_prim _) _
  have cb : Concrete (arrTy [some n, some m] (.prim y)) := concrete_arrTy (concrete_prim _) _
  refine ⟨tbl, e, ?_⟩
  have hn' : (n : Int) ≠ 1 := by omega
  have hm' : (m : Int) ≠ 1 := by omega
  rw [hd (fuel + 1) _ _ ca cb (.inl isDim_arr) (by simp [arrTy, Ty.ndim])]
  have nn : ∀ (k : Nat) (i : Int), some (k : Int) = some i → 0 ≤ i := fun k i h => by cases h; exact Int.natCast_nonneg k
  have h1 := dims2_step (f := resolveOp same ret tbl (fuel + 1) 2) (DimOf.fixed (m : Int) (.prim x)) (DimOf.fixed (m : Int) (.prim y))
    rfl (nn m) (nn m) (.same (m : Int)) (he fuel)
  have h2 := dims2_step (f := resolveOp same ret tbl (fuel + 1) 2) (DimOf.var (.fixedDim (m : Int) (.prim x)))
    (DimOf.fixed (n : Int) (.fixedDim (m : Int) (.prim y))) rfl (fun i h => by cases h) (nn n) (.varFixed (n : Int) hn') h1
  cases f0 with
  | var st0 o0 f0 =>
    cases f0 with
    | fixed _ st0' f0 =>
      cases f0
      cases f1 with
      | fixed _ st1 f1 =>
        rw [show arrTy [none, some m] (.prim x) = .varDim (.fixedDim (m : Int) (.prim x)) from rfl,
          show arrTy [some n, some m] (.prim y) = .fixedDim (n : Int) (.fixedDim (m : Int) (.prim y)) from rfl, h2]
        simp [binaryRun, dimsOf, freshMeta, inst2, instSrcV, instSrcF, Res.bind_ok, Res.bind_ub, hn', hm']

/-- C120, false of the code: a ragged row and a scalar. -/
theorem binary_var_scalar_violation (h : (x, y) ∈ ps) (fuel : Nat) (src0 src1 : USrc Int)
    (op : OTree → Int → Int → Int) {sm0 : List UMeta} (s0 s1 base : Int) (sz : Nat) :
    ∃ tbl, makeArith same ps = .ok tbl ∧
      binaryRun (fuel + 2) (resolveOp same ret tbl (fuel + 2) 2 (.kind .any) (arrTy [none] (.prim x)) (.prim y))
        op sz src0 sm0 s0 src1 [] s1 base = .ub := by
  obtain ⟨tbl, e, he, hd⟩ := arith_elems same ret h
  have ca : Concrete (arrTy [none] (.prim x)) := concrete_arrTy (concrete_prim _) _
  have cb : Concrete (.prim y) := trivial
  refine ⟨tbl, e, ?_⟩
  rw [hd (fuel + 1) _ _ ca cb (.inl isDim_arr) (by simp [arrTy, Ty.ndim])]
  have := dims2_core (f := resolveOp same ret tbl (fuel + 1) 2) (k := 0) (a := .varDim (.prim x))
      (b := .prim y) (ea := .prim x) (eb := .prim y) (c := .fv) (ba := false) (bb := true)
      (sa := -1) (sb := 1) (s := 1) (by simp [elwClass, isVarId, varOrOne, anyVariadic, otherDim, Ty.ndim])
      (by simp [argInfo, dimSizeOf, Ty.ndim]) (by simp [argInfo, Ty.ndim]) (by simp [resSize]) (by simp [sizeClash]) (he fuel)
  have e2 : max (arrTy [none] (.prim x)).ndim (Ty.prim y).ndim = 0 + 1 := rfl
  rw [e2, show arrTy [none] (.prim x) = .varDim (.prim x) from rfl, this]
  simp [binaryRun, dimsOf, freshMeta, inst2, Res.bind_ok, Res.bind_ub, withRet, isVarId]

end

/-! ### Examples -/

/-- the hypotheses are met: `2 * var` and `2 * 1`, `3 * var` and `1`, `4 * 5` and `5`, `4 * 5` and a scalar -/
example : Bcast [some 2, none] [some 2, some 1] [some 2, none] ∧ Bcast [some 3, none] [some 1] [some 3, none] ∧
    Bcast [some 4, some 5] [some 5] [some 4, some 5] ∧ Bcast [some 4, some 5] [] [some 4, some 5] := by
  refine ⟨.both _ _ _ rfl (.same 2) ?_ ?_ (.both _ _ _ rfl .varOne ?_ ?_ .nil), ?_, ?_, ?_⟩
  · rintro (h | ⟨_, h⟩) <;> simp at h
  · rintro (h | ⟨_, h⟩) <;> simp at h
  · rintro (h | ⟨_, h⟩) <;> simp at h
  · intro _ x hx; simp at hx
  · refine .repeatR _ (by simp) ⟨by simp, by simp⟩ (by simp) (.both _ _ _ rfl .varOne ?_ ?_ .nil)
    · rintro (h | ⟨_, h⟩) <;> simp at h
    · intro _ x hx; simp at hx
  · refine .repeatR _ (by simp) ⟨by simp, by simp⟩ (by simp) (.both _ _ _ rfl (.same 5) ?_ ?_ .nil)
    · rintro (h | ⟨_, h⟩) <;> simp at h
    · rintro (h | ⟨_, h⟩) <;> simp at h
  · refine .repeatR _ (by simp) ⟨by simp, by simp⟩ (by simp) (.repeatR _ (by simp) ⟨by simp, by simp⟩ (by simp) .nil)

/-- [[1, 2], [3]] and [[10], [20]]: [[11, 12], [23]] -/
example : combine (fun a b : Int => a + b) 2 2 2 (.list [.list [.elem 1, .elem 2], .list [.elem 3]])
    (.list [.list [.elem 10], .list [.elem 20]]) = some (.list [.list [.elem 11, .elem 12], .list [.elem 23]]) := rfl

/-- [[1, 2], [3]] and [[1, 2], [3, 4, 5]]: the first rows fit, the second are 1 and 3; 2 and 3 do not fit -/
example : combine (fun a b : Int => a + b) 2 2 2 (.list [.list [.elem 1, .elem 2], .list [.elem 3]])
    (.list [.list [.elem 1, .elem 2], .list [.elem 3, .elem 4, .elem 5]]) =
      some (.list [.list [.elem 2, .elem 4], .list [.elem 6, .elem 7, .elem 8]]) ∧
    combine (fun a b : Int => a + b) 1 1 1 (.list [.elem 1, .elem 2]) (.list [.elem 3, .elem 4, .elem 5]) = none := ⟨rfl, rfl⟩

end Dynd
