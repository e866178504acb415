/-
C120: the theorems about calls of two-argument operators on arrays.
-/
import Verif.Props.BinaryJoint

namespace Dynd

theorem concrete_arrTy {el : Ty} (h : Concrete el) : ∀ ds, Concrete (arrTy ds el)
  | [] => h
  | some n :: ds => ⟨Int.natCast_nonneg n, concrete_arrTy h ds⟩
  | none :: ds => concrete_arrTy (el := el) h ds

theorem isDim_arr {d : Option Nat} {ds : List (Option Nat)} {el : Ty} : IsDim (arrTy (d :: ds) el) := by
  cases d <;> trivial

def OTree.root : OTree → ONode
  | .mk n _ => n

def ONode.readsMeta : ONode → Bool
  | .elw _ _ _ _ _ | .eqTuple _ | .eqStruct _ => true
  | _ => false

/-- tuples and structs -/
def HasFields : Ty → Prop
  | .tuple _ _ | .struct _ _ _ => True
  | _ => False

theorem instO_root {fuel : Nat} {n : ONode} {ns rest : List ONode} {K : OTree} (h : instO fuel (n :: ns) = .ok (K, rest)) :
    K.root = n := by
  cases fuel with
  | zero => cases h
  | succ f =>
    rw [instO, Res.bind_eq_ok] at h
    obtain ⟨r, _, h2⟩ := h
    rw [Res.pure_eq] at h2
    cases h2; rfl

theorem inst2_leaf {fuel : Nat} {lf : List ONode} {K : OTree} (h : instO fuel lf = .ok (K, [])) (hr : K.root.readsMeta = false)
    (dm : List UMeta) (p0 p1 : Option (List UMeta)) : inst2 fuel lf dm p0 p1 = .ok ([], K) := by
  cases lf with
  | nil => cases fuel <;> cases h
  | cons n ns =>
    rw [instO_root h] at hr
    have e : inst2 fuel (n :: ns) dm p0 p1 = (instO fuel (n :: ns)).bind fun k => .ok ([], k.1) := by
      cases n <;> first | (simp [ONode.readsMeta] at hr; done) | rfl
    rw [e, h]; rfl

/-- operands that are no arrays: no loop, and a result that is no array -/
theorem opOK_flat {ret : BTy → BTy → BTy} {nums : BTy → BTy → Prop} {strs recs : Prop} {K : OTree} {rt ea eb : Ty}
    (h : OpOK ret nums strs recs K rt ea eb) (ha : ¬ IsDim ea) (hb : ¬ IsDim eb) (hf : recs → ¬ HasFields ea) :
    K.root.readsMeta = false ∧ dimsOf rt = [] := by
  cases h with
  | num x y _ => exact ⟨rfl, rfl⟩
  | cmp k a b h _ =>
    cases h with
    | tup as bs ks hr => exact absurd trivial (hf hr)
    | stru ns as bs ks hr => exact absurd trivial (hf hr)
    | _ => exact ⟨rfl, rfl⟩
  | na0 | na1 | na01 => exact ⟨rfl, rfl⟩
  | dims k r a b ea eb na nb c g da => cases da <;> exact absurd trivial ha
  | repeatR => exact absurd trivial ha
  | repeatL => exact absurd trivial hb

/-- A call of an operator whose table chooses as it should, on arrays. -/
theorem op_arrays {same : List Nat → Bool} {ret : BTy → BTy → BTy} {tbl : List (Option OEntry)}
    {nums : BTy → BTy → Prop} {strs recs : Prop} (C : Chooses same tbl nums strs recs)
    (hret : recs → ∀ x y, nums x y → ret x y = .bool) {K : OTree} {rt ea eb : Ty} (hK : OpOK ret nums strs recs K rt ea eb)
    (ca : Concrete ea) (cb : Concrete eb) (na : ¬ IsDim ea) (nb : ¬ IsDim eb) (hfl : recs → ¬ HasFields ea)
    {a b r : List (Option Nat)} (h : Bcast a b r)
    {α β γ : Type} (op : OTree → α → β → γ) (src0 : USrc α) (src1 : USrc β) {sm0 sm1 : List UMeta} (f0 : MetaFits a sm0)
    (f1 : MetaFits b sm1) {s0 s1 : Int} {u : NestVal α} {v : NestVal β} (hu : viewArr src0.cells src0.recs sm0 s0 = some u)
    (hv : viewArr src1.cells src1.recs sm1 s1 = some v) {sz : Nat} (hsz : 0 < sz) (base : Int) :
    ∃ F, ∀ fuel, F ≤ fuel →
      match combine (op K) (max a.length b.length) a.length b.length u v with
      | some w => ∃ dm m, binaryRun fuel (resolveOp same ret tbl fuel 2 (.kind .any) (arrTy a ea) (arrTy b eb)) op sz
            src0 sm0 s0 src1 sm1 s1 base = .ok (arrTy r rt, dm, m) ∧
          MetaFits r dm ∧ viewArr m.cells m.recs dm base = some w
      | none => binaryRun fuel (resolveOp same ret tbl fuel 2 (.kind .any) (arrTy a ea) (arrTy b eb)) op sz
            src0 sm0 s0 src1 sm1 s1 base = .throw .broadcast := by
  obtain ⟨ns, hres, hcomb⟩ := bcast_runs h
  obtain ⟨lf, F, e1, e2⟩ := opOK_builds C hret hK ca cb
  have z0 : ea.ndim = 0 := not_dim_ndim ca na
  have z1 : eb.ndim = 0 := not_dim_ndim cb nb
  obtain ⟨k1, k2⟩ := opOK_flat hK na nb hfl
  simp only [z0, z1, Nat.max_self, resolveDims2] at e1
  refine ⟨F + 1, fun fuel hf => ?_⟩
  obtain ⟨g, rfl⟩ : ∃ g, fuel = g + 1 := ⟨fuel - 1, by omega⟩
  have hi := e2 (g + 1) (by omega) []
  rw [List.append_nil] at hi
  -- resolution
  have hr : resolveOp same ret tbl (g + 1) 2 (.kind .any) (arrTy a ea) (arrTy b eb) = .ok (ns ++ lf, arrTy r rt) := by
    by_cases hd : IsDim (arrTy a ea) ∨ IsDim (arrTy b eb)
    · obtain ⟨e, he, hc⟩ := C.elw _ _ (concrete_arrTy ca a) (concrete_arrTy cb b) hd
      rw [resolveOp_elw he hc]
      · rw [arr_ndim z0, arr_ndim z1]
        exact hres _ ea eb lf rt z0 z1 (e1 g (by omega))
      · rcases hd with hd | hd
        · have : (arrTy a ea).ndim ≠ 0 := fun h => (concrete_ndim (concrete_arrTy ca a)).1 h hd
          omega
        · have : (arrTy b eb).ndim ≠ 0 := fun h => (concrete_ndim (concrete_arrTy cb b)).1 h hd
          omega
    · simp only [not_or] at hd
      cases a with
      | cons p a => exact absurd isDim_arr hd.1
      | nil =>
        cases b with
        | cons p b => exact absurd isDim_arr hd.2
        | nil =>
          have h1 := hres (fun _ _ _ => .ok (lf, rt)) ea eb lf rt z0 z1 rfl
          have h2 : (Res.ok (lf, rt) : Res (List ONode × Ty)) = .ok (ns ++ lf, arrTy r rt) := h1
          rw [← h2]
          exact e1 (g + 1) (by omega)
  obtain ⟨ls, hls, hrun⟩ := hcomb (op K) src0 src1 sz hsz (g + 1) lf K (inst2_leaf hi k1) sm0 sm1 (some sm0) (some sm1)
    f0 f1 (.inl rfl) (.inl rfl)
  have ho := hrun base s0 s1 { cells := fun _ => none, recs := fun _ => none, next := base + dataSize sz r } u v hu hv
    ⟨Int.le_refl _, fun _ _ _ => rfl, fun _ _ => rfl⟩
  have hd : dimsOf (arrTy r rt) = r := arr_dims k2 r
  cases ec : combine (op K) (max a.length b.length) a.length b.length u v with
  | none =>
    rw [ec] at ho
    simp only [Outcome] at ho
    simp only [binaryRun, hr, Res.bind_ok, hd, hls, ho, Res.bind_throw]
  | some w =>
    rw [ec] at ho
    obtain ⟨m, em, _, _, _, hview⟩ := ho
    refine ⟨freshMeta sz r, m, ?_, fresh_fits sz r, hview _ _ (fun _ _ => ⟨rfl, rfl⟩)⟩
    simp only [binaryRun, hr, Res.bind_ok, hd, hls, em]
    rfl

/-- C120, arithmetic and bitwise operators: on arrays of the dimensions `a` and `b` (`Bcast`), with any strides and
    offsets, the result has the dimensions `r` and its value is the operands combined with broadcasting; sizes of `var`
    dimensions that do not fit are reported. -/
theorem arith_arrays_partial (same : List Nat → Bool) (ret : BTy → BTy → BTy) {ps : List (BTy × BTy)} (h0 : ps ≠ [])
    {K : OTree} {rt ea eb : Ty} (hK : OpOK ret (fun x y => (x, y) ∈ ps) False False K rt ea eb)
    (ca : Concrete ea) (cb : Concrete eb) (na : ¬ IsDim ea) (nb : ¬ IsDim eb) {a b r : List (Option Nat)} (h : Bcast a b r)
    {α β γ : Type} (op : OTree → α → β → γ) (src0 : USrc α) (src1 : USrc β) {sm0 sm1 : List UMeta} (f0 : MetaFits a sm0)
    (f1 : MetaFits b sm1) {s0 s1 : Int} {u : NestVal α} {v : NestVal β} (hu : viewArr src0.cells src0.recs sm0 s0 = some u)
    (hv : viewArr src1.cells src1.recs sm1 s1 = some v) {sz : Nat} (hsz : 0 < sz) (base : Int) :
    ∃ tbl, makeArith same ps = .ok tbl ∧ ∃ F, ∀ fuel, F ≤ fuel →
      match combine (op K) (max a.length b.length) a.length b.length u v with
      | some w => ∃ dm m, binaryRun fuel (resolveOp same ret tbl fuel 2 (.kind .any) (arrTy a ea) (arrTy b eb)) op sz
            src0 sm0 s0 src1 sm1 s1 base = .ok (arrTy r rt, dm, m) ∧
          MetaFits r dm ∧ viewArr m.cells m.recs dm base = some w
      | none => binaryRun fuel (resolveOp same ret tbl fuel 2 (.kind .any) (arrTy a ea) (arrTy b eb)) op sz
            src0 sm0 s0 src1 sm1 s1 base = .throw .broadcast :=
  ⟨_, arith_table same h0, op_arrays (arith_chooses same ps) (fun h => h.elim) hK ca cb na nb (fun h => h.elim) h op src0 src1 f0 f1 hu hv hsz base⟩

/-- C120, `<`, `<=`, `>=`, `>`. -/
theorem less_arrays_partial (same : List Nat → Bool)
    {K : OTree} {rt ea eb : Ty} (hK : OpOK (fun _ _ => .bool) (CmpPair False) True False K rt ea eb)
    (ca : Concrete ea) (cb : Concrete eb) (na : ¬ IsDim ea) (nb : ¬ IsDim eb) {a b r : List (Option Nat)} (h : Bcast a b r)
    {α β γ : Type} (op : OTree → α → β → γ) (src0 : USrc α) (src1 : USrc β) {sm0 sm1 : List UMeta} (f0 : MetaFits a sm0)
    (f1 : MetaFits b sm1) {s0 s1 : Int} {u : NestVal α} {v : NestVal β} (hu : viewArr src0.cells src0.recs sm0 s0 = some u)
    (hv : viewArr src1.cells src1.recs sm1 s1 = some v) {sz : Nat} (hsz : 0 < sz) (base : Int) :
    ∃ tbl, makeLess same = .ok tbl ∧ ∃ F, ∀ fuel, F ≤ fuel →
      match combine (op K) (max a.length b.length) a.length b.length u v with
      | some w => ∃ dm m, binaryRun fuel (resolveOp same (fun _ _ => .bool) tbl fuel 2 (.kind .any) (arrTy a ea) (arrTy b eb)) op sz
            src0 sm0 s0 src1 sm1 s1 base = .ok (arrTy r rt, dm, m) ∧
          MetaFits r dm ∧ viewArr m.cells m.recs dm base = some w
      | none => binaryRun fuel (resolveOp same (fun _ _ => .bool) tbl fuel 2 (.kind .any) (arrTy a ea) (arrTy b eb)) op sz
            src0 sm0 s0 src1 sm1 s1 base = .throw .broadcast := by
  obtain ⟨tbl, e, _, C⟩ := less_table same
  exact ⟨_, e, op_arrays C (fun h => h.elim) hK ca cb na nb (fun h => h.elim) h op src0 src1 f0 f1 hu hv hsz base⟩

/-- C120, `==`, `!=`; elements that are no tuples nor structs. -/
theorem eq_arrays_partial (same : List Nat → Bool)
    {K : OTree} {rt ea eb : Ty} (hK : OpOK (fun _ _ => .bool) (CmpPair True) True True K rt ea eb)
    (ca : Concrete ea) (cb : Concrete eb) (na : ¬ IsDim ea) (nb : ¬ IsDim eb) (hfl : ¬ HasFields ea)
    {a b r : List (Option Nat)} (h : Bcast a b r)
    {α β γ : Type} (op : OTree → α → β → γ) (src0 : USrc α) (src1 : USrc β) {sm0 sm1 : List UMeta} (f0 : MetaFits a sm0)
    (f1 : MetaFits b sm1) {s0 s1 : Int} {u : NestVal α} {v : NestVal β} (hu : viewArr src0.cells src0.recs sm0 s0 = some u)
    (hv : viewArr src1.cells src1.recs sm1 s1 = some v) {sz : Nat} (hsz : 0 < sz) (base : Int) :
    ∃ tbl, makeEqual same = .ok tbl ∧ ∃ F, ∀ fuel, F ≤ fuel →
      match combine (op K) (max a.length b.length) a.length b.length u v with
      | some w => ∃ dm m, binaryRun fuel (resolveOp same (fun _ _ => .bool) tbl fuel 2 (.kind .any) (arrTy a ea) (arrTy b eb)) op sz
            src0 sm0 s0 src1 sm1 s1 base = .ok (arrTy r rt, dm, m) ∧
          MetaFits r dm ∧ viewArr m.cells m.recs dm base = some w
      | none => binaryRun fuel (resolveOp same (fun _ _ => .bool) tbl fuel 2 (.kind .any) (arrTy a ea) (arrTy b eb)) op sz
            src0 sm0 s0 src1 sm1 s1 base = .throw .broadcast := by
  obtain ⟨tbl, e, _, C⟩ := eq_table same
  exact ⟨_, e, op_arrays C (fun _ _ _ _ => rfl) hK ca cb na nb (fun _ => hfl) h op src0 src1 f0 f1 hu hv hsz base⟩

end Dynd
