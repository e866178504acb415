/-
C123: which types the reductions take, the type of the result, the nodes, and their instantiation.
-/
import Verif.Props.ReduceRag
import Verif.Props.UnaryProps

namespace Dynd

/-! ### Specification -/

/-- The element types a reduction works on. -/
def RedFn.worksOn : RedFn → List BTy
  | .sum => [.int .w8, .int .w16, .int .w32, .int .w64, .uint .w8, .uint .w16, .uint .w32, .uint .w64,
      .flt .f16, .flt .f32, .flt .f64, .cplx .c32, .cplx .c64]
  | .min | .max => [.int .w8, .int .w16, .int .w32, .int .w64, .uint .w8, .uint .w16, .uint .w32, .uint .w64,
      .flt .f32, .flt .f64]
  | .all => [.bool]

/-- The type of the value an accumulation starts from. -/
def RedFn.startType : RedFn → BTy → BTy
  | .sum, _ => .int .w32
  | .all, _ => .bool
  | .min, a | .max, a => a

/-- The dimensions of the result: the kept ones, with `keep` also the reduced ones as dimensions of size 1. -/
def redDims (keep : Bool) : List Bool → List (Option Nat) → List (Option Nat)
  | true :: bs, d :: ds => d :: redDims keep bs ds
  | false :: bs, _ :: ds => if keep then some 1 :: redDims keep bs ds else redDims keep bs ds
  | _, _ => []

/-! ### The tables -/

theorem redTable_ok (same : List Nat → Bool) {ts : List BTy} (h0 : ts ≠ []) :
    redTable same ts = .ok ((ts.map UEntry.num).reverse.map some) := by
  have := uInsert_ok same [] (ts.map .num) (by simpa using h0) (by
    intro e he
    obtain ⟨t, _, rfl⟩ := List.mem_map.1 (by simpa using he)
    exact ⟨_, rfl, .prim t⟩)
  unfold redTable
  simpa using this

theorem redPick_ok (same : List Nat → Bool) {ts : List BTy} {a : BTy} (ha : a ∈ ts) :
    redPick same ts (.prim a) = .ok a := by
  have h0 : ts ≠ [] := by intro h; rw [h] at ha; simp at ha
  obtain ⟨e, he, h1, h2⟩ := dispCall_some (m := tyMatch same) (sig := UEntry.sig) (args := [Ty.prim a])
    (ts.map UEntry.num).reverse [] ⟨.num a, by simpa using ha, by
      rw [sup_u same (e := .num a) rfl (.prim a)]; simp [uPat, tyEq]⟩
  obtain ⟨t, _, rfl⟩ := List.mem_map.1 (by simpa using he : e ∈ ts.map UEntry.num)
  rw [sup_u same (e := .num t) rfl (.prim t)] at h1
  simp only [uPat, tyEq, decide_eq_true_eq] at h1
  subst h1
  rw [List.append_nil] at h2
  unfold redPick
  rw [redTable_ok same h0, Res.bind_ok, h2, Res.bind_ok]; rfl

theorem redPick_none (same : List Nat → Bool) {ts : List BTy} (h0 : ts ≠ []) {c : Ty} (h : ∀ a ∈ ts, c ≠ .prim a) :
    redPick same ts c = .throw .outOfRange := by
  unfold redPick
  rw [redTable_ok same h0, Res.bind_ok, dispCall_none, Res.bind_throw]
  intro e he
  obtain ⟨t, ht, rfl⟩ := List.mem_map.1 (by simpa using he : e ∈ ts.map UEntry.num)
  rw [sup_u same (e := .num t) rfl (.prim t)]
  cases hc : uPat (.prim t) c
  · rfl
  · exact absurd ((tyEq_iff (.prim t) c).1 hc).symm (h t ht)

theorem limit_arith {a : BTy} (h : a ∈ limitTypes) : a ∈ arithTypes := by
  simp only [limitTypes, List.mem_cons, List.not_mem_nil, or_false] at h
  rcases h with rfl | rfl | rfl | rfl | rfl | rfl | rfl | rfl | rfl | rfl <;> decide

theorem redLeaf_ok (same : List Nat → Bool) {fn : RedFn} {a : BTy} (ha : a ∈ fn.worksOn) :
    redLeaf same fn (.prim a) = .ok ([.kern a, .start (fn.startType a)], .prim a) := by
  cases fn with
  | sum =>
    have ha : a ∈ sumTypes := ha
    simp only [redLeaf]; rw [redPick_ok same ha, Res.bind_ok]; rfl
  | min =>
    have ha : a ∈ limitTypes := ha
    simp only [redLeaf]; rw [redPick_ok same (limit_arith ha), Res.bind_ok, redPick_ok same ha, Res.bind_ok]; rfl
  | max =>
    have ha : a ∈ limitTypes := ha
    simp only [redLeaf]; rw [redPick_ok same (limit_arith ha), Res.bind_ok, redPick_ok same ha, Res.bind_ok]; rfl
  | all =>
    simp only [RedFn.worksOn, List.mem_singleton] at ha
    subst ha; rfl

theorem redLeaf_none (same : List Nat → Bool) {fn : RedFn} (hfn : fn ≠ .all) {c : Ty} (h : ∀ a ∈ fn.worksOn, c ≠ .prim a) :
    redLeaf same fn c = .throw .outOfRange := by
  have hmm : ∀ (k : BTy → BTy → Res (List RNode × Ty)), (∀ a ∈ limitTypes, c ≠ .prim a) →
      (redPick same arithTypes c >>= fun a => redPick same limitTypes (.prim a) >>= fun b => k a b) = .throw .outOfRange := by
    intro k h
    by_cases hc : ∃ a ∈ arithTypes, c = .prim a
    · obtain ⟨a, ha, rfl⟩ := hc
      rw [redPick_ok same ha, Res.bind_ok, redPick_none same (by simp [limitTypes]) h, Res.bind_throw]
    · rw [redPick_none same (by simp [arithTypes]) (fun a ha he => hc ⟨a, ha, he⟩), Res.bind_throw]
  cases fn with
  | sum =>
    have h : ∀ a ∈ sumTypes, c ≠ .prim a := h
    simp only [redLeaf]; rw [redPick_none same (by simp [sumTypes]) h, Res.bind_throw]
  | min => simp only [redLeaf]; exact hmm _ h
  | max => simp only [redLeaf]; exact hmm _ h
  | all => exact absurd rfl hfn

/-! ### The dimensions -/

/-- which of `n` dimensions are kept, counting from number `k` -/
def keptFrom (axes : Option (List Int)) : Nat → Nat → List Bool
  | _, 0 => []
  | k, n + 1 => (!redAxis axes k) :: keptFrom axes (k + 1) n

theorem keptFrom_len (axes : Option (List Int)) : ∀ (n k : Nat), (keptFrom axes k n).length = n
  | 0, _ => rfl
  | n + 1, k => by simp [keptFrom, keptFrom_len axes n]

theorem keptFrom_get (axes : Option (List Int)) : ∀ (n k i : Nat), i < n → (keptFrom axes k n)[i]? = some (!redAxis axes (k + i))
  | 0, _, _, h => absurd h (by omega)
  | n + 1, k, 0, _ => by simp [keptFrom]
  | n + 1, k, i + 1, h => by
    simp only [keptFrom, List.getElem?_cons_succ]
    rw [keptFrom_get axes n (k + 1) i (by omega)]
    congr 3; omega

theorem kept_eq (axes : Option (List Int)) (n : Nat) : keptFrom axes 0 n = keptDims axes n := by
  rw [← keptDims_eq]
  apply List.ext_getElem?
  intro i
  by_cases hi : i < n
  · rw [keptFrom_get axes n 0 i hi]
    simp only [redKept, List.getElem?_map, List.getElem?_range hi, Option.map_some, redAxis, Nat.zero_add]
    cases axes <;> rfl
  · rw [List.getElem?_eq_none (by rw [keptFrom_len]; omega), List.getElem?_eq_none (by simp [redKept]; omega)]

/-- the nodes of the dimensions -/
def redNodes (keep : Bool) : List Bool → List (Option Nat) → List RNode
  | b :: bs, d :: ds => .red d.isNone ds.isEmpty b keep :: redNodes keep bs ds
  | _, _ => []

theorem axes_ok {f : Ty → Res (List RNode × Ty)} (axes : Option (List Int)) (keep : Bool) {el rt : Ty} {leaf : List RNode}
    (hf : f el = .ok (leaf, rt)) (nd : Nat) : ∀ (ds : List (Option Nat)) (d : Option Nat) (axis : Nat),
    nd = axis + ds.length + 1 →
    resolveAxes f axes keep nd (ds.length + 1) axis (arrTy (d :: ds) el) =
      .ok (redNodes keep (keptFrom axes axis (ds.length + 1)) (d :: ds) ++ leaf,
        arrTy (redDims keep (keptFrom axes axis (ds.length + 1)) (d :: ds)) rt)
  | [], d, axis, h => by
    have h' : axis + 1 = nd := by simp at h; omega
    cases d with
    | none =>
      simp only [arrTy, List.length_nil]
      rw [resolveAxes, if_pos h', hf, Res.bind_ok]
      cases hr : redAxis axes axis <;> cases keep <;>
        simp [keptFrom, redNodes, redDims, arrTy, hr, h', Option.isNone, List.isEmpty]
    | some n =>
      simp only [arrTy, List.length_nil]
      rw [resolveAxes, if_pos h', hf, Res.bind_ok]
      cases hr : redAxis axes axis <;> cases keep <;>
        simp [keptFrom, redNodes, redDims, arrTy, hr, h', Option.isNone, List.isEmpty]
  | d' :: ds, d, axis, h => by
    simp only [List.length_cons] at h
    have h' : ¬ axis + 1 = nd := by omega
    have ih := axes_ok axes keep hf nd ds d' (axis + 1) (by omega)
    cases d with
    | none =>
      rw [show arrTy (none :: d' :: ds) el = .varDim (arrTy (d' :: ds) el) from rfl]
      simp only [List.length_cons]
      rw [resolveAxes, if_neg h', ih, Res.bind_ok]
      cases hr : redAxis axes axis <;> cases keep <;>
        simp [keptFrom, redNodes, redDims, arrTy, hr, h', Option.isNone, List.isEmpty]
    | some n =>
      rw [show arrTy (some n :: d' :: ds) el = .fixedDim n (arrTy (d' :: ds) el) from rfl]
      simp only [List.length_cons]
      rw [resolveAxes, if_neg h', ih, Res.bind_ok]
      cases hr : redAxis axes axis <;> cases keep <;>
        simp [keptFrom, redNodes, redDims, arrTy, hr, h', Option.isNone, List.isEmpty]

theorem axes_throw {f : Ty → Res (List RNode × Ty)} (axes : Option (List Int)) (keep : Bool) {el : Ty} {x : Exc}
    (hf : f el = .throw x) (nd : Nat) : ∀ (ds : List (Option Nat)) (d : Option Nat) (axis : Nat),
    nd = axis + ds.length + 1 → resolveAxes f axes keep nd (ds.length + 1) axis (arrTy (d :: ds) el) = .throw x
  | [], d, axis, h => by
    have h' : axis + 1 = nd := by simp at h; omega
    cases d <;> (simp only [arrTy, List.length_nil]; rw [resolveAxes, if_pos h', hf, Res.bind_throw])
  | d' :: ds, d, axis, h => by
    simp only [List.length_cons] at h
    have h' : ¬ axis + 1 = nd := by omega
    have ih := axes_throw axes keep hf nd ds d' (axis + 1) (by omega)
    cases d with
    | none =>
      rw [show arrTy (none :: d' :: ds) el = .varDim (arrTy (d' :: ds) el) from rfl]
      simp only [List.length_cons]
      rw [resolveAxes, if_neg h', ih, Res.bind_throw]
    | some n =>
      rw [show arrTy (some n :: d' :: ds) el = .fixedDim n (arrTy (d' :: ds) el) from rfl]
      simp only [List.length_cons]
      rw [resolveAxes, if_neg h', ih, Res.bind_throw]

/-- What a call with an array of elements of type `a` resolves to. -/
theorem reduce_resolve (same : List Nat → Bool) {fn : RedFn} {a : BTy} (ha : a ∈ fn.worksOn) (axes : Option (List Int))
    (keep : Bool) {ds : List (Option Nat)} (h0 : ds ≠ []) :
    resolveReduce same fn axes keep (arrTy ds (.prim a)) =
      .ok (redNodes keep (keptDims axes ds.length) ds ++ [.kern a, .start (fn.startType a)],
        arrTy (redDims keep (keptDims axes ds.length) ds) (.prim a)) := by
  obtain ⟨d, ds, rfl⟩ := List.exists_cons_of_ne_nil h0
  unfold resolveReduce
  rw [arr_ndim rfl, arr_atDim, Res.bind_ok]
  have h1 : (decide (fn = .all) && !tyEq (.prim a) (.prim .bool)) = false := by
    cases fn <;> simp_all [RedFn.worksOn, tyEq]
  simp only [h1, Bool.false_eq_true, if_false]
  rw [if_neg (by simp)]
  have := axes_ok axes keep (redLeaf_ok same ha) (d :: ds).length ds d 0 (by simp)
  simp only [List.length_cons] at this ⊢
  rw [this, ← kept_eq]

/-- C123: a call with elements of any other type is refused. -/
theorem reduce_rejected (same : List Nat → Bool) (fn : RedFn) {el : Ty} (hc : Concrete el) (hd : ¬ IsDim el)
    (h : ∀ a ∈ fn.worksOn, el ≠ .prim a) (axes : Option (List Int)) (keep : Bool) (ds : List (Option Nat)) :
    resolveReduce same fn axes keep (arrTy ds el) = .throw (if fn = .all then .invalidArg else .outOfRange) := by
  have hn : el.ndim = 0 := not_dim_ndim hc hd
  unfold resolveReduce
  rw [arr_ndim hn, arr_atDim, Res.bind_ok]
  by_cases hf : fn = .all
  · subst hf
    have : tyEq el (.prim .bool) = false := by
      cases he : tyEq el (.prim .bool)
      · rfl
      · exact absurd ((tyEq_iff el (.prim .bool)).1 he) (h .bool (by simp [RedFn.worksOn]))
    simp [this]
  · simp only [hf, decide_false, Bool.false_and, Bool.false_eq_true, if_false]
    cases ds with
    | nil => simp only [List.length_nil, if_true, arrTy]; rw [redLeaf_none same hf h, Res.bind_throw]
    | cons d ds =>
      rw [if_neg (by simp)]
      exact axes_throw axes keep (redLeaf_none same hf h) (d :: ds).length ds d 0 (by simp)

/-! ### Instantiation -/

/-- the metadata of fixed dimensions -/
def fixMetas (m : Dims) : List UMeta := m.map fun p => .fixed p.1 p.2

theorem instR_red (inner bc keep : Bool) (r : List RNode) (dm : List UMeta) (n : Nat) (ss : Int) (sm : List UMeta) :
    instR (.red false inner bc keep :: r) dm (.fixed n ss :: sm) = (do
      let ds ← (if bc then match dm with
          | .fixed _ st :: _ => Res.ok st
          | _ => Res.ub
        else Res.ok 0)
      if inner then match r with
        | [.kern a, .start b] => pure (.dims [{ bc := bc, size := n, dst := ds, src := ss }] none a b)
        | _ => .ub
      else do
        let x ← instR r (if keep then dm.tail else dm) sm
        match x with
        | .dims ks v a b => pure (.dims ({ bc := bc, size := n, dst := ds, src := ss } :: ks) v a b)
        | .scalar _ _ => .ub) := by
  conv => lhs; rw [instR.eq_def]
  rfl

theorem inst_fixed (keep : Bool) (a b : BTy) : ∀ (bs : List Bool) (src dst : Dims) (dm : List UMeta) (ks : List RLevel),
    src ≠ [] → (∀ (i : Nat) p, dst[i]? = some p → dm[i]? = some (.fixed p.1 p.2)) → bs.length = src.length →
    redInst keep bs dst src = .ok ks →
    instR (redNodes keep bs (src.map fun p => some p.1) ++ [.kern a, .start b]) dm (fixMetas src) = .ok (.dims ks none a b)
  | [], src, _, _, _, h0, _, hl, _ => by simp at hl; exact absurd hl.symm (by simpa using h0)
  | _ :: _, [], _, _, _, h0, _, _, _ => absurd rfl h0
  | bb :: bs, (n, ss) :: src, dst, dm, ks, _, hd, hl, he => by
    simp only [redInst] at he
    obtain ⟨ds, e1, he⟩ := Res.bind_eq_ok.1 he
    obtain ⟨ks', e2, he⟩ := Res.bind_eq_ok.1 he
    simp only [Res.pure_eq, Res.ok.injEq] at he
    subst he
    have e1' : (if bb then match dm with
        | .fixed _ st :: _ => Res.ok st
        | _ => Res.ub
      else Res.ok 0) = (.ok ds : Res Int) := by
      cases bb
      · exact e1
      · simp only [if_true] at e1 ⊢
        cases dst with
        | nil => simp at e1
        | cons p dst =>
          have := hd 0 p rfl
          cases dm with
          | nil => simp at this
          | cons m dm => simp only [List.getElem?_cons_zero, Option.some.injEq] at this; subst this; exact e1
    simp only [List.map_cons, fixMetas, redNodes, List.cons_append, Option.isNone]
    rw [instR_red]
    refine Eq.trans (congrArg (fun r => Res.bind r _) e1') ?_
    simp only [Res.bind]
    cases hs : src with
    | nil =>
      subst hs
      have hb : bs = [] := by simpa using hl
      subst hb
      simp only [redInst, Res.ok.injEq] at e2
      subst e2
      rfl
    | cons p src' =>
      rw [← hs]
      have hne : src ≠ [] := by rw [hs]; simp
      have hemp : (src.map fun p => some p.1).isEmpty = false := by rw [hs]; rfl
      rw [hemp]
      simp only [Bool.false_eq_true, if_false]
      have ih := inst_fixed keep a b bs src (if keep then dst.tail else dst) (if keep then dm.tail else dm) ks' hne (by
        intro i p hp
        cases keep
        · exact hd i p hp
        · simp only [if_true] at hp ⊢
          rw [List.getElem?_tail] at hp ⊢
          exact hd (i + 1) p hp) (by simpa using hl) e2
      show Res.bind (instR _ _ (fixMetas src)) _ = _
      rw [ih]; rfl

theorem inst_rows (keep bv : Bool) (a b : BTy) (st off : Int) : ∀ (bs : List Bool) (src dst : Dims) (dm : List UMeta)
    (ks : List RLevel),
    (∀ (i : Nat) p, dst[i]? = some p → dm[i]? = some (.fixed p.1 p.2)) → bs.length = src.length →
    redInst keep bs dst src = .ok ks →
    instR (redNodes keep (bs ++ [bv]) ((src.map fun p => some p.1) ++ [none]) ++ [.kern a, .start b]) dm
      (fixMetas src ++ [.var st off]) = .ok (.dims ks (some st) a b)
  | [], src, dst, dm, ks, _, hl, he => by
    have : src = [] := List.length_eq_zero_iff.1 hl.symm
    subst this
    simp only [redInst, Res.ok.injEq] at he
    subst he
    rfl
  | _ :: _, [], _, _, _, _, hl, _ => by simp at hl
  | bb :: bs, (n, ss) :: src, dst, dm, ks, hd, hl, he => by
    simp only [redInst] at he
    obtain ⟨ds, e1, he⟩ := Res.bind_eq_ok.1 he
    obtain ⟨ks', e2, he⟩ := Res.bind_eq_ok.1 he
    simp only [Res.pure_eq, Res.ok.injEq] at he
    subst he
    have e1' : (if bb then match dm with
        | .fixed _ st :: _ => Res.ok st
        | _ => Res.ub
      else Res.ok 0) = (.ok ds : Res Int) := by
      cases bb
      · exact e1
      · simp only [if_true] at e1 ⊢
        cases dst with
        | nil => simp at e1
        | cons p dst =>
          have := hd 0 p rfl
          cases dm with
          | nil => simp at this
          | cons m dm => simp only [List.getElem?_cons_zero, Option.some.injEq] at this; subst this; exact e1
    simp only [List.map_cons, fixMetas, redNodes, List.cons_append, Option.isNone]
    rw [instR_red]
    refine Eq.trans (congrArg (fun r => Res.bind r _) e1') ?_
    simp only [Res.bind]
    have hemp : ((src.map fun p : Nat × Int => some p.1) ++ [none]).isEmpty = false := by cases src <;> rfl
    rw [hemp]
    simp only [Bool.false_eq_true, if_false]
    have ih := inst_rows keep bv a b st off bs src (if keep then dst.tail else dst) (if keep then dm.tail else dm) ks' (by
      intro i p hp
      cases keep
      · exact hd i p hp
      · simp only [if_true] at hp ⊢
        rw [List.getElem?_tail] at hp ⊢
        exact hd (i + 1) p hp) (by simpa using hl) e2
    show Res.bind (instR _ _ (fixMetas src ++ [.var st off])) _ = _
    rw [ih]; rfl

end Dynd
