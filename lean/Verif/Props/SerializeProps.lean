/-
C128: the theorems about `nd::serialize`.
-/
import Verif.Model.SerializeRun
import Verif.Props.ReduceLimits
import Verif.Props.BinaryCall
import Verif.Props.ArrayIterProps

namespace Dynd

/-! ### Specification -/

/-- The `w` bytes of the element at `a`, in the order of the memory. -/
def elBytes (mem : Int → Nat) (w : Nat) (a : Int) : List Nat := (List.range w).map fun k : Nat => mem (a + k)

/-- The bytes of elements, one element after the other. -/
def allBytes (mem : Int → Nat) (w : Nat) (addrs : List Int) : List Nat := addrs.flatMap (elBytes mem w)

/-! ### The kernel -/

theorem readRaw_eq (mem : Int → Nat) : ∀ (w : Nat) (a : Int), readRaw mem a w = elBytes mem w a
  | 0, _ => rfl
  | w + 1, a => by
    rw [readRaw, readRaw_eq mem w, elBytes, elBytes, List.range_succ_eq_map, List.map_cons, List.map_map]
    congr 1
    · simp
    · apply List.map_congr_left
      intro k _
      simp only [Function.comp]
      congr 1
      push_cast; ring

theorem fold_append {ι : Type} (f : ι → List Nat) : ∀ (l : List ι) (x : List Nat),
    l.foldl (fun x p => x ++ f p) x = x ++ l.flatMap f
  | [], x => by simp
  | p :: l, x => by rw [List.foldl_cons, fold_append f l, List.flatMap_cons, List.append_assoc]

/-- What the kernels leave in the result. -/
theorem serialize_events {w : Nat} (srcMem : Int → Nat) {evs : List REv} (hwi : WellInit [] evs) (hnd : (initsOf evs).Nodup)
    (ha : ∀ p ∈ accsOf evs, p.1 ∈ initsOf evs) (res : Int → List Nat) :
    (∀ d ∈ initsOf evs, serializeMem w srcMem evs res d =
      allBytes srcMem w (((accsOf evs).filter fun p => decide (p.1 = d)).map (·.2))) ∧
    ∀ d, d ∉ initsOf evs → serializeMem w srcMem evs res d = res d := by
  constructor
  · intro d hd
    unfold serializeMem
    rw [runEv_init _ _ _ d evs _ [] hwi (by simp) hd hnd, fold_append (fun p : Int × Int => readRaw srcMem p.2 w),
      List.nil_append, allBytes, List.flatMap_map]
    congr 1
    funext p
    exact readRaw_eq srcMem w p.2
  · intro d hd
    unfold serializeMem
    rw [runEv_noinit _ _ _ d evs _ hd]
    have : ((accsOf evs).filter fun p => decide (p.1 = d)) = [] := by
      rw [List.filter_eq_nil_iff]
      intro p hp hpd
      simp only [decide_eq_true_eq] at hpd
      exact hd (hpd ▸ ha p hp)
    rw [this]; rfl

/-! ### The call -/

theorem serialize_resolve (a : BTy) (axes : Option (List Int)) (keep : Bool) {ds : List (Option Nat)} (h0 : ds ≠ []) :
    resolveSerialize axes keep (arrTy ds (.prim a)) =
      .ok (redNodes keep (keptDims axes ds.length) ds ++ [.kern a, .start .void],
        arrTy (redDims keep (keptDims axes ds.length) ds) bytesResTy) := by
  obtain ⟨d, ds, rfl⟩ := List.exists_cons_of_ne_nil h0
  unfold resolveSerialize
  rw [arr_ndim rfl, arr_atDim, Res.bind_ok]
  rw [if_neg (by simp)]
  have := axes_ok axes keep (f := serLeaf bytesResTy) (el := .prim a) (rt := bytesResTy) (leaf := [.kern a, .start .void]) rfl
    (d :: ds).length ds d 0 (by simp)
  simp only [List.length_cons] at this ⊢
  rw [this, ← kept_eq]

theorem bytes_not_symbolic (ds : List (Option Nat)) : (arrTy ds bytesResTy).symbolic = false :=
  concrete_symbolic (concrete_arrTy (show Concrete bytesResTy from trivial) ds)

theorem bytes_dims (ds : List (Option Nat)) : dimsOf (arrTy ds bytesResTy) = ds := arr_dims rfl ds

/-- C128: `nd::serialize` of an array of fixed dimensions, of any strides, with elements of any built-in type `a`: the
    result has the kept dimensions and every element of it is the bytes of the operand's elements that belong to it,
    element after element in row-major order; what the result's memory held before has no influence, and no other
    `bytes` object is changed.  Restrictions: those of the kernels (without `keepdims` at most one kept dimension; no
    empty dimension that is reduced and not the last, or kept and not the first). -/
theorem serialize_call_partial (a : BTy) (axes : Option (List Int)) (keep : Bool) (src : Dims) (h0 : src ≠ [])
    (kept : List Bool) (hkept : kept = keptDims axes src.length)
    (shape : List Nat) (hshape : shape = resultShape keep kept (src.map (·.1)))
    (hkeep : keep = true ∨ kept.count true ≤ 1)
    (hne : ∀ (i n : Nat), i + 1 < src.length → kept[i]? = some false → (src.map (·.1))[i]? = some n → 1 ≤ n)
    (hsh : ∀ n ∈ shape.tail, 1 ≤ n) (vd : VarData) (srcMem : Int → Nat) (res : Int → List Nat) :
    ∃ evs, serializeRun axes keep (arrTy (src.map fun p => some p.1) (.prim a)) vd (fixMetas src) =
        .ok (arrTy (shape.map some) (.leaf (.bytes 1)), fixMetas (shape.zip (rowMajor 16 shape)), evs) ∧
      (∀ o ∈ gridIdx shape, serializeMem a.width srcMem evs res (dstOff (rowMajor 16 shape) o) =
        allBytes srcMem a.width (((gridIdx (src.map (·.1))).filter fun idx => decide (resultIdx keep kept idx = o)).map
          (dstOff (src.map (·.2))))) ∧
      ∀ x : Int, x ∉ (gridIdx shape).map (dstOff (rowMajor 16 shape)) → serializeMem a.width srcMem evs res x = res x := by
  rw [← resultShape_eq] at hshape
  simp only [← resultIdx_eq]
  have hlen : kept.length = src.length := by rw [hkept, keptDims_len]
  have hlen' : kept.length = (src.map (·.1)).length := by simp [hlen]
  obtain ⟨ks, eks, h1, h2, h3, h4, h5⟩ := inst_any keep kept src hlen hkeep (rowMajor 16 shape)
    (by rw [rowMajor_len, hshape])
  rw [← hshape] at eks h2
  have hksl : ks.length = src.length := by rw [← hlen, ← h3]; simp
  have hgood : GoodLevels ks := by
    apply goodLevels_of
    intro i k hk hi
    refine ⟨fun hb => rowMajor_ne_zero 16 (by omega) shape hsh _ (h5 k (List.mem_of_getElem? hk) hb), fun hb => ?_⟩
    refine hne i k.size (by omega) ?_ ?_
    · rw [← h3, List.getElem?_map, hk]; simp [hb]
    · rw [← h4, List.getElem?_map, hk]; rfl
  obtain ⟨evs, eev, hacc, hi, hwi⟩ := (first_spec ks (by
    intro h; rw [h] at hksl; simp at hksl; exact h0 (List.length_eq_zero_iff.1 hksl.symm)) hgood).1 0 0
  rw [h1] at hacc
  rw [h2] at hi
  simp only [Int.zero_add] at hacc hi
  have hmem : ∀ idx ∈ gridIdx (src.map (·.1)), outIdx keep kept idx ∈ gridIdx shape := by
    rw [hshape]; exact outIdx_mem keep kept (src.map (·.1)) hlen'
  obtain ⟨hv, hout⟩ := serialize_events (w := a.width) srcMem (evs := evs) hwi
    (by rw [hi]; exact rowMajor_nodup 16 (by omega) shape) (by
    intro p hp
    rw [hacc] at hp
    obtain ⟨idx, hidx, rfl⟩ := List.mem_map.1 hp
    rw [hi]
    exact List.mem_map_of_mem (hmem idx hidx)) res
  rw [hi] at hv hout
  refine ⟨evs, ?_, ?_, hout⟩
  · have hds : (src.map fun p => (some p.1 : Option Nat)) = (src.map (·.1)).map some := by simp
    unfold serializeRun
    rw [serialize_resolve a axes keep (by simpa using h0), Res.bind_ok]
    simp only [bytes_not_symbolic, Bool.false_eq_true, if_false, bytes_dims, List.length_map]
    rw [← hkept]
    have hrd : redDims keep kept (src.map fun p => (some p.1 : Option Nat)) = shape.map some := by
      rw [hds, redDims_fixed, hshape]
    rw [hrd, fresh_fixed, show bytesObjSize = 16 from rfl,
      inst_fixed keep a .void kept src (shape.zip (rowMajor 16 shape)) _ ks h0
      (fun i p hp => fixMetas_get hp) hlen eks, Res.bind_ok]
    simp only [runR]
    rw [eev]; rfl
  · intro o ho
    rw [hv _ (List.mem_map_of_mem ho), hacc, List.filter_map, List.map_map]
    congr 1
    have hf : (gridIdx (src.map (·.1))).filter ((fun p : Int × Int => decide (p.1 = dstOff (rowMajor 16 shape) o)) ∘
        fun idx => (dstOff (rowMajor 16 shape) (outIdx keep kept idx), dstOff (src.map (·.2)) idx)) =
        (gridIdx (src.map (·.1))).filter fun idx => decide (outIdx keep kept idx = o) := by
      apply List.filter_congr
      intro idx hidx
      simp only [Function.comp]
      have : dstOff (rowMajor 16 shape) (outIdx keep kept idx) = dstOff (rowMajor 16 shape) o ↔
          outIdx keep kept idx = o :=
        ⟨fun h => List.inj_on_of_nodup_map (rowMajor_nodup 16 (by omega) shape) (hmem idx hidx) ho h, fun h => by rw [h]⟩
      exact decide_eq_decide.2 this
    rw [hf]
    rfl

/-- C128: the same for an array whose last dimension is `var`, below any number of fixed dimensions, and reduced: the
    bytes of the rows, row after row, whatever their lengths and wherever they are. -/
theorem serialize_rows_partial (a : BTy) (axes : Option (List Int)) (keep : Bool) (src : Dims)
    (hlast : ∀ l, axes = some l → (src.length : Int) ∈ l)
    (bs : List Bool) (hbs : bs = keptDims axes src.length)
    (shape : List Nat) (hshape : shape = resultShape keep (bs ++ [false]) (src.map (·.1) ++ [1]))
    (hkeep : keep = true ∨ bs.count true ≤ 1)
    (hne : ∀ (i n : Nat), bs[i]? = some false → (src.map (·.1))[i]? = some n → 1 ≤ n)
    (hsh : ∀ n ∈ shape.tail, 1 ≤ n) (vd : VarData) (st : Int) (srcMem : Int → Nat) (res : Int → List Nat) :
    ∃ evs, serializeRun axes keep (arrTy ((src.map fun p => some p.1) ++ [none]) (.prim a)) vd
        (fixMetas src ++ [.var st 0]) =
        .ok (arrTy (shape.map some) (.leaf (.bytes 1)), fixMetas (shape.zip (rowMajor 16 shape)), evs) ∧
      (∀ o ∈ gridIdx shape, serializeMem a.width srcMem evs res (dstOff (rowMajor 16 shape) o) =
        allBytes srcMem a.width (((gridIdx (src.map (·.1))).filter fun idx =>
          decide (resultIdx keep (bs ++ [false]) (idx ++ [0]) = o)).flatMap
            fun idx => rowAddrs vd st (dstOff (src.map (·.2)) idx))) ∧
      ∀ x : Int, x ∉ (gridIdx shape).map (dstOff (rowMajor 16 shape)) → serializeMem a.width srcMem evs res x = res x := by
  rw [← resultShape_eq] at hshape
  simp only [← resultIdx_eq]
  have hlen : bs.length = src.length := by rw [hbs, keptDims_len]
  have hlen' : bs.length = (src.map (·.1)).length := by simp [hlen]
  rw [redShape_app keep 1 bs _ hlen'] at hshape
  generalize hsF : redShape keep bs (src.map (·.1)) = sF at *
  have hmet : ∀ (i : Nat) p, (sF.zip (rowMajor 16 sF))[i]? = some p →
      (fixMetas (shape.zip (rowMajor 16 shape)))[i]? = some (.fixed p.1 p.2) := by
    intro i p hp
    apply fixMetas_get
    rw [hshape]
    cases keep
    · simpa using hp
    · simp only [if_true, rowMajor_one]
      rw [List.zip_append (by rw [rowMajor_len]), List.getElem?_append_left]
      · exact hp
      · by_contra hh
        rw [List.getElem?_eq_none (by omega)] at hp; simp at hp
  have hgrid : gridIdx shape = (gridIdx sF).map (· ++ (if keep then [0] else [])) := by
    rw [hshape]
    cases keep
    · simp
    · simp only [if_true, gridIdx_one]
  have hoff : ∀ o ∈ gridIdx sF, dstOff (rowMajor 16 shape) (o ++ (if keep then [0] else [])) =
      dstOff (rowMajor 16 sF) o := by
    intro o ho
    rw [hshape]
    cases keep
    · simp
    · simp only [if_true, rowMajor_one]
      apply dstOff_app
      rw [rowMajor_len, gridIdx_len sF o ho]
  obtain ⟨ks, eks, h1, h2, h3, h4, h5⟩ := inst_any keep bs src hlen hkeep (rowMajor 16 sF)
    (by rw [rowMajor_len, hsF])
  rw [hsF] at eks h2
  have hgood : GoodRows ks := by
    intro k hk
    obtain ⟨i, hi⟩ := List.mem_iff_getElem?.1 hk
    refine ⟨fun hb => ?_, fun hb => ?_⟩
    · refine rowMajor_ne_zero 16 (by omega) sF ?_ _ (h5 k hk hb)
      intro n hn
      apply hsh n
      rw [hshape]
      cases hF : sF with
      | nil => rw [hF] at hn; simp at hn
      | cons x sF' => rw [hF] at hn; simp at hn ⊢; exact .inl hn
    · refine hne i k.size ?_ ?_
      · rw [← h3, List.getElem?_map, hi]; simp [hb]
      · rw [← h4, List.getElem?_map, hi]; rfl
  obtain ⟨evs, eev, hacc, hi, hwi⟩ := (rows_spec vd st ks hgood).1 0 0
  rw [eRows, h1] at hacc
  rw [h2] at hi
  simp only [Int.zero_add] at hacc hi
  have hmem : ∀ idx ∈ gridIdx (src.map (·.1)), outIdx keep bs idx ∈ gridIdx sF := by
    rw [← hsF]; exact outIdx_mem keep bs (src.map (·.1)) hlen'
  have hi' : initsOf evs = (gridIdx shape).map (dstOff (rowMajor 16 shape)) := by
    rw [hi, hgrid, List.map_map]
    apply List.map_congr_left
    intro o ho
    exact (hoff o ho).symm
  rw [List.flatMap_map] at hacc
  obtain ⟨hv, hout⟩ := serialize_events (w := a.width) srcMem (evs := evs) hwi
    (by rw [hi']; exact rowMajor_nodup 16 (by omega) shape) (by
    intro p hp
    rw [hacc] at hp
    obtain ⟨idx, hidx, hp⟩ := List.mem_flatMap.1 hp
    obtain ⟨x, _, rfl⟩ := List.mem_map.1 hp
    rw [hi]
    exact List.mem_map_of_mem (hmem idx hidx)) res
  rw [hi'] at hv hout
  refine ⟨evs, ?_, ?_, hout⟩
  · unfold serializeRun
    rw [serialize_resolve a axes keep (by simp), Res.bind_ok]
    simp only [bytes_not_symbolic, Bool.false_eq_true, if_false, bytes_dims, List.length_append, List.length_map,
      List.length_singleton]
    rw [keptDims_succ axes _ hlast, ← hbs]
    have hds : (src.map fun p => (some p.1 : Option Nat)) = (src.map (·.1)).map some := by simp
    have hrd : redDims keep (bs ++ [false]) ((src.map fun p => (some p.1 : Option Nat)) ++ [none]) = shape.map some := by
      rw [hds, redDims_var keep bs _ hlen', redShape_app keep 1 bs _ hlen', hsF, hshape]
    rw [hrd, fresh_fixed, show bytesObjSize = 16 from rfl,
      inst_rows keep false a .void st 0 bs src (sF.zip (rowMajor 16 sF)) _ ks
      hmet hlen eks, Res.bind_ok]
    simp only [runR]
    rw [eev]; rfl
  · intro o ho
    rw [hv _ (List.mem_map_of_mem ho), hacc, filter_rows, List.map_flatMap]
    simp only [List.map_map]
    congr 1
    have hf : (gridIdx (src.map (·.1))).filter (fun idx => decide (dstOff (rowMajor 16 sF) (outIdx keep bs idx) =
        dstOff (rowMajor 16 shape) o)) =
        (gridIdx (src.map (·.1))).filter fun idx => decide (outIdx keep (bs ++ [false]) (idx ++ [0]) = o) := by
      apply List.filter_congr
      intro idx hidx
      rw [outIdx_app keep 0 bs idx (by rw [gridIdx_len _ idx hidx]; exact hlen')]
      rw [hgrid] at ho
      obtain ⟨o', ho', rfl⟩ := List.mem_map.1 ho
      rw [hoff o' ho']
      have : dstOff (rowMajor 16 sF) (outIdx keep bs idx) = dstOff (rowMajor 16 sF) o' ↔
          outIdx keep bs idx ++ (if keep then [0] else []) = o' ++ (if keep then [0] else []) :=
        ⟨fun h => by rw [List.inj_on_of_nodup_map (rowMajor_nodup 16 (by omega) sF) (hmem idx hidx) ho' h],
          fun h => by rw [List.append_cancel_right h]⟩
      exact decide_eq_decide.2 this
    rw [hf]
    congr 1
    funext idx
    simp only [Function.comp_def, List.map_id']

/-! ### Reading back -/

theorem elBytes_length (mem : Int → Nat) (w : Nat) (a : Int) : (elBytes mem w a).length = w := by simp [elBytes]

theorem allBytes_length (mem : Int → Nat) (w : Nat) : ∀ l : List Int, (allBytes mem w l).length = l.length * w
  | [] => by simp [allBytes]
  | a :: l => by
    have := allBytes_length mem w l
    unfold allBytes at this ⊢
    rw [List.flatMap_cons, List.length_append, this, elBytes_length, List.length_cons]; ring

/-- C128: the bytes of element number `k` are found at `k` times the size of an element. -/
theorem allBytes_element (mem : Int → Nat) (w : Nat) : ∀ (l : List Int) (k : Nat) (a : Int), l[k]? = some a →
    ((allBytes mem w l).drop (k * w)).take w = elBytes mem w a
  | [], _, _, h => by simp at h
  | x :: l, 0, a, h => by
    simp only [List.getElem?_cons_zero, Option.some.injEq] at h
    subst h
    rw [allBytes, List.flatMap_cons, Nat.zero_mul, List.drop_zero, List.take_append_of_le_length (by rw [elBytes_length]),
      List.take_of_length_le (by rw [elBytes_length])]
  | x :: l, k + 1, a, h => by
    have ih := allBytes_element mem w l k a (by simpa using h)
    rw [allBytes, List.flatMap_cons, show (k + 1) * w = (elBytes mem w x).length + k * w by rw [elBytes_length]; ring,
      List.drop_append, List.drop_eq_nil_of_le (by omega), List.nil_append, Nat.add_sub_cancel_left]
    exact ih

theorem append_bytes_inj {x x' y y' : List Nat} (h : x.length = x'.length) : x ++ y = x' ++ y' ↔ x = x' ∧ y = y' :=
  ⟨fun e => List.append_inj e h, fun ⟨e, f⟩ => by rw [e, f]⟩

/-- C128: two arrays with as many elements, of the same size, serialise to the same bytes exactly when corresponding
    elements have the same bytes. -/
theorem allBytes_inj (m m' : Int → Nat) (w : Nat) : ∀ (l l' : List Int), l.length = l'.length →
    (allBytes m w l = allBytes m' w l' ↔
      ∀ (k : Nat) (a a' : Int), l[k]? = some a → l'[k]? = some a' → elBytes m w a = elBytes m' w a')
  | [], [], _ => by simp [allBytes]
  | [], _ :: _, h => by simp at h
  | _ :: _, [], h => by simp at h
  | x :: l, x' :: l', h => by
    have ih := allBytes_inj m m' w l l' (by simpa using h)
    unfold allBytes at ih ⊢
    rw [List.flatMap_cons, List.flatMap_cons, append_bytes_inj (by rw [elBytes_length, elBytes_length]), ih]
    constructor
    · rintro ⟨h1, h2⟩ k a a' ha ha'
      cases k with
      | zero => simp at ha ha'; rw [← ha, ← ha']; exact h1
      | succ k => exact h2 k a a' (by simpa using ha) (by simpa using ha')
    · intro h
      exact ⟨h 0 x x' rfl rfl, fun k a a' ha ha' => h (k + 1) a a' (by simpa using ha) (by simpa using ha')⟩

theorem result_nothing : ∀ (bs : List Bool) (l : List Nat), (∀ b ∈ bs, b = false) → resultIdx false bs l = []
  | [], _, _ => by simp [resultIdx]
  | _ :: _, [], _ => by simp [resultIdx]
  | b :: bs, i :: l, h => by
    have := result_nothing bs l (fun b hb => h b (by simp [hb]))
    have hb := h b (by simp)
    subst hb
    simpa [resultIdx] using this

/-- C128: `nd::serialize(a)`, with no axes: one `bytes` with all elements in row-major order; the element at an index
    `idx` is found in it at its row-major position. -/
theorem serialize_whole_partial (a : BTy) (src : Dims) (h0 : src ≠ [])
    (hne : ∀ (i n : Nat), i + 1 < src.length → (src.map (·.1))[i]? = some n → 1 ≤ n)
    (vd : VarData) (srcMem : Int → Nat) (res : Int → List Nat) :
    ∃ evs, serializeRun none false (arrTy (src.map fun p => some p.1) (.prim a)) vd (fixMetas src) =
        .ok (.leaf (.bytes 1), [], evs) ∧
      serializeMem a.width srcMem evs res 0 =
        allBytes srcMem a.width ((gridIdx (src.map (·.1))).map (dstOff (src.map (·.2)))) ∧
      (serializeMem a.width srcMem evs res 0).length = (src.map (·.1)).foldr (· * ·) 1 * a.width ∧
      (∀ (k : Nat) (idx : List Nat), (gridIdx (src.map (·.1)))[k]? = some idx →
        ((serializeMem a.width srcMem evs res 0).drop (k * a.width)).take a.width =
          elBytes srcMem a.width (dstOff (src.map (·.2)) idx)) ∧
      ∀ x : Int, x ≠ 0 → serializeMem a.width srcMem evs res x = res x := by
  have hk : ∀ b ∈ keptDims none src.length, b = false := by
    intro b hb
    simp only [keptDims, List.mem_map] at hb
    obtain ⟨_, _, h⟩ := hb
    exact h.symm
  have hs : resultShape false (keptDims none src.length) (src.map (·.1)) = [] := result_nothing _ _ hk
  obtain ⟨evs, e1, e2, e3⟩ := serialize_call_partial a none false src h0 _ rfl [] hs.symm
    (.inr (by rw [List.count_eq_zero.2 (fun h => by simpa using hk _ h)]; omega))
    (fun i n hi _ hn => hne i n hi hn) (by simp) vd srcMem res
  have e4 := e2 [] (by simp [gridIdx])
  have hf : (gridIdx (src.map (·.1))).filter (fun idx => decide (resultIdx false (keptDims none src.length) idx = [])) =
      gridIdx (src.map (·.1)) := by
    rw [List.filter_eq_self]
    intro idx _
    simp [result_nothing _ idx hk]
  rw [hf, show dstOff (rowMajor 16 []) [] = 0 by simp [dstOff]] at e4
  refine ⟨evs, e1, e4, ?_, ?_, ?_⟩
  · rw [e4, allBytes_length, List.length_map, gridIdx_length]
  · intro k idx hidx
    rw [e4]
    exact allBytes_element _ _ _ k _ (by rw [List.getElem?_map, hidx]; rfl)
  · intro x hx
    refine e3 x ?_
    simpa [gridIdx, dstOff] using hx

/-! ### What does not hold -/

/-- C128 violated: a scalar cannot be serialised: the child is resolved with the return type of the reduction, in which
    the dimensions are not yet known, and `empty` raises, for every built-in type and every keyword. -/
theorem serialize_scalar_violated (a : BTy) (axes : Option (List Int)) (keep : Bool) (vd : VarData) (sm : List UMeta) :
    serializeRun axes keep (.prim a) vd sm = .throw .typeError := rfl

/-- C128 violated: a `var` dimension that is not the last makes the call take a node past the end of the call graph. -/
theorem serialize_outer_var_violated (a : BTy) (axes : Option (List Int)) (keep : Bool) (src : Dims) (d : Option Nat)
    (rest : List (Option Nat)) (vd : VarData) (st off : Int) (sm : List UMeta) :
    serializeRun axes keep (arrTy ((src.map fun p => some p.1) ++ none :: d :: rest) (.prim a)) vd
      (fixMetas src ++ .var st off :: sm) = .ub := by
  unfold serializeRun
  rw [serialize_resolve a axes keep (by simp), Res.bind_ok]
  simp only [bytes_not_symbolic, Bool.false_eq_true, if_false]
  rw [reduce_outer_var_violated keep a .void st off d rest sm _ src _ (by
    rw [keptDims_len]; simp [List.length_append]; omega)]
  rfl

/-- C128 violated: rows that are kept (`axes` without the last, `var`, dimension) are not kept: the type of the result
    says `var`, but the bytes of the whole row are appended to an object at the place of the record. -/
theorem serialize_kept_var_violated (a : BTy) (vd : VarData) (st : Int) :
    serializeRun (some []) false (.varDim (.prim a)) vd [.var st 0] =
      .ok (.varDim (.leaf (.bytes 1)), [.var 16 0], .init 0 :: leafAcc (vd 0).2 0 0 (vd 0).1 st) := by
  have := serialize_resolve a (some []) false (ds := [none]) (by simp)
  rw [show arrTy [none] (.prim a) = .varDim (.prim a) from rfl] at this
  unfold serializeRun
  rw [this]; rfl

/-! ### Cases -/

example (vd : VarData) (m : Int → Nat) (res : Int → List Nat) :
    ∃ evs, serializeRun none false (.fixedDim 2 (.fixedDim 2 (.prim (.int .w16)))) vd [.fixed 2 2, .fixed 2 4] =
        .ok (.leaf (.bytes 1), [], evs) ∧
      serializeMem 2 m evs res 0 = [m 0, m 1, m 4, m 5, m 2, m 3, m 6, m 7] := by
  obtain ⟨evs, h1, h2, -⟩ := serialize_whole_partial (.int .w16) [(2, 2), (2, 4)] (by simp)
    (by intro i n hi hn; have : i = 0 := by simp at hi; omega
        subst this; simp at hn; omega) vd m res
  refine ⟨evs, h1, ?_⟩
  rw [show (BTy.int .w16).width = 2 from rfl] at h2
  rw [h2]
  rfl

example (vd : VarData) (m : Int → Nat) (res : Int → List Nat) :
    ∃ evs dm, serializeRun (some [1]) false (.fixedDim 2 (.fixedDim 3 (.prim .bool))) vd [.fixed 2 3, .fixed 3 (-1)] =
        .ok (.fixedDim 2 (.leaf (.bytes 1)), dm, evs) ∧ serializeMem 1 m evs res 0 = [m 0, m (-1), m (-2)] ∧
      serializeMem 1 m evs res 16 = [m 3, m 2, m 1] := by
  obtain ⟨evs, h1, h2, -⟩ := serialize_call_partial .bool (some [1]) false [(2, 3), (3, -1)] (by simp) [true, false] (by decide)
    [2] (by decide) (.inr (by decide))
    (by
      intro i n hi h hn
      have : i = 0 := by simp at hi; omega
      subst this; simp at h) (by simp) vd m res
  exact ⟨evs, _, h1, h2 [0] (by decide), h2 [1] (by decide)⟩

example (vd : VarData) (m : Int → Nat) (res : Int → List Nat) (h : vd 0 = (100, 2)) (h' : vd 16 = (200, 1)) :
    ∃ evs, serializeRun none false (.fixedDim 2 (.varDim (.prim (.int .w16)))) vd [.fixed 2 16, .var 2 0] =
        .ok (.leaf (.bytes 1), [], evs) ∧
      serializeMem 2 m evs res 0 = [m 100, m 101, m 102, m 103, m 200, m 201] := by
  obtain ⟨evs, h1, h2, -⟩ := serialize_rows_partial (.int .w16) none false [(2, 16)] (by simp) [false] (by decide)
    [] (by decide) (.inr (by decide))
    (by
      intro i n hi hn
      have : i = 0 := by cases i <;> simp at hi ⊢
      subst this; simp at hn; omega) (by simp) vd 2 m res
  refine ⟨evs, h1, ?_⟩
  refine (h2 [] (by decide)).trans ?_
  rw [show (gridIdx ([(2, 16)].map (fun p : Nat × Int => p.1))).filter (fun idx => decide (resultIdx false ([false] ++ [false])
    (idx ++ [0]) = [])) = [[0], [1]] by decide]
  have h16 : vd (dstOff ([(2, 16)].map (fun p : Nat × Int => p.2)) [1]) = (200, 1) := by
    rw [← h']; rfl
  have h00 : vd (dstOff ([(2, 16)].map (fun p : Nat × Int => p.2)) [0]) = (100, 2) := by
    rw [← h]; rfl
  simp only [List.flatMap_cons, List.flatMap_nil, rowAddrs, h16, h00]
  rfl

end Dynd
