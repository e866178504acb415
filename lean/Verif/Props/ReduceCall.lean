/-
C123: the theorems about calls of `nd::sum`, `nd::min`, `nd::max` and `nd::all`.
-/
import Verif.Props.ReduceResolve

namespace Dynd

/-! ### Metadata of the result -/

theorem dataSize_fixed (sz : Nat) : ∀ sh : List Nat, dataSize sz (sh.map some) = sz * sh.foldr (· * ·) 1
  | [] => by simp [dataSize]
  | n :: sh => by
    simp only [List.map_cons, dataSize, dataSize_fixed sz sh, List.foldr_cons]; ring

theorem fresh_fixed (sz : Nat) : ∀ sh : List Nat, freshMeta sz (sh.map some) = fixMetas (sh.zip (rowMajor sz sh))
  | [] => rfl
  | n :: sh => by
    simp only [List.map_cons, freshMeta, rowMajor, List.zip_cons_cons, fixMetas, dataSize_fixed, fresh_fixed sz sh]

theorem redDims_fixed (keep : Bool) : ∀ (bs : List Bool) (ns : List Nat),
    redDims keep bs (ns.map some) = (redShape keep bs ns).map some
  | [], _ => by simp [redDims, redShape]
  | _ :: _, [] => by simp [redDims, redShape]
  | b :: bs, n :: ns => by
    have := redDims_fixed keep bs ns
    cases b <;> cases keep <;> simp_all [redDims, redShape]

theorem redDims_var (keep : Bool) : ∀ (bs : List Bool) (ns : List Nat), bs.length = ns.length →
    redDims keep (bs ++ [false]) (ns.map some ++ [none]) = (redShape keep (bs ++ [false]) (ns ++ [1])).map some
  | [], [], _ => by cases keep <;> rfl
  | [], _ :: _, h => by simp at h
  | _ :: _, [], h => by simp at h
  | b :: bs, n :: ns, h => by
    have := redDims_var keep bs ns (by simpa using h)
    cases b <;> cases keep <;> simp_all [redDims, redShape]

theorem redShape_app (keep : Bool) (m : Nat) : ∀ (bs : List Bool) (ns : List Nat), bs.length = ns.length →
    redShape keep (bs ++ [false]) (ns ++ [m]) = redShape keep bs ns ++ (if keep then [1] else [])
  | [], [], _ => by cases keep <;> rfl
  | [], _ :: _, h => by simp at h
  | _ :: _, [], h => by simp at h
  | b :: bs, n :: ns, h => by
    have := redShape_app keep m bs ns (by simpa using h)
    cases b <;> cases keep <;> simp_all [redShape]

theorem outIdx_app (keep : Bool) (m : Nat) : ∀ (bs : List Bool) (ns : List Nat), bs.length = ns.length →
    outIdx keep (bs ++ [false]) (ns ++ [m]) = outIdx keep bs ns ++ (if keep then [0] else [])
  | [], [], _ => by cases keep <;> rfl
  | [], _ :: _, h => by simp at h
  | _ :: _, [], h => by simp at h
  | b :: bs, n :: ns, h => by
    have := outIdx_app keep m bs ns (by simpa using h)
    cases b <;> cases keep <;> simp_all [outIdx]

theorem gridIdx_one : ∀ l : List Nat, gridIdx (l ++ [1]) = (gridIdx l).map (· ++ [0])
  | [] => by simp [gridIdx]
  | n :: l => by
    simp only [List.cons_append, gridIdx, gridIdx_one l, List.map_flatMap, List.map_map]
    rfl

theorem gridIdx_len : ∀ (l : List Nat), ∀ o ∈ gridIdx l, o.length = l.length
  | [], o, h => by simp [gridIdx] at h; simp [h]
  | n :: l, o, h => by
    simp only [gridIdx, List.mem_flatMap, List.mem_map, List.mem_range] at h
    obtain ⟨j, _, is, his, rfl⟩ := h
    simp [gridIdx_len l is his]

theorem rowMajor_one (es : Nat) : ∀ l : List Nat, rowMajor es (l ++ [1]) = rowMajor es l ++ [(es : Int)]
  | [] => by simp [rowMajor]
  | n :: l => by
    simp only [List.cons_append, rowMajor, rowMajor_one es l]
    rw [List.foldr_append]; simp

theorem dstOff_app (st : Int) : ∀ (sts : List Int) (o : List Nat), sts.length = o.length →
    dstOff (sts ++ [st]) (o ++ [0]) = dstOff sts o
  | [], [], _ => by simp [dstOff]
  | [], _ :: _, h => by simp at h
  | _ :: _, [], h => by simp at h
  | s :: sts, j :: o, h => by
    rw [List.cons_append, List.cons_append, dstOff_cons, dstOff_cons, dstOff_app st sts o (by simpa using h)]

theorem redDims_dims (ds : List (Option Nat)) (a : BTy) : dimsOf (arrTy ds (.prim a)) = ds := by
  exact arr_dims rfl ds

/-! ### The run on bytes -/

theorem bytes_of_events {α β : Type} {w : Nat} {enc : α → Nat} {dec : Nat → α} (hw : 0 < w) (hdec : ∀ x, dec (enc x) = x)
    (henc : ∀ x, enc x < 256 ^ w) (e : α) (op : α → β → α) (src : Int → β) (shape : List Nat) {evs : List REv}
    (hi : initsOf evs = (gridIdx shape).map (dstOff (rowMajor w shape))) (hwi : WellInit [] evs)
    (ha : ∀ p ∈ accsOf evs, p.1 ∈ (gridIdx shape).map (dstOff (rowMajor w shape))) (mem : Int → Nat) :
    (∀ o ∈ gridIdx shape,
      dec (rdBytes (runBytes w enc dec (leBytes w (enc e)) op src evs mem) (dstOff (rowMajor w shape) o) w) =
        ((accsOf evs).filter fun p => decide (p.1 = dstOff (rowMajor w shape) o)).foldl (fun x p => op x (src p.2)) e) ∧
    ∀ x : Int, x < 0 ∨ ((w * shape.foldr (· * ·) 1 : Nat) : Int) ≤ x →
      runBytes w enc dec (leBytes w (enc e)) op src evs mem x = mem x := by
  have hin : ∀ v ∈ evs, v.at ∈ (gridIdx shape).map (dstOff (rowMajor w shape)) := by
    apply events_in
    intro a hna
    rw [runEv_noinit _ _ _ a evs _ (by rw [hi]; exact hna)]
    have : ((accsOf evs).filter fun p => decide (p.1 = a)) = [] := by
      rw [List.filter_eq_nil_iff]
      intro p hp hpa
      simp only [decide_eq_true_eq] at hpa
      exact hna (hpa ▸ ha p hp)
    rw [this]; rfl
  obtain ⟨h1, h2⟩ := runBytes_elems hdec henc e op src (fresh_apart w shape) evs mem (fun a => dec (rdBytes mem a w)) hin
    (fun _ _ => rfl)
  refine ⟨fun o ho => ?_, fun x hx => h2 x ?_⟩
  · rw [h1 _ (List.mem_map_of_mem ho)]
    exact runEv_init op e src _ evs _ [] hwi (by simp) (by rw [hi]; exact List.mem_map_of_mem ho)
      (by rw [hi]; exact rowMajor_nodup w hw shape)
  · intro a haa
    obtain ⟨o, ho, rfl⟩ := List.mem_map.1 haa
    have := rowMajor_bounds w shape o ho
    omega

/-- instantiation -/
theorem inst_any (keep : Bool) (bs : List Bool) (src : Dims) (hlen : bs.length = src.length)
    (hkeep : keep = true ∨ bs.count true ≤ 1) (sts : List Int) (hs : sts.length = (redShape keep bs (src.map (·.1))).length) :
    ∃ ks, redInst keep bs ((redShape keep bs (src.map (·.1))).zip sts) src = .ok ks ∧ InstOK keep bs src sts ks := by
  have hlen' : bs.length = (src.map (·.1)).length := by simp [hlen]
  generalize hsh : redShape keep bs (src.map (·.1)) = shape at *
  cases hk : keep
  · have hc : bs.count true ≤ 1 := by
      rcases hkeep with h | h
      · rw [hk] at h; cases h
      · exact h
    have hl := redShape_len_drop bs (src.map (·.1)) hlen'
    have hsl : shape.length = bs.count true := by rw [← hl, ← hsh, hk]
    by_cases h0 : bs.count true = 0
    · have e1 : sts = [] := by
        apply List.length_eq_zero_iff.1; omega
      rw [e1]
      exact inst_none bs src _ hlen (fun b hb => by
        cases b
        · rfl
        · exact absurd hb (List.count_eq_zero.1 h0))
    · obtain ⟨n, hn⟩ := List.length_eq_one_iff.1 (show shape.length = 1 by omega)
      obtain ⟨st, hst'⟩ := List.length_eq_one_iff.1 (show sts.length = 1 by omega)
      rw [hst', hn]
      exact inst_one bs src n st hlen (by omega)
  · have hl := redShape_len_keep bs (src.map (·.1)) hlen'
    have hsl : shape.length = bs.length := by rw [← hl, ← hsh, hk]
    have := inst_keep bs src (shape.zip sts) hlen (by simp [hs, hsl])
    have e1 : (shape.zip sts).map (·.2) = sts := by
      apply List.map_snd_zip
      rw [hs]
    rw [e1] at this
    exact this

theorem fixMetas_get {m : Dims} {i : Nat} {p : Nat × Int} (h : m[i]? = some p) :
    (fixMetas m)[i]? = some (.fixed p.1 p.2) := by
  simp [fixMetas, List.getElem?_map, h]

theorem keptDims_len (axes : Option (List Int)) (n : Nat) : (keptDims axes n).length = n := by simp [keptDims]

theorem works_width {fn : RedFn} {a : BTy} (ha : a ∈ fn.worksOn) : 0 < a.width := by
  have h : ∀ fn : RedFn, (fn.worksOn.all fun a => decide (0 < a.width)) = true := by
    intro fn; cases fn <;> decide
  simpa using List.all_eq_true.1 (h fn) a ha

/-- C123: a call on an array of fixed dimensions, of any strides, with elements of a type the function works on and
    whose size is that of the value an accumulation starts from: the result has the kept dimensions, every element
    of it (its bytes decoded) is the left fold in row-major order, from the starting value, over the operand's
    elements that belong to it, and no byte outside the result is changed.  Restrictions: those of the kernels (without
    `keepdims` at most one kept dimension; no empty dimension that is reduced and not the last, or kept and not the
    first) and the size of the starting value, which `nd::sum` violates for elements not of 4 bytes. -/
theorem reduce_call_partial {α β : Type} (same : List Nat → Bool) {fn : RedFn} {a : BTy} (ha : a ∈ fn.worksOn)
    (hw : (fn.startType a).width = a.width) (axes : Option (List Int)) (keep : Bool) (src : Dims) (h0 : src ≠ [])
    (kept : List Bool) (hkept : kept = keptDims axes src.length)
    (shape : List Nat) (hshape : shape = resultShape keep kept (src.map (·.1)))
    (hkeep : keep = true ∨ kept.count true ≤ 1)
    (hne : ∀ (i n : Nat), i + 1 < src.length → kept[i]? = some false → (src.map (·.1))[i]? = some n → 1 ≤ n)
    (hsh : ∀ n ∈ shape.tail, 1 ≤ n) (vd : VarData)
    {enc : α → Nat} {dec : Nat → α} (hdec : ∀ x, dec (enc x) = x) (henc : ∀ x, enc x < 256 ^ a.width)
    (e : α) (he : enc e = startBits fn a) (op : α → β → α) (srcMem : Int → β) (mem : Int → Nat) :
    ∃ evs, reduceRun (resolveReduce same fn axes keep (arrTy (src.map fun p => some p.1) (.prim a))) a.width vd
        (fixMetas src) = .ok (arrTy (shape.map some) (.prim a), fixMetas (shape.zip (rowMajor a.width shape)),
          fn.startType a, evs) ∧
      (∀ o ∈ gridIdx shape,
        dec (rdBytes (runBytes a.width enc dec (leBytes (fn.startType a).width (startBits fn a)) op srcMem evs mem)
          (dstOff (rowMajor a.width shape) o) a.width) =
        ((gridIdx (src.map (·.1))).filter fun idx => decide (resultIdx keep kept idx = o)).foldl
          (fun x idx => op x (srcMem (dstOff (src.map (·.2)) idx))) e) ∧
      ∀ x : Int, x < 0 ∨ ((a.width * shape.foldr (· * ·) 1 : Nat) : Int) ≤ x →
        runBytes a.width enc dec (leBytes (fn.startType a).width (startBits fn a)) op srcMem evs mem x = mem x := by
  rw [← resultShape_eq] at hshape
  simp only [← resultIdx_eq]
  have hwpos : 0 < a.width := works_width ha
  have hlen : kept.length = src.length := by rw [hkept, keptDims_len]
  have hlen' : kept.length = (src.map (·.1)).length := by simp [hlen]
  obtain ⟨ks, eks, h1, h2, h3, h4, h5⟩ := inst_any keep kept src hlen hkeep (rowMajor a.width shape)
    (by rw [rowMajor_len, hshape])
  rw [← hshape] at eks h2
  have hksl : ks.length = src.length := by rw [← hlen, ← h3]; simp
  have hgood : GoodLevels ks := by
    apply goodLevels_of
    intro i k hk hi
    refine ⟨fun hb => rowMajor_ne_zero a.width hwpos shape hsh _ (h5 k (List.mem_of_getElem? hk) hb), fun hb => ?_⟩
    refine hne i k.size (by omega) ?_ ?_
    · rw [← h3, List.getElem?_map, hk]; simp [hb]
    · rw [← h4, List.getElem?_map, hk]; rfl
  obtain ⟨evs, eev, hacc, hi, hwi⟩ := (first_spec ks (by
    intro h; rw [h] at hksl; simp at hksl; exact h0 (List.length_eq_zero_iff.1 hksl.symm)) hgood).1 0 0
  rw [h1] at hacc
  rw [h2] at hi
  simp only [Int.zero_add] at hacc hi
  have hmem : ∀ idx ∈ gridIdx (src.map (·.1)), outIdx keep kept idx ∈ gridIdx shape := by
    rw [hshape]; exact outIdx_mem keep kept (src.map (·.1)) hlen'
  obtain ⟨hv, hout⟩ := bytes_of_events hwpos hdec henc e op srcMem shape (evs := evs) hi hwi (by
    intro p hp
    rw [hacc] at hp
    obtain ⟨idx, hidx, rfl⟩ := List.mem_map.1 hp
    exact List.mem_map_of_mem (hmem idx hidx)) mem
  rw [hw, ← he]
  refine ⟨evs, ?_, ?_, hout⟩
  · have hds : (src.map fun p => (some p.1 : Option Nat)) = (src.map (·.1)).map some := by simp
    rw [reduce_resolve same ha axes keep (by simpa using h0)]
    unfold reduceRun
    rw [Res.bind_ok]
    simp only [redDims_dims, List.length_map]
    rw [← hkept]
    have hrd : redDims keep kept (src.map fun p => (some p.1 : Option Nat)) = shape.map some := by
      rw [hds, redDims_fixed, hshape]
    rw [hrd, fresh_fixed, inst_fixed keep a (fn.startType a) kept src (shape.zip (rowMajor a.width shape)) _ ks h0
      (fun i p hp => fixMetas_get hp) hlen eks, Res.bind_ok]
    simp only [runR]
    rw [eev]; rfl
  · intro o ho
    rw [hv o ho, hacc, List.filter_map, List.foldl_map]
    congr 1
    apply List.filter_congr
    intro idx hidx
    simp only [Function.comp]
    have : dstOff (rowMajor a.width shape) (outIdx keep kept idx) = dstOff (rowMajor a.width shape) o ↔
        outIdx keep kept idx = o :=
      ⟨fun h => List.inj_on_of_nodup_map (rowMajor_nodup a.width hwpos shape) (hmem idx hidx) ho h, fun h => by rw [h]⟩
    exact decide_eq_decide.2 this

theorem filter_rows {ι : Type} (R : ι → List Int) (g : ι → Int) (d : Int) : ∀ l : List ι,
    ((l.flatMap fun i => (R i).map fun a => (g i, a)).filter fun p => decide (p.1 = d)) =
      (l.filter fun i => decide (g i = d)).flatMap fun i => (R i).map fun a => (g i, a)
  | [] => rfl
  | i :: l => by
    rw [List.flatMap_cons, List.filter_append, filter_rows R g d l]
    by_cases h : g i = d
    · rw [List.filter_cons, if_pos (by simp [h]), List.flatMap_cons]
      congr 1
      rw [List.filter_eq_self]
      intro p hp
      obtain ⟨x, _, rfl⟩ := List.mem_map.1 hp
      simp [h]
    · rw [List.filter_cons, if_neg (by simp [h])]
      have : ((R i).map fun a => (g i, a)).filter (fun p => decide (p.1 = d)) = [] := by
        rw [List.filter_eq_nil_iff]
        intro p hp
        obtain ⟨x, _, rfl⟩ := List.mem_map.1 hp
        simp [h]
      rw [this]; rfl

theorem fold_rows {α β ι : Type} (op : α → β → α) (src : Int → β) (e : α) (R : ι → List Int) (g : ι → Int) (l : List ι) :
    (l.flatMap fun i => (R i).map fun a => (g i, a)).foldl (fun x p => op x (src p.2)) e =
      (l.flatMap R).foldl (fun x a => op x (src a)) e := by
  induction l generalizing e with
  | nil => rfl
  | cons i l ih => rw [List.flatMap_cons, List.flatMap_cons, List.foldl_append, List.foldl_append, List.foldl_map, ih]

theorem keptDims_succ (axes : Option (List Int)) (n : Nat) (h : ∀ l, axes = some l → (n : Int) ∈ l) :
    keptDims axes (n + 1) = keptDims axes n ++ [false] := by
  unfold keptDims
  rw [List.range_succ, List.map_append]
  congr 1
  cases axes with
  | none => rfl
  | some l => simp [h l rfl]

/-- C123: the same for an array whose last dimension is `var`, below any number of fixed dimensions, and reduced; its
    records may have any length, the data of the elements any inner stride.  `bs`: which of the fixed dimensions are
    kept.  The elements that belong to a result element are those of the rows whose indices project to it, row after
    row. -/
theorem reduce_rows_partial {α β : Type} (same : List Nat → Bool) {fn : RedFn} {a : BTy} (ha : a ∈ fn.worksOn)
    (hw : (fn.startType a).width = a.width) (axes : Option (List Int)) (keep : Bool) (src : Dims)
    (hlast : ∀ l, axes = some l → (src.length : Int) ∈ l)
    (bs : List Bool) (hbs : bs = keptDims axes src.length)
    (shape : List Nat) (hshape : shape = resultShape keep (bs ++ [false]) (src.map (·.1) ++ [1]))
    (hkeep : keep = true ∨ bs.count true ≤ 1)
    (hne : ∀ (i n : Nat), bs[i]? = some false → (src.map (·.1))[i]? = some n → 1 ≤ n)
    (hsh : ∀ n ∈ shape.tail, 1 ≤ n) (vd : VarData) (st : Int)
    {enc : α → Nat} {dec : Nat → α} (hdec : ∀ x, dec (enc x) = x) (henc : ∀ x, enc x < 256 ^ a.width)
    (e : α) (he : enc e = startBits fn a) (op : α → β → α) (srcMem : Int → β) (mem : Int → Nat) :
    ∃ evs, reduceRun (resolveReduce same fn axes keep (arrTy ((src.map fun p => some p.1) ++ [none]) (.prim a))) a.width vd
        (fixMetas src ++ [.var st 0]) = .ok (arrTy (shape.map some) (.prim a), fixMetas (shape.zip (rowMajor a.width shape)),
          fn.startType a, evs) ∧
      (∀ o ∈ gridIdx shape,
        dec (rdBytes (runBytes a.width enc dec (leBytes (fn.startType a).width (startBits fn a)) op srcMem evs mem)
          (dstOff (rowMajor a.width shape) o) a.width) =
        (((gridIdx (src.map (·.1))).filter fun idx => decide (resultIdx keep (bs ++ [false]) (idx ++ [0]) = o)).flatMap
          fun idx => rowAddrs vd st (dstOff (src.map (·.2)) idx)).foldl (fun x p => op x (srcMem p)) e) ∧
      ∀ x : Int, x < 0 ∨ ((a.width * shape.foldr (· * ·) 1 : Nat) : Int) ≤ x →
        runBytes a.width enc dec (leBytes (fn.startType a).width (startBits fn a)) op srcMem evs mem x = mem x := by
  rw [← resultShape_eq] at hshape
  simp only [← resultIdx_eq]
  have hwpos : 0 < a.width := works_width ha
  have hlen : bs.length = src.length := by rw [hbs, keptDims_len]
  have hlen' : bs.length = (src.map (·.1)).length := by simp [hlen]
  rw [redShape_app keep 1 bs _ hlen'] at hshape
  generalize hsF : redShape keep bs (src.map (·.1)) = sF at *
  -- the destination addresses, with and without the trailing dimension
  have hmet : ∀ (i : Nat) p, (sF.zip (rowMajor a.width sF))[i]? = some p →
      (fixMetas (shape.zip (rowMajor a.width shape)))[i]? = some (.fixed p.1 p.2) := by
    intro i p hp
    apply fixMetas_get
    rw [hshape]
    cases keep
    · simpa using hp
    · simp only [if_true, rowMajor_one]
      rw [List.zip_append (by rw [rowMajor_len]), List.getElem?_append_left]
      · exact hp
      · by_contra hh
        rw [List.getElem?_eq_none (by omega)] at hp; simp at hp
  have hgrid : gridIdx shape = (gridIdx sF).map (· ++ (if keep then [0] else [])) := by
    rw [hshape]
    cases keep
    · simp
    · simp only [if_true, gridIdx_one]
  have hoff : ∀ o ∈ gridIdx sF, dstOff (rowMajor a.width shape) (o ++ (if keep then [0] else [])) =
      dstOff (rowMajor a.width sF) o := by
    intro o ho
    rw [hshape]
    cases keep
    · simp
    · simp only [if_true, rowMajor_one]
      apply dstOff_app
      rw [rowMajor_len, gridIdx_len sF o ho]
  obtain ⟨ks, eks, h1, h2, h3, h4, h5⟩ := inst_any keep bs src hlen hkeep (rowMajor a.width sF)
    (by rw [rowMajor_len, hsF])
  rw [hsF] at eks h2
  have hgood : GoodRows ks := by
    intro k hk
    obtain ⟨i, hi⟩ := List.mem_iff_getElem?.1 hk
    refine ⟨fun hb => ?_, fun hb => ?_⟩
    · refine rowMajor_ne_zero a.width hwpos sF ?_ _ (h5 k hk hb)
      intro n hn
      apply hsh n
      rw [hshape]
      cases hF : sF with
      | nil => rw [hF] at hn; simp at hn
      | cons x sF' => rw [hF] at hn; simp at hn ⊢; exact .inl hn
    · refine hne i k.size ?_ ?_
      · rw [← h3, List.getElem?_map, hi]; simp [hb]
      · rw [← h4, List.getElem?_map, hi]; rfl
  obtain ⟨evs, eev, hacc, hi, hwi⟩ := (rows_spec vd st ks hgood).1 0 0
  rw [eRows, h1] at hacc
  rw [h2] at hi
  simp only [Int.zero_add] at hacc hi
  have hmem : ∀ idx ∈ gridIdx (src.map (·.1)), outIdx keep bs idx ∈ gridIdx sF := by
    rw [← hsF]; exact outIdx_mem keep bs (src.map (·.1)) hlen'
  have hi' : initsOf evs = (gridIdx shape).map (dstOff (rowMajor a.width shape)) := by
    rw [hi, hgrid, List.map_map]
    apply List.map_congr_left
    intro o ho
    exact (hoff o ho).symm
  rw [List.flatMap_map] at hacc
  obtain ⟨hv, hout⟩ := bytes_of_events hwpos hdec henc e op srcMem shape (evs := evs) hi' hwi (by
    intro p hp
    rw [hacc] at hp
    obtain ⟨idx, hidx, hp⟩ := List.mem_flatMap.1 hp
    obtain ⟨x, _, rfl⟩ := List.mem_map.1 hp
    rw [← hi', hi]
    exact List.mem_map_of_mem (hmem idx hidx)) mem
  rw [hw, ← he]
  refine ⟨evs, ?_, ?_, hout⟩
  · rw [reduce_resolve same ha axes keep (by simp)]
    unfold reduceRun
    rw [Res.bind_ok]
    simp only [redDims_dims, List.length_append, List.length_map, List.length_singleton]
    rw [keptDims_succ axes _ hlast, ← hbs]
    have hds : (src.map fun p => (some p.1 : Option Nat)) = (src.map (·.1)).map some := by simp
    have hrd : redDims keep (bs ++ [false]) ((src.map fun p => (some p.1 : Option Nat)) ++ [none]) = shape.map some := by
      rw [hds, redDims_var keep bs _ hlen', redShape_app keep 1 bs _ hlen', hsF, hshape]
    rw [hrd, fresh_fixed, inst_rows keep false a (fn.startType a) st 0 bs src (sF.zip (rowMajor a.width sF)) _ ks
      hmet hlen eks, Res.bind_ok]
    simp only [runR]
    rw [eev]; rfl
  · intro o ho
    rw [hv o ho, hacc, filter_rows, fold_rows]
    congr 2
    apply List.filter_congr
    intro idx hidx
    rw [outIdx_app keep 0 bs idx (by rw [gridIdx_len _ idx hidx]; exact hlen')]
    rw [hgrid] at ho
    obtain ⟨o', ho', rfl⟩ := List.mem_map.1 ho
    rw [hoff o' ho']
    have : dstOff (rowMajor a.width sF) (outIdx keep bs idx) = dstOff (rowMajor a.width sF) o' ↔
        outIdx keep bs idx ++ (if keep then [0] else []) = o' ++ (if keep then [0] else []) :=
      ⟨fun h => by rw [List.inj_on_of_nodup_map (rowMajor_nodup a.width hwpos sF) (hmem idx hidx) ho' h],
        fun h => by rw [List.append_cancel_right h]⟩
    exact decide_eq_decide.2 this

/-- C123: a scalar operand: the operation applied once to the starting value. -/
theorem reduce_scalar_partial {α β : Type} (same : List Nat → Bool) {fn : RedFn} {a : BTy} (ha : a ∈ fn.worksOn)
    (hw : (fn.startType a).width = a.width) (axes : Option (List Int)) (keep : Bool) (vd : VarData)
    {enc : α → Nat} {dec : Nat → α} (hdec : ∀ x, dec (enc x) = x) (henc : ∀ x, enc x < 256 ^ a.width)
    (e : α) (he : enc e = startBits fn a) (op : α → β → α) (srcMem : Int → β) (mem : Int → Nat) :
    ∃ evs, reduceRun (resolveReduce same fn axes keep (.prim a)) a.width vd [] = .ok (.prim a, [], fn.startType a, evs) ∧
      dec (rdBytes (runBytes a.width enc dec (leBytes (fn.startType a).width (startBits fn a)) op srcMem evs mem) 0 a.width) =
        op e (srcMem 0) := by
  refine ⟨[.init 0, .acc 0 0], ?_, ?_⟩
  · have h1 : (decide (fn = .all) && !tyEq (.prim a) (.prim .bool)) = false := by
      cases fn <;> simp_all [RedFn.worksOn, tyEq]
    unfold reduceRun resolveReduce
    simp only [Ty.ndim, Ty.atDim, Res.bind_ok, h1, Bool.false_eq_true, if_false, if_true, redLeaf_ok same ha, Res.pure_eq]
    rfl
  · rw [hw, ← he]
    simp only [runBytes]
    rw [rd_wr _ _ _ _ (henc e), hdec, rd_wr _ _ _ _ (henc _), hdec]

end Dynd
