import Verif.Model.ArrayOps
import Verif.Props.LayoutProps
import Mathlib.Tactic.SplitIfs
import Mathlib.Tactic.Ring
import Mathlib.Algebra.BigOperators.Group.List.Basic
/-
C85: the layout of `empty_like` and `eval_copy`.  C86: `reshape`.
-/
namespace Dynd
open Res

/-! ## Columns along a permutation -/

theorem colRank_bounds {shape ix : List Int} (h : InShape shape ix) :
    0 ≤ colRank shape ix ∧ colRank shape ix < numElements shape := by
  induction h with
  | nil => simp [colRank, numElements]
  | @cons n i shape ix h0 h1 _ ih =>
    simp only [colRank, numElements]
    obtain ⟨h2, h3⟩ := ih
    refine ⟨Int.add_nonneg h0 (Int.mul_nonneg (by omega) h2), ?_⟩
    have : n * (colRank shape ix + 1) ≤ n * numElements shape :=
      Int.mul_le_mul_of_nonneg_left (by omega) (by omega)
    rw [Int.mul_add] at this; omega

theorem colRank_inj {shape ix jx : List Int} (h : InShape shape ix) (h' : InShape shape jx)
    (e : colRank shape ix = colRank shape jx) : ix = jx := by
  induction h generalizing jx with
  | nil => cases h'; rfl
  | @cons n i shape ix h0 h1 hix ih =>
    cases h' with
    | @cons _ j _ jx g0 g1 hjx =>
      simp only [colRank] at e
      have hm : i % n = j % n := by
        have e' := congrArg (· % n) e
        simpa using e'
      rw [Int.emod_eq_of_lt h0 h1, Int.emod_eq_of_lt g0 g1] at hm
      subst hm
      have : n * colRank shape ix = n * colRank shape jx := by omega
      rw [ih hjx (Int.eq_of_mul_eq_mul_left (by omega) this)]

private theorem inShape_iff {shape ix : List Int} : InShape shape ix ↔
    ix.length = shape.length ∧ ∀ k : Nat, k < shape.length → 0 ≤ ix.getD k 0 ∧ ix.getD k 0 < shape.getD k 0 := by
  induction shape generalizing ix with
  | nil =>
    constructor
    · intro h; cases h; simp
    · rintro ⟨h, -⟩; rw [List.length_nil] at h; rw [List.length_eq_zero_iff.1 h]; exact .nil
  | cons n shape ih =>
    constructor
    · intro h
      cases h with
      | cons h0 h1 h2 =>
        obtain ⟨a, b⟩ := ih.1 h2
        refine ⟨by simp [a], ?_⟩
        intro k hk
        cases k with
        | zero => exact ⟨h0, h1⟩
        | succ k => simpa using b k (by simpa using hk)
    · rintro ⟨h1, h2⟩
      cases ix with
      | nil => simp at h1
      | cons i ix =>
        have h3 := h2 0 (by simp)
        refine .cons h3.1 h3.2 (ih.2 ⟨by simpa using h1, ?_⟩)
        intro k hk
        simpa using h2 (k + 1) (by simpa using hk)

/-- The value of `l` at `k`. -/
private def at0 (l : List Int) (k : Nat) : Int := l.getD k 0

private theorem inShape_perm {shape ix : List Int} (h : InShape shape ix) (perm : List Nat)
    (hp : ∀ p ∈ perm, p < shape.length) : InShape (perm.map (at0 shape)) (perm.map (at0 ix)) := by
  induction perm with
  | nil => exact .nil
  | cons p perm ih =>
    obtain ⟨h1, h2⟩ := (inShape_iff.1 h).2 p (hp p (by simp))
    exact .cons h1 h2 (ih fun q hq => hp q (by simp [hq]))

private theorem dotStrides_range : ∀ (d : List (Int × Int)) (ix : List Int), ix.length = d.length →
    dotStrides d ix = ((List.range d.length).map fun k => at0 ix k * at0 (d.map Prod.snd) k).sum
  | [], ix, _ => by simp [dotStrides]
  | (n, s) :: d, [], h => by simp at h
  | (n, s) :: d, i :: ix, h => by
    simp only [dotStrides, List.length_cons, List.range_succ_eq_map, List.map_cons, List.sum_cons, List.map_map]
    rw [dotStrides_range d ix (by simpa using h)]
    congr 1

private theorem dotStrides_perm (d : List (Int × Int)) (ix : List Int) (h : ix.length = d.length) (perm : List Nat)
    (hp : perm.Perm (List.range d.length)) :
    dotStrides d ix = (perm.map fun k => at0 ix k * at0 (d.map Prod.snd) k).sum := by
  rw [dotStrides_range d ix h]
  exact (List.Perm.sum_eq (hp.map _)).symm

/-- What the stride assignment does. -/
private theorem assignStrides_spec : ∀ (perm : List Nat) (e : Int) (dims : List (Int × Int)),
    (∀ p ∈ perm, p < dims.length) → perm.Nodup →
    ∃ d, assignStrides perm e dims = .ok d ∧ d.map Prod.fst = dims.map Prod.fst ∧
      (∀ k, k ∉ perm → at0 (d.map Prod.snd) k = at0 (dims.map Prod.snd) k) ∧
      (∀ (pre post : List Nat) (p : Nat), perm = pre ++ p :: post → at0 (d.map Prod.snd) p =
        if 1 < at0 (dims.map Prod.fst) p then e * numElements (pre.map (at0 (dims.map Prod.fst))) else 0)
  | [], e, dims, _, _ => ⟨dims, rfl, rfl, by simp, by simp⟩
  | p :: perm, e, dims, hp, hn => by
    have hpl := hp p (by simp)
    obtain ⟨hn1, hn2⟩ := List.nodup_cons.1 hn
    simp only [assignStrides]
    rw [List.getElem?_eq_getElem hpl]
    obtain ⟨⟨n, s⟩, hd⟩ : ∃ q, dims[p] = q := ⟨_, rfl⟩
    simp only [setStride, List.getElem?_eq_getElem hpl, hd, Res.bind_ok]
    have hfst : (dims.set p (n, if n > 1 then e else 0)).map Prod.fst = dims.map Prod.fst := by
      rw [List.map_set]
      apply List.ext_getElem (by simp)
      intro k h1 h2
      rw [List.getElem_set]
      split
      · rename_i h; subst h; simp [hd]
      · rfl
    have hnp : at0 (dims.map Prod.fst) p = n := by
      simp [at0, List.getD_eq_getElem?_getD, List.getElem?_eq_getElem hpl, hd]
    obtain ⟨d, g1, g2, g3, g4⟩ := assignStrides_spec perm (e * n) (dims.set p (n, if n > 1 then e else 0)) (by
      intro q hq; rw [List.length_set]; exact hp q (by simp [hq])) hn2
    refine ⟨d, g1, by rw [g2, hfst], ?_, ?_⟩
    · intro k hk
      simp only [List.mem_cons, not_or] at hk
      rw [g3 k hk.2]
      unfold at0
      rw [List.map_set, List.getD_eq_getElem?_getD, List.getElem?_set_ne (by omega), ← List.getD_eq_getElem?_getD]
    · intro pre post q hq
      cases pre with
      | nil =>
        simp only [List.nil_append, List.cons.injEq] at hq
        obtain ⟨rfl, rfl⟩ := hq
        rw [g3 p hn1, hnp]
        unfold at0
        rw [List.map_set, List.getD_eq_getElem?_getD, List.getElem?_set_self (by simpa using hpl)]
        simp only [List.map_nil, numElements, Int.mul_one, Option.getD_some]
      | cons r pre =>
        simp only [List.cons_append, List.cons.injEq] at hq
        obtain ⟨rfl, hq⟩ := hq
        rw [g4 pre post q hq, hfst]
        simp only [List.map_cons, numElements, hnp]
        split_ifs <;> ring

private theorem permSum : ∀ (perm : List Nat) (e : Int) (sz st ix : Nat → Int),
    (∀ p ∈ perm, 0 ≤ ix p ∧ ix p < sz p) →
    (∀ (pre post : List Nat) (p : Nat), perm = pre ++ p :: post → st p =
        if 1 < sz p then e * numElements (pre.map sz) else 0) →
    (perm.map fun k => ix k * st k).sum = e * colRank (perm.map sz) (perm.map ix)
  | [], e, sz, st, ix, _, _ => by simp [colRank]
  | p :: perm, e, sz, st, ix, hb, h => by
    simp only [List.map_cons, List.sum_cons, colRank]
    have h0 := h [] perm p rfl
    rw [permSum perm (e * sz p) sz st ix (fun q hq => hb q (by simp [hq])) (fun pre post q hq => by
      rw [h (p :: pre) post q (by rw [hq]; rfl)]
      simp only [List.map_cons, numElements]
      split_ifs <;> ring), h0]
    have := hb p (by simp)
    split_ifs with h1
    · simp only [List.map_nil, numElements]; ring
    · have : ix p = 0 := by omega
      rw [this]; ring

private theorem numElements_perm {l l' : List Int} (h : l.Perm l') : numElements l = numElements l' := by
  induction h with
  | nil => rfl
  | cons x _ ih => simp [numElements, ih]
  | swap x y l => simp only [numElements]; ring
  | trans _ _ ih1 ih2 => rw [ih1, ih2]

private theorem map_at0_range (l : List Int) : (List.range l.length).map (at0 l) = l := by
  apply List.ext_getElem (by simp)
  intro k h1 h2
  simp [at0, List.getD_eq_getElem?_getD, List.getElem?_eq_getElem h2]

private theorem ddFst (e : Int) (shape : List Int) : (defaultDims e shape).map Prod.fst = shape := by
  induction shape with
  | nil => rfl
  | cons n shape ih => simp [defaultDims, ih]

private theorem ddSize (e : Int) (shape : List Int) : defaultDataSize e shape = e * numElements shape := by
  induction shape with
  | nil => simp [defaultDataSize, numElements]
  | cons n shape ih => simp only [defaultDataSize, numElements, ih]; ring

private theorem ddSnd (e : Int) : ∀ (shape : List Int) (k : Nat), k < shape.length →
    at0 ((defaultDims e shape).map Prod.snd) k = e * numElements (shape.drop (k + 1))
  | [], k, h => by simp at h
  | n :: shape, 0, _ => by simp [defaultDims, at0, ddSize]
  | n :: shape, k + 1, h => by
    have := ddSnd e shape k (by simpa using h)
    simpa [defaultDims, at0] using this

private theorem scan_full : ∀ (n : Nat) (src : List Int) (i : Nat) (prev : Int) (c : Bool) (acc : List Int),
    n ≤ src.length → (∀ s ∈ src, s ≠ i64Max) →
    ∃ c', scanStrides n src i prev c acc = (i + n, c', acc ++ src.take n) ∧
      (c' = true → c = true ∧ ((prev :: src.take n).filter (fun x => x ≠ 0)).Pairwise (fun x y => y ≤ x))
  | 0, _, i, prev, c, acc, _, _ => ⟨c, by simp [scanStrides], fun h => ⟨h, by
      simp only [List.take_zero, List.filter_cons, List.filter_nil]; split <;> simp⟩⟩
  | n + 1, [], _, _, _, _, h, _ => by simp at h
  | n + 1, s :: ss, i, prev, c, acc, h, hm => by
    have h1 : n ≤ ss.length := by simpa using h
    have h2 : ∀ t ∈ ss, t ≠ i64Max := fun t ht => hm t (by simp [ht])
    rw [scanStrides.eq_3]
    by_cases h3 : s ≠ 0
    · rw [if_pos h3, if_neg (hm s (by simp))]
      obtain ⟨c', hc, hc2⟩ := scan_full n ss (i + 1) s (if prev ≠ 0 ∧ prev < s then false else c) (acc ++ [s]) h1 h2
      refine ⟨c', by rw [hc]; simp; omega, ?_⟩
      intro ht
      obtain ⟨a1, a2⟩ := hc2 ht
      have a3 : ¬ (prev ≠ 0 ∧ prev < s) := by
        intro hh; rw [if_pos hh] at a1; simp at a1
      rw [if_neg a3] at a1
      refine ⟨a1, ?_⟩
      rw [List.take_succ_cons]
      by_cases hp : prev = 0
      · rw [List.filter_cons_of_neg (by simpa using hp)]; exact a2
      · rw [List.filter_cons_of_pos (by simpa using hp), List.pairwise_cons]
        refine ⟨?_, a2⟩
        intro y hy
        rw [List.filter_cons_of_pos (by simpa using h3)] at hy a2
        rcases List.mem_cons.1 hy with rfl | hy
        · omega
        · have := (List.pairwise_cons.1 a2).1 y hy; omega
    · rw [if_neg h3]
      obtain ⟨c', hc, hc2⟩ := scan_full n ss (i + 1) prev c (acc ++ [s]) h1 h2
      refine ⟨c', by rw [hc]; simp; omega, ?_⟩
      intro ht
      obtain ⟨a1, a2⟩ := hc2 ht
      refine ⟨a1, ?_⟩
      rw [List.take_succ_cons]
      rw [List.filter_cons] at a2 ⊢
      rw [List.filter_cons_of_neg (by simpa using h3)]
      exact a2

/-- `empty_like` either keeps the default layout (the non-zero source strides never increase) or lays the axes out along a
    permutation sorted by absolute source stride. -/
private theorem emptyLike_cases {srt} (hs : SortContract srt) (e : Int) (he : 0 < e) (shape src : List Int)
    (hl : src.length = shape.length) (hm : ∀ s ∈ src, s ≠ i64Max ∧ s ≠ i64Min) :
    (emptyLike srt e shape src = .ok (defaultDims e shape) ∧
      (src.filter (fun x => x ≠ 0)).Pairwise (fun x y => y ≤ x)) ∨
    ∃ d perm, emptyLike srt e shape src = .ok d ∧ d.map Prod.fst = shape ∧
      perm.Perm (List.range shape.length) ∧ perm.Pairwise (fun a b => (at0 src a).natAbs ≤ (at0 src b).natAbs) ∧
      (∀ (pre post : List Nat) (p : Nat), perm = pre ++ p :: post → at0 (d.map Prod.snd) p =
        if 1 < at0 shape p then e * numElements (pre.map (at0 shape)) else 0) := by
  have hdl : (defaultDims e shape).length = shape.length := by
    have := congrArg List.length (ddFst e shape); simpa using this
  unfold emptyLike reorderStrides
  rw [hdl]
  by_cases h1 : shape.length ≤ 1
  · rw [if_pos h1]
    left
    refine ⟨rfl, ?_⟩
    match src, hl with
    | [], _ => simp
    | [x], _ => simp only [List.filter_cons, List.filter_nil]; split <;> simp
    | x :: y :: l, hl => simp at hl; omega
  · rw [if_neg h1]
    obtain ⟨c', hc, hc2⟩ := scan_full shape.length src 0 0 true [] (by omega) (fun s h => (hm s h).1)
    have ht : src.take shape.length = src := List.take_of_length_le (by omega)
    rw [ht] at hc hc2
    simp only [hc, Nat.zero_add, List.nil_append]
    cases c' with
    | true =>
      left
      refine ⟨rfl, ?_⟩
      have := (hc2 rfl).2
      rwa [List.filter_cons_of_neg (by simp)] at this
    | false =>
      right
      simp only [Bool.false_eq_true, if_false]
      rw [if_neg (by omega)]
      obtain ⟨perm, p1, p2, p3⟩ := strides_to_axis_perm_sorted hs shape.length (fun i => src.getD i 0) (by
        intro i hi
        have hi' : i < src.length := by omega
        simp only [List.getD_eq_getElem?_getD, List.getElem?_eq_getElem hi', Option.getD_some]
        exact (hm _ (List.getElem_mem hi')).2)
      simp only [p1, Res.bind_ok]
      have hb1 : shape.length - 1 < (defaultDims e shape).length := by omega
      have hb2 : shape.length - 2 < (defaultDims e shape).length := by omega
      rw [List.getElem?_eq_getElem hb1, List.getElem?_eq_getElem hb2]
      have hs1 : ((defaultDims e shape)[shape.length - 1]).2 = e := by
        have := ddSnd e shape (shape.length - 1) (by omega)
        rw [List.drop_of_length_le (by omega)] at this
        simp only [numElements, Int.mul_one] at this
        refine Eq.trans ?_ this
        simp [at0, List.getD_eq_getElem?_getD, List.getElem?_eq_getElem hb1]
      simp only [hs1]
      rw [if_neg (by omega), if_neg (by omega)]
      have hmem : ∀ p ∈ perm, p < (defaultDims e shape).length := by
        intro p hp
        rw [hdl]; exact List.mem_range.1 (p2.mem_iff.1 hp)
      obtain ⟨d, d1, d2, d3, d4⟩ := assignStrides_spec perm e (defaultDims e shape) hmem
        (p2.nodup_iff.2 List.nodup_range)
      rw [ddFst] at d2 d4
      exact ⟨d, perm, d1, d2, p2, p3, d4⟩

/-! ## C85 -/

/-- **C85** (dense): for a source with fixed dimensions of any rank, sizes and strides, `empty_like` (and so `eval_copy`)
    lays out its result over exactly the number of elements times the element size: every element is at a multiple
    of the element size inside that block, and different elements are at different multiples. -/
theorem empty_like_dense {srt} (hs : SortContract srt) (e : Int) (he : 0 < e) (shape src : List Int)
    (hl : src.length = shape.length) (hm : ∀ s ∈ src, s ≠ i64Max ∧ s ≠ i64Min) :
    ∃ d, emptyLike srt e shape src = .ok d ∧ d.map Prod.fst = shape ∧
      (∀ ix, InShape shape ix → ∃ r, dotStrides d ix = e * r ∧ 0 ≤ r ∧ r < numElements shape) ∧
      (∀ ix jx, InShape shape ix → InShape shape jx → dotStrides d ix = dotStrides d jx → ix = jx) := by
  rcases emptyLike_cases hs e he shape src hl hm with ⟨h1, -⟩ | ⟨d, perm, h1, h2, h3, -, h5⟩
  · have hb : ∀ {x}, InShape shape x → dotStrides (defaultDims e shape) x = e * rowRank shape x := fun h => by
      have := type_c_contiguous_sound (c_contiguous_complete e shape).2 (ix := _) (by
        rw [inB_iff_inShape, ddFst]; exact h)
      rwa [ddFst] at this
    refine ⟨_, h1, ddFst e shape, fun ix hi => ⟨_, hb hi, rowRank_bounds hi⟩, ?_⟩
    intro ix jx hi hj he'
    rw [hb hi, hb hj] at he'
    exact rowRank_inj hi hj (Int.eq_of_mul_eq_mul_left (by omega) he')
  · have hmem : ∀ p ∈ perm, p < shape.length := fun p hp => List.mem_range.1 (h3.mem_iff.1 hp)
    have hdl : d.length = shape.length := by
      have := congrArg List.length h2; simpa using this
    have key : ∀ {x}, InShape shape x →
        dotStrides d x = e * colRank (perm.map (at0 shape)) (perm.map (at0 x)) := by
      intro x hx
      have hx2 := inShape_iff.1 hx
      rw [dotStrides_perm d x (by rw [hx2.1, hdl]) perm (by rw [hdl]; exact h3)]
      exact permSum perm e (at0 shape) (at0 (d.map Prod.snd)) (at0 x) (fun p hp => hx2.2 p (hmem p hp)) h5
    have hne : numElements (perm.map (at0 shape)) = numElements shape := by
      rw [numElements_perm (h3.map (at0 shape)), map_at0_range]
    refine ⟨d, h1, h2, ?_, ?_⟩
    · intro ix hi
      refine ⟨_, key hi, ?_⟩
      have := colRank_bounds (inShape_perm hi perm hmem)
      rwa [hne] at this
    · intro ix jx hi hj he'
      rw [key hi, key hj] at he'
      have h6 := colRank_inj (inShape_perm hi perm hmem) (inShape_perm hj perm hmem)
        (Int.eq_of_mul_eq_mul_left (by omega) he')
      have hi2 := inShape_iff.1 hi
      have hj2 := inShape_iff.1 hj
      apply List.ext_getElem (by rw [hi2.1, hj2.1])
      intro k k1 k2
      have hk : k ∈ perm := h3.mem_iff.2 (List.mem_range.2 (by omega))
      have := (List.map_inj_left.1 h6) k hk
      simpa [at0, List.getD_eq_getElem?_getD, List.getElem?_eq_getElem k1, List.getElem?_eq_getElem k2] using this

private theorem numElements_pos : ∀ (l : List Int), (∀ n ∈ l, 0 < n) → 0 < numElements l
  | [], _ => by simp [numElements]
  | n :: l, h => by
    simp only [numElements]
    exact Int.mul_pos (h n (by simp)) (numElements_pos l fun m hm => h m (by simp [hm]))

private theorem numElements_append (a b : List Int) : numElements (a ++ b) = numElements a * numElements b := by
  induction a with
  | nil => simp [numElements]
  | cons x a ih => simp only [List.cons_append, numElements, ih]; ring

/-- More factors, one of them larger than one, give a larger product. -/
private theorem numElements_lt (a b : List Int) (n : Int) (hn : 1 < n) (ha : ∀ m ∈ a, 0 < m) (hb : ∀ m ∈ b, 0 < m) :
    numElements a < numElements (a ++ n :: b) := by
  rw [numElements_append]
  simp only [numElements]
  have h1 := numElements_pos a ha
  have h2 := numElements_pos b hb
  have h3 : n * 1 ≤ n * numElements b := Int.mul_le_mul_of_nonneg_left (by omega) (by omega)
  have h4 : numElements a * 2 ≤ numElements a * (n * numElements b) := Int.mul_le_mul_of_nonneg_left (by omega) (by omega)
  omega

/-- **C85** (axis order): if no source stride is negative and no dimension is empty, the result of `empty_like` keeps the
    memory order of the axes: an axis with a smaller (non-zero) source stride than another has a smaller stride in the
    result.  Missing (and false): negative source strides. -/
theorem empty_like_order_partial {srt} (hs : SortContract srt) (e : Int) (he : 0 < e) (shape src : List Int)
    (hl : src.length = shape.length) (hm : ∀ s ∈ src, 0 ≤ s ∧ s ≠ i64Max) (hn : ∀ n ∈ shape, 0 < n) :
    ∃ d, emptyLike srt e shape src = .ok d ∧
      ∀ (i j : Nat) (ni nj si sj : Int), shape[i]? = some ni → shape[j]? = some nj → 1 < ni → 1 < nj →
        src[i]? = some si → src[j]? = some sj → 0 < si → si < sj →
        ∃ ti tj, d[i]? = some (ni, ti) ∧ d[j]? = some (nj, tj) ∧ ti < tj := by
  have get : ∀ (d : List (Int × Int)) (k : Nat) (n : Int), d.map Prod.fst = shape → shape[k]? = some n →
      d[k]? = some (n, at0 (d.map Prod.snd) k) := by
    intro d k n h1 h2
    have hk := (List.getElem?_eq_some_iff.1 h2).1
    have hkd : k < d.length := by
      have := congrArg List.length h1; simp at this; omega
    rw [← h1, List.getElem?_map, List.getElem?_eq_getElem hkd] at h2
    simp only [Option.map_some, Option.some.injEq] at h2
    rw [List.getElem?_eq_getElem hkd]
    simp [at0, List.getD_eq_getElem?_getD, List.getElem?_eq_getElem hkd, ← h2]
  rcases emptyLike_cases hs e he shape src hl (fun s h => ⟨(hm s h).2, by have := (hm s h).1; unfold i64Min; omega⟩) with
    ⟨h1, hpw⟩ | ⟨d, perm, h1, h2, h3, h4, h5⟩
  · refine ⟨_, h1, ?_⟩
    intro i j ni nj si sj hi hj hni hnj hsi hsj h0 hlt
    refine ⟨_, _, get _ i ni (ddFst e shape) hi, get _ j nj (ddFst e shape) hj, ?_⟩
    have hil := (List.getElem?_eq_some_iff.1 hi).1
    have hjl := (List.getElem?_eq_some_iff.1 hj).1
    have hji : j < i := by
      rcases Nat.lt_trichotomy j i with h | h | h
      · exact h
      · subst h; rw [hsi] at hsj; injection hsj; omega
      · exfalso
        have hsub : [si, sj].Sublist src := by
          have e1 : src = src.take j ++ src.drop j := (List.take_append_drop j src).symm
          have e2 : src.drop j = sj :: src.drop (j + 1) := by
            rw [List.drop_eq_getElem_cons (by omega)]
            congr 1
            have := (List.getElem?_eq_some_iff.1 hsj).2; exact this
          have e3 : si ∈ src.take j := by
            apply List.mem_of_getElem? (i := i)
            rw [List.getElem?_take_of_lt h]; exact hsi
          rw [e1, e2]
          have : [si, sj] = [si] ++ [sj] := rfl
          rw [this]
          exact List.Sublist.append (List.singleton_sublist.2 e3) (by simp)
        have hsub2 := hsub.filter (fun x => decide (x ≠ 0))
        rw [List.filter_cons_of_pos (by simp; omega), List.filter_cons_of_pos (by simp; omega)] at hsub2
        have := hpw.sublist hsub2
        simp at this
        omega
    rw [ddSnd e shape i hil, ddSnd e shape j hjl]
    apply Int.mul_lt_mul_of_pos_left _ he
    have : shape.drop (j + 1) = (shape.drop (j + 1)).take (i - (j + 1)) ++ ni :: shape.drop (i + 1) := by
      conv_lhs => rw [← List.take_append_drop (i - (j + 1)) (shape.drop (j + 1))]
      congr 1
      rw [List.drop_drop, show j + 1 + (i - (j + 1)) = i by omega, List.drop_eq_getElem_cons hil]
      congr 1
      exact (List.getElem?_eq_some_iff.1 hi).2
    rw [this]
    have hp : ∀ (l : List Int), numElements (l ++ ni :: shape.drop (i + 1)) = numElements (shape.drop (i + 1) ++ ni :: l) := by
      intro l
      rw [numElements_append, numElements_append]; simp only [numElements]; ring
    rw [hp]
    exact numElements_lt _ _ ni hni (fun m hm' => hn m (List.mem_of_mem_drop hm'))
      (fun m hm' => hn m (List.mem_of_mem_drop (List.mem_of_mem_take hm')))
  · refine ⟨d, h1, ?_⟩
    intro i j ni nj si sj hi hj hni hnj hsi hsj h0 hlt
    refine ⟨_, _, get _ i ni h2 hi, get _ j nj h2 hj, ?_⟩
    have hil := (List.getElem?_eq_some_iff.1 hi).1
    have hjl := (List.getElem?_eq_some_iff.1 hj).1
    have hjp : j ∈ perm := h3.mem_iff.2 (List.mem_range.2 hjl)
    obtain ⟨pre, post, hjs⟩ := List.append_of_mem hjp
    have hij : i ≠ j := by
      intro h; subst h; rw [hsi] at hsj; injection hsj; omega
    have a1 : at0 src i = si := by simp [at0, List.getD_eq_getElem?_getD, hsi]
    have a2 : at0 src j = sj := by simp [at0, List.getD_eq_getElem?_getD, hsj]
    have a3 : at0 shape i = ni := by simp [at0, List.getD_eq_getElem?_getD, hi]
    have a4 : at0 shape j = nj := by simp [at0, List.getD_eq_getElem?_getD, hj]
    have hip : i ∈ pre := by
      have : i ∈ perm := h3.mem_iff.2 (List.mem_range.2 hil)
      rw [hjs, List.mem_append, List.mem_cons] at this
      rcases this with h | h | h
      · exact h
      · exact absurd h hij
      · exfalso
        rw [hjs, List.pairwise_append] at h4
        have := (List.pairwise_cons.1 h4.2.1).1 i h
        rw [a1, a2] at this
        omega
    obtain ⟨pre1, pre2, hps⟩ := List.append_of_mem hip
    rw [h5 pre post j hjs, h5 pre1 (pre2 ++ j :: post) i (by rw [hjs, hps]; simp), a3, a4, if_pos hni, if_pos hnj]
    apply Int.mul_lt_mul_of_pos_left _ he
    rw [hps, List.map_append, List.map_cons, a3]
    have hpos : ∀ q ∈ perm, 0 < at0 shape q := by
      intro q hq
      have hql := List.mem_range.1 (h3.mem_iff.1 hq)
      simp only [at0, List.getD_eq_getElem?_getD, List.getElem?_eq_getElem hql, Option.getD_some]
      exact hn _ (List.getElem_mem hql)
    apply numElements_lt _ _ ni hni
    · intro m hm'
      obtain ⟨q, hq, rfl⟩ := List.mem_map.1 hm'
      exact hpos q (by rw [hjs, hps]; simp [hq])
    · intro m hm'
      obtain ⟨q, hq, rfl⟩ := List.mem_map.1 hm'
      exact hpos q (by rw [hjs, hps]; simp [hq])

/-- C85 is violated for a negative stride: the source has its first axis fastest (|8| < |-16|), the result its last. -/
theorem empty_like_negative_violated (srt : (Nat → Nat → Bool) → List Nat → List Nat) :
    emptyLike srt 8 [2, 2] [8, -16] = .ok [(2, 16), (2, 8)] ∧
    emptyLike srt 8 [2, 2] [8, 16] = .ok [(2, 8), (2, 16)] := ⟨rfl, rfl⟩

/-- C85 is violated when the source has fewer leading fixed dimensions than the result (the rest are var) and is not in C
    order: an uninitialised stride is read. -/
theorem empty_like_var_violated (srt : (Nat → Nat → Bool) → List Nat → List Nat) :
    emptyLike srt 8 [2, 2, 3] [8, 16] = .ub := rfl

/-- Concrete cases: a transposed 2×3 array of 8-byte elements keeps F order; rank 3. -/
example : emptyLike stableSort 8 [2, 3] [8, 16] = .ok [(2, 8), (3, 16)] ∧
    emptyLike stableSort 8 [2, 3] [100, 10] = .ok [(2, 24), (3, 8)] ∧
    emptyLike stableSort 1 [2, 3, 4] [7, 100, 20] = .ok [(2, 1), (3, 8), (4, 2)] := by decide

/-! ## C86 -/

/-- The products computed on the way fit in 64 bits: of every prefix of the shape, … -/
def PrefixFits (shape : List Int) : Prop := ∀ k, numElements (shape.take k) ≤ i64Max

/-- … and of every proper suffix, in bytes. -/
def SuffixFits (e : Int) (shape : List Int) : Prop := ∀ k, 1 ≤ k → e * numElements (shape.drop k) ≤ i64Max

private theorem numElements_nonneg : ∀ (l : List Int), (∀ n ∈ l, 0 ≤ n) → 0 ≤ numElements l
  | [], _ => by simp [numElements]
  | n :: l, h => by
    simp only [numElements]
    exact Int.mul_nonneg (h n (by simp)) (numElements_nonneg l fun m hm => h m (by simp [hm]))

private theorem shapeProd_ok : ∀ (shape : List Int) (acc : Int), (∀ n ∈ shape, 0 ≤ n) → 0 ≤ acc →
    (∀ k, acc * numElements (shape.take k) ≤ i64Max) → shapeProd shape acc = .ok (acc * numElements shape)
  | [], acc, _, _, _ => by simp [shapeProd, numElements]
  | n :: shape, acc, hn, ha, h => by
    simp only [shapeProd]
    have h1 := h 1
    simp only [List.take_succ_cons, List.take_zero, numElements, Int.mul_one] at h1
    have h2 : 0 ≤ acc * n := Int.mul_nonneg ha (hn n (by simp))
    rw [i64_ok (by omega) (by omega)]
    simp only [Res.bind_ok]
    rw [shapeProd_ok shape (acc * n) (fun m hm => hn m (by simp [hm])) h2 (fun k => by
      have := h (k + 1)
      simp only [List.take_succ_cons, numElements] at this
      rw [Int.mul_assoc]; exact this)]
    simp only [numElements]
    rw [Int.mul_assoc]

private theorem reshapeStrides_ok (e : Int) (he : 0 < e) : ∀ (shape : List Int), (∀ n ∈ shape, 0 ≤ n) →
    SuffixFits e shape → reshapeStrides e shape = .ok ((defaultDims e shape).map Prod.snd)
  | [], _, _ => rfl
  | [n], _, _ => by simp [reshapeStrides, defaultDims, defaultDataSize]
  | m :: n :: shape, hn, h => by
    rw [reshapeStrides.eq_3, reshapeStrides_ok e he (n :: shape) (fun x hx => hn x (by simp [hx])) (fun k hk => by
      have := h (k + 1) (by omega); simpa using this)]
    simp only [Res.bind_ok, defaultDims, List.map_cons]
    have h1 := h 1 (by omega)
    simp only [List.drop_succ_cons, List.drop_zero, numElements] at h1
    have h2 : 0 ≤ n * (e * numElements shape) :=
      Int.mul_nonneg (hn n (by simp)) (Int.mul_nonneg (by omega) (numElements_nonneg shape fun x hx => hn x (by simp [hx])))
    have h3 : n * (e * numElements shape) = e * (n * numElements shape) := by ring
    have h4 : i64Max = 9223372036854775807 := rfl
    rw [ddSize, i64_ok (by omega) (by omega)]
    simp only [Res.bind_ok, Res.pure_eq, defaultDataSize, ddSize]

private theorem zero_small : ∀ (d : List (Int × Int)) (ix : List Int), InShape (d.map Prod.fst) ix →
    dotStrides (d.map fun p => (p.1, if p.1 > 1 then p.2 else 0)) ix = dotStrides d ix
  | [], _, h => by cases h; rfl
  | (n, s) :: d, _, h => by
    cases h with
    | cons h0 h1 h2 =>
      simp only [List.map_cons, dotStrides, zero_small d _ h2]
      split_ifs with h3
      · rfl
      · have : ∀ i : Int, 0 ≤ i → i < n → i = 0 := by intro i h4 h5; omega
        rw [this _ h0 h1]; ring

private theorem fst_zip_snd : ∀ (d : List (Int × Int)), (d.map Prod.fst).zip (d.map Prod.snd) = d
  | [] => rfl
  | p :: d => by simp [fst_zip_snd d]

/-- **C86**: reshaping a source whose elements are stored contiguously in row-major order gives an array of the requested
    shape whose `r`-th element in row-major order is the `r`-th element of the source. -/
theorem reshape_contiguous_partial (e : Int) (he : 0 < e) (old : Dims) (new : List Int) (hne : new ≠ [])
    (hc : ∀ ix, InShape (old.map fun p => (p.1 : Int)) ix →
      dotStrides (old.map fun p => ((p.1 : Int), p.2)) ix = e * rowRank (old.map fun p => (p.1 : Int)) ix)
    (hn : ∀ n ∈ new, 0 ≤ n) (ht : numElements (old.map fun p => (p.1 : Int)) = numElements new)
    (h1 : PrefixFits (old.map fun p => (p.1 : Int))) (h2 : PrefixFits new) (h3 : SuffixFits e new) :
    ∃ d, reshape e old new = .ok d ∧ d.map Prod.fst = new ∧
      ∀ ix jx, InShape (old.map fun p => (p.1 : Int)) ix → InShape new jx →
        rowRank (old.map fun p => (p.1 : Int)) ix = rowRank new jx →
        dotStrides d jx = dotStrides (old.map fun p => ((p.1 : Int), p.2)) ix := by
  unfold reshape
  rw [shapeProd_ok _ 1 (by
    intro n hn'
    obtain ⟨p, -, rfl⟩ := List.mem_map.1 hn'
    omega) (by omega) (fun k => by rw [Int.one_mul]; exact h1 k),
    shapeProd_ok new 1 hn (by omega) (fun k => by rw [Int.one_mul]; exact h2 k)]
  simp only [Res.bind_ok, Int.one_mul]
  rw [if_neg (by simp [ht]), if_neg hne, reshapeStrides_ok e he new hn h3]
  simp only [Res.bind_ok, Res.pure_eq]
  rw [if_neg (by simpa using hn)]
  have hz : (new.zip ((defaultDims e new).map Prod.snd)) = defaultDims e new := by
    conv_lhs => rw [← ddFst e new]
    rw [ddFst]
    have := fst_zip_snd (defaultDims e new)
    rwa [ddFst] at this
  rw [hz]
  refine ⟨_, rfl, ?_, ?_⟩
  · rw [List.map_map]
    exact ddFst e new
  · intro ix jx hi hj hr
    rw [zero_small _ _ (by rw [ddFst]; exact hj), hc ix hi, hr]
    have := type_c_contiguous_sound (c_contiguous_complete e new).2 (ix := jx) (by
      rw [inB_iff_inShape, ddFst]; exact hj)
    rwa [ddFst] at this

/-- C86: a different total number of elements raises `invalid_argument`. -/
theorem reshape_total_raises (e : Int) (old : Dims) (new : List Int)
    (hn : ∀ n ∈ new, 0 ≤ n) (ht : numElements (old.map fun p => (p.1 : Int)) ≠ numElements new)
    (h1 : PrefixFits (old.map fun p => (p.1 : Int))) (h2 : PrefixFits new) :
    reshape e old new = .throw .invalidArg := by
  unfold reshape
  rw [shapeProd_ok _ 1 (by
    intro n hn'
    obtain ⟨p, -, rfl⟩ := List.mem_map.1 hn'
    omega) (by omega) (fun k => by rw [Int.one_mul]; exact h1 k),
    shapeProd_ok new 1 hn (by omega) (fun k => by rw [Int.one_mul]; exact h2 k)]
  simp only [Res.bind_ok, Int.one_mul]
  rw [if_pos (by simpa using ht)]

/-- C86 is violated for a source that is not stored in row-major order: the strides of the source are ignored, so reshaping
    the transpose of a 3×2 array to one dimension returns the elements in the order of the array that was transposed. -/
theorem reshape_strided_violated :
    reshape 4 [(2, 4), (3, 8)] [6] = .ok [(6, 4)] ∧
    rowRank [2, 3] [0, 1] = rowRank [6] [1] ∧ dotStrides [(2, 4), (3, 8)] [0, 1] = 8 ∧ dotStrides [(6, 4)] [1] = 4 := by
  decide

/-- C86 is violated for every strided source that is a slice of a larger array: the elements in between are returned. -/
theorem reshape_slice_violated : reshape 4 [(3, 8)] [3, 1] = .ok [(3, 4), (1, 0)] := by decide

/-- C86 is violated for the shape of a scalar (writes before the start of a buffer) and for two negative sizes. -/
theorem reshape_bad_shape_violated :
    reshape 4 [(1, 4)] [] = .ub ∧ reshape 4 [(6, 4)] [-2, -3] = .ub := by decide

/-- Concrete case: 2×3 to 3×2. -/
example : reshape 4 [(2, 12), (3, 4)] [3, 2] = .ok [(3, 8), (2, 4)] ∧ PrefixFits [3, 2] ∧ SuffixFits 4 [3, 2] := by
  refine ⟨by decide, ?_, ?_⟩
  · intro k
    match k with
    | 0 => decide
    | 1 => decide
    | k + 2 => simp only [List.take_succ_cons]; simp [numElements, i64Max]
  · intro k hk
    match k with
    | 1 => decide
    | k + 2 => simp [numElements, i64Max]

end Dynd
