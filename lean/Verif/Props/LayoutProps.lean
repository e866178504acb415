import Verif.Props.ShapeProps
/-
Property theorems C08, C09 (memory layout of strided arrays), C55 (permuted views), C56, C57
(broadcasting of strides and shapes), C58 (new axes), C59 (axis order classification).
-/
namespace Dynd
open Res

/-! ## Specification: ranks of a multi-index -/

/-- Number of elements of a shape. -/
def numElements : List Int → Int
  | [] => 1
  | n :: shape => n * numElements shape

/-- Row-major (C order) rank of a multi-index. -/
def rowRank : List Int → List Int → Int
  | _ :: shape, i :: ix => i * numElements shape + rowRank shape ix
  | _, _ => 0

/-- Column-major (Fortran order) rank of a multi-index. -/
def colRank : List Int → List Int → Int
  | n :: shape, i :: ix => i + n * colRank shape ix
  | _, _ => 0

/-- The multi-index is in bounds of the shape. -/
inductive InShape : List Int → List Int → Prop
  | nil : InShape [] []
  | cons {n i : Int} {shape ix : List Int} : 0 ≤ i → i < n → InShape shape ix → InShape (n :: shape) (i :: ix)

theorem inB_iff_inShape {dims : List (Int × Int)} {ix : List Int} : InB dims ix ↔ InShape (dims.map Prod.fst) ix := by
  constructor
  · intro h
    induction h with
    | nil => exact .nil
    | cons h0 h1 _ ih => exact .cons h0 h1 ih
  · intro h
    induction dims generalizing ix with
    | nil => cases h; exact .nil
    | cons d dims ih =>
      obtain ⟨n, s⟩ := d
      cases h with
      | cons h0 h1 h2 => exact .cons h0 h1 (ih h2)

/-- Row-major ranks number the elements without gaps or repetitions: bounds. -/
theorem rowRank_bounds {shape ix : List Int} (h : InShape shape ix) :
    0 ≤ rowRank shape ix ∧ rowRank shape ix < numElements shape := by
  induction h with
  | nil => simp [rowRank, numElements]
  | @cons n i shape ix h0 h1 _ ih =>
    simp only [rowRank, numElements]
    obtain ⟨h2, h3⟩ := ih
    refine ⟨Int.add_nonneg (Int.mul_nonneg h0 (by omega)) h2, ?_⟩
    have : (i + 1) * numElements shape ≤ n * numElements shape :=
      Int.mul_le_mul_of_nonneg_right (by omega) (by omega)
    rw [Int.add_mul] at this; omega

/-- Distinct multi-indices have distinct row-major ranks. -/
theorem rowRank_inj {shape ix jx : List Int} (h : InShape shape ix) (h' : InShape shape jx)
    (e : rowRank shape ix = rowRank shape jx) : ix = jx := by
  induction h generalizing jx with
  | nil => cases h'; rfl
  | @cons n i shape ix h0 h1 hix ih =>
    cases h' with
    | @cons _ j _ jx g0 g1 hjx =>
      simp only [rowRank] at e
      obtain ⟨a0, a1⟩ := rowRank_bounds hix
      obtain ⟨b0, b1⟩ := rowRank_bounds hjx
      have hij : i = j := by
        rcases Int.lt_trichotomy i j with hlt | he | hgt
        · exfalso
          have : (i + 1) * numElements shape ≤ j * numElements shape :=
            Int.mul_le_mul_of_nonneg_right (by omega) (by omega)
          rw [Int.add_mul] at this; omega
        · exact he
        · exfalso
          have : (j + 1) * numElements shape ≤ i * numElements shape :=
            Int.mul_le_mul_of_nonneg_right (by omega) (by omega)
          rw [Int.add_mul] at this; omega
      subst hij
      rw [ih hjx (by omega)]

/-- Every rank below the number of elements is hit. -/
theorem rowRank_surj {shape : List Int} (hs : ∀ n ∈ shape, 0 ≤ n) (r : Int) (h0 : 0 ≤ r) (h1 : r < numElements shape) :
    ∃ ix, InShape shape ix ∧ rowRank shape ix = r := by
  induction shape generalizing r with
  | nil => exact ⟨[], .nil, by simp [rowRank, numElements] at *; omega⟩
  | cons n shape ih =>
    simp only [numElements] at h1
    have hpos : 0 < numElements shape := by
      rcases Int.lt_or_le 0 (numElements shape) with h | h
      · exact h
      · have hn := hs n (by simp)
        have := Int.mul_le_mul_of_nonneg_left h hn
        rw [Int.mul_zero] at this; omega
    obtain ⟨ix, hix, he⟩ := ih (fun m hm => hs m (by simp [hm])) (r % numElements shape)
      (Int.emod_nonneg _ (by omega)) (Int.emod_lt_of_pos _ hpos)
    refine ⟨r / numElements shape :: ix, .cons (Int.ediv_nonneg h0 (by omega)) ?_ hix, ?_⟩
    · exact Int.ediv_lt_of_lt_mul hpos h1
    · simp only [rowRank, he]
      have := Int.emod_add_mul_ediv r (numElements shape)
      rw [Int.mul_comm] at this; omega

/-! ## C09 -/

/-- C09 (Fortran order): if the test says true, the element at a multi-index is at offset
    element size times its column-major rank. -/
theorem f_contiguous_sound {esize : Int} {dims : List (Int × Int)} (h : stridesAreFContiguous esize dims = true)
    {ix : List Int} (hi : InB dims ix) : dotStrides dims ix = esize * colRank (dims.map Prod.fst) ix := by
  induction dims generalizing esize ix with
  | nil => cases hi; simp [dotStrides, colRank]
  | cons d dims ih =>
    obtain ⟨n, s⟩ := d
    cases hi with
    | @cons _ _ i _ ix h0 h1 hi =>
      simp only [stridesAreFContiguous] at h
      split at h
      · simp at h
      · rename_i hc
        simp only [dotStrides, List.map_cons, colRank, ih h hi]
        by_cases hn : n = 1
        · subst hn
          have : i = 0 := by omega
          subst this; ring
        · have : s = esize := by
            by_contra hs; exact hc ⟨hn, hs⟩
          subst this; ring

private theorem dotStrides_append (d1 d2 : List (Int × Int)) (x1 x2 : List Int) (h : d1.length = x1.length) :
    dotStrides (d1 ++ d2) (x1 ++ x2) = dotStrides d1 x1 + dotStrides d2 x2 := by
  induction d1 generalizing x1 with
  | nil => cases x1 <;> simp_all [dotStrides]
  | cons d d1 ih =>
    cases x1 with
    | nil => simp at h
    | cons x x1 =>
      obtain ⟨n, s⟩ := d
      simp only [List.cons_append, dotStrides, ih x1 (by simpa using h)]; omega

private theorem InB.length {dims : List (Int × Int)} {ix : List Int} (h : InB dims ix) : dims.length = ix.length := by
  induction h with
  | nil => rfl
  | cons _ _ _ ih => simp [ih]

private theorem dotStrides_reverse (d : List (Int × Int)) (x : List Int) (h : d.length = x.length) :
    dotStrides d.reverse x.reverse = dotStrides d x := by
  induction d generalizing x with
  | nil => cases x <;> simp_all [dotStrides]
  | cons d ds ih =>
    cases x with
    | nil => simp at h
    | cons x xs =>
      have h' : ds.length = xs.length := by simpa using h
      obtain ⟨n, s⟩ := d
      rw [List.reverse_cons, List.reverse_cons, dotStrides_append _ _ _ _ (by simpa using h'), ih xs h']
      simp only [dotStrides]; omega

private theorem numElements_append (a b : List Int) : numElements (a ++ b) = numElements a * numElements b := by
  induction a with
  | nil => simp [numElements]
  | cons n a ih => simp only [List.cons_append, numElements, ih]; ring

private theorem numElements_reverse (a : List Int) : numElements a.reverse = numElements a := by
  induction a with
  | nil => rfl
  | cons n a ih => rw [List.reverse_cons, numElements_append, ih]; simp only [numElements]; ring

private theorem colRank_append (a b x y : List Int) (h : a.length = x.length) :
    colRank (a ++ b) (x ++ y) = colRank a x + numElements a * colRank b y := by
  induction a generalizing x with
  | nil => cases x <;> simp_all [colRank, numElements]
  | cons n a ih =>
    cases x with
    | nil => simp at h
    | cons i x =>
      simp only [List.cons_append, colRank, numElements, ih x (by simpa using h)]; ring

private theorem colRank_reverse (a x : List Int) (h : a.length = x.length) :
    colRank a.reverse x.reverse = rowRank a x := by
  induction a generalizing x with
  | nil => cases x <;> simp_all [colRank, rowRank]
  | cons n a ih =>
    cases x with
    | nil => simp at h
    | cons i x =>
      have h' : a.length = x.length := by simpa using h
      rw [List.reverse_cons, List.reverse_cons, colRank_append _ _ _ _ (by simpa using h'), ih x h', numElements_reverse]
      simp only [colRank, rowRank]; ring

private theorem inB_append {d1 d2 : List (Int × Int)} {x1 x2 : List Int} (h1 : InB d1 x1) (h2 : InB d2 x2) :
    InB (d1 ++ d2) (x1 ++ x2) := by
  induction h1 with
  | nil => exact h2
  | cons a b _ ih => exact .cons a b ih

private theorem inB_reverse {d : List (Int × Int)} {x : List Int} (h : InB d x) : InB d.reverse x.reverse := by
  induction h with
  | nil => exact .nil
  | cons a b _ ih =>
    rw [List.reverse_cons, List.reverse_cons]
    exact inB_append ih (.cons a b .nil)

/-- C09 (C order): if the test says true, the element at a multi-index is at offset element size times its
    row-major rank; with `rowRank_bounds/_inj/_surj` the data is one dense run in row-major order. -/
theorem c_contiguous_sound {esize : Int} {dims : List (Int × Int)} (h : stridesAreCContiguous esize dims = true)
    {ix : List Int} (hi : InB dims ix) : dotStrides dims ix = esize * rowRank (dims.map Prod.fst) ix := by
  have := f_contiguous_sound (esize := esize) (dims := dims.reverse) h (inB_reverse hi)
  rw [dotStrides_reverse _ _ hi.length, List.map_reverse, colRank_reverse _ _ (by simpa using hi.length)] at this
  exact this

private theorem fContig_append (e : Int) (a b : List (Int × Int)) :
    stridesAreFContiguous e (a ++ b) =
      (stridesAreFContiguous e a && stridesAreFContiguous (e * numElements (a.map Prod.fst)) b) := by
  induction a generalizing e with
  | nil => simp [stridesAreFContiguous, numElements]
  | cons d a ih =>
    obtain ⟨n, s⟩ := d
    simp only [List.cons_append, stridesAreFContiguous, List.map_cons, numElements]
    split
    · simp
    · rw [ih, Int.mul_assoc]

private theorem defaultDataSize_eq (e : Int) (shape : List Int) : defaultDataSize e shape = e * numElements shape := by
  induction shape with
  | nil => simp [defaultDataSize, numElements]
  | cons n shape ih => simp only [defaultDataSize, numElements, ih]; ring

private theorem defaultDims_fst (e : Int) (shape : List Int) : (defaultDims e shape).map Prod.fst = shape := by
  induction shape with
  | nil => rfl
  | cons n shape ih => simp [defaultDims, ih]

/-- C09, completeness: freshly allocated arrays of any shape (including sizes 0 and 1) are recognised as
    C contiguous, by both tests. -/
theorem c_contiguous_complete (esize : Int) (shape : List Int) :
    stridesAreCContiguous esize (defaultDims esize shape) = true ∧
    typeIsCContiguous esize (defaultDims esize shape) = true := by
  constructor
  · unfold stridesAreCContiguous
    induction shape with
    | nil => rfl
    | cons n shape ih =>
      simp only [defaultDims, List.reverse_cons, fContig_append, ih, List.map_reverse, defaultDims_fst,
        numElements_reverse, Bool.true_and, stridesAreFContiguous, defaultDataSize_eq]
      simp
  · induction shape with
    | nil => rfl
    | cons n shape ih =>
      simp only [defaultDims, typeIsCContiguous, defaultDims_fst, if_true]
      exact ih

/-- C09: the type-level test (`ndt::type::is_c_contiguous`) is sound too. -/
theorem type_c_contiguous_sound {esize : Int} {dims : List (Int × Int)} (h : typeIsCContiguous esize dims = true)
    {ix : List Int} (hi : InB dims ix) : dotStrides dims ix = esize * rowRank (dims.map Prod.fst) ix := by
  induction hi with
  | nil => simp [dotStrides, rowRank]
  | @cons n s i dims ix _ _ _ ih =>
    simp only [typeIsCContiguous] at h
    split at h
    · rename_i he
      simp only [dotStrides, List.map_cons, rowRank, ih h, ← he, defaultDataSize_eq]; ring
    · simp at h

example : stridesAreCContiguous 4 [(2, 12), (3, 4)] = true ∧ stridesAreCContiguous 4 [(2, 4), (3, 8)] = false ∧
    stridesAreFContiguous 4 [(2, 4), (3, 8)] = true ∧ stridesAreCContiguous 4 [(2, 12), (1, 77), (3, 4)] = true := by
  decide

/-- C09: unlike `strides_are_c_contiguous`, the type-level test rejects a size-1 dimension with an
    arbitrary stride although the data is dense (it is not complete for such views). -/
theorem type_c_contiguous_incomplete_violated :
    stridesAreCContiguous 4 [(2, 12), (1, 0), (3, 4)] = true ∧ typeIsCContiguous 4 [(2, 12), (1, 0), (3, 4)] = false := by
  decide

/-! ## C08 -/

/-- C08 for default-constructed arrays: every element lies inside the allocated block of
    `get_default_data_size()` bytes and distinct elements do not overlap. -/
theorem default_layout_disjoint {esize : Int} (he : 0 < esize) {shape : List Int} {ix jx : List Int}
    (hi : InShape shape ix) (hj : InShape shape jx) :
    (0 ≤ dotStrides (defaultDims esize shape) ix ∧
      dotStrides (defaultDims esize shape) ix + esize ≤ defaultDataSize esize shape) ∧
    (ix ≠ jx → dotStrides (defaultDims esize shape) ix + esize ≤ dotStrides (defaultDims esize shape) jx ∨
      dotStrides (defaultDims esize shape) jx + esize ≤ dotStrides (defaultDims esize shape) ix) := by
  have hb : ∀ {x}, InShape shape x → InB (defaultDims esize shape) x := fun h => by
    rw [inB_iff_inShape, defaultDims_fst]; exact h
  have e1 := type_c_contiguous_sound (c_contiguous_complete esize shape).2 (hb hi)
  have e2 := type_c_contiguous_sound (c_contiguous_complete esize shape).2 (hb hj)
  rw [defaultDims_fst] at e1 e2
  rw [e1, e2, defaultDataSize_eq]
  obtain ⟨a0, a1⟩ := rowRank_bounds hi
  obtain ⟨b0, b1⟩ := rowRank_bounds hj
  refine ⟨⟨Int.mul_nonneg (by omega) a0, ?_⟩, fun hne => ?_⟩
  · have := Int.mul_le_mul_of_nonneg_left (show rowRank shape ix + 1 ≤ numElements shape by omega) (show 0 ≤ esize by omega)
    rw [Int.mul_add] at this; omega
  · have hne' : rowRank shape ix ≠ rowRank shape jx := fun e => hne (rowRank_inj hi hj e)
    rcases Int.lt_or_gt_of_ne hne' with h | h
    · left
      have := Int.mul_le_mul_of_nonneg_left (show rowRank shape ix + 1 ≤ rowRank shape jx by omega) (show 0 ≤ esize by omega)
      rw [Int.mul_add] at this; omega
    · right
      have := Int.mul_le_mul_of_nonneg_left (show rowRank shape jx + 1 ≤ rowRank shape ix by omega) (show 0 ≤ esize by omega)
      rw [Int.mul_add] at this; omega

example : InShape [2, 3] [1, 2] ∧ defaultDims 4 [2, 3] = [(2, 12), (3, 4)] ∧ defaultDataSize 4 [2, 3] = 24 :=
  ⟨.cons (by decide) (by decide) (.cons (by decide) (by decide) .nil), by decide, by decide⟩

/-- C08, violated: `axis_perm_to_strides` stores the dimension *sizes* as strides, so the elements (0,1) and
    (1,0) of a 2x2 int32 array laid out in C order share the address 2. -/
theorem axis_perm_to_strides_violated :
    ∃ (shape : Nat → Int) (perm : List Nat), perm.Perm (List.range 2) ∧ (∀ i, 0 < shape i) ∧
      ∃ ix jx, InShape [shape 0, shape 1] ix ∧ InShape [shape 0, shape 1] jx ∧ ix ≠ jx ∧
        let st := axisPermToStrides shape perm 4 (fun _ => 0)
        dotStrides [(shape 0, st 0), (shape 1, st 1)] ix = dotStrides [(shape 0, st 0), (shape 1, st 1)] jx :=
  ⟨fun _ => 2, [1, 0], by decide, fun _ => by simp, [0, 1], [1, 0],
    .cons (by decide) (by decide) (.cons (by decide) (by decide) .nil),
    .cons (by decide) (by decide) (.cons (by decide) (by decide) .nil), by decide, by decide⟩

/-- C08: what `axis_perm_to_strides` really returns: the stride of every listed axis is its size,
    whatever the element size. -/
theorem axis_perm_to_strides_actual (shape : Nat → Int) (perm : List Nat) (esize : Int) (out : Nat → Int) (i : Nat)
    (h : i ∈ perm) : axisPermToStrides shape perm esize out i = shape i := by
  have keep : ∀ (ps : List Nat) (e : Int) (o : Nat → Int), o i = shape i → axisPermToStrides shape ps e o i = shape i := by
    intro ps
    induction ps with
    | nil => intro _ _ h; exact h
    | cons q qs ih =>
      intro e o ho
      simp only [axisPermToStrides]
      apply ih
      by_cases hq : i = q
      · simp [hq]
      · simp [hq, ho]
  induction perm generalizing esize out with
  | nil => simp at h
  | cons p ps ih =>
    simp only [axisPermToStrides]
    by_cases hp : i = p
    · exact keep _ _ _ (by simp [hp])
    · rcases List.mem_cons.1 h with h | h
      · exact absurd h hp
      · exact ih _ _ h

end Dynd
