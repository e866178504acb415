import Verif.Props.ArrayIterProps
/-
C84: `equals_exact`.
-/
namespace Dynd

/-- An array whose dimensions are all fixed: `sizes` are its sizes; the reported shape and the strides match. -/
def IsFixed {τ : Type} (a : EArr τ) (sizes : List Nat) : Prop :=
  a.dims = sizes.map ADim.fixed ∧ a.shape = sizes.map (fun (n : Nat) => (n : Int)) ∧ a.strides.length = sizes.length

private theorem fixedDims_eq : ∀ (sizes : List Nat) (ss : List Int), ss.length = sizes.length →
    fixedDims (sizes.map ADim.fixed) ss = some (sizes.zip ss)
  | [], _, _ => by simp [fixedDims]
  | n :: ns, [], h => by simp at h
  | n :: ns, s :: ss, h => by
    simp only [List.map_cons, fixedDims, List.zip_cons_cons]
    rw [fixedDims_eq ns ss (by simpa using h)]
    rfl

private theorem fixed_inj {s t : List Nat} (h : s.map ADim.fixed = t.map ADim.fixed) : s = t :=
  List.map_injective_iff.2 (fun a b h => by injection h) h

private theorem list_of_sizeAt {r s : List Int} (hl : r.length = s.length) (h : ∀ k, sizeAt r k = sizeAt s k) : r = s := by
  have : r.reverse = s.reverse := by
    apply List.ext_getElem (by simpa using hl)
    intro k h1 h2
    have := h k
    unfold sizeAt at this
    simpa [List.getD_eq_getElem?_getD, List.getElem?_eq_getElem h1, List.getElem?_eq_getElem h2] using this
  simpa using this

private theorem zip_fst (sizes : List Nat) (ss : List Int) (h : ss.length = sizes.length) :
    (sizes.zip ss).map (·.1) = sizes := by
  rw [List.map_fst_zip]; omega

private theorem zip_snd (sizes : List Nat) (ss : List Int) (h : ss.length = sizes.length) :
    (sizes.zip ss).map (·.2) = ss := by
  rw [List.map_snd_zip]; omega

/-- Iterating two arrays of the same shape side by side. -/
theorem iter_same_shape (x y : Int) (sizes : List Nat) (ss ts : List Int) (hs : ss.length = sizes.length)
    (ht : ts.length = sizes.length) :
    ∃ it, iterReadRead (x, sizes.zip ss) (y, sizes.zip ts) = .ok it ∧
      it.visit = .ok ((gridIdx sizes).map fun idx => [x + dstOff ss idx, y + dstOff ts idx]) := by
  have e1 : (sizes.zip ss).map (fun p => (p.1 : Int)) = sizes.map (fun (n : Nat) => (n : Int)) := by
    conv_rhs => rw [← zip_fst sizes ss hs]
    rw [List.map_map]; rfl
  have e2 : (sizes.zip ts).map (fun p => (p.1 : Int)) = sizes.map (fun (n : Nat) => (n : Int)) := by
    conv_rhs => rw [← zip_fst sizes ts ht]
    rw [List.map_map]; rfl
  have l1 : (sizes.zip ss).length = sizes.length := by rw [List.length_zip]; omega
  have l2 : (sizes.zip ts).length = sizes.length := by rw [List.length_zip]; omega
  have hzero : ∀ (us : List Int), us.length = sizes.length → ∀ (sh : List Nat), sh = sizes → StretchZero (sizes.zip us) sh := by
    rintro us hu sh rfl k p hp h1 h2
    exfalso; apply h2
    have h3 : ((sh.zip us).reverse.map (·.1))[k]? = some p.1 := by rw [List.getElem?_map, hp]; rfl
    rw [List.map_reverse, zip_fst sh us hu, h1] at h3
    exact h3
  have hoff : ∀ (us : List Int), us.length = sizes.length → ∀ idx ∈ gridIdx sizes,
      opOff (sizes.zip us) idx = dstOff us idx := by
    intro us hu idx hi
    have a1 := opAddr_eq (0, sizes.zip us) sizes idx hi (hzero us hu _ rfl)
    obtain ⟨it1, g1, g2⟩ := iter_one_exact 0 (sizes.zip us)
    obtain ⟨it2, g3, g4⟩ := iter_visits sizes [((0, sizes.zip us), false)] (by simp [List.length_zip, hu])
    have g3' : iterOne 0 (sizes.zip us) = .ok it2 := by
      unfold iterOne; rw [zip_fst sizes us hu]; exact g3
    have e : it1 = it2 := by rw [g1] at g3'; injection g3'
    subst e
    rw [g2] at g4
    injection g4 with g4
    unfold shapeOf at g4
    rw [zip_fst sizes us hu, zip_snd sizes us hu] at g4
    have g5 := (List.map_inj_left.1 g4) idx hi
    simp only [List.map_cons, List.map_nil, List.cons.injEq, and_true] at g5
    rw [a1] at g5
    simpa using g5.symm
  rcases iter_read_read_partial (x, sizes.zip ss) (y, sizes.zip ts) with ⟨sh, h1, h2, it, h3, h4⟩ | ⟨_, h2⟩
  · refine ⟨it, h3, ?_⟩
    simp only at h1 h2 h4
    rw [e1, e2] at h1
    rw [l1, l2, Nat.max_self] at h2
    have hself : IsBroadcastShape [sizes.map (fun (n : Nat) => (n : Int)), sizes.map (fun (n : Nat) => (n : Int))]
        (sizes.map (fun (n : Nat) => (n : Int))) := by
      refine ⟨?_, fun k => Or.inr ⟨_, by simp, rfl⟩⟩
      intro s hs k
      simp at hs; subst hs; exact Or.inr rfl
    have h5 := list_of_sizeAt (by simpa using h2) (broadcast_shape_unique (List.Perm.refl _) h1 hself)
    have h6 : sh = sizes := List.map_injective_iff.2 (fun a b h => by simpa using h) h5
    subst h6
    rw [h4 (hzero ss hs _ rfl) (hzero ts ht _ rfl)]
    congr 1
    apply List.map_congr_left
    intro idx hi
    rw [hoff ss hs idx hi, hoff ts ht idx hi]
  · exfalso
    apply h2
    simp only
    rw [e1, e2]
    exact ⟨sizes.map (fun (n : Nat) => (n : Int)), by
      intro s hs k
      simp at hs; subst hs; exact Or.inr rfl, fun k => Or.inr ⟨_, by simp, rfl⟩⟩

private theorem anyNotEqual_ok (f : Int → Int → Bool) (ne : Int → Int → Res Bool) (hne : ∀ x y, ne x y = .ok (f x y))
    {α : Type} (g h : α → Int) : ∀ (l : List α),
    anyNotEqual ne (l.map fun i => [g i, h i]) = .ok (decide (∀ i ∈ l, f (g i) (h i) = false))
  | [] => by simp [anyNotEqual]
  | i :: l => by
    simp only [List.map_cons, anyNotEqual, hne, Res.bind_ok, anyNotEqual_ok f ne hne g h l]
    cases hf : f (g i) (h i) <;> simp [hf]

/-- **C84**: for two different array objects whose dimensions are all fixed, of any rank and with any strides, `equals_exact`
    is true exactly if the types (dimensions and dtype) are the same and every pair of elements at the same index compares
    equal.  `f` is the outcome of comparing two elements for inequality; the equality comparison (used for rank 0) is assumed
    to be its negation. -/
theorem equals_exact_fixed_partial {τ : Type} [DecidableEq τ] (f : Int → Int → Bool) (eq ne : Int → Int → Res Bool)
    (hne : ∀ x y, ne x y = .ok (f x y)) (heq : ∀ x y, eq x y = .ok (!f x y)) (fresh : Nat × Nat)
    (a b : EArr τ) (sa sb : List Nat) (ha : IsFixed a sa) (hb : IsFixed b sb) (hid : a.ident ≠ b.ident) :
    ∃ r, equalsExact eq ne fresh a b = .ok r ∧
      (r = true ↔ sa = sb ∧ a.dtype = b.dtype ∧
        ∀ idx ∈ gridIdx sa, f (a.base + dstOff a.strides idx) (b.base + dstOff b.strides idx) = false) := by
  obtain ⟨ha1, ha2, ha3⟩ := ha
  obtain ⟨hb1, hb2, hb3⟩ := hb
  have hnv : a.dims.head? ≠ some ADim.var := by
    rw [ha1]; cases sa <;> simp
  unfold equalsExact
  rw [if_neg hid]
  by_cases hd : a.dims ≠ b.dims ∨ a.dtype ≠ b.dtype
  · rw [if_pos hd]
    refine ⟨false, rfl, ?_⟩
    simp only [Bool.false_eq_true, false_iff]
    rintro ⟨rfl, h2, -⟩
    rcases hd with hd | hd
    · exact hd (by rw [ha1, hb1])
    · exact hd h2
  · rw [if_neg hd, if_neg hnv]
    unfold equalsFixed
    rw [if_neg hid, if_neg hd]
    have hdd : a.dims = b.dims ∧ a.dtype = b.dtype := by
      constructor
      · by_contra h; exact hd (Or.inl h)
      · by_contra h; exact hd (Or.inr h)
    have hs : sa = sb := fixed_inj (by rw [← ha1, ← hb1, hdd.1])
    subst hs
    by_cases h0 : a.dims = []
    · rw [if_pos h0, heq]
      refine ⟨_, rfl, ?_⟩
      rw [ha1] at h0
      have : sa = [] := by simpa using h0
      subst this
      simp [gridIdx, dstOff, hdd.2]
    · rw [if_neg h0]
      split_ifs with h1 h2
      · refine ⟨true, rfl, ?_⟩
        simp only [true_iff, hdd.2, true_and]
        rw [ha2] at h1
        cases sa with
        | nil => simp at h1
        | cons n ns =>
          have : n = 0 := by simpa using h1.2.1
          subst this
          simp [gridIdx]
      · exact absurd (by rw [ha2, hb2]) h2
      · rw [ha1, hb1, fixedDims_eq _ _ ha3, fixedDims_eq _ _ hb3]
        obtain ⟨it, g1, g2⟩ := iter_same_shape a.base b.base sa a.strides b.strides ha3 hb3
        simp only [g1, g2, Res.bind_ok, anyNotEqual_ok f ne hne]
        refine ⟨_, rfl, ?_⟩
        simp [hdd.2]

/-- C84, an array and itself: `equals_exact` is true without looking at the elements. -/
theorem equals_exact_self {τ : Type} [DecidableEq τ] (eq ne : Int → Int → Res Bool) (fresh : Nat × Nat) (a b : EArr τ)
    (h : a.ident = b.ident) : equalsExact eq ne fresh a b = .ok true := by
  unfold equalsExact; rw [if_pos h]

/-- C84 is violated for NaN: the same array object is equal to itself although its only element is not equal to itself,
    and a copy of it (here: other identity, same data) is not. -/
theorem equals_exact_nan_violated :
    ∃ (eq ne : Int → Int → Res Bool) (a b : EArr Nat), (∀ x y, ne x y = .ok true ∧ eq x y = .ok false) ∧
      a = { b with ident := a.ident } ∧
      equalsExact eq ne (7, 8) a a = .ok true ∧ equalsExact eq ne (7, 8) a b = .ok false :=
  ⟨fun _ _ => .ok false, fun _ _ => .ok true, ⟨0, [.fixed 1], 0, [1], 0, [8]⟩, ⟨1, [.fixed 1], 0, [1], 0, [8]⟩,
    fun _ _ => ⟨rfl, rfl⟩, rfl, rfl, rfl⟩

/-- C84 is violated for a leading var dimension: two arrays of type `var * T` with different lengths make `equals_exact`
    raise `type_error` instead of returning false. -/
theorem equals_exact_var_length_violated {τ : Type} [DecidableEq τ] (eq ne : Int → Int → Res Bool) (fresh : Nat × Nat)
    (a b : EArr τ) (m n : Int) (sa sb : List Int) (ds : List ADim) (hid : a.ident ≠ b.ident)
    (ha : a.dims = .var :: ds) (hb : b.dims = .var :: ds) (hd : a.dtype = b.dtype)
    (hsa : a.shape = m :: sa) (hsb : b.shape = n :: sb) (hmn : m ≠ n) :
    equalsExact eq ne fresh a b = .throw .typeError := by
  unfold equalsExact
  rw [if_neg hid, if_neg (by rw [ha, hb]; simp [hd]), if_pos (by rw [ha]; rfl)]
  simp only [hsa, List.head?_cons, Res.bind_ok, viewVarAsFixed, if_true, hsb, Option.some.injEq]
  rw [if_neg (fun h => hmn h.symm)]
  rfl

/-- C84 for a leading var dimension of the same length followed by fixed ones: compared like fixed dimensions. -/
theorem equals_exact_var_partial {τ : Type} [DecidableEq τ] (f : Int → Int → Bool) (eq ne : Int → Int → Res Bool)
    (hne : ∀ x y, ne x y = .ok (f x y)) (heq : ∀ x y, eq x y = .ok (!f x y)) (fresh : Nat × Nat) (hf : fresh.1 ≠ fresh.2)
    (a b : EArr τ) (n : Nat) (ns : List Nat) (hid : a.ident ≠ b.ident) (hd : a.dtype = b.dtype)
    (ha : a.dims = .var :: ns.map ADim.fixed) (hb : b.dims = .var :: ns.map ADim.fixed)
    (ha2 : a.shape = (n :: ns).map (fun (n : Nat) => (n : Int))) (hb2 : b.shape = (n :: ns).map (fun (n : Nat) => (n : Int)))
    (ha3 : a.strides.length = (n :: ns).length) (hb3 : b.strides.length = (n :: ns).length) :
    ∃ r, equalsExact eq ne fresh a b = .ok r ∧
      (r = true ↔
        ∀ idx ∈ gridIdx (n :: ns), f (a.base + dstOff a.strides idx) (b.base + dstOff b.strides idx) = false) := by
  obtain ⟨r, h1, h2⟩ := equals_exact_fixed_partial f eq ne hne heq fresh
    { a with ident := fresh.1, dims := (n :: ns).map ADim.fixed } { b with ident := fresh.2, dims := (n :: ns).map ADim.fixed }
    (n :: ns) (n :: ns) ⟨rfl, ha2, ha3⟩ ⟨rfl, hb2, hb3⟩ hf
  refine ⟨r, ?_, ?_⟩
  · rw [← h1]
    unfold equalsExact
    rw [if_neg hid, if_neg (by rw [ha, hb]; simp [hd]), if_pos (by rw [ha]; rfl)]
    rw [if_neg (by exact hf), if_neg (by simp [hd]), if_neg (by simp)]
    simp only [ha2, List.map_cons, List.head?_cons, Res.bind_ok, viewVarAsFixed, if_true, hb2, ha, hb, List.tail_cons]
    rfl
  · rw [h2]
    simp [hd]

/-- C84 is violated for a var dimension after a fixed one: `equals_exact` always raises `runtime_error` for two
    different array objects of such a type and the same shape. -/
theorem equals_exact_inner_var_violated {τ : Type} [DecidableEq τ] (eq ne : Int → Int → Res Bool) (fresh : Nat × Nat)
    (a b : EArr τ) (n : Nat) (ds : List ADim) (hid : a.ident ≠ b.ident) (hds : ADim.var ∈ ds)
    (ha : a.dims = .fixed n :: ds) (hb : b.dims = .fixed n :: ds) (hd : a.dtype = b.dtype) (hs : a.shape = b.shape) :
    equalsExact eq ne fresh a b = .throw .runtime := by
  have hnone : ∀ (l : List ADim) (ss : List Int), ADim.var ∈ l → fixedDims l ss = none := by
    intro l
    induction l with
    | nil => simp
    | cons d l ih =>
      intro ss h
      cases ss with
      | nil => cases d <;> simp [fixedDims]
      | cons s ss =>
        cases d with
        | var => simp [fixedDims]
        | fixed k =>
          simp only [fixedDims]
          rw [ih ss (by simpa using h)]
          rfl
  unfold equalsExact
  rw [if_neg hid, if_neg (by rw [ha, hb]; simp [hd]), if_neg (by rw [ha]; simp)]
  unfold equalsFixed
  rw [if_neg hid, if_neg (by rw [ha, hb]; simp [hd]), if_neg (by rw [ha]; simp), if_neg, if_neg (by simp [hs]),
    hnone a.dims _ (by rw [ha]; simp [hds])]
  intro h
  rw [ha] at h
  have : ds = [] := by simpa using h.1
  simp [this] at hds

/-- Concrete cases: a 2×2 array in C order against one in F order. -/
example : IsFixed (⟨0, [.fixed 2, .fixed 2], (), [2, 2], 0, [8, 4]⟩ : EArr Unit) [2, 2] := ⟨rfl, rfl, rfl⟩
example : equalsExact (τ := Unit) (fun x y => .ok (x == y)) (fun x y => .ok (x != y)) (7, 8)
    ⟨0, [.fixed 2, .fixed 2], (), [2, 2], 0, [8, 4]⟩ ⟨1, [.fixed 2, .fixed 2], (), [2, 2], 0, [8, 4]⟩ = .ok true := by decide
example : equalsExact (τ := Unit) (fun x y => .ok (x == y)) (fun x y => .ok (x != y)) (7, 8)
    ⟨0, [.fixed 2, .fixed 2], (), [2, 2], 0, [8, 4]⟩ ⟨1, [.fixed 2, .fixed 2], (), [2, 2], 0, [4, 8]⟩ = .ok false := by decide

end Dynd
