import Verif.Model.ArrayOps
import Verif.Props.ElwiseProps
import Verif.Props.BroadcastProps
import Verif.Props.ShapeProps
/-
C83: iterating over arrays.  C84: `equals_exact`.
The specification is `gridIdx` (all indices of a shape in row-major order), `opOff` (the element an operand contributes at
an index under broadcasting) and `BShape` (the broadcasting rule) of `ElwiseProps`.
-/
namespace Dynd

/-! ## The odometer -/

/-- The next index, outermost dimension first. -/
def advO : List Nat → List Nat → Option (List Nat)
  | n :: ns, j :: js =>
    match advO ns js with
    | some js' => some (j :: js')
    | none => if j + 1 ≠ n then some ((j + 1) :: List.replicate ns.length 0) else none
  | _, _ => none

/-- All indices from `idx` on. -/
def orbit (sh : List Nat) : Nat → List Nat → Option (List (List Nat))
  | 0, _ => none
  | f + 1, idx =>
    match advO sh idx with
    | none => some [idx]
    | some idx' => (orbit sh f idx').map (idx :: ·)

/-- The part of the grid at and after `j` in the first dimension. -/
def gridFrom (j n : Nat) (ns : List Nat) : List (List Nat) :=
  (List.range' j (n - j)).flatMap fun i => (gridIdx ns).map (i :: ·)

theorem gridIdx_pos_zero : ∀ (ns : List Nat), (∀ n ∈ ns, 0 < n) →
    ∃ l, gridIdx ns = List.replicate ns.length 0 :: l
  | [], _ => ⟨[], rfl⟩
  | n :: ns, h => by
    obtain ⟨l, hl⟩ := gridIdx_pos_zero ns (fun m hm => h m (List.mem_cons_of_mem _ hm))
    have hn := h n List.mem_cons_self
    obtain ⟨m, rfl⟩ : ∃ m, n = m + 1 := ⟨n - 1, by omega⟩
    rw [gridIdx, List.range_succ_eq_map, List.flatMap_cons, hl, List.map_cons, List.cons_append]
    exact ⟨_, rfl⟩

theorem prod_pos : ∀ (ns : List Nat), (∀ n ∈ ns, 0 < n) → 0 < ns.foldr (· * ·) 1
  | [], _ => by simp
  | n :: ns, h => by
    simp only [List.foldr_cons]
    exact Nat.mul_pos (h n List.mem_cons_self) (prod_pos ns (fun m hm => h m (List.mem_cons_of_mem _ hm)))

theorem gridIdx_length : ∀ (ns : List Nat), (gridIdx ns).length = ns.foldr (· * ·) 1
  | [] => rfl
  | n :: ns => by
    rw [gridIdx, List.length_flatMap]
    simp only [List.length_map, gridIdx_length ns, List.map_const', List.length_range, List.foldr_cons]
    simp

/-- From any index with prefix `j`, the orbit first runs through the rest of the inner orbit. -/
theorem orbit_inner (n j : Nat) (ns : List Nat) (tail : List (List Nat)) (g : Nat)
    (hg : (if j + 1 ≠ n then orbit (n :: ns) g ((j + 1) :: List.replicate ns.length 0) = some tail else tail = [])) :
    ∀ (f : Nat) (idx : List Nat) (l : List (List Nat)), orbit ns f idx = some l →
      orbit (n :: ns) (l.length + g) (j :: idx) = some (l.map (j :: ·) ++ tail) := by
  intro f
  induction f with
  | zero => intro idx l h; simp [orbit] at h
  | succ f ih =>
    intro idx l h
    rw [orbit] at h
    cases ha : advO ns idx with
    | none =>
      rw [ha] at h
      simp only [Option.some.injEq] at h
      subst h
      rw [show ([idx] : List (List Nat)).length + g = g + 1 by simp; omega, orbit, advO, ha]
      by_cases hj : j + 1 ≠ n
      · simp only [if_pos hj] at hg ⊢
        rw [hg]
        rfl
      · simp only [if_neg hj] at hg ⊢
        subst hg
        rfl
    | some idx' =>
      rw [ha] at h
      simp only [Option.map_eq_some_iff] at h
      obtain ⟨l', hl', rfl⟩ := h
      have := ih idx' l' hl'
      rw [show (idx :: l').length + g = (l'.length + g) + 1 by simp; omega, orbit, advO, ha]
      simp only
      rw [this]
      rfl

theorem orbit_grid : ∀ (ns : List Nat), (∀ n ∈ ns, 0 < n) →
    orbit ns (gridIdx ns).length (List.replicate ns.length 0) = some (gridIdx ns)
  | [], _ => rfl
  | n :: ns, h => by
    have ih := orbit_grid ns (fun m hm => h m (List.mem_cons_of_mem _ hm))
    have hn := h n List.mem_cons_self
    have key : ∀ (d j : Nat), j + d + 1 = n →
        orbit (n :: ns) (gridFrom j n ns).length (j :: List.replicate ns.length 0) = some (gridFrom j n ns) := by
      intro d
      induction d with
      | zero =>
        intro j hj
        have e : gridFrom j n ns = (gridIdx ns).map (j :: ·) ++ [] := by
          unfold gridFrom
          rw [show n - j = 1 by omega]
          simp
        rw [e, List.append_nil, List.length_map]
        have := orbit_inner n j ns [] 0 (by rw [if_neg (by omega)]) _ _ _ ih
        simpa using this
      | succ d ihd =>
        intro j hj
        have e : gridFrom j n ns = (gridIdx ns).map (j :: ·) ++ gridFrom (j + 1) n ns := by
          unfold gridFrom
          rw [show n - j = (n - (j + 1)) + 1 by omega, List.range'_succ, List.flatMap_cons]
        rw [e, List.length_append, List.length_map]
        exact orbit_inner n j ns _ _ (by rw [if_pos (by omega)]; exact ihd (j + 1) (by omega)) _ _ _ ih
    have k0 := key (n - 1) 0 (by omega)
    have e0 : gridFrom 0 n ns = gridIdx (n :: ns) := by
      unfold gridFrom
      rw [gridIdx, List.range_eq_range', Nat.sub_zero]
    rw [e0] at k0
    exact k0

/-! ## Reversed representation -/

/-- The levels of `advance` (innermost first) against `advO`. -/
theorem advance_append : ∀ (rs idx : List Nat), rs.length = idx.length → ∀ (n j : Nat),
    advance (rs ++ [n]) (idx ++ [j]) =
      match advance rs idx with
      | some (l, idx') => some (l, idx' ++ [j])
      | none => if j + 1 ≠ n then some (rs.length, List.replicate rs.length 0 ++ [j + 1]) else none
  | [], [], _, n, j => by
    simp only [List.nil_append, advance]
    split <;> rfl
  | r :: rs, i :: is, h, n, j => by
    have ih := advance_append rs is (by simpa using h) n j
    simp only [List.cons_append, advance]
    by_cases hi : i + 1 ≠ r
    · rw [if_pos hi, if_pos hi]; rfl
    · rw [if_neg hi, if_neg hi, ih]
      cases ha : advance rs is with
      | some p => rfl
      | none =>
        simp only
        by_cases hj : j + 1 ≠ n
        · rw [if_pos hj, if_pos hj]; rfl
        · rw [if_neg hj, if_neg hj]

theorem advO_length : ∀ (sh idx idx' : List Nat), advO sh idx = some idx' → idx.length = sh.length →
    idx'.length = sh.length
  | [], _, _, h, _ => by simp [advO] at h
  | _ :: _, [], _, h, _ => by simp [advO] at h
  | n :: ns, j :: js, idx', h, hl => by
    rw [advO] at h
    cases ha : advO ns js with
    | some w =>
      rw [ha] at h
      simp only [Option.some.injEq] at h
      subst h
      simpa using advO_length ns js w ha (by simpa using hl)
    | none =>
      rw [ha] at h
      simp only at h
      by_cases hj : j + 1 ≠ n
      · rw [if_pos hj] at h
        simp only [Option.some.injEq] at h
        subst h; simp
      · rw [if_neg hj] at h; cases h

theorem advance_reverse : ∀ (sh idx : List Nat), idx.length = sh.length →
    (advance sh.reverse idx.reverse).map (·.2) = (advO sh idx).map List.reverse
  | [], [], _ => rfl
  | [], _ :: _, h => by simp at h
  | _ :: _, [], h => by simp at h
  | n :: ns, j :: js, h => by
    have hl : js.length = ns.length := by simpa using h
    have ih := advance_reverse ns js hl
    rw [List.reverse_cons, List.reverse_cons, advance_append _ _ (by simpa using hl.symm), advO]
    cases ha : advO ns js with
    | some w =>
      rw [ha] at ih
      cases hb : advance ns.reverse js.reverse with
      | some p =>
        rw [hb] at ih
        simp only [Option.map_some, Option.some.injEq] at ih
        simp [ih]
      | none => rw [hb] at ih; simp at ih
    | none =>
      rw [ha] at ih
      cases hb : advance ns.reverse js.reverse with
      | some p => rw [hb] at ih; simp at ih
      | none =>
        simp only
        by_cases hj : j + 1 ≠ n
        · rw [if_pos hj, if_pos hj]; simp
        · rw [if_neg hj, if_neg hj]; rfl

/-- The level found by `advance`: everything inside it wraps to zero. -/
theorem advance_level : ∀ (rs idx : List Nat) (l : Nat) (idx' : List Nat), advance rs idx = some (l, idx') →
    ∃ a j b, idx = a ++ j :: b ∧ a.length = l ∧ idx' = List.replicate l 0 ++ (j + 1) :: b
  | [], _, _, _, h => by simp [advance] at h
  | _ :: _, [], _, _, h => by simp [advance] at h
  | n :: ns, j :: js, l, idx', h => by
    rw [advance] at h
    by_cases hj : j + 1 ≠ n
    · rw [if_pos hj] at h
      simp only [Option.some.injEq, Prod.mk.injEq] at h
      obtain ⟨rfl, rfl⟩ := h
      exact ⟨[], j, js, rfl, rfl, rfl⟩
    · rw [if_neg hj] at h
      cases ha : advance ns js with
      | none => rw [ha] at h; cases h
      | some p =>
        obtain ⟨l', js'⟩ := p
        rw [ha] at h
        simp only [Option.some.injEq, Prod.mk.injEq] at h
        obtain ⟨rfl, rfl⟩ := h
        obtain ⟨a, i, b, h1, h2, h3⟩ := advance_level ns js l' js' ha
        exact ⟨j :: a, i, b, by rw [h1]; rfl, by simp [h2], by rw [h3]; rfl⟩

/-! ## The data pointers -/

/-- Offset of an index, strides and index innermost first; surplus index components are ignored. -/
def offI : List Int → List Nat → Int
  | s :: ss, j :: js => j * s + offI ss js
  | _, _ => 0

theorem offI_zero : ∀ (ss : List Int) (n : Nat) (b : List Nat), ss.length ≤ n → offI ss (List.replicate n 0 ++ b) = 0
  | [], n, b, _ => by cases n <;> cases b <;> rfl
  | s :: ss, 0, b, h => by simp at h
  | s :: ss, n + 1, b, h => by
    rw [List.replicate_succ, List.cons_append, offI, offI_zero ss n b (by simpa using h)]
    simp

/-- Every level's data pointer is the element at the current index with the inner indices zero. -/
def IterInv (base : Int) : List IterDim → List Nat → Prop
  | [], _ => True
  | x :: xs, j :: js => x.data = base + offI ((x :: xs).map (·.stride)) (j :: js) ∧ IterInv base xs js
  | _ :: _, [] => False

theorem incrDims_spec (base : Int) (term : Option (Option Int)) : ∀ (xs : List IterDim) (l : Nat) (a : List Nat) (j : Nat)
    (b : List Nat), a.length = l → IterInv base xs (a ++ j :: b) → (l < xs.length ∨ term = some (some base)) →
    ∃ xs', incrDims term xs l = .ok (base + offI (xs.map (·.stride)) (List.replicate l 0 ++ (j + 1) :: b), xs') ∧
      xs'.map (·.stride) = xs.map (·.stride) ∧ IterInv base xs' (List.replicate l 0 ++ (j + 1) :: b)
  | [], l, a, j, b, ha, hi, ht => by
    have ht : term = some (some base) := by
      rcases ht with h | h
      · simp at h
      · exact h
    subst ht
    exact ⟨[], by simp [incrDims, offI], rfl, trivial⟩
  | x :: xs, 0, a, j, b, ha, hi, ht => by
    have : a = [] := List.length_eq_zero_iff.1 ha
    subst this
    obtain ⟨h1, h2⟩ := hi
    have hd : x.data + x.stride = base + offI ((x :: xs).map (·.stride)) ((j + 1) :: b) := by
      rw [h1]
      simp only [List.map_cons, offI]
      push_cast
      ring
    refine ⟨⟨x.data + x.stride, x.stride⟩ :: xs, ?_, rfl, ?_⟩
    · rw [incrDims, hd]; rfl
    · exact ⟨hd, h2⟩
  | x :: xs, l + 1, a, j, b, ha, hi, ht => by
    cases a with
    | nil => simp at ha
    | cons i a =>
      obtain ⟨h1, h2⟩ := hi
      obtain ⟨xs', e1, e2, e3⟩ := incrDims_spec base term xs l a j b (by simpa using ha) h2
        (ht.imp (by intro h; simpa using h) id)
      have hz : offI ((x :: xs).map (·.stride)) (List.replicate (l + 1) 0 ++ (j + 1) :: b) =
          offI (xs.map (·.stride)) (List.replicate l 0 ++ (j + 1) :: b) := by
        rw [List.replicate_succ, List.cons_append, List.map_cons, offI]; simp
      refine ⟨⟨base + offI (xs.map (·.stride)) (List.replicate l 0 ++ (j + 1) :: b), x.stride⟩ :: xs', ?_, ?_, ?_⟩
      · rw [incrDims, e1, hz]; rfl
      · simp [e2]
      · refine ⟨?_, e3⟩
        show base + _ = base + offI (x.stride :: xs'.map (·.stride)) (List.replicate (l + 1) 0 ++ (j + 1) :: b)
        rw [e2, ← hz]; rfl

theorem resetDims_spec (base : Int) (term : Option (Option Int)) (b : List Nat) : ∀ (xs : List IterDim) (n : Nat), 0 < n →
    xs.length ≤ n → (xs.length = n ∨ term.isSome) → ∃ xs' t', resetDims term base xs n = .ok (xs', t') ∧
      xs'.map (·.stride) = xs.map (·.stride) ∧ IterInv base xs' (List.replicate n 0 ++ b) ∧
      (xs.length < n → t' = some (some base))
  | [], n, hn, hl, ht => by
    have : term.isSome := by
      rcases ht with h | h
      · simp at h; omega
      · exact h
    obtain ⟨v, rfl⟩ := Option.isSome_iff_exists.1 this
    exact ⟨[], some (some base), rfl, rfl, trivial, fun _ => rfl⟩
  | x :: xs, n, hn, hl, ht => by
    rw [resetDims]
    obtain ⟨m, rfl⟩ : ∃ m, n = m + 1 := ⟨n - 1, by omega⟩
    by_cases h1 : m + 1 = 1
    · rw [if_pos h1]
      have hx : xs = [] := by
        have : xs.length = 0 := by simp at hl; omega
        exact List.length_eq_zero_iff.1 this
      subst hx
      have hm : m = 0 := by omega
      subst hm
      refine ⟨_, _, rfl, rfl, ?_, ?_⟩
      · exact ⟨by simp [offI], trivial⟩
      · intro h; simp at h
    · rw [if_neg h1]
      obtain ⟨xs', t', e1, e2, e3, e4⟩ := resetDims_spec base term b xs m (by omega) (by simpa using hl)
        (ht.imp (by intro h; simpa using h) id)
      refine ⟨⟨base, x.stride⟩ :: xs', t', ?_, ?_, ?_, ?_⟩
      · rw [show m + 1 - 1 = m from rfl, e1]; rfl
      · simp [e2]
      · rw [List.replicate_succ, List.cons_append]
        refine ⟨?_, e3⟩
        rw [← List.cons_append, ← List.replicate_succ, offI_zero _ _ _ (by
          have := congrArg List.length e2
          simp at this hl ⊢; omega)]
        simp
      · intro h; exact e4 (by simpa using h)

/-- One operand in the state belonging to an index (innermost first). -/
def OpInv (ndim : Nat) (o : Int × Dims) (it : IterData) (idx : List Nat) : Prop :=
  it.dims.map (·.stride) = (o.2.map (·.2)).reverse ∧ IterInv o.1 it.dims idx ∧
  (o.2.length < ndim → it.term = some (some o.1))

/-- Address of the element of an operand at an index (outermost first). -/
def opAddr (o : Int × Dims) (idx : List Nat) : Int := o.1 + offI (o.2.map (·.2)).reverse idx.reverse

theorem incrAll_spec (ndim l : Nat) (idx idx' : List Nat) (a : List Nat) (j : Nat) (b : List Nat)
    (h1 : idx = a ++ j :: b) (h2 : a.length = l) (h3 : idx' = List.replicate l 0 ++ (j + 1) :: b)
    (hl : idx.length = ndim) : ∀ (ops : List (Int × Dims)) (its : List IterData), (∀ o ∈ ops, o.2.length ≤ ndim) →
    List.Forall₂ (fun o it => OpInv ndim o it idx) ops its →
    ∃ its', incrAll l its = .ok (ops.map (fun o => opAddr o idx'.reverse), its') ∧
      List.Forall₂ (fun o it => OpInv ndim o it idx') ops its'
  | [], _, _, h => by
    cases h
    exact ⟨[], rfl, List.Forall₂.nil⟩
  | o :: ops, _, ho, h => by
    cases h with
    | cons hh ht =>
      rename_i it its
      obtain ⟨p1, p2, p3⟩ := hh
      obtain ⟨its', e1, e2⟩ := incrAll_spec ndim l idx idx' a j b h1 h2 h3 hl ops its
        (fun x hx => ho x (List.mem_cons_of_mem _ hx)) ht
      have hlt : l < it.dims.length ∨ it.term = some (some o.1) := by
        by_cases hc : o.2.length < ndim
        · exact Or.inr (p3 hc)
        · left
          have q := congrArg List.length p1
          have := ho o List.mem_cons_self
          have hl2 := congrArg List.length h1
          simp at q hl2
          omega
      obtain ⟨xs', f1, f2, f3⟩ := incrDims_spec o.1 it.term it.dims l a j b h2 (by rw [← h1]; exact p2) hlt
      refine ⟨⟨xs', it.term⟩ :: its', ?_, List.Forall₂.cons ⟨?_, ?_, p3⟩ e2⟩
      · rw [incrAll, IterData.incr, f1]
        simp only [Res.bind_ok, Res.pure_eq]
        rw [e1]
        simp only [Res.bind_ok, List.map_cons, opAddr, List.reverse_reverse]
        rw [p1, h3]
      · rw [f2, p1]
      · rw [h3]; exact f3

theorem resetAll_spec (ndim : Nat) (hn : 0 < ndim) : ∀ (ops : List ((Int × Dims) × Bool)),
    (∀ o ∈ ops, o.1.2.length = ndim ∨ (o.2 = true ∧ o.1.2.length ≤ ndim)) →
    ∃ its, resetAll ndim (ops.map fun o => (o.1.1, iterConstruct o.1.2 o.2)) = .ok its ∧
      List.Forall₂ (fun o it => OpInv ndim o it (List.replicate ndim 0)) (ops.map (·.1)) its
  | [], _ => ⟨[], rfl, List.Forall₂.nil⟩
  | o :: ops, h => by
    obtain ⟨its, e1, e2⟩ := resetAll_spec ndim hn ops (fun x hx => h x (List.mem_cons_of_mem _ hx))
    have ho := h o List.mem_cons_self
    obtain ⟨xs', t', f1, f2, f3, f4⟩ := resetDims_spec o.1.1 (iterConstruct o.1.2 o.2).term []
      (iterConstruct o.1.2 o.2).dims ndim hn (by simp [iterConstruct]; omega)
      (by
        rcases ho with h | ⟨h, _⟩
        · left; simpa [iterConstruct] using h
        · right; simp [iterConstruct, h])
    refine ⟨⟨xs', t'⟩ :: its, ?_, List.Forall₂.cons ⟨?_, ?_, ?_⟩ e2⟩
    · rw [List.map_cons, resetAll]
      simp only [IterData.reset, f1, Res.bind_ok, Res.pure_eq]
      rw [e1]; rfl
    · rw [f2]
      simp [iterConstruct, Function.comp_def]
    · simpa using f3
    · intro hlt
      exact f4 (by simpa [iterConstruct] using hlt)

theorem iterLoop_spec (sh : List Nat) (ops : List (Int × Dims)) (ho : ∀ o ∈ ops, o.2.length ≤ sh.length) :
    ∀ (f : Nat) (idx : List Nat) (l : List (List Nat)) (it : ArrIter), orbit sh f idx = some l → idx.length = sh.length →
      it.shape = sh.reverse → it.index = idx.reverse → it.data = ops.map (fun o => opAddr o idx) →
      List.Forall₂ (fun o it => OpInv sh.length o it idx.reverse) ops it.ops →
      iterLoop f it = .ok (l.map fun idx => ops.map fun o => opAddr o idx) := by
  intro f
  induction f with
  | zero => intro idx l it h; simp [orbit] at h
  | succ f ih =>
    intro idx l it h hlen h1 h2 h3 h4
    have har := advance_reverse sh idx hlen
    rw [orbit] at h
    rw [iterLoop, ArrIter.next, h1, h2]
    cases ha : advO sh idx with
    | none =>
      rw [ha] at h har
      simp only [Option.some.injEq] at h
      subst h
      cases hb : advance sh.reverse idx.reverse with
      | some p => rw [hb] at har; simp at har
      | none => simp [h3]
    | some idx' =>
      rw [ha] at h har
      simp only [Option.map_eq_some_iff] at h
      obtain ⟨l', hl', rfl⟩ := h
      cases hb : advance sh.reverse idx.reverse with
      | none => rw [hb] at har; simp at har
      | some p =>
        obtain ⟨lv, ir⟩ := p
        rw [hb] at har
        simp only [Option.map_some, Option.some.injEq] at har
        subst har
        obtain ⟨a, j, b, q1, q2, q3⟩ := advance_level _ _ _ _ hb
        obtain ⟨its', e1, e2⟩ := incrAll_spec sh.length lv idx.reverse idx'.reverse a j b q1 q2 q3 (by simpa using hlen)
          ops it.ops ho h4
        have hrec := ih idx' l' ⟨sh.reverse, idx'.reverse, its', ops.map fun o => opAddr o idx'⟩ hl'
          (advO_length _ _ _ ha hlen) rfl rfl rfl e2
        simp only [e1, Res.bind_ok, Res.pure_eq, List.reverse_reverse]
        rw [hrec]
        simp [h3]

theorem foldr_mul_reverse (ns : List Nat) : ns.reverse.foldr (· * ·) 1 = ns.foldr (· * ·) 1 := by
  rw [List.foldr_reverse]
  have : ∀ (ns : List Nat) (a : Nat), ns.foldl (fun x y => y * x) a = a * ns.foldr (· * ·) 1 := by
    intro ns
    induction ns with
    | nil => intro a; simp
    | cons n ns ih => intro a; simp only [List.foldl_cons, ih, List.foldr_cons]; ring
  rw [this]; simp

theorem gridIdx_empty (ns : List Nat) (h : ns.foldr (· * ·) 1 = 0) : gridIdx ns = [] := by
  rw [← List.length_eq_zero_iff, gridIdx_length, h]

theorem prod_ne_zero : ∀ (ns : List Nat), ns.foldr (· * ·) 1 ≠ 0 → ∀ n ∈ ns, 0 < n
  | n :: ns, h, m, hm => by
    simp only [List.foldr_cons] at h
    have h1 := Nat.pos_of_ne_zero (Nat.mul_ne_zero_iff.1 h).1
    have h2 := (Nat.mul_ne_zero_iff.1 h).2
    rcases List.mem_cons.1 hm with rfl | hm
    · exact h1
    · exact prod_ne_zero ns h2 m hm

/-- Auxiliary form of the iteration theorems. -/
theorem iter_visits (sh : List Nat) (ops : List ((Int × Dims) × Bool))
    (ho : ∀ o ∈ ops, o.1.2.length = sh.length ∨ (o.2 = true ∧ o.1.2.length ≤ sh.length)) :
    ∃ it, iterStart sh (ops.map fun o => (o.1.1, iterConstruct o.1.2 o.2)) = .ok it ∧
      it.visit = .ok ((gridIdx sh).map fun idx => ops.map fun o => opAddr o.1 idx) := by
  unfold iterStart
  by_cases h0 : sh.length = 0
  · have : sh = [] := List.length_eq_zero_iff.1 h0
    subst this
    rw [if_pos h0]
    refine ⟨_, rfl, ?_⟩
    simp [ArrIter.visit, iterLoop, ArrIter.next, advance, gridIdx, opAddr, offI, Function.comp_def]
  · rw [if_neg h0]
    obtain ⟨its, e1, e2⟩ := resetAll_spec sh.length (by omega) ops ho
    rw [e1]
    refine ⟨_, rfl, ?_⟩
    simp only [ArrIter.visit]
    rw [foldr_mul_reverse]
    by_cases hp : sh.foldr (· * ·) 1 = 0
    · rw [if_pos hp, gridIdx_empty sh hp]; rfl
    · rw [if_neg hp]
      have horb := orbit_grid sh (prod_ne_zero sh hp)
      rw [gridIdx_length] at horb
      have := iterLoop_spec sh (ops.map (·.1)) (by
          intro o hm
          obtain ⟨q, hq, rfl⟩ := List.mem_map.1 hm
          have := ho q hq
          omega) _ _ _
        ⟨sh.reverse, List.replicate sh.length 0, its, (ops.map fun o => (o.1.1, iterConstruct o.1.2 o.2)).map (·.1)⟩ horb
        (by simp) rfl (by simp) (by
          rw [List.map_map, List.map_map]
          apply List.map_congr_left
          intro o hm
          simp only [Function.comp, opAddr]
          rw [List.reverse_replicate]
          have := offI_zero (o.1.2.map (·.2)).reverse sh.length [] (by have := ho o hm; simp; omega)
          simp at this
          simp [this]) (by simpa using e2)
      simp only [List.map_map, Function.comp_def] at this ⊢
      exact this

/-! ## C83 -/

/-- The shape of an operand. -/
def shapeOf (m : Dims) : List Nat := m.map (·.1)

/-- The dimensions of size 1 that are stretched when iterating over shape `sh` have stride 0. -/
def StretchZero (m : Dims) (sh : List Nat) : Prop :=
  ∀ (k : Nat) (p : Nat × Int), m.reverse[k]? = some p → p.1 = 1 → sh.reverse[k]? ≠ some 1 → p.2 = 0

theorem mem_gridIdx : ∀ (sh idx : List Nat), idx ∈ gridIdx sh ↔
    idx.length = sh.length ∧ ∀ (k i n : Nat), idx[k]? = some i → sh[k]? = some n → i < n
  | [], idx => by
    simp only [gridIdx, List.mem_singleton, List.length_nil]
    constructor
    · rintro rfl; simp
    · rintro ⟨h, -⟩; exact List.length_eq_zero_iff.1 h
  | n :: ns, idx => by
    simp only [gridIdx, List.mem_flatMap, List.mem_range, List.mem_map]
    constructor
    · rintro ⟨j, hj, js, hjs, rfl⟩
      obtain ⟨h1, h2⟩ := (mem_gridIdx ns js).1 hjs
      refine ⟨by simp [h1], ?_⟩
      intro k i m hi hm
      cases k with
      | zero => simp at hi hm; omega
      | succ k => exact h2 k i m (by simpa using hi) (by simpa using hm)
    · rintro ⟨h1, h2⟩
      cases idx with
      | nil => simp at h1
      | cons j js =>
        refine ⟨j, h2 0 j n rfl rfl, js, (mem_gridIdx ns js).2 ⟨by simpa using h1, ?_⟩, rfl⟩
        intro k i m hi hm
        exact h2 (k + 1) i m (by simpa using hi) (by simpa using hm)

theorem offI_opOff : ∀ (ms : List (Nat × Int)) (idx : List Nat),
    (∀ (k : Nat) p i, ms[k]? = some p → idx[k]? = some i → p.1 = 1 → p.2 = 0 ∨ i = 0) →
    offI (ms.map (·.2)) idx = ((ms.zip idx).map fun p => if p.1.1 = 1 then 0 else (p.2 : Int) * p.1.2).sum
  | [], _, _ => by simp [offI]
  | _ :: _, [], _ => by simp [offI]
  | p :: ms, i :: idx, h => by
    have ih := offI_opOff ms idx (fun k q j h1 h2 => h (k + 1) q j (by simpa using h1) (by simpa using h2))
    simp only [List.map_cons, offI, List.zip_cons_cons, List.sum_cons, ih]
    by_cases h1 : p.1 = 1
    · rw [if_pos h1]
      rcases h 0 p i rfl rfl h1 with h2 | h2 <;> simp [h2]
    · rw [if_neg h1]

/-- Under broadcasting with stride 0 the visited address is the element the rule prescribes. -/
theorem opAddr_eq (o : Int × Dims) (sh idx : List Nat) (hi : idx ∈ gridIdx sh) (hz : StretchZero o.2 sh) :
    opAddr o idx = o.1 + opOff o.2 idx := by
  unfold opAddr opOff
  rw [← List.map_reverse, offI_opOff]
  intro k p i hp hk h1
  by_cases hs : sh.reverse[k]? = some 1
  · right
    obtain ⟨hl, hlt⟩ := (mem_gridIdx sh idx).1 hi
    have hk' : k < idx.length := by
      have := (List.getElem?_eq_some_iff.1 hk).1; simpa using this
    rw [List.getElem?_reverse (by omega)] at hs hk
    rw [hl] at hk
    have := hlt _ _ _ hk hs
    omega
  · exact Or.inl (hz k p hp h1 hs)

/-- **C83** for one array: an iterator over an array of any rank, sizes and strides visits every element exactly once in
    row-major order (and nothing if the array is empty). -/
theorem iter_one_exact (base : Int) (m : Dims) :
    ∃ it, iterOne base m = .ok it ∧
      it.visit = .ok ((gridIdx (shapeOf m)).map fun idx => [base + dstOff (m.map (·.2)) idx]) := by
  obtain ⟨it, h1, h2⟩ := iter_visits (shapeOf m) [((base, m), false)] (by simp [shapeOf])
  refine ⟨it, h1, ?_⟩
  rw [h2]
  congr 1
  apply List.map_congr_left
  intro idx hi
  have hl := ((mem_gridIdx _ _).1 hi).1
  simp only [List.map_cons, List.map_nil, opAddr, List.cons.injEq, and_true, add_right_inj, shapeOf] at hl ⊢
  rw [List.length_map] at hl
  unfold dstOff
  have : ∀ (a : List Int) (b : List Nat), offI a b = (List.zipWith (fun (i : Nat) st => (i : Int) * st) b a).sum := by
    intro a
    induction a with
    | nil => intro b; cases b <;> simp [offI]
    | cons x a ih => intro b; cases b <;> simp [offI, ih]
  rw [this, ← List.reverse_zipWith (by simpa using hl), List.sum_reverse]

/-- **C83** for a written and a read array: when the read array broadcasts to the written one, every element of the written
    array is visited once in row-major order, together with the element the broadcasting rule prescribes — provided the
    stretched dimensions have stride 0. -/
theorem iter_write_read_partial (dst src : Int × Dims)
    (hb : CanBroadcastSpec (dst.2.map fun p => (p.1 : Int)) (src.2.map fun p => (p.1 : Int)))
    (hz : StretchZero src.2 (shapeOf dst.2)) :
    ∃ it, iterWriteRead dst src = .ok it ∧
      it.visit = .ok ((gridIdx (shapeOf dst.2)).map fun idx =>
        [dst.1 + dstOff (dst.2.map (·.2)) idx, src.1 + opOff src.2 idx]) := by
  have hlen : src.2.length ≤ dst.2.length := by simpa using hb.1
  obtain ⟨it, h1, h2⟩ := iter_visits (shapeOf dst.2) [((dst.1, dst.2), false), ((src.1, src.2), true)] (by
    simp [shapeOf, hlen])
  refine ⟨it, ?_, ?_⟩
  · unfold iterWriteRead
    rw [if_pos ((shape_can_broadcast_exact _ _).2 hb)]
    exact h1
  · rw [h2]
    congr 1
    apply List.map_congr_left
    intro idx hi
    obtain ⟨it1, g1, g2⟩ := iter_one_exact dst.1 dst.2
    obtain ⟨it2, g3, g4⟩ := iter_visits (shapeOf dst.2) [((dst.1, dst.2), false)] (by simp [shapeOf])
    have e : it1 = it2 := by
      have : iterOne dst.1 dst.2 = .ok it2 := g3
      rw [g1] at this; injection this
    subst e
    rw [g2] at g4
    injection g4 with g4
    have g5 := (List.map_inj_left.1 g4) idx hi
    simp only [List.map_cons, List.map_nil, List.cons.injEq, and_true] at g5
    simp only [List.map_cons, List.map_nil]
    rw [← g5, opAddr_eq (src.1, src.2) _ idx hi hz]

/-- A read array that does not broadcast raises `broadcast_error`. -/
theorem iter_write_read_raises (dst src : Int × Dims)
    (hb : ¬ CanBroadcastSpec (dst.2.map fun p => (p.1 : Int)) (src.2.map fun p => (p.1 : Int))) :
    iterWriteRead dst src = .throw .broadcast := by
  unfold iterWriteRead
  rw [if_neg]
  rwa [shape_can_broadcast_exact]

/-- **C83** for two read arrays: if they have a broadcast shape, every index of it is visited once in row-major order with
    the prescribed elements of both (stretched dimensions having stride 0); otherwise `broadcast_error` is raised. -/
theorem iter_read_read_partial (a b : Int × Dims) :
    (∃ sh : List Nat, IsBroadcastShape [a.2.map (fun p => (p.1 : Int)), b.2.map (fun p => (p.1 : Int))]
        (sh.map (fun (n : Nat) => (n : Int))) ∧ sh.length = max a.2.length b.2.length ∧
      ∃ it, iterReadRead a b = .ok it ∧
        (StretchZero a.2 sh → StretchZero b.2 sh →
          it.visit = .ok ((gridIdx sh).map fun idx => [a.1 + opOff a.2 idx, b.1 + opOff b.2 idx]))) ∨
    (iterReadRead a b = .throw .broadcast ∧
      ¬ ∃ r, IsBroadcastShape [a.2.map (fun p => (p.1 : Int)), b.2.map (fun p => (p.1 : Int))] r) := by
  rcases broadcast_input_shapes_exact [a.2.map (fun p => (p.1 : Int)), b.2.map (fun p => (p.1 : Int))] (by
    intro s hs x hx
    simp only [List.mem_cons, List.not_mem_nil, or_false] at hs
    rcases hs with rfl | rfl <;>
    · obtain ⟨p, -, rfl⟩ := List.mem_map.1 hx
      omega) with ⟨r, h1, h2, h3, h4⟩ | ⟨h1, h2⟩
  · left
    have hnn : ∀ x ∈ r, 0 ≤ x := by
      intro x hx
      obtain ⟨k, hk, rfl⟩ := List.getElem_of_mem hx
      have key : sizeAt r (r.length - 1 - k) = r[k] := by
        unfold sizeAt
        rw [List.getD_eq_getElem?_getD, List.getElem?_reverse (by omega),
          show r.length - 1 - (r.length - 1 - k) = k by omega, List.getElem?_eq_getElem hk]
        rfl
      rw [← key]
      rcases h2.2 (r.length - 1 - k) with h | ⟨s, hs, h⟩
      · omega
      · rw [← h]
        have : ∀ y ∈ s, 0 ≤ y := by
          intro y hy
          simp only [List.mem_cons, List.not_mem_nil, or_false] at hs
          rcases hs with rfl | rfl <;>
          · obtain ⟨p, -, rfl⟩ := List.mem_map.1 hy
            omega
        unfold sizeAt
        rw [List.getD_eq_getElem?_getD]
        cases hq : s.reverse[r.length - 1 - k]? with
        | none => simp
        | some y =>
          exact this y (by simpa using List.mem_of_getElem? hq)
    have hr : (r.map Int.toNat).map (fun (n : Nat) => (n : Int)) = r := by
      rw [List.map_map]
      conv_rhs => rw [← List.map_id r]
      apply List.map_congr_left
      intro x hx
      have := hnn x hx
      simp only [Function.comp, id]
      omega
    have ha := h3 _ (List.mem_cons_self)
    have hb := h3 (b.2.map (fun p => (p.1 : Int))) (by simp)
    rw [List.length_map] at ha hb
    refine ⟨r.map Int.toNat, by rw [hr]; exact h2, ?_, ?_⟩
    · rw [List.length_map]
      rcases h4 with rfl | ⟨s, hs, h⟩
      · simp only [List.length_nil] at ha hb ⊢; omega
      · simp only [List.mem_cons, List.not_mem_nil, or_false] at hs
        rcases hs with rfl | rfl <;> rw [List.length_map] at h <;> omega
    obtain ⟨it, g1, g2⟩ := iter_visits (r.map Int.toNat) [((a.1, a.2), true), ((b.1, b.2), true)] (by
      simp [ha, hb])
    refine ⟨it, ?_, ?_⟩
    · unfold iterReadRead
      rw [h1]
      exact g1
    · intro hza hzb
      rw [g2]
      congr 1
      apply List.map_congr_left
      intro idx hi
      simp only [List.map_cons, List.map_nil]
      rw [opAddr_eq (a.1, a.2) _ idx hi hza, opAddr_eq (b.1, b.2) _ idx hi hzb]
  · right
    refine ⟨?_, h2⟩
    unfold iterReadRead
    rw [h1]; rfl

/-- C83 is violated when a dimension of size 1 with a non-zero stride is stretched (`nd::empty` gives size-1 dimensions the
    element size as stride): iterating a 1-element array along with 3 elements reads beyond its only element. -/
theorem iter_stretched_violated :
    ∃ it, iterWriteRead (0, [(3, 4)]) (100, [(1, 4)]) = .ok it ∧
      it.visit = .ok [[0, 100], [4, 104], [8, 108]] ∧ opOff [(1, 4)] [1] = 0 := by
  exact ⟨_, rfl, by decide, by decide⟩

/-- Concrete cases: a transposed 2×3 array, and a row stretched over it. -/
example : ∃ it, iterOne 0 [(2, 4), (3, 8)] = .ok it ∧ it.visit = .ok [[0], [8], [16], [4], [12], [20]] :=
  ⟨_, rfl, by decide⟩
example : StretchZero [(3, 4)] [2, 3] ∧
    CanBroadcastSpec [2, 3] [3] ∧
    ∃ it, iterWriteRead (0, [(2, 12), (3, 4)]) (100, [(3, 4)]) = .ok it ∧
      it.visit = .ok [[0, 100], [4, 104], [8, 108], [12, 100], [16, 104], [20, 108]] := by
  refine ⟨?_, ?_, _, rfl, by decide⟩
  · intro k p h1 h2
    cases k with
    | zero => simp at h1; subst h1; simp at h2
    | succ k => simp at h1
  · rw [← shape_can_broadcast_exact]; decide

end Dynd
