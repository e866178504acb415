import Verif.Model.Construct
import Mathlib.Tactic.Ring
import Mathlib.Tactic.Linarith
/-
C99: arrays made from nested containers.
-/
namespace Dynd

/-! ## Specification -/

/-- Containers nested exactly `k` deep. -/
inductive Nested {α : Type} : Nat → VTree α → Prop where
  | leaf (a : α) : Nested 0 (.leaf a)
  | node (k : Nat) (l : List (VTree α)) : (∀ c ∈ l, Nested k c) → Nested (k + 1) (.node l)

/-- The sizes of the containers at depth `i`. -/
def sizesAt {α : Type} : Nat → VTree α → List Nat
  | _, .leaf _ => []
  | 0, .node l => [l.length]
  | i + 1, .node l => l.flatMap (sizesAt i)

/-- Only innermost containers may be empty. -/
def Filled {α : Type} (k : Nat) (t : VTree α) : Prop := ∀ i : Nat, i + 1 < k → ∀ n ∈ sizesAt i t, n ≠ 0

/-- The common value of a list of sizes, if there is one. -/
def commonSize : List Nat → Option Nat
  | [] => none
  | n :: ns => if ∀ m ∈ ns, m = n then some n else none

/-- The dimensions the array should have: fixed where all containers have the same size, var elsewhere. -/
def wantDims {α : Type} (k : Nat) (t : VTree α) : CDims := (List.range k).map fun i => commonSize (sizesAt i t)

/-- The first `n` results of a partial function. -/
def readAll {β : Type} (f : Nat → Option β) : Nat → Option (List β)
  | 0 => some []
  | n + 1 => (readAll f n).bind fun l => (f n).map fun x => l ++ [x]

/-- Reading an array with the dimensions `dims` at a place in memory, all of it: element `i` of a fixed dimension is
    at `i` times the element size, a var dimension's elements are in its block. -/
def readTree {α : Type} (es : Nat) (m : IMem α) : CDims → Nat → Nat → Option (VTree α)
  | [], b, off => match m.cells b off with
    | some (.val a) => some (.leaf a)
    | _ => none
  | some n :: rest, b, off => (readAll (fun i => readTree es m rest b (off + i * elemSize es rest)) n).map .node
  | none :: rest, b, off => match m.cells b off with
    | some (.var nb n) => (readAll (fun i => readTree es m rest nb (i * elemSize es rest)) n).map .node
    | _ => none

/-! ## The shape -/

theorem sizesAt_child {α : Type} {l : List (VTree α)} {c : VTree α} (hc : c ∈ l) {i n : Nat} (h : n ∈ sizesAt i c) :
    n ∈ sizesAt (i + 1) (.node l) := by
  simp only [sizesAt, List.mem_flatMap]
  exact ⟨c, hc, h⟩

theorem Filled.child {α : Type} {k : Nat} {l : List (VTree α)} (h : Filled (k + 1) (.node l)) {c : VTree α} (hc : c ∈ l) :
    Filled k c := fun i hi n hn => h (i + 1) (by omega) n (sizesAt_child hc hn)

theorem commonSize_pos {x : Nat} {xs : List Nat} (h : ∀ m ∈ xs, m = x) : commonSize (x :: xs) = some x := by
  rw [commonSize, if_pos h]

theorem commonSize_neg {x : Nat} {xs : List Nat} (h : ¬ ∀ m ∈ xs, m = x) : commonSize (x :: xs) = none := by
  rw [commonSize, if_neg h]

theorem commonSize_append {a b : List Nat} (ha : a ≠ []) (hb : b ≠ []) :
    commonSize (a ++ b) = if commonSize a = commonSize b then commonSize a else none := by
  cases a with
  | nil => exact absurd rfl ha
  | cons x xs =>
    cases b with
    | nil => exact absurd rfl hb
    | cons y ys =>
      rw [List.cons_append]
      by_cases h1 : ∀ m ∈ xs, m = x
      · by_cases h2 : ∀ m ∈ ys, m = y
        · rw [commonSize_pos h1, commonSize_pos h2]
          by_cases hxy : x = y
          · subst hxy
            rw [if_pos rfl, commonSize_pos]
            intro m hm
            simp only [List.mem_append, List.mem_cons] at hm
            rcases hm with h | h | h
            · exact h1 m h
            · exact h
            · exact h2 m h
          · rw [if_neg (fun h => hxy (by simpa using h)), commonSize_neg]
            intro h
            exact hxy (h y (by simp)).symm
        · rw [commonSize_pos h1, commonSize_neg h2, if_neg (by simp), commonSize_neg]
          intro h
          apply h2
          intro m hm
          rw [h m (by simp [hm]), h y (by simp)]
      · rw [commonSize_neg h1, commonSize_neg]
        · split <;> rfl
        · intro h
          exact h1 fun m hm => h m (by simp [hm])

/-- Every depth has a container. -/
theorem sizesAt_ne {α : Type} : ∀ (k : Nat) (t : VTree α), Nested k t → Filled k t → ∀ i < k, sizesAt i t ≠ [] := by
  intro k t h
  induction h with
  | leaf a => intro _ i hi; omega
  | node k l hl ih =>
    intro hf i hi
    cases i with
    | zero => simp [sizesAt]
    | succ i =>
      have h0 : l.length ≠ 0 := hf 0 (by omega) l.length (by simp [sizesAt])
      obtain ⟨c, hc⟩ := List.exists_mem_of_length_pos (Nat.pos_of_ne_zero h0)
      have := ih c hc (hf.child hc) i (by omega)
      obtain ⟨n, hn⟩ := List.exists_mem_of_ne_nil _ this
      exact List.ne_nil_of_mem (sizesAt_child hc hn)

theorem joinDims_map (f g : Nat → Option Nat) : ∀ l : List Nat,
    joinDims (l.map f) (l.map g) = l.map fun i => if f i = g i then f i else none
  | [] => rfl
  | i :: l => by simp [joinDims, joinDims_map f g l]

/-- The dimensions for a list of containers. -/
def wantDimsL {α : Type} (k : Nat) (l : List (VTree α)) : CDims :=
  (List.range k).map fun i => commonSize (l.flatMap (sizesAt i))

theorem fold_shape {α : Type} (k : Nat) : ∀ (cs pre : List (VTree α)),
    (∀ c ∈ cs, treeShape (k + 1) c = .ok (wantDims (k + 1) c)) →
    (∀ c ∈ cs, ∀ i < k + 1, sizesAt i c ≠ []) → (∀ i < k + 1, pre.flatMap (sizesAt i) ≠ []) →
    cs.foldlM (fun acc c' => do
      let next ← treeShape (k + 1) c'
      pure (joinDims acc next)) (wantDimsL (k + 1) pre) = Res.ok (wantDimsL (k + 1) (pre ++ cs))
  | [], pre, _, _, _ => by simp
  | c :: cs, pre, h1, h2, h3 => by
    rw [List.foldlM_cons, h1 c (by simp), Res.bind_ok, Res.pure_eq, Res.bind_ok]
    have hj : joinDims (wantDimsL (k + 1) pre) (wantDims (k + 1) c) = wantDimsL (k + 1) (pre ++ [c]) := by
      unfold wantDimsL wantDims
      rw [joinDims_map]
      apply List.map_congr_left
      intro i hi
      rw [List.flatMap_append, List.flatMap_singleton,
        commonSize_append (h3 i (List.mem_range.1 hi)) (h2 c (by simp) i (List.mem_range.1 hi))]
    rw [hj, fold_shape k cs (pre ++ [c]) (fun c' hc' => h1 c' (by simp [hc'])) (fun c' hc' => h2 c' (by simp [hc']))
      (fun i hi => by
        rw [List.flatMap_append]
        intro h
        exact h3 i hi (List.append_eq_nil_iff.1 h).1)]
    simp

theorem treeShape_filled {α : Type} : ∀ (k : Nat) (t : VTree α), Nested (k + 1) t → Filled (k + 1) t →
    treeShape (k + 1) t = .ok (wantDims (k + 1) t)
  | 0, t, h, _ => by
    cases h with
    | node _ l hl => simp [treeShape, wantDims, sizesAt, commonSize]
  | k + 1, t, h, hf => by
    cases h with
    | node _ l hl =>
      cases l with
      | nil => exact absurd rfl (hf 0 (by omega) 0 (by simp [sizesAt]))
      | cons c cs =>
        have ih : ∀ c' ∈ c :: cs, treeShape (k + 1) c' = .ok (wantDims (k + 1) c') := fun c' hc' =>
          treeShape_filled k c' (hl c' hc') (hf.child hc')
        have hne : ∀ c' ∈ c :: cs, ∀ i < k + 1, sizesAt i c' ≠ [] := fun c' hc' =>
          sizesAt_ne (k + 1) c' (hl c' hc') (hf.child hc')
        rw [treeShape, ih c (by simp), Res.bind_ok]
        have hw : wantDims (k + 1) c = wantDimsL (k + 1) [c] := by simp [wantDims, wantDimsL]
        rw [hw, fold_shape k cs [c] (fun c' hc' => ih c' (by simp [hc'])) (fun c' hc' => hne c' (by simp [hc']))
          (fun i hi => by simpa using hne c (by simp) i hi), Res.bind_ok, Res.pure_eq]
        congr 1
        rw [wantDims, List.range_succ_eq_map, List.map_cons, List.map_map]
        simp only [sizesAt, commonSize, List.not_mem_nil, false_imp_iff, implies_true, if_true, List.length_cons]
        rfl

/-- A container that is not innermost and empty is dereferenced. -/
theorem treeShape_empty {α : Type} : ∀ (k : Nat) (t : VTree α), Nested (k + 1) t → ¬ Filled (k + 1) t →
    treeShape (k + 1) t = .ub
  | 0, t, _, hf => absurd (fun i hi => by omega) hf
  | k + 1, t, h, hf => by
    cases h with
    | node _ l hl =>
      cases l with
      | nil => rfl
      | cons c cs =>
        have hex : ∃ c' ∈ c :: cs, ¬ Filled (k + 1) c' := by
          by_contra hno
          push Not at hno
          apply hf
          intro i hi n hn
          cases i with
          | zero => simp [sizesAt] at hn; omega
          | succ i =>
            simp only [sizesAt, List.mem_flatMap] at hn
            obtain ⟨c', hc', hn⟩ := hn
            exact hno c' hc' i (by omega) n hn
        have hch : ∀ c' ∈ c :: cs, treeShape (k + 1) c' = .ub ∨ ∃ d, treeShape (k + 1) c' = .ok d := by
          intro c' hc'
          by_cases hfc : Filled (k + 1) c'
          · exact Or.inr ⟨_, treeShape_filled k c' (hl c' hc') hfc⟩
          · exact Or.inl (treeShape_empty k c' (hl c' hc') hfc)
        rw [treeShape]
        rcases hch c (by simp) with h0 | ⟨d, h0⟩
        · rw [h0]; rfl
        · rw [h0, Res.bind_ok]
          have hfold : ∀ (cs' : List (VTree α)) (acc : CDims), (∀ c' ∈ cs', treeShape (k + 1) c' = .ub ∨
              ∃ d, treeShape (k + 1) c' = .ok d) → (∃ c' ∈ cs', treeShape (k + 1) c' = .ub) →
              cs'.foldlM (fun acc c' => do
                let next ← treeShape (k + 1) c'
                pure (joinDims acc next)) acc = Res.ub := by
            intro cs'
            induction cs' with
            | nil => intro acc _ ⟨c', hc', _⟩; simp at hc'
            | cons x xs ih =>
              intro acc hall hex'
              rw [List.foldlM_cons]
              rcases hall x (by simp) with hx | ⟨dx, hx⟩
              · rw [hx]; rfl
              · rw [hx, Res.bind_ok, Res.pure_eq, Res.bind_ok]
                refine ih _ (fun c' hc' => hall c' (by simp [hc'])) ?_
                obtain ⟨c', hc', hu⟩ := hex'
                rcases List.mem_cons.1 hc' with rfl | hc'
                · rw [hx] at hu; exact absurd hu (by simp)
                · exact ⟨c', hc', hu⟩
          rw [hfold cs d (fun c' hc' => hch c' (by simp [hc']))]
          · rfl
          · obtain ⟨c', hc', hnf⟩ := hex
            have hu := treeShape_empty k c' (hl c' hc') hnf
            rcases List.mem_cons.1 hc' with rfl | hc'
            · rw [h0] at hu; exact absurd hu (by simp)
            · exact ⟨c', hc', hu⟩

/-! ## The values -/

/-- The tree has the sizes of `dims`. -/
inductive FitsDims {α : Type} : CDims → VTree α → Prop where
  | leaf (a : α) : FitsDims [] (.leaf a)
  | fixed (rest : CDims) (l : List (VTree α)) : (∀ c ∈ l, FitsDims rest c) → FitsDims (some l.length :: rest) (.node l)
  | var (rest : CDims) (l : List (VTree α)) : (∀ c ∈ l, FitsDims rest c) → FitsDims (none :: rest) (.node l)

theorem fits_of_sizes {α : Type} : ∀ (dims : CDims) (t : VTree α), Nested dims.length t →
    (∀ (i n : Nat), dims[i]? = some (some n) → ∀ s ∈ sizesAt i t, s = n) → FitsDims dims t
  | [], t, h, _ => by cases h; exact .leaf _
  | d :: rest, t, h, hs => by
    cases h with
    | node _ l hl =>
      have hc : ∀ c ∈ l, FitsDims rest c := fun c hc => fits_of_sizes rest c (hl c hc)
        (fun i n hi s hsn => hs (i + 1) n (by simpa using hi) s (sizesAt_child hc hsn))
      cases d with
      | none => exact .var rest l hc
      | some n =>
        have : l.length = n := hs 0 n rfl l.length (by simp [sizesAt])
        subst this
        exact .fixed rest l hc

theorem wantDims_length {α : Type} (k : Nat) (t : VTree α) : (wantDims k t).length = k := by simp [wantDims]

theorem commonSize_some {l : List Nat} {n : Nat} (h : commonSize l = some n) : ∀ s ∈ l, s = n := by
  cases l with
  | nil => simp
  | cons x xs =>
    by_cases hx : ∀ m ∈ xs, m = x
    · rw [commonSize_pos hx] at h
      have : x = n := by simpa using h
      subst this
      intro s hs
      rcases List.mem_cons.1 hs with h | h
      · exact h
      · exact hx s h
    · rw [commonSize_neg hx] at h
      simp at h

theorem fits_want {α : Type} (k : Nat) (t : VTree α) (h : Nested k t) : FitsDims (wantDims k t) t := by
  apply fits_of_sizes
  · rw [wantDims_length]; exact h
  · intro i n hi s hs
    have hik : i < k := by
      have := (List.getElem?_eq_some_iff.1 hi).1
      rwa [wantDims_length] at this
    have : commonSize (sizesAt i t) = some n := by
      simpa [wantDims, List.getElem?_map, List.getElem?_range hik] using hi
    exact commonSize_some this s hs

/-- Var dimensions only where they are supported. -/
def VarLast (vec : Bool) (dims : CDims) : Prop :=
  ∀ i : Nat, dims[i]? = some none → vec = false ∧ i + 1 = dims.length

theorem VarLast.tail {vec : Bool} {d : Option Nat} {rest : CDims} (h : VarLast vec (d :: rest)) : VarLast vec rest := by
  intro i hi
  have := h (i + 1) (by simpa using hi)
  simp only [List.length_cons] at this
  exact ⟨this.1, by omega⟩

theorem initAdv_fits {α : Type} (es : Nat) {rest : CDims} {v : VTree α} (h : FitsDims rest v) :
    initAdv es rest v = elemSize es rest := by
  cases h <;> simp [initAdv, elemSize, VTree.count]

theorem readAll_eq {β : Type} (f : Nat → Option β) : ∀ (n : Nat) (l : List β), l.length = n →
    (∀ i < n, f i = l[i]?) → readAll f n = some l
  | 0, l, h, _ => by simp [readAll, List.length_eq_zero_iff.1 h]
  | n + 1, l, h, hf => by
    have hd : l ≠ [] := by intro h0; simp [h0] at h
    rw [readAll, readAll_eq f n l.dropLast (by simp; omega) (fun i hi => by
      rw [hf i (by omega), List.getElem?_dropLast, if_pos (by omega)])]
    rw [hf n (by omega)]
    have : l[n]? = some (l.getLast hd) := by
      rw [List.getLast_eq_getElem]
      have : l.length - 1 = n := by omega
      simp only [this]
      exact List.getElem?_eq_getElem (by omega)
    rw [this]
    simp only [Option.bind_some, Option.map_some]
    exact congrArg some (List.dropLast_concat_getLast hd)

/-- The region of an element. -/
def InRegion (b off w b' o' : Nat) : Prop := b' = b ∧ off ≤ o' ∧ o' < off + w

/-- What storing a value at a place does: nothing else of the existing memory changes, and the value can be read
    back as long as its region and the new blocks stay. -/
structure Stored {α : Type} (m m' : IMem α) (b off w : Nat) (read : IMem α → Prop) : Prop where
  sizes : m.sizes <+: m'.sizes
  frame : ∀ b' o', b' < m.sizes.length → ¬ InRegion b off w b' o' → m'.cells b' o' = m.cells b' o'
  back : ∀ m'' : IMem α, (∀ b' o', InRegion b off w b' o' ∨ (m.sizes.length ≤ b' ∧ b' < m'.sizes.length) →
    m''.cells b' o' = m'.cells b' o') → read m''

theorem prefix_get {l l' : List Nat} (h : l <+: l') {b : Nat} (hb : b < l.length) : l'[b]? = l[b]? := by
  obtain ⟨t, rfl⟩ := h
  rw [List.getElem?_append_left hb]

theorem initSeq_stored {α : Type} (es E : Nat) (b : Nat) (one : Nat → VTree α → IMem α → Res (IMem α))
    (adv : VTree α → Nat) (read : Nat → VTree α → IMem α → Prop) : ∀ (l : List (VTree α)) (off : Nat) (m : IMem α) (S : Nat),
    (∀ v ∈ l, adv v = E) → m.sizes[b]? = some S → off + l.length * E ≤ S →
    (∀ v ∈ l, ∀ (o : Nat) (m : IMem α) , m.sizes[b]? = some S → o + E ≤ S →
      ∃ m', one o v m = .ok m' ∧ Stored m m' b o E (read o v)) →
    ∃ m', initSeq one adv l.length off l m = .ok m' ∧
      Stored m m' b off (l.length * E) (fun m'' => ∀ (i : Nat) (v : VTree α), l[i]? = some v → read (off + i * E) v m'')
  | [], off, m, S, _, _, _, _ => ⟨m, rfl, ⟨List.prefix_rfl, fun _ _ _ _ => rfl, fun _ _ i v h => by simp at h⟩⟩
  | v :: l, off, m, S, hadv, hS, hle, hone => by
    simp only [List.length_cons] at hle
    have hE : off + E + l.length * E ≤ S := by
      have : (l.length + 1) * E = l.length * E + E := by ring
      omega
    obtain ⟨m1, h1, st1⟩ := hone v (by simp) off m hS (by omega)
    have hb : b < m.sizes.length := (List.getElem?_eq_some_iff.1 hS).1
    have hS1 : m1.sizes[b]? = some S := by rw [prefix_get st1.sizes hb]; exact hS
    obtain ⟨m2, h2, st2⟩ := initSeq_stored es E b one adv read l (off + E) m1 S (fun v' hv' => hadv v' (by simp [hv'])) hS1
      hE (fun v' hv' => hone v' (by simp [hv']))
    have hlen1 : m.sizes.length ≤ m1.sizes.length := st1.sizes.length_le
    have hlen2 : m1.sizes.length ≤ m2.sizes.length := st2.sizes.length_le
    have hmul : (l.length + 1) * E = l.length * E + E := by ring
    refine ⟨m2, ?_, ?_, ?_, ?_⟩
    · rw [List.length_cons, initSeq, h1, Res.bind_ok, hadv v (by simp), h2]
    · exact st1.sizes.trans st2.sizes
    · intro b' o' hb' hr
      simp only [List.length_cons, hmul] at hr
      rw [st2.frame b' o' (by omega) (fun h => hr ⟨h.1, by have := h.2; omega⟩)]
      exact st1.frame b' o' hb' (fun h => hr ⟨h.1, by have := h.2; omega⟩)
    · intro m'' hag i w hi
      simp only [List.length_cons, hmul] at hag
      cases i with
      | zero =>
        have hw : v = w := by simpa using hi
        subst hw
        rw [Nat.zero_mul, Nat.add_zero]
        apply st1.back
        intro b' o' h
        have hlt : b' < m1.sizes.length := by
          rcases h with h | h
          · rw [h.1]; omega
          · exact h.2
        have hn2 : ¬ InRegion b (off + E) (l.length * E) b' o' := by
          intro h'
          rcases h with h | h
          · have := h.2; have := h'.2; omega
          · rw [h'.1] at h; omega
        rw [← st2.frame b' o' hlt hn2]
        apply hag
        rcases h with h | h
        · left; exact ⟨h.1, by have := h.2; omega⟩
        · right; omega
      | succ i =>
        have hi' : l[i]? = some w := by simpa using hi
        have := st2.back m'' (fun b' o' h => hag b' o' (by
          rcases h with h | h
          · left; exact ⟨h.1, by have := h.2; omega⟩
          · right; omega)) i w hi'
        have e : off + (i + 1) * E = off + E + i * E := by ring
        rw [e]; exact this

theorem initTree_stored {α : Type} (vec : Bool) (es : Nat) (hes : 0 < es) : ∀ (dims : CDims), VarLast vec dims →
    ∀ (t : VTree α), FitsDims dims t → ∀ (b off S : Nat) (m : IMem α), m.sizes[b]? = some S →
      off + elemSize es dims ≤ S → ∃ m', initTree vec es dims b off t m = .ok m' ∧
        Stored m m' b off (elemSize es dims) (fun m'' => readTree es m'' dims b off = some t)
  | [], _, t, hf, b, off, S, m, hS, hle => by
    cases hf with
    | leaf a =>
      rw [initTree, IMem.write, hS]
      simp only [elemSize] at hle
      simp only [hle, if_true]
      refine ⟨_, rfl, List.prefix_rfl, ?_, ?_⟩
      · intro b' o' _ hr
        simp only
        rw [if_neg]
        rintro ⟨rfl, rfl⟩
        exact hr ⟨rfl, Nat.le_refl _, by simp [elemSize]; omega⟩
      · intro m'' hag
        have : m''.cells b off = some (.val a) := by
          rw [hag b off (Or.inl ⟨rfl, Nat.le_refl _, by simp [elemSize]; omega⟩)]
          simp
        simp [readTree, this]
  | some n :: rest, hv, t, hf, b, off, S, m, hS, hle => by
    cases hf with
    | fixed _ l hl =>
      have ih := initTree_stored (α := α) vec es hes rest hv.tail
      obtain ⟨m', h1, st⟩ := initSeq_stored es (elemSize es rest) b (fun o v m => initTree vec es rest b o v m)
        (initAdv es rest) (fun o v m'' => readTree es m'' rest b o = some v) l off m S
        (fun v hv => initAdv_fits es (hl v hv)) hS hle (fun v hv o m hS hle => ih v (hl v hv) b o S m hS hle)
      refine ⟨m', by rw [initTree]; exact h1, st.sizes, st.frame, ?_⟩
      intro m'' hag
      rw [readTree, readAll_eq _ _ l rfl]
      · rfl
      · intro i hi
        rw [List.getElem?_eq_getElem hi]
        exact st.back m'' hag i _ (List.getElem?_eq_getElem hi)
  | none :: rest, hv, t, hf, b, off, S, m, hS, hle => by
    obtain ⟨hvec, hlast⟩ := hv 0 rfl
    have hrest : rest = [] := by
      simp only [List.length_cons] at hlast
      exact List.length_eq_zero_iff.1 (by omega)
    subst hrest
    subst hvec
    cases hf with
    | var _ l hl =>
      have hb : b < m.sizes.length := (List.getElem?_eq_some_iff.1 hS).1
      have ih := initTree_stored (α := α) false es hes [] hv.tail
      have hS' : (m.alloc (l.length * elemSize es [])).sizes[b]? = some S := by
        simp only [IMem.alloc]
        rw [List.getElem?_append_left hb]; exact hS
      have hle' : off + 16 ≤ S := by simpa [elemSize] using hle
      let mw : IMem α := { sizes := m.sizes ++ [l.length * elemSize es []], cells := fun b' o' =>
        if b' = b ∧ o' = off then some (.var m.sizes.length l.length) else m.cells b' o' }
      have hw : (m.alloc (l.length * elemSize es [])).write b off 16 (.var m.sizes.length l.length) = .ok mw := by
        rw [IMem.write, hS']
        simp only [hle', if_true]
        rfl
      obtain ⟨m', h1, st⟩ := initSeq_stored es (elemSize es []) m.sizes.length
        (fun o v m1 => initTree false es [] m.sizes.length o v m1) (initAdv es [])
        (fun o v m'' => readTree es m'' [] m.sizes.length o = some v) l 0 mw (l.length * elemSize es [])
        (fun v hv => initAdv_fits es (hl v hv)) (by simp [mw]) (by omega)
        (fun v hv o m1 hS1 hle1 => ih v (hl v hv) m.sizes.length o _ m1 hS1 hle1)
      have hpre : mw.sizes <+: m'.sizes := st.sizes
      have hlenw : m.sizes.length + 1 ≤ m'.sizes.length := by
        have := hpre.length_le
        simpa [mw] using this
      refine ⟨m', ?_, ?_, ?_, ?_⟩
      · rw [initTree]
        simp only [Bool.false_or, List.isEmpty_nil, Bool.not_true, Bool.false_eq_true, if_false]
        rw [hw, Res.bind_ok]
        exact h1
      · refine List.IsPrefix.trans ?_ hpre
        exact List.prefix_append _ _
      · intro b' o' hb' hr
        rw [st.frame b' o' (by simp [mw]; omega) (fun h => by have := h.1; omega)]
        simp only [mw]
        rw [if_neg]
        rintro ⟨rfl, rfl⟩
        exact hr ⟨rfl, Nat.le_refl _, by simp [elemSize]⟩
      · intro m'' hag
        have hcell : m''.cells b off = some (.var m.sizes.length l.length) := by
          rw [hag b off (Or.inl ⟨rfl, Nat.le_refl _, by simp [elemSize]⟩),
            st.frame b off (by simp [mw]; omega) (fun h => by have := h.1; omega)]
          simp [mw]
        rw [readTree, hcell]
        simp only
        rw [readAll_eq _ _ l rfl]
        · rfl
        · intro i hi
          rw [List.getElem?_eq_getElem hi]
          have := st.back m'' (fun b' o' h => hag b' o' (by
            right
            rcases h with h | h
            · rw [h.1]; omega
            · simp [mw] at h; omega)) i _ (List.getElem?_eq_getElem hi)
          simpa using this

/-! ## Theorems -/

/-- An array made from nested initializer lists (`vec = false`) or vectors (`vec = true`): its dimensions are the
    containers' common sizes, and it holds exactly the listed values, in their places.  The containers that are not
    innermost must not be empty, and sizes may differ only between innermost initializer lists. -/
theorem nested_array_partial {α : Type} (vec : Bool) (es k : Nat) (hes : 0 < es) (hk : 0 < k) (t : VTree α)
    (hn : Nested k t) (hf : Filled k t)
    (hv : ∀ i : Nat, i < k → commonSize (sizesAt i t) = none → vec = false ∧ i + 1 = k) :
    ∃ m, arrayFromTree vec es k t = .ok (wantDims k t, m) ∧ readTree es m (wantDims k t) 0 0 = some t := by
  obtain ⟨k, rfl⟩ : ∃ j, k = j + 1 := ⟨k - 1, by omega⟩
  have hvl : VarLast vec (wantDims (k + 1) t) := by
    intro i hi
    have hik : i < k + 1 := by
      have := (List.getElem?_eq_some_iff.1 hi).1
      rwa [wantDims_length] at this
    rw [wantDims_length]
    exact hv i hik (by simpa [wantDims, List.getElem?_map, List.getElem?_range hik] using hi)
  obtain ⟨m, h1, st⟩ := initTree_stored vec es hes (wantDims (k + 1) t) hvl t (fits_want _ t hn) 0 0
    (elemSize es (wantDims (k + 1) t)) { sizes := [elemSize es (wantDims (k + 1) t)], cells := fun _ _ => none } rfl (by omega)
  refine ⟨m, ?_, st.back m (fun _ _ _ => rfl)⟩
  rw [arrayFromTree, treeShape_filled k t hn hf, Res.bind_ok, h1, Res.bind_ok, Res.pure_eq]

/-- An empty container around other containers is undefined behaviour. -/
theorem nested_empty_violated {α : Type} (vec : Bool) (es k : Nat) (t : VTree α) (hk : 0 < k) (hn : Nested k t)
    (hf : ¬ Filled k t) : arrayFromTree vec es k t = .ub := by
  obtain ⟨k, rfl⟩ : ∃ j, k = j + 1 := ⟨k - 1, by omega⟩
  rw [arrayFromTree, treeShape_empty k t hn hf]
  rfl

theorem initTree_ub {α : Type} (vec : Bool) (es : Nat) : ∀ (dims : CDims) (k : Nat) (t : VTree α), Nested k t →
    Filled k t → dims.length = k → FitsDims dims t → ¬ VarLast vec dims → ∀ (b off : Nat) (m : IMem α),
    initTree vec es dims b off t m = .ub
  | [], _, _, _, _, _, _, hv, _, _, _ => absurd (fun i hi => by simp at hi) hv
  | none :: rest, k, t, hn, hfl, hk, hf, hv, b, off, m => by
    cases hf with
    | var _ l hl =>
      by_cases hgood : vec = false ∧ rest = []
      · exfalso
        obtain ⟨rfl, rfl⟩ := hgood
        apply hv
        intro i hi
        cases i with
        | zero => exact ⟨rfl, rfl⟩
        | succ i => simp at hi
      · rw [initTree, if_pos]
        cases vec with
        | true => rfl
        | false =>
          cases rest with
          | nil => exact absurd ⟨rfl, rfl⟩ hgood
          | cons x xs => rfl
  | some n :: rest, k, t, hn, hfl, hk, hf, hv, b, off, m => by
    cases hf with
    | fixed _ l hl =>
      cases hn with
      | node k l' hnl =>
        have hvr : ¬ VarLast vec rest := by
          intro h
          apply hv
          intro i hi
          cases i with
          | zero => simp at hi
          | succ i =>
            have := h i (by simpa using hi)
            exact ⟨this.1, by simp only [List.length_cons]; omega⟩
        have hrne : rest ≠ [] := by
          rintro rfl
          exact hvr (fun i hi => by simp at hi)
        have hk1 : 0 < k := by
          have h0 := List.length_pos_iff.2 hrne
          have h1 : (some l.length :: rest).length = rest.length + 1 := rfl
          omega
        have hlne : l.length ≠ 0 := hfl 0 (by omega) l.length (by simp [sizesAt])
        cases l with
        | nil => exact absurd rfl hlne
        | cons c cs =>
          rw [initTree, List.length_cons, initSeq]
          rw [initTree_ub vec es rest k c (hnl c (by simp)) (hfl.child (by simp)) (by
            have h1 : (some (c :: cs).length :: rest).length = rest.length + 1 := rfl
            omega) (hl c (by simp)) hvr]
          rfl

/-- Containers of different sizes at a depth other than the innermost, or vectors of different sizes: the var
    dimension's description is read as a fixed one's. -/
theorem nested_ragged_violated {α : Type} (vec : Bool) (es k : Nat) (hk : 0 < k) (t : VTree α) (hn : Nested k t)
    (hf : Filled k t) (i : Nat) (hi : i < k) (hr : commonSize (sizesAt i t) = none) (hbad : vec = true ∨ i + 1 < k) :
    arrayFromTree vec es k t = .ub := by
  obtain ⟨k, rfl⟩ : ∃ j, k = j + 1 := ⟨k - 1, by omega⟩
  rw [arrayFromTree, treeShape_filled k t hn hf, Res.bind_ok,
    initTree_ub vec es (wantDims (k + 1) t) (k + 1) t hn hf (wantDims_length _ t) (fits_want _ t hn)]
  · rfl
  · intro h
    have := h i (by simp [wantDims, List.getElem?_map, List.getElem?_range hi, hr])
    rw [wantDims_length] at this
    rcases hbad with h | h
    · rw [h] at this; exact absurd this.1 (by simp)
    · omega

/-- A matrix as a list of rows. -/
def exRows : VTree Int := .node [.node [.leaf 1, .leaf 2], .node [.leaf 3, .leaf 4], .node [.leaf 5, .leaf 6]]

/-- Rows of different lengths. -/
def exRaggedRows : VTree Int := .node [.node [.leaf 1, .leaf 2], .node [], .node [.leaf 5]]

example : ∃ m, arrayFromTree false 4 2 exRows = .ok ([some 3, some 2], m) ∧
    readTree 4 m [some 3, some 2] 0 0 = some exRows := by
  have := nested_array_partial false 4 2 (by decide) (by decide) exRows (by
    repeat first | constructor | (intro c hc; simp at hc; rcases hc with rfl | rfl | rfl) | (intro c hc; simp at hc; rcases hc with rfl | rfl))
    (by intro i hi n hn; have : i = 0 := by omega
        subst this; simp [exRows, sizesAt] at hn; omega)
    (by intro i hi h; have : i = 0 ∨ i = 1 := by omega
        rcases this with rfl | rfl <;> simp [exRows, sizesAt, commonSize] at h)
  exact this

example : ∃ m, arrayFromTree false 4 2 exRaggedRows = .ok ([some 3, none], m) ∧
    readTree 4 m [some 3, none] 0 0 = some exRaggedRows := by
  have := nested_array_partial false 4 2 (by decide) (by decide) exRaggedRows (by
    repeat first | constructor | (intro c hc; simp at hc; rcases hc with rfl | rfl | rfl) | (intro c hc; simp at hc; rcases hc with rfl | rfl) | (intro c hc; simp at hc; rcases hc with rfl) | (intro c hc; simp at hc))
    (by intro i hi n hn; have : i = 0 := by omega
        subst this; simp [exRaggedRows, sizesAt] at hn; omega)
    (by intro i hi h; have : i = 0 ∨ i = 1 := by omega
        rcases this with rfl | rfl
        · simp [exRaggedRows, sizesAt, commonSize] at h
        · exact ⟨rfl, rfl⟩)
  exact this

example : arrayFromTree true 4 2 exRaggedRows = .ub :=
  nested_ragged_violated true 4 2 (by decide) exRaggedRows (by
    repeat first | constructor | (intro c hc; simp at hc; rcases hc with rfl | rfl | rfl) | (intro c hc; simp at hc; rcases hc with rfl | rfl) | (intro c hc; simp at hc; rcases hc with rfl) | (intro c hc; simp at hc))
    (by intro i hi n hn; have : i = 0 := by omega
        subst this; simp [exRaggedRows, sizesAt] at hn; omega) 1 (by decide)
    (by simp [exRaggedRows, sizesAt, commonSize]) (Or.inl rfl)

end Dynd
