/-
C124: sorting as it is called.
-/
import Verif.Props.SortCall

namespace Dynd

/-! ### The comparison for an element type -/

/-- the comparison of two elements of one type -/
def lessNode : Ty → ONode
  | .prim b => .kern b b
  | _ => .eqStr

/-- The element types `nd::less` is defined for. -/
def sortTypes : List Ty :=
  [.prim .bool, .prim (.int .w8), .prim (.int .w16), .prim (.int .w32), .prim (.int .w64), .prim (.uint .w8),
   .prim (.uint .w16), .prim (.uint .w32), .prim (.uint .w64), .prim (.flt .f32), .prim (.flt .f64), .leaf .string]

theorem sortTypes_cases {T : Ty} (h : T ∈ sortTypes) :
    (∃ b, T = .prim b ∧ CmpPair False b b) ∨ T = .leaf .string := by
  simp only [sortTypes, List.mem_cons, List.not_mem_nil, or_false] at h
  rcases h with rfl | rfl | rfl | rfl | rfl | rfl | rfl | rfl | rfl | rfl | rfl | rfl
  all_goals first
    | exact .inr rfl
    | (refine .inl ⟨_, rfl, .inl ⟨?_, ?_⟩⟩ <;> simp [CmpNum])

theorem sortTypes_con {T : Ty} (h : T ∈ sortTypes) : Concrete T ∧ ¬ IsDim T ∧ ∀ t, T ≠ .option t := by
  rcases sortTypes_cases h with ⟨b, rfl, _⟩ | rfl
  · exact ⟨trivial, fun h => h, fun t h => by cases h⟩
  · exact ⟨trivial, fun h => h, fun t h => by cases h⟩

theorem less_scalar {same : List Nat → Bool} {ret : BTy → BTy → BTy} {tbl : List (Option OEntry)}
    (C : Chooses same tbl (CmpPair False) True False) {T : Ty} (h : T ∈ sortTypes) (f nsrc : Nat) :
    resolveOp same ret tbl (f + 1) nsrc (.prim .bool) T T = .ok ([lessNode T], .prim .bool) := by
  have hs : (Ty.prim .bool).symbolic = false := by simp [Ty.symbolic]
  rcases sortTypes_cases h with ⟨b, rfl, hb⟩ | rfl
  · simp only [resolveOp]
    rw [C.num b b hb, Res.bind_ok]
    simp only [hs, Bool.false_eq_true, if_false]
    rfl
  · simp only [resolveOp]
    rw [C.str trivial, Res.bind_ok]
    simp only [hs, Bool.false_eq_true, if_false]
    rfl

theorem less_option {same : List Nat → Bool} {ret : BTy → BTy → BTy} {tbl : List (Option OEntry)}
    (C : Chooses same tbl (CmpPair False) True False) {T : Ty} (h : T ∈ sortTypes) (hn : HasNa T) (f : Nat) :
    resolveOp same ret tbl (f + 2) 2 (.prim .bool) (.option T) (.option T) =
      .ok ([.forwardNa true true, lessNode T, .isNa T, .isNa T, .assignNa (.prim .bool)], .option (.prim .bool)) := by
  have hs : (Ty.prim .bool).symbolic = false := by simp [Ty.symbolic]
  obtain ⟨hc, hd, _⟩ := sortTypes_con h
  have hco : Concrete (.option T) := ⟨hc, fun n el e => by subst e; exact hd trivial, fun el e => by subst e; exact hd trivial⟩
  conv => lhs; unfold resolveOp
  rw [C.na01 T T hco hco, Res.bind_ok]
  simp only [hs, Bool.false_eq_true, if_false]
  rw [less_scalar C h, Res.bind_ok, isNa_ok hn, Res.bind_ok, Res.bind_ok]
  rw [assignNa_ok (t := .prim .bool) (by simp [HasNa]), Res.bind_ok]
  rfl

theorem lessNode_arity (T : Ty) : (lessNode T).arity = 0 := by cases T <;> rfl

/-! ### The run -/

theorem scatter_other {stride : Int} : ∀ (xs : List SElem) (a : Int) (mem : Int → Option SElem) (x : Int),
    (∀ i : Nat, i < xs.length → x ≠ a + i * stride) → scatterCells stride xs a mem x = mem x
  | [], _, _, _, _ => rfl
  | y :: ys, a, mem, x, h => by
    rw [scatterCells, scatter_other ys (a + stride) _ x]
    · have := h 0 (by simp)
      unfold putAt
      rw [if_neg (by simpa using this)]
    · intro i hi
      have := h (i + 1) (by simpa using hi)
      push_cast at this
      rw [Int.add_mul] at this
      omega

theorem scatter_at {stride : Int} (hs : 0 < stride) : ∀ (xs : List SElem) (a : Int) (mem : Int → Option SElem) (i : Nat)
    (h : i < xs.length), scatterCells stride xs a mem (a + i * stride) = some xs[i]
  | [], _, _, _, h => by simp at h
  | y :: ys, a, mem, 0, _ => by
    rw [scatterCells, scatter_other]
    · simp [putAt]
    · intro i _
      have : 0 ≤ (i : Int) * stride := Int.mul_nonneg (by omega) (by omega)
      push_cast
      omega
  | y :: ys, a, mem, i + 1, h => by
    have := scatter_at hs ys (a + stride) (putAt mem a y) i (by simpa using h)
    rw [scatterCells, show a + ((i + 1 : Nat) : Int) * stride = a + stride + i * stride by push_cast; rw [Int.add_mul]; omega, this]
    simp

theorem gather_cells {mem : Int → Option SElem} {stride : Int} : ∀ (n : Nat) (a : Int) (xs : Nat → SElem),
    (∀ i : Nat, i < n → mem (a + i * stride) = some (xs i)) → gatherCells mem stride n a = .ok ((List.range n).map xs)
  | 0, _, _, _ => rfl
  | n + 1, a, xs, h => by
    have h0 := h 0 (by omega)
    rw [Nat.cast_zero, Int.zero_mul, Int.add_zero] at h0
    have := gather_cells (mem := mem) (stride := stride) n (a + stride) (fun i => xs (i + 1)) (fun i hi => by
      rw [← h (i + 1) (by omega)]; congr 1; push_cast; rw [Int.add_mul]; omega)
    rw [gatherCells, h0]
    simp only [this, Res.bind_ok, Res.pure_eq]
    rw [List.range_succ_eq_map, List.map_cons, List.map_map]
    rfl

theorem b1Bool_make (b : Bool) : b1Bool (b1Make b) = b := by cases b <;> rfl

/-- Sorting the elements `xs` with a comparison that works and is a strict weak order on them. -/
theorem sortCells_ok {srt : (SElem → SElem → Bool) → List SElem → List SElem} (hs : StdSort srt)
    {less : SElem → SElem → Res Int} {L : SElem → SElem → Bool} {n : Nat} {stride base : Int} {mem : Int → Option SElem}
    {xs : Nat → SElem} (hx : ∀ i : Nat, i < n → mem (base + i * stride) = some (xs i)) (hp : 0 < stride)
    (hL : ∀ i j, i < n → j < n → less (xs i) (xs j) = .ok (b1Make (L (xs i) (xs j))))
    (ha : ∀ i j, i < n → j < n → L (xs i) (xs j) = true → L (xs j) (xs i) = false)
    (ht : ∀ i j k, i < n → j < n → k < n → L (xs i) (xs j) = false → L (xs j) (xs k) = false → L (xs i) (xs k) = false) :
    ∃ (mem' : Int → Option SElem) (ys : List SElem), sortCells srt less n stride base mem = .ok mem' ∧ ys.Perm ((List.range n).map xs) ∧
      ys.Pairwise (fun a b => L b a = false) ∧ (∀ i : Nat, i < n → mem' (base + i * stride) = ys[i]?) ∧
      ∀ a, (∀ i : Nat, i < n → a ≠ base + i * stride) → mem' a = mem a := by
  have hg := gather_cells n base xs hx
  have hmem : ∀ a ∈ (List.range n).map xs, ∃ i, i < n ∧ a = xs i := by
    intro a h
    obtain ⟨i, hi, rfl⟩ := List.mem_map.1 h
    exact ⟨i, List.mem_range.1 hi, rfl⟩
  unfold sortCells
  rw [hg, Res.bind_ok]
  by_cases h2 : n < 2
  · refine ⟨mem, (List.range n).map xs, by rw [if_pos h2]; rfl, .refl _, ?_, ?_, fun _ _ => rfl⟩
    · rcases n with _ | _ | n
      · simp
      · simp [List.range_succ]
      · omega
    · intro i hi
      rw [hx i hi, List.getElem?_map, List.getElem?_range hi]; rfl
  · rw [if_neg h2]
    generalize hlt : (fun a b => cellBool (less a b)) = lt
    have hlt' : ∀ i j, i < n → j < n → lt (xs i) (xs j) = L (xs i) (xs j) := by
      intro i j hi hj
      rw [← hlt]
      simp only [hL i j hi hj, cellBool, b1Bool_make]
    have hq : ¬ (((List.range n).map xs).any fun a => ((List.range n).map xs).any fun b =>
        cellFails (less a b)) = true := by
      intro h
      obtain ⟨a, h1, h⟩ := List.any_eq_true.1 h
      obtain ⟨b, h2, h⟩ := List.any_eq_true.1 h
      obtain ⟨i, hi, rfl⟩ := hmem a h1
      obtain ⟨j, hj, rfl⟩ := hmem b h2
      rw [hL i j hi hj] at h
      cases h
    rw [if_neg hq]
    have hw : strictWeakOn lt ((List.range n).map xs) = true := by
      unfold strictWeakOn
      rw [List.all_eq_true]
      intro a h1
      rw [List.all_eq_true]
      intro b h2
      obtain ⟨i, hi, rfl⟩ := hmem a h1
      obtain ⟨j, hj, rfl⟩ := hmem b h2
      rw [Bool.and_eq_true, List.all_eq_true]
      constructor
      · rw [hlt' i j hi hj, hlt' j i hj hi]
        cases h : L (xs i) (xs j) with
        | false => rfl
        | true => rw [ha i j hi hj h]; rfl
      · intro c h3
        obtain ⟨k, hk, rfl⟩ := hmem c h3
        rw [hlt' i j hi hj, hlt' j k hj hk, hlt' i k hi hk]
        cases h : L (xs i) (xs j) with
        | true => rfl
        | false =>
          cases h' : L (xs j) (xs k) with
          | true => rfl
          | false => rw [ht i j k hi hj hk h h']; rfl
    rw [if_pos hw]
    obtain ⟨p1, p2⟩ := hs lt ((List.range n).map xs)
      (by
        intro a h1 b h2 h
        obtain ⟨i, hi, rfl⟩ := hmem a h1
        obtain ⟨j, hj, rfl⟩ := hmem b h2
        rw [hlt' i j hi hj] at h
        rw [hlt' j i hj hi]
        exact ha i j hi hj h)
      (by
        intro a h1 b h2 c h3 h h'
        obtain ⟨i, hi, rfl⟩ := hmem a h1
        obtain ⟨j, hj, rfl⟩ := hmem b h2
        obtain ⟨k, hk, rfl⟩ := hmem c h3
        rw [hlt' i j hi hj] at h
        rw [hlt' j k hj hk] at h'
        rw [hlt' i k hi hk]
        exact ht i j k hi hj hk h h')
    have hlen : (srt lt ((List.range n).map xs)).length = n := by rw [p1.length_eq]; simp
    refine ⟨scatterCells stride (srt lt ((List.range n).map xs)) base mem, srt lt ((List.range n).map xs), ?_, p1, ?_, ?_, ?_⟩
    · unfold sortKernel
      rw [if_neg (by omega), if_neg (by omega)]
      rfl
    · refine List.Pairwise.imp_of_mem ?_ p2
      intro a b h1 h2 h
      obtain ⟨i, hi, rfl⟩ := hmem a (p1.mem_iff.1 h1)
      obtain ⟨j, hj, rfl⟩ := hmem b (p1.mem_iff.1 h2)
      rw [← hlt' j i hj hi]
      exact h
    · intro i hi
      rw [scatter_at hp _ _ _ i (by omega), List.getElem?_eq_getElem (by omega)]
    · intro a h
      exact scatter_other _ _ _ _ (fun i hi => h i (by omega))

/-! ### Specification -/

/-- What an element of a type `nd::less` is defined for holds; `nan`: a floating point number may be a NaN. -/
def CellOf (nan : Prop) : Ty → SElem → Prop
  | .prim (.flt .f32), .flt p => nan ∨ ¬ Fmt.single.IsNan p
  | .prim (.flt .f64), .flt p => nan ∨ ¬ Fmt.double.IsNan p
  | .prim (.flt _), _ => False
  | .prim _, .int _ => True
  | .leaf .string, .str _ => True
  | _, _ => False

/-- One element comes before another: numbers by value, `false` before `true`, strings lexicographically. -/
def SortsBefore : Ty → SElem → SElem → Prop
  | .prim (.flt .f32), .flt a, .flt b => FloatVsFloat .single .single .lt a b
  | .prim (.flt .f64), .flt a, .flt b => FloatVsFloat .double .double .lt a b
  | .prim _, .int a, .int b => a < b
  | .leaf _, .str a, .str b => a < b
  | _, _, _ => False

theorem lessF_iff (F : Fmt) (a b : Nat) : lessF F a b = true ↔ FloatVsFloat F F .lt a b := by
  rw [← onFV_floats]; simp [lessF, cmpFloat]

theorem lessF_lt (F : Fmt) (a b : Nat) : lessF F a b = (F.decode a).lt (F.decode b) := by
  simp [lessF, cmpFloat, Cmp.onFV]

/-- the comparison of two elements, as a boolean -/
def cellLt (T : Ty) (x y : SElem) : Bool := cellBool (lessCell (.mk (lessNode T) []) x y)

/-- how the elements of a type are told apart -/
inductive Held : Ty → SElem → Prop
  | f32 (p) : Held (.prim (.flt .f32)) (.flt p)
  | f64 (p) : Held (.prim (.flt .f64)) (.flt p)
  | int (b v) : (∀ w, b ≠ .flt w) → Held (.prim b) (.int v)
  | str (cs) : Held (.leaf .string) (.str cs)

theorem held_of {nan : Prop} {T : Ty} (hT : T ∈ sortTypes) {x : SElem} (h : CellOf nan T x) : Held T x := by
  simp only [sortTypes, List.mem_cons, List.not_mem_nil, or_false] at hT
  rcases hT with rfl | rfl | rfl | rfl | rfl | rfl | rfl | rfl | rfl | rfl | rfl | rfl <;> cases x <;>
    first
    | exact h.elim
    | exact .f32 _
    | exact .f64 _
    | exact .str _
    | exact .int _ _ (by simp)

theorem cell_less {T : Ty} {x y : SElem} (hx : Held T x) (hy : Held T y) :
    lessCell (.mk (lessNode T) []) x y = .ok (b1Make (cellLt T x y)) ∧ (cellLt T x y = true ↔ SortsBefore T x y) := by
  unfold cellLt
  cases hx with
  | f32 p =>
    cases hy with
    | f32 q => simp only [lessNode, lessCell, cellBool, b1Bool_make, SortsBefore, lessF_iff, and_self]
    | int _ _ h => exact absurd rfl (h _)
  | f64 p =>
    cases hy with
    | f64 q => simp only [lessNode, lessCell, cellBool, b1Bool_make, SortsBefore, lessF_iff, and_self]
    | int _ _ h => exact absurd rfl (h _)
  | int b v hb =>
    cases hy with
    | f32 q => exact absurd rfl (hb _)
    | f64 q => exact absurd rfl (hb _)
    | int _ w _ => simp only [lessNode, lessCell, cellBool, b1Bool_make, SortsBefore, decide_eq_true_eq, and_self]
  | str cs =>
    cases hy with
    | str ds => simp only [lessNode, lessCell, cellBool, b1Bool_make, SortsBefore, lexLess_iff, and_self]

theorem before_asymm {T : Ty} {x y : SElem} (hx : Held T x) (hy : Held T y) (h : SortsBefore T x y) :
    ¬ SortsBefore T y x := by
  have F : ∀ F : Fmt, ∀ p q, FloatVsFloat F F .lt p q → ¬ FloatVsFloat F F .lt q p := fun F p q h h' => by
    rw [← lessF_iff, lessF_lt] at h h'
    have := fvlt_trans _ _ _ h h'
    rw [fvlt_irr] at this; cases this
  cases hx <;> cases hy <;> simp only [SortsBefore] at h ⊢
  all_goals first
    | exact F _ _ _ h
    | exact lt_asymm h
    | exact h.elim

theorem before_ntrans {T : Ty} {x y z : SElem} (hx : Held T x) (hy : CellOf False T y) (hyh : Held T y) (hz : Held T z)
    (h1 : ¬ SortsBefore T x y) (h2 : ¬ SortsBefore T y z) : ¬ SortsBefore T x z := by
  have F : ∀ F : Fmt, ∀ p q r, ¬ F.IsNan q → ¬ FloatVsFloat F F .lt p q → ¬ FloatVsFloat F F .lt q r →
      ¬ FloatVsFloat F F .lt p r := fun F p q r hn h1 h2 => by
    rw [← lessF_iff, lessF_lt, Bool.not_eq_true] at h1 h2 ⊢
    exact fvlt_ntrans _ _ _ (by rw [Ne, decode_nan_iff]; exact hn) h1 h2
  cases hx with
  | f32 p =>
    cases hyh with
    | f32 q =>
      cases hz with
      | f32 r => exact F _ p q r (by simpa [CellOf] using hy) h1 h2
      | int _ _ h => exact absurd rfl (h _)
    | int _ _ h => exact absurd rfl (h _)
  | f64 p =>
    cases hyh with
    | f64 q =>
      cases hz with
      | f64 r => exact F _ p q r (by simpa [CellOf] using hy) h1 h2
      | int _ _ h => exact absurd rfl (h _)
    | int _ _ h => exact absurd rfl (h _)
  | int b v hb =>
    cases hyh with
    | f32 q => exact absurd rfl (hb _)
    | f64 q => exact absurd rfl (hb _)
    | int _ w _ =>
      cases hz with
      | f32 q => exact absurd rfl (hb _)
      | f64 q => exact absurd rfl (hb _)
      | int _ u _ => simp only [SortsBefore] at *; omega
  | str cs =>
    cases hyh with
    | str ds =>
      cases hz with
      | str es =>
        simp only [SortsBefore] at *
        exact fun h => h1 (lt_of_lt_of_le h (not_lt.1 h2))

/-! ### The call -/

/-- `less` on two elements of a type it is not defined for -/
theorem less_undefined {same : List Nat → Bool} {ret : BTy → BTy → BTy} {tbl : List OEntry}
    (hm : ∀ e, e ∈ tbl ↔ InCmp False e) {a : Ty} (ha : Concrete a) (da : ¬ IsDim a) (oa : ∀ t, a ≠ .option t)
    (hn : ¬ CmpDefined False a a) (fuel : Nat) :
    resolveOp same ret (tbl.map some) (fuel + 1) 2 (.prim .bool) a a = .throw .outOfRange := by
  simp only [resolveOp]
  rw [dispCall_none]
  · rfl
  · intro x hx
    have hi := (hm x).1 hx
    refine oHandles_false same (inCmp_builtin hi) ha ha (fun hh => ?_)
    cases x <;> simp only [OHandles] at hh
    case num x y => exact hn (.inl ⟨x, y, hh.1, hh.2, hi⟩)
    case na0 => obtain ⟨t, h⟩ := hh; exact oa t h
    case na1 => obtain ⟨t, h⟩ := hh; exact oa t h
    case na01 => obtain ⟨⟨t, h⟩, _⟩ := hh; exact oa t h
    case elwDS => exact da hh.1
    case elwSD => exact da hh.2
    case elwDD => exact da hh.1
    case elwSS => exact hi
    case elwDO => exact da hh.1
    case elwOD => exact da hh.2
    case strStr => exact hn (.inr (.inl hh))
    case tupTup => exact hi
    case structStruct => exact hi
    case typeType => exact hi
    case bytesBytes => exact hi

theorem sort_call {same : List Nat → Bool} {tbl : List (Option OEntry)} (C : Chooses same tbl (CmpPair False) True False)
    {T : Ty} (hT : T ∈ sortTypes) {N : Int} (hN : 0 ≤ N) (n : Nat) (stride base : Int) (sm : List UMeta)
    (srt : (SElem → SElem → Bool) → List SElem → List SElem) (mem : Int → Option SElem) (fuel : Nat) :
    sortCall same tbl (fuel + 1) srt (.fixedDim N T) (.fixed n stride :: sm) base mem =
      sortCells srt (lessOpt (.mk (lessNode T) [])) n stride base mem := by
  obtain ⟨hc, hd, _⟩ := sortTypes_con hT
  unfold sortCall
  rw [if_pos ((fixedScalar_is same (show Concrete (.fixedDim N T) from ⟨hN, hc⟩)).2 ⟨N, T, rfl, hd⟩)]
  simp only [resolveSort]
  rw [less_scalar C hT, Res.bind_ok, Res.pure_eq, Res.bind_ok, instO_leaf (lessNode_arity T), Res.bind_ok]

theorem lessOpt_plain (T : Ty) (x y : SElem) :
    lessOpt (.mk (lessNode T) []) x y = lessCell (.mk (lessNode T) []) x y := by
  cases T <;> simp [lessNode, lessOpt]

/-- C124: `nd::sort(a)` on a one-dimensional array of fixed size of booleans, integers up to 64 bits, `float32`s or
    `float64`s that are no NaNs, or strings, at any address and any positive stride: afterwards the array holds the same
    elements, none before one that is to be sorted before it, and no other memory is changed. -/
theorem sort_call_partial (same : List Nat → Bool) : ∃ tbl, makeLess same = .ok tbl ∧
    ∀ T ∈ [Ty.prim .bool, .prim (.int .w8), .prim (.int .w16), .prim (.int .w32), .prim (.int .w64), .prim (.uint .w8),
      .prim (.uint .w16), .prim (.uint .w32), .prim (.uint .w64), .prim (.flt .f32), .prim (.flt .f64), .leaf .string],
    ∀ (srt : (SElem → SElem → Bool) → List SElem → List SElem) (N : Int) (n : Nat) (stride base : Int) (sm : List UMeta)
      (mem : Int → Option SElem) (xs : Nat → SElem) (fuel : Nat), StdSort srt → 0 ≤ N → 0 < stride →
      (∀ i : Nat, i < n → mem (base + i * stride) = some (xs i) ∧ CellOf False T (xs i)) →
      ∃ (mem' : Int → Option SElem) (ys : List SElem),
        sortCall same tbl (fuel + 1) srt (.fixedDim N T) (.fixed n stride :: sm) base mem = .ok mem' ∧
        ys.Perm ((List.range n).map xs) ∧ ys.Pairwise (fun a b => ¬ SortsBefore T b a) ∧
        (∀ i : Nat, i < n → mem' (base + i * stride) = ys[i]?) ∧
        ∀ a, (∀ i : Nat, i < n → a ≠ base + i * stride) → mem' a = mem a := by
  obtain ⟨tbl, e, _, C⟩ := less_table same
  refine ⟨_, e, fun T hT srt N n stride base sm mem xs fuel hs hN hp hx => ?_⟩
  have hT' : T ∈ sortTypes := hT
  have hh : ∀ i, i < n → Held T (xs i) := fun i hi => held_of hT' (hx i hi).2
  rw [sort_call C hT' hN]
  obtain ⟨mem', ys, h1, h2, h3, h4, h5⟩ := sortCells_ok hs (less := lessOpt (.mk (lessNode T) [])) (L := cellLt T)
    (n := n) (stride := stride) (base := base) (mem := mem) (xs := xs)
    (fun i hi => (hx i hi).1) hp
    (fun i j hi hj => by rw [lessOpt_plain]; exact (cell_less (hh i hi) (hh j hj)).1)
    (fun i j hi hj h => by
      rw [(cell_less (hh i hi) (hh j hj)).2] at h
      rw [Bool.eq_false_iff, Ne, (cell_less (hh j hj) (hh i hi)).2]
      exact before_asymm (hh i hi) (hh j hj) h)
    (fun i j k hi hj hk h h' => by
      rw [Bool.eq_false_iff, Ne, (cell_less (hh i hi) (hh j hj)).2] at h
      rw [Bool.eq_false_iff, Ne, (cell_less (hh j hj) (hh k hk)).2] at h'
      rw [Bool.eq_false_iff, Ne, (cell_less (hh i hi) (hh k hk)).2]
      exact before_ntrans (hh i hi) (hx j hj).2 (hh j hj) (hh k hk) h h')
  refine ⟨mem', ys, h1, h2, ?_, h4, h5⟩
  refine List.Pairwise.imp_of_mem ?_ h3
  intro a b ha hb h
  have hm : ∀ a ∈ ys, Held T a := fun a h => by
    obtain ⟨i, hi, rfl⟩ := List.mem_map.1 (h2.mem_iff.1 h)
    exact hh i (List.mem_range.1 hi)
  rw [Bool.eq_false_iff, Ne, (cell_less (hm b hb) (hm a ha)).2] at h
  exact h

/-! ### Violations -/

theorem sortCells_ub {srt : (SElem → SElem → Bool) → List SElem → List SElem} {less : SElem → SElem → Res Int} {n : Nat}
    {stride base : Int} {mem : Int → Option SElem} {xs : Nat → SElem}
    (hx : ∀ i : Nat, i < n → mem (base + i * stride) = some (xs i)) (hn : 2 ≤ n)
    (h : strictWeakOn (fun a b => cellBool (less a b)) ((List.range n).map xs) = false) :
    sortCells srt less n stride base mem = .ub := by
  unfold sortCells
  rw [gather_cells n base xs hx, Res.bind_ok, if_neg (by omega)]
  split
  · rfl
  · rw [h]; rfl

theorem strictWeak_refl {lt : SElem → SElem → Bool} {xs : List SElem} {a : SElem} (ha : a ∈ xs) (h : lt a a = true) :
    strictWeakOn lt xs = false := by
  rw [Bool.eq_false_iff]
  intro hw
  unfold strictWeakOn at hw
  have h1 := List.all_eq_true.1 (List.all_eq_true.1 hw a ha) a ha
  rw [h] at h1
  simp at h1

theorem strictWeak_ntrans {lt : SElem → SElem → Bool} {xs : List SElem} {a b c : SElem} (ha : a ∈ xs) (hb : b ∈ xs)
    (hc : c ∈ xs) (h1 : lt a b = false) (h2 : lt b c = false) (h3 : lt a c = true) : strictWeakOn lt xs = false := by
  rw [Bool.eq_false_iff]
  intro hw
  unfold strictWeakOn at hw
  have h := List.all_eq_true.1 (List.all_eq_true.1 hw a ha) b hb
  rw [Bool.and_eq_true] at h
  have h := List.all_eq_true.1 h.2 c hc
  rw [h1, h2, h3] at h
  cases h

/-- C124 is violated for arrays whose elements may be missing: `nd::sort` accepts them, but for a missing element the
    comparison is not false but the value `NA` of an optional boolean, 2, which counts as true: a missing element comes
    before itself, and `std::sort` is undefined for an order like that. -/
theorem sort_option_violated (same : List Nat → Bool) : ∃ tbl, makeLess same = .ok tbl ∧
    ∀ T ∈ [Ty.prim .bool, .prim (.int .w8), .prim (.int .w16), .prim (.int .w32), .prim (.int .w64), .prim (.uint .w32),
      .prim (.flt .f32), .prim (.flt .f64), .leaf .string],
    ∀ (srt : (SElem → SElem → Bool) → List SElem → List SElem) (N : Int) (n : Nat) (stride base : Int) (sm : List UMeta)
      (mem : Int → Option SElem) (xs : Nat → SElem) (fuel : Nat), 0 ≤ N → 2 ≤ n →
      (∀ i : Nat, i < n → mem (base + i * stride) = some (xs i)) → (∃ i, i < n ∧ xs i = .na) →
      sortCall same tbl (fuel + 2) srt (.fixedDim N (.option T)) (.fixed n stride :: sm) base mem = .ub := by
  obtain ⟨tbl, e, _, C⟩ := less_table same
  refine ⟨_, e, fun T hT srt N n stride base sm mem xs fuel hN hn hx ⟨i, hi, hna⟩ => ?_⟩
  have hT' : T ∈ sortTypes ∧ HasNa T := by
    simp only [List.mem_cons, List.not_mem_nil, or_false] at hT
    rcases hT with rfl | rfl | rfl | rfl | rfl | rfl | rfl | rfl | rfl <;> simp [sortTypes, HasNa]
  obtain ⟨hs, hh⟩ := hT'
  obtain ⟨hc, hd, _⟩ := sortTypes_con hs
  have hco : Concrete (.option T) :=
    ⟨hc, fun n el e => by subst e; exact hd trivial, fun el e => by subst e; exact hd trivial⟩
  unfold sortCall
  rw [if_pos ((fixedScalar_is same (show Concrete (.fixedDim N (.option T)) from ⟨hN, hco⟩)).2
    ⟨N, _, rfl, fun h => h⟩)]
  simp only [resolveSort]
  rw [less_option C hs hh, Res.bind_ok, Res.pure_eq, Res.bind_ok]
  have hk : instO (fuel + 2) [.forwardNa true true, lessNode T, .isNa T, .isNa T, .assignNa (.prim .bool)] =
      .ok (.mk (.forwardNa true true) [.mk (lessNode T) [], .mk (.isNa T) [], .mk (.isNa T) [],
        .mk (.assignNa (.prim .bool)) []], []) := by
    rw [instO]
    simp only [ONode.arity, if_true, instOKids]
    rw [instO_leaf (lessNode_arity T), Res.bind_ok, instO_leaf rfl, Res.bind_ok, instO_leaf rfl, Res.bind_ok,
      instO_leaf rfl, Res.bind_ok]
    rfl
  rw [hk, Res.bind_ok]
  refine sortCells_ub hx hn ?_
  refine strictWeak_refl (a := .na) ?_ ?_
  · rw [← hna]
    exact List.mem_map.2 ⟨i, List.mem_range.2 hi, rfl⟩
  · simp [lessOpt, cellBool, b1Bool]

/-- C124 is violated for floating point numbers with a NaN among them: the NaN is equivalent to every number. -/
theorem sort_nans_violated (same : List Nat → Bool) : ∃ tbl, makeLess same = .ok tbl ∧
    ∀ (T : Ty) (F : Fmt), (T = .prim (.flt .f32) ∧ F = .single ∨ T = .prim (.flt .f64) ∧ F = .double) →
    ∀ (srt : (SElem → SElem → Bool) → List SElem → List SElem) (N : Int) (n : Nat) (stride base : Int) (sm : List UMeta)
      (mem : Int → Option SElem) (xs : Nat → SElem) (fuel : Nat), 0 ≤ N →
      (∀ i : Nat, i < n → mem (base + i * stride) = some (xs i)) →
      (∃ (i j k : Nat) (a b c : Nat), i < n ∧ j < n ∧ k < n ∧ xs i = .flt a ∧ xs j = .flt b ∧ xs k = .flt c ∧ F.IsNan b ∧
        FloatVsFloat F F .lt a c) →
      sortCall same tbl (fuel + 1) srt (.fixedDim N T) (.fixed n stride :: sm) base mem = .ub := by
  obtain ⟨tbl, e, _, C⟩ := less_table same
  refine ⟨_, e, fun T F hT srt N n stride base sm mem xs fuel hN hx ⟨i, j, k, a, b, c, hi, hj, hk, xi, xj, xk, hb, hac⟩ => ?_⟩
  have hs : T ∈ sortTypes := by rcases hT with ⟨rfl, _⟩ | ⟨rfl, _⟩ <;> simp [sortTypes]
  rw [sort_call C hs hN]
  have hm : ∀ i, i < n → xs i ∈ (List.range n).map xs := fun i hi => List.mem_map.2 ⟨i, List.mem_range.2 hi, rfl⟩
  have hne : i ≠ j := by
    rintro rfl
    rw [xi] at xj
    cases xj
    rw [← lessF_iff, lessF_lt] at hac
    exact fvlt_left _ _ hac ((decode_nan_iff F a).2 hb)
  have hl : ∀ a b, cellBool (lessOpt (.mk (lessNode T) []) (.flt a) (.flt b)) = lessF F a b := by
    intro a b
    rcases hT with ⟨rfl, rfl⟩ | ⟨rfl, rfl⟩ <;> simp [lessNode, lessOpt, lessCell, cellBool, b1Bool_make]
  refine sortCells_ub hx (by omega) (strictWeak_ntrans (hm i hi) (hm j hj) (hm k hk) ?_ ?_ ?_)
  · rw [xi, xj, hl, Bool.eq_false_iff, lessF_lt]
    exact fun h => fvlt_right _ _ h ((decode_nan_iff F b).2 hb)
  · rw [xj, xk, hl, Bool.eq_false_iff, lessF_lt]
    exact fun h => fvlt_left _ _ h ((decode_nan_iff F b).2 hb)
  · rw [xi, xk, hl, lessF_iff]
    exact hac

/-- C124 is violated for a reversed view, `a(irange().by(-1))`: it is accepted, and its end is before its beginning. -/
theorem sort_backwards_violated (same : List Nat → Bool) : ∃ tbl, makeLess same = .ok tbl ∧
    ∀ T ∈ [Ty.prim .bool, .prim (.int .w8), .prim (.int .w16), .prim (.int .w32), .prim (.int .w64), .prim (.uint .w8),
      .prim (.uint .w16), .prim (.uint .w32), .prim (.uint .w64), .prim (.flt .f32), .prim (.flt .f64), .leaf .string],
    ∀ (srt : (SElem → SElem → Bool) → List SElem → List SElem) (N : Int) (n : Nat) (stride base : Int) (sm : List UMeta)
      (mem : Int → Option SElem) (xs : Nat → SElem) (fuel : Nat), 0 ≤ N → stride < 0 → 2 ≤ n →
      (∀ i : Nat, i < n → mem (base + i * stride) = some (xs i)) →
      sortCall same tbl (fuel + 1) srt (.fixedDim N T) (.fixed n stride :: sm) base mem = .ub := by
  obtain ⟨tbl, e, _, C⟩ := less_table same
  refine ⟨_, e, fun T hT srt N n stride base sm mem xs fuel hN hp hn hx => ?_⟩
  rw [sort_call C hT hN]
  unfold sortCells
  rw [gather_cells n base xs hx, Res.bind_ok, if_neg (by omega)]
  split
  · rfl
  · split
    · unfold sortKernel
      rw [if_pos ⟨hp, by simpa using hn⟩]
      rfl
    · rfl

/-! ### What is refused -/

/-- C124: what `nd::sort` refuses, before it touches the array: what is not a one-dimensional array of fixed size, and
    elements `nd::less` is not defined for. -/
theorem sort_rejected (same : List Nat → Bool) : ∃ tbl, makeLess same = .ok tbl ∧
    ∀ (a : Ty) (srt : (SElem → SElem → Bool) → List SElem → List SElem) (sm : List UMeta) (base : Int)
      (mem : Int → Option SElem) (fuel : Nat), Concrete a →
      ((∀ N el, a = .fixedDim N el → IsDim el) → sortCall same tbl fuel srt a sm base mem = .throw .invalidArg) ∧
      (∀ N el, a = .fixedDim N el → ¬ IsDim el → (∀ t, el ≠ .option t) →
        el ∉ [Ty.prim .bool, .prim (.int .w8), .prim (.int .w16), .prim (.int .w32), .prim (.int .w64), .prim (.uint .w8),
          .prim (.uint .w16), .prim (.uint .w32), .prim (.uint .w64), .prim (.flt .f32), .prim (.flt .f64), .leaf .string] →
        sortCall same tbl (fuel + 1) srt a sm base mem = .throw .outOfRange) := by
  obtain ⟨tbl, e, hm, C⟩ := less_table same
  refine ⟨_, e, fun a srt sm base mem fuel ha => ⟨fun h => ?_, fun N el he hd ho hn => ?_⟩⟩
  · unfold sortCall
    rw [if_neg]
    rw [fixedScalar_is same ha]
    rintro ⟨N, el, e, hd⟩
    exact hd (h N el e)
  · subst he
    unfold sortCall
    rw [if_pos ((fixedScalar_is same ha).2 ⟨N, el, rfl, hd⟩)]
    have hu : ¬ CmpDefined False el el := by
      rintro (⟨x, y, h1, h2, h3⟩ | ⟨h1, _⟩ | ⟨h, _⟩)
      · rw [h1] at h2
        cases h2
        subst h1
        apply hn
        rcases h3 with ⟨h3, -⟩ | h3
        · cases x with
          | int w => cases w <;> simp_all [CmpNum]
          | uint w => cases w <;> simp_all [CmpNum]
          | flt w => cases w <;> simp_all [CmpNum]
          | _ => simp_all [CmpNum]
        · simp_all
      · exact hn (by rw [h1]; simp)
      · exact h
    have := less_undefined (same := same) (ret := fun _ _ => .bool) hm ha.2 hd ho hu fuel
    simp only [resolveSort]
    rw [this]
    rfl

/-! ### Examples -/

/-- three strings, the second one missing a character, sixteen bytes apart -/
example (same : List Nat → Bool) : ∃ (mem : Int → Option SElem) (xs : Nat → SElem),
    (∀ i : Nat, i < 3 → mem (64 + i * 16) = some (xs i) ∧ CellOf False (.leaf .string) (xs i)) ∧
    SortsBefore (.leaf .string) (xs 1) (xs 0) ∧ ¬ SortsBefore (.leaf .string) (xs 2) (xs 0) := by
  refine ⟨fun a => if a = 64 then some (.str [98, 99]) else if a = 80 then some (.str [98]) else if a = 96 then
    some (.str [99]) else none, fun i => if i = 0 then .str [98, 99] else if i = 1 then .str [98] else .str [99], ?_, ?_, ?_⟩
  · intro i hi
    have : i = 0 ∨ i = 1 ∨ i = 2 := by omega
    rcases this with rfl | rfl | rfl <;> simp [CellOf]
  · simp [SortsBefore]
  · show ¬ ([99] : List Int) < [98, 99]
    decide

/-- 1, NaN, 2 -/
example : Fmt.single.IsNan 0x7FC00000 ∧ FloatVsFloat .single .single .lt 0x3F800000 0x40000000 := by
  have d1 : Fmt.single.decode 0x3F800000 = .fin 1 := by
    simp [Fmt.decode, Fmt.ex, Fmt.expMax, Fmt.single, Fmt.val, Fmt.smag, Fmt.sgn, Fmt.mag, Fmt.sig, Fmt.unit, Fmt.bias]
    norm_num
  have d2 : Fmt.single.decode 0x40000000 = .fin 2 := by
    simp [Fmt.decode, Fmt.ex, Fmt.expMax, Fmt.single, Fmt.val, Fmt.smag, Fmt.sgn, Fmt.mag, Fmt.sig, Fmt.unit, Fmt.bias]
    norm_num
  constructor
  · rw [← decode_nan_iff]
    simp [Fmt.decode, Fmt.ex, Fmt.expMax, Fmt.single, Fmt.sig]
  · rw [← lessF_iff, lessF_lt, d1, d2]
    norm_num [FV.lt]

/-- three sorted numbers, eight bytes apart, and a number to search for -/
example : ∃ (m : EMem) (xs : Nat → SElem), (∀ i : Nat, i < 3 → ElemAt (.prim (.int .w32)) m (0 + i * 8) (xs i)) ∧
    ElemAt (.prim (.int .w32)) m 100 (.int (-1)) ∧ (∀ i j, i < j → j < 3 → ¬ Precedes (xs j) (xs i)) ∧ xs 0 = .int (-1) := by
  refine ⟨⟨fun a => if a < 4 ∨ 100 ≤ a then some 255 else if a = 8 then some 7 else if a = 17 then some 2 else some 0,
    fun _ => none⟩, fun i => if i = 0 then .int (-1) else if i = 1 then .int 7 else .int 512, ?_, ?_, ?_, rfl⟩
  · intro i hi
    have : i = 0 ∨ i = 1 ∨ i = 2 := by omega
    have e1 : leBytes 4 ((-1 : Int) % 2 ^ 32).toNat = [255, 255, 255, 255] := by decide
    have e2 : leBytes 4 ((7 : Int) % 2 ^ 32).toNat = [7, 0, 0, 0] := by decide
    have e3 : leBytes 4 ((512 : Int) % 2 ^ 32).toNat = [0, 2, 0, 0] := by decide
    rcases this with rfl | rfl | rfl
    · refine ⟨by norm_num, by norm_num, ?_⟩
      rw [e1]
      intro j b h
      rcases j with _ | _ | _ | _ | j <;> simp at h <;> subst h <;> norm_num
    · refine ⟨by norm_num, by norm_num, ?_⟩
      rw [e2]
      intro j b h
      rcases j with _ | _ | _ | _ | j <;> simp at h <;> subst h <;> norm_num
    · refine ⟨by norm_num, by norm_num, ?_⟩
      rw [e3]
      intro j b h
      rcases j with _ | _ | _ | _ | j <;> simp at h <;> subst h <;> norm_num
  · refine ⟨by norm_num, by norm_num, ?_⟩
    have e1 : leBytes 4 ((-1 : Int) % 2 ^ 32).toNat = [255, 255, 255, 255] := by decide
    rw [e1]
    intro j b h
    rcases j with _ | _ | _ | _ | j <;> simp at h <;> subst h <;> norm_num
  · intro i j h1 h2
    have hi : i = 0 ∧ j = 1 ∨ i = 0 ∧ j = 2 ∨ i = 1 ∧ j = 2 := by omega
    rcases hi with ⟨rfl, rfl⟩ | ⟨rfl, rfl⟩ | ⟨rfl, rfl⟩ <;> simp [Precedes]

end Dynd
