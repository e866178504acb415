import Verif.Model.Combinators
/-
C114: a function built from combinators does the same to a run of elements as to the elements one after the other,
and to each what the combinators say.
-/
namespace Dynd

/-! ## Specification -/

/-- Doing `f 0`, `f 1`, …, `f (n - 1)` in this order. -/
def cbEach {W : Type} (n : Nat) (f : Nat → W → Res W) (w : W) : Res W :=
  match n with
  | 0 => .ok w
  | n + 1 => (cbEach n f w).bind (f n)

/-- The place of element `k` of operands starting at `src` with strides `ss`. -/
def cbAt (src ss : List Int) (k : Nat) : List Int := List.zipWith (fun s t => s + (k : Int) * t) src ss

/-- What a built function means for one element, with the result at `dst` and the arguments at `src`. -/
def cbMeans {V σ : Type} : CbFn V σ → Int → List Int → CbWorld V σ → Res (CbWorld V σ)
  | .apply .value _ kwds f, dst, src, w =>
    (f (src.map w.mem ++ kwds) w.st).bind fun r => .ok { mem := w.mem.put dst r.1, st := r.2 }
  | .apply .nothing _ kwds f, _, src, w =>
    (f (src.map w.mem ++ kwds) w.st).bind fun r => .ok { mem := w.mem, st := r.2 }
  | .apply .wrapper _ kwds f, dst, src, w =>
    (f (w.mem dst :: src.map w.mem ++ kwds) w.st).bind fun r => .ok { mem := w.mem.put dst r.1, st := r.2 }
  | .constant data, dst, _, w => .ok { mem := w.mem.put dst (w.mem data), st := w.st }
  | .left c, dst, src, w => cbMeans c dst (dst :: src) w
  | .right c, dst, src, w => cbMeans c dst (src ++ [dst]) w
  | .forwardNa tests na c, dst, src, w =>
    if tests.any (fun t => (src[t.1]?).any fun a => t.2 (w.mem a)) then .ok { mem := w.mem.put dst na, st := w.st }
    else cbMeans c dst src w
  | .state _ i cell c, dst, src, w => cbMeans c dst (src.take i ++ cell :: src.drop i) w
  | .elw lv c, dst, src, w =>
    cbEach lv.size (fun k => cbMeans c (dst + (k : Int) * lv.dstStride) (cbAt src lv.srcStride k)) w

/-- The function takes `n` arguments, as its type says, and so do its parts. -/
def cbArity {V σ : Type} : CbFn V σ → Nat → Prop
  | .apply _ narg _ _, n => n = narg
  | .constant _, _ => True
  | .left c, n => n = 1 ∧ cbArity c 2
  | .right c, n => n = 1 ∧ cbArity c 2
  | .forwardNa tests _ c, n => n = 2 ∧ (∀ t ∈ tests, t.1 < 2) ∧ cbArity c 2
  | .state narg i _ c, n => n = narg ∧ i ≤ narg ∧ cbArity c (narg + 1)
  | .elw lv c, n => n = lv.srcStride.length ∧ cbArity c n

/-! ## From the call graph to the kernels -/

/-- The kernels for a request. -/
def cbBuild {V σ : Type} : CbFn V σ → CbReq → CbKernel V σ
  | .apply ret narg kwds f, r => .apply r ret narg kwds f
  | .constant data, r => .constant r data r.dataOnly
  | .left c, r => .left r (cbBuild c r.dataOnly)
  | .right c, r => .right r (cbBuild c r.dataOnly)
  | .forwardNa tests na c, r => .forwardNa r tests na (cbBuild c .single)
  | .state narg i cell c, r => .state r narg i cell (cbBuild c r.dataOnly)
  | .elw lv c, r => .elw r lv (cbBuild c .strided)

theorem cbTakeNa_map {V σ : Type} (tests : List (Nat × (V → Bool))) (rest : List (CbNode V σ)) :
    cbTakeNa (tests.map (·.1)) ((tests.map fun t => CbNode.isNa t.2) ++ rest) = .ok (tests, rest) := by
  induction tests with
  | nil => rfl
  | cons t ts ih =>
    simp only [List.map_cons, List.cons_append, cbTakeNa]
    rw [ih]
    rfl

theorem cbResolve_pos {V σ : Type} (f : CbFn V σ) : 0 < (cbResolve f).length := by
  cases f <;> simp [cbResolve]

/-- The flat call graph is read back as the tree it came from, whatever follows it. -/
theorem cbInst_resolve {V σ : Type} (f : CbFn V σ) (r : CbReq) (rest : List (CbNode V σ)) (fuel : Nat)
    (h : (cbResolve f).length ≤ fuel) : cbInst fuel r (cbResolve f ++ rest) = .ok (cbBuild f r, rest) := by
  induction f generalizing r rest fuel with
  | apply ret narg kwds f =>
    cases fuel with
    | zero => simp [cbResolve] at h
    | succ n => rfl
  | constant d =>
    cases fuel with
    | zero => simp [cbResolve] at h
    | succ n => rfl
  | left c ih =>
    cases fuel with
    | zero => simp [cbResolve] at h
    | succ n =>
      simp only [cbResolve, List.length_cons, List.cons_append, cbInst] at h ⊢
      rw [ih r.dataOnly rest n (by omega)]; rfl
  | right c ih =>
    cases fuel with
    | zero => simp [cbResolve] at h
    | succ n =>
      simp only [cbResolve, List.length_cons, List.cons_append, cbInst] at h ⊢
      rw [ih r.dataOnly rest n (by omega)]; rfl
  | forwardNa tests na c ih =>
    cases fuel with
    | zero => simp [cbResolve] at h
    | succ n =>
      simp only [cbResolve, List.length_cons, List.length_append, List.length_map, List.cons_append, cbInst,
        List.append_assoc] at h ⊢
      rw [ih .single _ n (by omega), Res.bind_ok]
      simp only
      rw [cbTakeNa_map, Res.bind_ok]
      rfl
  | state narg i cell c ih =>
    cases fuel with
    | zero => simp [cbResolve] at h
    | succ n =>
      simp only [cbResolve, List.length_cons, List.cons_append, cbInst] at h ⊢
      rw [ih r.dataOnly rest n (by omega)]; rfl
  | elw lv c ih =>
    cases fuel with
    | zero => simp [cbResolve] at h
    | succ n =>
      simp only [cbResolve, List.length_cons, List.cons_append, cbInst] at h ⊢
      rw [ih .strided rest n (by omega)]; rfl

theorem cbBuild_req {V σ : Type} (f : CbFn V σ) (r : CbReq) : (cbBuild f r).req = r := by
  cases f <;> rfl

theorem cbInst_self {V σ : Type} (f : CbFn V σ) (r : CbReq) :
    cbInst (cbResolve f).length r (cbResolve f) = .ok (cbBuild f r, []) := by
  have h := cbInst_resolve f r [] _ (Nat.le_refl _)
  rwa [List.append_nil] at h

/-! ## The loops -/

theorem cbEach_congr {W : Type} {f g : Nat → W → Res W} :
    ∀ (n : Nat) (w : W), (∀ k, k < n → ∀ w, f k w = g k w) → cbEach n f w = cbEach n g w
  | 0, _, _ => rfl
  | n + 1, w, h => by
    show (cbEach n f w).bind (f n) = (cbEach n g w).bind (g n)
    rw [cbEach_congr n w (fun k hk => h k (by omega))]
    congr 1
    funext w
    exact h n (by omega) w

theorem cbEach_shift {W : Type} (f : Nat → W → Res W) : ∀ (n : Nat) (w : W),
    cbEach (n + 1) f w = (f 0 w).bind fun w => cbEach n (fun k => f (k + 1)) w
  | 0, w => by
    show (Res.ok w).bind (f 0) = _
    simp only [Res.bind, cbEach]
    cases f 0 w <;> rfl
  | n + 1, w => by
    show (cbEach (n + 1) f w).bind (f (n + 1)) = _
    rw [cbEach_shift f n w]
    cases f 0 w <;> rfl

theorem cbAt_zero (src ss : List Int) (h : src.length ≤ ss.length) : cbAt src ss 0 = src := by
  unfold cbAt
  induction src generalizing ss with
  | nil => simp
  | cons a l ih =>
    cases ss with
    | nil => simp at h
    | cons b ss => simp only [List.length_cons] at h; rw [List.zipWith_cons_cons, ih ss (by omega)]; simp

theorem cbAt_succ (src ss : List Int) (k : Nat) :
    cbAt (List.zipWith (· + ·) src ss) ss k = cbAt src ss (k + 1) := by
  unfold cbAt
  induction src generalizing ss with
  | nil => simp
  | cons a l ih =>
    cases ss with
    | nil => simp
    | cons b ss =>
      simp only [List.zipWith_cons_cons, ih ss]
      congr 1
      rw [Int.add_assoc]; congr 1
      push_cast; rw [Int.add_mul, Int.one_mul, Int.add_comm]

theorem cbAt_length (src ss : List Int) (k : Nat) (h : src.length = ss.length) :
    (cbAt src ss k).length = src.length := by
  unfold cbAt; simp [h]

theorem cbLoop_eq {V σ : Type} (one : Int → List Int → CbWorld V σ → Res (CbWorld V σ)) (ds : Int) (ss : List Int) :
    ∀ (n : Nat) (dst : Int) (src : List Int) (w : CbWorld V σ), src.length = ss.length →
      cbLoop one ds ss n dst src w = cbEach n (fun k => one (dst + (k : Int) * ds) (cbAt src ss k)) w
  | 0, _, _, _, _ => rfl
  | n + 1, dst, src, w, h => by
    rw [cbEach_shift]
    show (one dst src w).bind _ = _
    simp only [Int.natCast_zero, Int.zero_mul, Int.add_zero, cbAt_zero src ss (by omega)]
    congr 1
    funext w
    rw [cbLoop_eq one ds ss n _ _ w (by simp [h])]
    refine cbEach_congr n w fun k _ w => ?_
    rw [cbAt_succ]
    congr 1
    rw [Int.add_assoc]; congr 1
    push_cast; rw [Int.add_mul, Int.one_mul, Int.add_comm]

/-! ## The kernels do what the functions mean -/

theorem cbForward_spec {V σ : Type} (child : Res (CbWorld V σ)) (na : V) (dst : Int) (src : List Int)
    (w : CbWorld V σ) : ∀ tests : List (Nat × (V → Bool)), (∀ t ∈ tests, t.1 < src.length) →
      cbForward child na dst src w tests =
        if tests.any (fun t => (src[t.1]?).any fun a => t.2 (w.mem a)) then
          .ok { mem := w.mem.put dst na, st := w.st } else child
  | [], _ => by simp [cbForward]
  | (i, t) :: ts, h => by
    have hi := h (i, t) (List.mem_cons_self ..)
    unfold cbForward
    rw [List.any_cons]
    simp only [List.getElem?_eq_getElem hi, Option.any_some]
    cases ht : t (w.mem src[i]) with
    | true => simp [CbWorld.put]
    | false =>
      rw [if_neg (by simp), cbForward_spec child na dst src w ts (fun t ht => h t (List.mem_cons_of_mem _ ht)), Bool.false_or]

theorem cbAt_insert (src ss : List Int) (i k : Nat) (cell : Int) (h : src.length = ss.length) (hi : i ≤ src.length) :
    cbAt (src.take i ++ cell :: src.drop i) (ss.take i ++ 0 :: ss.drop i) k =
      (cbAt src ss k).take i ++ cell :: (cbAt src ss k).drop i := by
  unfold cbAt
  rw [List.zipWith_append (by simp; omega), List.zipWith_cons_cons, List.take_zipWith, List.drop_zipWith]
  simp

/-- Both entries of the kernels of a function, for any memory and state. -/
theorem cbMethods_spec {V σ : Type} (f : CbFn V σ) : ∀ n, cbArity f n → ∀ (src ss : List Int), src.length = n →
    ss.length = n →
    (∀ r, r.dataOnly = .single → ∀ dst w, (cbMethods (cbBuild f r)).single dst src w = cbMeans f dst src w) ∧
    (∀ dst ds c w, (cbMethods (cbBuild f .strided)).strided dst ds src ss c w =
      cbEach c (fun k => cbMeans f (dst + (k : Int) * ds) (cbAt src ss k)) w) := by
  induction f with
  | apply ret narg kwds g =>
    intro n hn src ss h1 h2
    simp only [cbArity] at hn
    subst hn
    have one : ∀ src : List Int, src.length = n → ∀ dst (w : CbWorld V σ),
        cbApply ret n kwds g dst src w = cbMeans (.apply ret n kwds g) dst src w := by
      intro src h1 dst w
      unfold cbApply
      rw [if_neg (by omega), List.take_of_length_le (by omega)]
      cases ret <;> rfl
    refine ⟨fun r _ dst w => one src h1 dst w, fun dst ds c w => ?_⟩
    show cbLoop (cbApply ret n kwds g) ds (ss.take n) c dst (src.take n) w = _
    rw [List.take_of_length_le (by omega), List.take_of_length_le (by omega), cbLoop_eq _ _ _ _ _ _ _ (by omega)]
    exact cbEach_congr c w fun k _ w => one _ (by rw [cbAt_length _ _ _ (by omega), h1]) _ w
  | constant d =>
    intro n _ src ss h1 h2
    refine ⟨fun r hr dst w => ?_, fun dst ds c w => ?_⟩
    · show (if r.dataOnly = .single then _ else _) = _
      rw [if_pos hr]; rfl
    · show (if CbReq.strided = .strided then cbLoop _ ds [0] c dst [d] w else .ub) = _
      rw [if_pos rfl]
      refine (cbLoop_eq _ ds [0] c dst [d] w rfl).trans ?_
      refine cbEach_congr c w fun k _ w => ?_
      simp [cbAt, cbMeans, CbWorld.put]
  | left c ih =>
    intro n hn src ss h1 h2
    obtain ⟨rfl, hc⟩ := hn
    obtain ⟨s, rfl⟩ := List.length_eq_one_iff.1 h1
    obtain ⟨t, rfl⟩ := List.length_eq_one_iff.1 h2
    refine ⟨fun r hr dst w => ?_, fun dst ds m w => ?_⟩
    · show (if (cbBuild c r.dataOnly).req = .single then _ else _) = _
      rw [cbBuild_req, if_pos hr]
      exact (ih 2 hc [dst, s] [0, 0] rfl rfl).1 r.dataOnly (by rw [hr]; rfl) dst w
    · show (if (cbBuild c CbReq.strided).req = .strided then _ else _) = _
      rw [cbBuild_req, if_pos rfl]
      exact (ih 2 hc [dst, s] [ds, t] rfl rfl).2 dst ds m w
  | right c ih =>
    intro n hn src ss h1 h2
    obtain ⟨rfl, hc⟩ := hn
    obtain ⟨s, rfl⟩ := List.length_eq_one_iff.1 h1
    obtain ⟨t, rfl⟩ := List.length_eq_one_iff.1 h2
    refine ⟨fun r hr dst w => ?_, fun dst ds m w => ?_⟩
    · show (if (cbBuild c r.dataOnly).req = .single then _ else _) = _
      rw [cbBuild_req, if_pos hr]
      exact (ih 2 hc [s, dst] [0, 0] rfl rfl).1 r.dataOnly (by rw [hr]; rfl) dst w
    · show (if (cbBuild c CbReq.strided).req = .strided then _ else _) = _
      rw [cbBuild_req, if_pos rfl]
      exact (ih 2 hc [s, dst] [t, ds] rfl rfl).2 dst ds m w
  | forwardNa tests na c ih =>
    intro n hn src ss h1 h2
    obtain ⟨rfl, ht, hc⟩ := hn
    have one : ∀ src : List Int, src.length = 2 → ∀ dst (w : CbWorld V σ),
        cbForward ((cbMethods (cbBuild c .single)).asSingle (cbBuild c .single).req dst src w) na dst src w tests =
          cbMeans (.forwardNa tests na c) dst src w := by
      intro src h1 dst w
      rw [cbForward_spec _ _ _ _ _ _ (by rw [h1]; exact ht)]
      unfold cbMeans CbMethods.asSingle
      rw [cbBuild_req, if_pos rfl, (ih 2 hc src [0, 0] h1 rfl).1 .single rfl dst w]
    refine ⟨fun r _ dst w => one src h1 dst w, fun dst ds m w => ?_⟩
    show cbLoop (fun dst src w => cbForward ((cbMethods (cbBuild c .single)).asSingle (cbBuild c .single).req dst src w)
      na dst src w tests) ds (ss.take 2) m dst (src.take 2) w = _
    rw [List.take_of_length_le (by omega), List.take_of_length_le (by omega), cbLoop_eq _ _ _ _ _ _ _ (by omega)]
    exact cbEach_congr m w fun k _ w => one _ (by rw [cbAt_length _ _ _ (by omega), h1]) _ w
  | state narg i cell c ih =>
    intro n hn src ss h1 h2
    obtain ⟨rfl, hi, hc⟩ := hn
    have ins : ∀ (x : Int) (l : List Int), l.length = n → cbInsert n i x l = .ok (l.take i ++ x :: l.drop i) := by
      intro x l hl
      unfold cbInsert
      rw [if_neg (by omega), List.take_of_length_le (Nat.le_of_eq hl)]
    have len : ∀ (x : Int) (l : List Int), l.length = n → (l.take i ++ x :: l.drop i).length = n + 1 := by
      intro x l hl; simp; omega
    refine ⟨fun r hr dst w => ?_, fun dst ds m w => ?_⟩
    · show (cbInsert n i cell src).bind _ = _
      rw [ins cell src h1]
      show (if (cbBuild c r.dataOnly).req = .single then _ else _) = _
      rw [cbBuild_req, if_pos hr]
      exact (ih (n + 1) hc _ _ (len cell src h1) (len cell src h1)).1 r.dataOnly (by rw [hr]; rfl) dst w
    · show (cbInsert n i cell src).bind _ = _
      rw [ins cell src h1]
      show (cbInsert n i 0 ss).bind _ = _
      rw [ins 0 ss h2]
      show (if (cbBuild c CbReq.strided).req = .strided then _ else _) = _
      rw [cbBuild_req, if_pos rfl]
      refine ((ih (n + 1) hc _ _ (len cell src h1) (len 0 ss h2)).2 dst ds m w).trans ?_
      refine cbEach_congr m w fun k _ w => ?_
      rw [cbAt_insert src ss i k cell (by omega) (by omega)]
      rfl
  | elw lv c ih =>
    intro n hn src ss h1 h2
    obtain ⟨rfl, hc⟩ := hn
    have one : ∀ src : List Int, src.length = lv.srcStride.length → ∀ dst (w : CbWorld V σ),
        (cbMethods (cbBuild c .strided)).asStrided (cbBuild c .strided).req dst lv.dstStride src lv.srcStride lv.size w =
          cbMeans (.elw lv c) dst src w := by
      intro src h1 dst w
      unfold CbMethods.asStrided
      rw [cbBuild_req, if_pos rfl, (ih _ hc src lv.srcStride h1 rfl).2]
      rfl
    refine ⟨fun r _ dst w => one src h1 dst w, fun dst ds m w => ?_⟩
    show cbLoop (fun dst src w => (cbMethods (cbBuild c .strided)).asStrided (cbBuild c .strided).req dst lv.dstStride src
      lv.srcStride lv.size w) ds (ss.take _) m dst (src.take _) w = _
    rw [List.take_of_length_le (by omega), List.take_of_length_le (by omega), cbLoop_eq _ _ _ _ _ _ _ (by omega)]
    exact cbEach_congr m w fun k _ w => one _ (by rw [cbAt_length _ _ _ (by omega), h1]) _ w

/-- **C114**: a call of a function built from `apply` and the combinators does what its parts say. -/
theorem built_single_exact {V σ : Type} (f : CbFn V σ) (dst : Int) (src : List Int) (h : cbArity f src.length)
    (w : CbWorld V σ) : cbRunSingle f dst src w = cbMeans f dst src w := by
  unfold cbRunSingle
  simp only []
  rw [cbInst_self, Res.bind_ok]
  show (if _ then _ else _) = _
  rw [cbBuild_req, if_pos rfl]
  exact (cbMethods_spec f _ h src src rfl rfl).1 .single rfl dst w

/-- **C114**: the same for a call on arrays. -/
theorem built_call_exact {V σ : Type} (f : CbFn V σ) (dst : Int) (src : List Int) (h : cbArity f src.length)
    (w : CbWorld V σ) : cbRunCall f dst src w = cbMeans f dst src w := by
  unfold cbRunCall
  simp only []
  rw [cbInst_self, Res.bind_ok]
  show (if _ then _ else _) = _
  rw [cbBuild_req, if_pos rfl]
  exact (cbMethods_spec f _ h src src rfl rfl).1 .call rfl dst w

/-- **C114**: applied to a run of elements it does the same as applied to the elements one after the other, with any
    strides, even when the result overlaps the arguments, and with functions that keep state or throw. -/
theorem built_strided_exact {V σ : Type} (f : CbFn V σ) (dst ds : Int) (src ss : List Int) (n : Nat)
    (h : cbArity f src.length) (hs : ss.length = src.length) (w : CbWorld V σ) :
    cbRunStrided f dst ds src ss n w =
      cbEach n (fun k => cbRunSingle f (dst + (k : Int) * ds) (cbAt src ss k)) w := by
  unfold cbRunStrided
  simp only []
  rw [cbInst_self, Res.bind_ok]
  show (if _ then _ else _) = _
  rw [cbBuild_req, if_pos rfl]
  refine ((cbMethods_spec f _ h src ss rfl hs).2 dst ds n w).trans ?_
  refine cbEach_congr n w fun k _ w => ?_
  exact (built_single_exact f _ _ (by rw [cbAt_length _ _ _ hs.symm]; exact h) w).symm

/-! ## What this gives for each combinator -/

/-- A C++ function without state that does not throw, on its values. -/
def cbPure {V σ : Type} (g : List V → V) : CbCode V σ := fun args st => .ok (g args, st)

/-- **C114** (`apply`): with results apart from each other and from all arguments, element `k` of the result is the
    function of the arguments' elements `k` and the keywords, and nothing else changes. -/
theorem apply_elements {V σ : Type} (g : List V → V) (narg : Nat) (kwds : List V) (dst ds : Int) (src ss : List Int)
    (n : Nat) (h1 : src.length = narg) (h2 : ss.length = narg)
    (apart : ∀ j k, j < n → k < n → dst + (j : Int) * ds = dst + (k : Int) * ds → j = k)
    (clear : ∀ j k, j < n → k < n → dst + (j : Int) * ds ∉ cbAt src ss k) (w : CbWorld V σ) :
    ∃ w', cbRunStrided (.apply .value narg kwds (cbPure g)) dst ds src ss n w = .ok w' ∧ w'.st = w.st ∧
      (∀ k, k < n → w'.mem (dst + (k : Int) * ds) = g ((cbAt src ss k).map w.mem ++ kwds)) ∧
      (∀ a, (∀ k, k < n → a ≠ dst + (k : Int) * ds) → w'.mem a = w.mem a) := by
  have hE := built_strided_exact (.apply .value narg kwds (cbPure g)) dst ds src ss n (show src.length = narg from h1)
    (by omega) w
  rw [hE]
  have key : ∀ c, c ≤ n → ∃ w', cbEach c (fun k => cbRunSingle (.apply .value narg kwds (cbPure g))
        (dst + (k : Int) * ds) (cbAt src ss k)) w = .ok w' ∧ w'.st = w.st ∧
      (∀ k, k < c → w'.mem (dst + (k : Int) * ds) = g ((cbAt src ss k).map w.mem ++ kwds)) ∧
      (∀ a, (∀ k, k < c → a ≠ dst + (k : Int) * ds) → w'.mem a = w.mem a) := by
    intro c
    induction c with
    | zero => intro _; exact ⟨w, rfl, rfl, fun k hk => absurd hk (Nat.not_lt_zero _), fun _ _ => rfl⟩
    | succ c ih =>
      intro hc
      obtain ⟨w', e, e1, e2, e3⟩ := ih (by omega)
      refine ⟨{ mem := w'.mem.put (dst + (c : Int) * ds) (g ((cbAt src ss c).map w.mem ++ kwds)), st := w'.st }, ?_,
        e1, ?_, ?_⟩
      · show Res.bind _ _ = _
        rw [e]
        show cbRunSingle _ _ _ _ = _
        refine (built_single_exact _ _ _ (by
          show (cbAt src ss c).length = narg
          rw [cbAt_length _ _ _ (by omega), h1]) _).trans ?_
        show Res.ok _ = _
        have : (cbAt src ss c).map w'.mem = (cbAt src ss c).map w.mem := by
          refine List.map_congr_left fun a ha => e3 a fun k hk hak => ?_
          exact clear k c (by omega) (by omega) (hak ▸ ha)
        rw [this]
      · intro k hk
        show (if _ then _ else _) = _
        by_cases hkc : k = c
        · subst hkc; rw [if_pos rfl]
        · rw [if_neg (fun h => hkc (apart k c (by omega) (by omega) h))]
          exact e2 k (by omega)
      · intro a ha
        show (if _ then _ else _) = _
        rw [if_neg (ha c (by omega))]
        exact e3 a fun k hk => ha k (by omega)
  exact key n (Nat.le_refl _)

/-- **C114** (`left_compound`): into one place (stride zero), the elements are accumulated from the left:
    `dst = f(…f(f(dst, a0), a1)…)`. -/
theorem left_compound_accumulates {V σ : Type} (g : V → V → V) (d : V) (dst s t : Int) (n : Nat)
    (clear : ∀ k : Nat, k < n → s + (k : Int) * t ≠ dst) (w : CbWorld V σ) :
    cbRunStrided (.left (.apply .value 2 [] (cbPure fun l => match l with | [x, y] => g x y | _ => d)))
      dst 0 [s] [t] n w =
    .ok { mem := w.mem.put dst (((List.range n).map fun k : Nat => w.mem (s + (k : Int) * t)).foldl g (w.mem dst)),
          st := w.st } := by
  refine (built_strided_exact _ dst 0 [s] [t] n (by exact ⟨rfl, rfl⟩) rfl w).trans ?_
  induction n with
  | zero =>
    show Res.ok w = _
    cases w
    simp only [List.range_zero, List.map_nil, List.foldl_nil]
    congr 2
    funext b
    show _ = if _ then _ else _
    split
    · next h => rw [h]
    · rfl
  | succ n ih =>
    show (cbEach n _ w).bind _ = _
    rw [ih fun k hk => clear k (by omega)]
    show cbRunSingle _ _ _ _ = _
    refine (built_single_exact _ _ _ (by exact ⟨rfl, rfl⟩) _).trans ?_
    show Res.ok _ = _
    have h1 : ∀ v, (w.mem.put dst v) dst = v := fun v => if_pos rfl
    have h2 : ∀ v, (w.mem.put dst v) (s + (n : Int) * t) = w.mem (s + (n : Int) * t) :=
      fun v => if_neg (clear n (by omega))
    simp only [List.map_cons, List.map_nil, Int.mul_zero, Int.add_zero, cbAt, List.zipWith_cons_cons,
      List.zipWith_nil_left, List.append_nil, h1, h2, List.range_succ, List.map_append, List.foldl_append,
      List.foldl_cons, List.foldl_nil]
    congr 2
    funext b
    show (if _ then _ else _) = if _ then _ else _
    split
    · rfl
    · next hb => exact if_neg hb

/-- **C114** (`right_compound`): `dst = f(…f(a1, f(a0, dst))…)`. -/
theorem right_compound_accumulates {V σ : Type} (g : V → V → V) (d : V) (dst s t : Int) (n : Nat)
    (clear : ∀ k : Nat, k < n → s + (k : Int) * t ≠ dst) (w : CbWorld V σ) :
    cbRunStrided (.right (.apply .value 2 [] (cbPure fun l => match l with | [x, y] => g x y | _ => d)))
      dst 0 [s] [t] n w =
    .ok { mem := w.mem.put dst
            (((List.range n).map fun k : Nat => w.mem (s + (k : Int) * t)).foldl (fun acc a => g a acc) (w.mem dst)),
          st := w.st } := by
  refine (built_strided_exact _ dst 0 [s] [t] n (by exact ⟨rfl, rfl⟩) rfl w).trans ?_
  induction n with
  | zero =>
    show Res.ok w = _
    cases w
    simp only [List.range_zero, List.map_nil, List.foldl_nil]
    congr 2
    funext b
    show _ = if _ then _ else _
    split
    · next h => rw [h]
    · rfl
  | succ n ih =>
    show (cbEach n _ w).bind _ = _
    rw [ih fun k hk => clear k (by omega)]
    show cbRunSingle _ _ _ _ = _
    refine (built_single_exact _ _ _ (by exact ⟨rfl, rfl⟩) _).trans ?_
    show Res.ok _ = _
    have h1 : ∀ v, (w.mem.put dst v) dst = v := fun v => if_pos rfl
    have h2 : ∀ v, (w.mem.put dst v) (s + (n : Int) * t) = w.mem (s + (n : Int) * t) :=
      fun v => if_neg (clear n (by omega))
    simp only [List.map_cons, List.map_nil, Int.mul_zero, Int.add_zero, cbAt, List.zipWith_cons_cons,
      List.zipWith_nil_left, List.append_nil, List.cons_append, List.nil_append, h1, h2, List.range_succ,
      List.map_append, List.foldl_append, List.foldl_cons, List.foldl_nil]
    congr 2
    funext b
    show (if _ then _ else _) = if _ then _ else _
    split
    · rfl
    · next hb => exact if_neg hb

/-! ## The declared parameters of compound functions -/

/-- **C114, violated** (`left_compound`): for a function of two parameters, the argument `left_compound` asks for has
    the type of the first parameter although it is handed over as the second; what the child is given agrees with what
    it declares only when both parameters have the same type. -/
theorem left_compound_types_violated {T : Type} (a b ret : T) :
    (leftCompoundTypes [a, b] ret).1 = [some a] ∧
    ((leftCompoundTypes [a, b] ret).2 = [some a, some b] ↔ ret = a ∧ a = b) := by
  simp [leftCompoundTypes]

/-- **C114, violated** (`right_compound`): the argument asked for has the type of the second parameter and is handed
    over as the first.  A function of one parameter or of none gives undefined behaviour. -/
theorem right_compound_types_violated {T : Type} (a b ret : T) :
    (∃ d h, rightCompoundTypes [a, b] ret = .ok (d, h) ∧ d = [some b] ∧
      (h = [some a, some b] ↔ b = a ∧ ret = b)) ∧
    rightCompoundTypes ([] : List T) ret = .ub ∧ rightCompoundTypes [a] ret = .ub := by
  refine ⟨⟨_, _, rfl, rfl, ?_⟩, rfl, rfl⟩
  simp

/-- An `int32 += float64`: `left_compound` of a function `(int32, float64) -> int32` asks for an `int32` and has its
    child read it as a `float64`. -/
example : leftCompoundTypes ["int32", "float64"] "int32" = ([some "int32"], [some "int32", some "int32"]) := rfl

/-! ## Examples -/

/-- The sum of two numbers and a keyword. -/
def cbAdd : CbFn Int Nat :=
  .apply .value 2 [1000] fun l st => match l with | [x, y, k] => .ok (x + y + k, st + 1) | _ => .ub

/-- Addresses 0–9 hold 0, 10, 20, …. -/
def cbMem : CbWorld Int Nat := { mem := fun a => 10 * a, st := 0 }

/-- A function that may be called with missing values (`-1`), inside two loops. -/
def cbNested : CbFn Int Nat :=
  .elw { size := 2, dstStride := 10, srcStride := [1, 0] }
    (.forwardNa [(0, fun v => v == 30), (1, fun v => v == -1)] (-1) cbAdd)

example : cbArity cbNested 2 := by simp [cbArity, cbNested, cbAdd]

example : (cbRunSingle cbNested 100 [2, 5] cbMem).bind (fun w => .ok (w.mem 100, w.mem 110, w.st)) =
    .ok (20 + 50 + 1000, -1, 1) := by decide +kernel

example : (cbRunStrided (.left cbAdd) 100 0 [0] [1] 4 cbMem).bind (fun w => .ok (w.mem 100, w.st)) =
    .ok (1000 + 0 + 10 + 20 + 30 + 4 * 1000, 4) := by decide +kernel

example : ∀ k : Nat, k < 4 → (0 : Int) + (k : Int) * 1 ≠ 100 := by intro k hk; omega

example : (∀ j k, j < 4 → k < 4 → (100 : Int) + (j : Int) * 2 = 100 + (k : Int) * 2 → j = k) ∧
    (∀ j k : Nat, j < 4 → k < 4 → (100 : Int) + (j : Int) * 2 ∉ cbAt [0, 50] [1, 0] k) := by
  refine ⟨fun j k _ _ h => by omega, fun j k hj hk h => ?_⟩
  simp [cbAt] at h
  omega

/-- The same run over overlapping operands: each element sees the results before it. -/
example : (cbRunStrided cbAdd 1 1 [0, 1] [1, 1] 3 cbMem).bind (fun w => .ok (w.mem 1, w.mem 2, w.mem 3)) =
    .ok (1010, 2030, 3060) := by decide +kernel

end Dynd
