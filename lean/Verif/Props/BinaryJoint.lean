/-
C120: resolution, instantiation and run together, by induction over the dimensions.
-/
import Verif.Props.BinaryRuns

namespace Dynd

/-- the nodes `ns` of the dimensions are what resolution pushes -/
def ResolvesTo (a b r : List (Option Nat)) (ns : List ONode) : Prop :=
  ∀ (f : Ty → Ty → Ty → Res (List ONode × Ty)) (ea eb : Ty) (lf : List ONode) (rt : Ty), ea.ndim = 0 → eb.ndim = 0 →
    f (.kind .any) ea eb = .ok (lf, rt) →
    resolveDims2 f (max a.length b.length) (.kind .any) (arrTy a ea) (arrTy b eb) = .ok (ns ++ lf, arrTy r rt)

/-- the kernels built from `ns` combine two arrays -/
def Combines (a b r : List (Option Nat)) (ns : List ONode) : Prop :=
  ∀ {α β γ : Type} (op : α → β → γ) (src0 : USrc α) (src1 : USrc β) (sz : Nat), 0 < sz → ∀ (fuel : Nat) (lf : List ONode) (K : OTree),
    (∀ dm p0 p1, inst2 fuel lf dm p0 p1 = .ok ([], K)) →
    ∀ sm0 sm1 p0 p1, MetaFits a sm0 → MetaFits b sm1 → PtrOK a sm0 p0 → PtrOK b sm1 p1 →
    ∃ ls, inst2 fuel (ns ++ lf) (freshMeta sz r) p0 p1 = .ok (ls, K) ∧
      Inner op src0 src1 ls sm0 sm1 (freshMeta sz r) (dataSize sz r) (combine op (max a.length b.length) a.length b.length)

theorem ff_node {fuel : Nat} {b0 b1 : Bool} {n w : Nat} {ns lf : List ONode} {dm : List UMeta}
    {p0 p1 p0' p1' : Option (List UMeta)} {t0 t1 : Int} {ls : List BLevel} {K : OTree}
    (h0 : instSrcF b0 p0 = .ok (t0, p0')) (h1 : instSrcF b1 p1 = .ok (t1, p1'))
    (h : inst2 fuel (ns ++ lf) dm p0' p1' = .ok (ls, K)) (v0 v1 : Bool) :
    inst2 fuel (.elw .ff b0 b1 v0 v1 :: ns ++ lf) (.fixed n w :: dm) p0 p1 = .ok (.ff n w t0 t1 :: ls, K) := by
  show inst2 fuel (.elw .ff b0 b1 v0 v1 :: (ns ++ lf)) _ _ _ = _
  simp only [inst2]
  rw [h0, Res.bind_ok, h1, Res.bind_ok, h, Res.bind_ok]; rfl

theorem vf_node {fuel : Nat} {b0 b1 v0 v1 : Bool} {w : Nat} {ns lf : List ONode} {dm : List UMeta}
    {p0 p1 p0' p1' : Option (List UMeta)} {t0 t1 : BSrc} {ls : List BLevel} {K : OTree}
    (h0 : instSrcV b0 v0 p0 = .ok (t0, p0')) (h1 : instSrcV b1 v1 p1 = .ok (t1, p1'))
    (h : inst2 fuel (ns ++ lf) dm p0' p1' = .ok (ls, K)) :
    inst2 fuel (.elw .vf b0 b1 v0 v1 :: ns ++ lf) (.var w 0 :: dm) p0 p1 = .ok (.vf w 0 t0 t1 :: ls, K) := by
  show inst2 fuel (.elw .vf b0 b1 v0 v1 :: (ns ++ lf)) _ _ _ = _
  simp only [inst2]
  rw [h0, Res.bind_ok, h1, Res.bind_ok, h, Res.bind_ok]; rfl

theorem fv_node {fuel : Nat} {b0 b1 v0 v1 : Bool} {n w : Nat} {ns lf : List ONode} {dm : List UMeta}
    {p0 p1 p0' p1' : Option (List UMeta)} {t0 t1 : BSrc} {ls : List BLevel} {K : OTree}
    (h0 : instSrcV b0 v0 p0 = .ok (t0, p0')) (h1 : instSrcV b1 v1 p1 = .ok (t1, p1'))
    (h : inst2 fuel (ns ++ lf) dm p0' p1' = .ok (ls, K)) :
    inst2 fuel (.elw .fv b0 b1 v0 v1 :: ns ++ lf) (.fixed n w :: dm) p0 p1 = .ok (.fv n w t0 t1 :: ls, K) := by
  show inst2 fuel (.elw .fv b0 b1 v0 v1 :: (ns ++ lf)) _ _ _ = _
  simp only [inst2]
  rw [h0, Res.bind_ok, h1, Res.bind_ok, h, Res.bind_ok]; rfl

/-! ### Two dimensions -/

theorem common_fixed {n m N : Nat} (h : (n = m ∧ N = n) ∨ (n = 1 ∧ N = m) ∨ (m = 1 ∧ N = n)) :
    agreedSize n m = some N ∧ (n = 1 ∨ n = N) ∧ (m = 1 ∨ m = N) := by
  unfold agreedSize
  rcases h with ⟨h1, rfl⟩ | ⟨rfl, rfl⟩ | ⟨rfl, rfl⟩
  · rw [if_pos h1]; exact ⟨rfl, .inr rfl, .inr h1.symm⟩
  · refine ⟨?_, .inl rfl, .inr rfl⟩
    by_cases h : 1 = N
    · rw [if_pos h, h]
    · rw [if_neg h, if_pos rfl]
  · refine ⟨?_, .inr rfl, .inl rfl⟩
    by_cases h : N = 1
    · rw [if_pos h]
    · rw [if_neg h, if_neg h, if_pos rfl]

theorem both_ff {a b r : List (Option Nat)} {ns : List ONode} (hl : a.length = b.length) {n m N : Nat}
    (hN : (n = m ∧ N = n) ∨ (n = 1 ∧ N = m) ∨ (m = 1 ∧ N = n))
    (ha : Below (some n) (some m) a) (hb : Below (some m) (some n) b) (ih : Combines a b r ns) (v0 v1 : Bool) :
    Combines (some n :: a) (some m :: b) (some N :: r) (.elw .ff (n == 1) (m == 1) v0 v1 :: ns) := by
  intro α β γ op src0 src1 sz hsz fuel lf K hlf sm0 sm1 p0 p1 f0 f1 k0 k1
  obtain ⟨t0, p0', sm0', e0, g0, q0, w0⟩ := side_ff src0 f0 k0 (fun h => ha (.inl (by rw [h])))
  obtain ⟨t1, p1', sm1', e1, g1, q1, w1⟩ := side_ff src1 f1 k1 (fun h => hb (.inl (by rw [h])))
  obtain ⟨ls, e, hi⟩ := ih op src0 src1 sz hsz fuel lf K hlf sm0' sm1' p0' p1' g0 g1 q0 q1
  refine ⟨_, ff_node e0 e1 e v0 v1, ?_⟩
  intro d s0 s1 mm u v hu hv hr
  obtain ⟨c, c0, c1⟩ := common_fixed hN
  obtain ⟨l0, z0⟩ := w0 N c0 s0 u hu
  obtain ⟨l1, z1⟩ := w1 N c1 s1 v hv
  rw [List.length_cons, List.length_cons, combine_both op hl]
  exact run_ff hi z0 z1 (by rw [l0, l1]; exact c) hr

theorem fix_open {α : Type} (src : USrc α) (n : Nat) (st s : Int) :
    openSrc src (.fix n st) s = .ok { isVar := false, size := n, stride := st, base := s } := rfl

/-- a dimension as the type has it -/
def intDim : Option Nat → Option Int
  | some n => some n
  | none => none

theorem intDim_one (n : Nat) : (intDim (some n) == some 1) = (n == 1) := by
  by_cases h : n = 1
  · subst h; rfl
  · have h' : (n : Int) ≠ 1 := by omega
    have : intDim (some n) ≠ some 1 := fun e => h' (Option.some.inj e)
    rw [beq_eq_false_iff_ne.2 this, beq_eq_false_iff_ne.2 h]

theorem both_runs {a b r : List (Option Nat)} {ns : List ONode} (hl : a.length = b.length) {p q t : Option Nat}
    (hd : DimRes p q t) (ha : Below p q a) (hb : Below q p b) (ih : Combines a b r ns) (hr : ResolvesTo a b r ns) :
    ∃ ns', ResolvesTo (p :: a) (q :: b) (t :: r) ns' ∧ Combines (p :: a) (q :: b) (t :: r) ns' := by
  -- the types
  have ty : ∀ {p q t : Option Nat} {c : ElwClass} {g : Ty → Ty},
      DimsOp (intDim p) (intDim q) c g → (∀ x : Ty, g x = arrTy [t] x) →
      ResolvesTo (p :: a) (q :: b) (t :: r) (.elw c (intDim p == some 1) (intDim q == some 1)
        (intDim p).isNone (intDim q).isNone :: ns) := by
    intro p q t c g hc hg f ea eb lf rt he0 he1 hf
    have h1 := hr f ea eb lf rt he0 he1 hf
    have d0 : DimOf (arrTy (p :: a) ea) (intDim p) (arrTy a ea) := by
      cases p with
      | none => exact .var _
      | some n => exact .fixed _ _
    have d1 : DimOf (arrTy (q :: b) eb) (intDim q) (arrTy b eb) := by
      cases q with
      | none => exact .var _
      | some n => exact .fixed _ _
    have nn : ∀ x : Option Nat, ∀ n, (intDim x) = some n → 0 ≤ n := by
      intro x n h
      cases x with
      | none => cases h
      | some k => cases h; exact Int.natCast_nonneg k
    rw [← arr_ndim he0 a, ← arr_ndim he1 b] at h1
    have := dims2_step (f := f) d0 d1 (by rw [arr_ndim he0, arr_ndim he1, hl]) (nn p) (nn q) hc h1
    rw [arr_ndim he0, arr_ndim he1, hg] at this
    rw [this]
    cases t <;> rfl
  cases hd with
  | same n =>
    have := ty (p := some n) (q := some n) (t := some n) (.same (n : Int)) (fun x => rfl)
    refine ⟨_, this, ?_⟩
    rw [intDim_one]
    exact both_ff hl (.inl ⟨rfl, rfl⟩) ha hb ih _ _
  | left m =>
    have := ty (p := some 1) (q := some m) (t := some m) (.left (m : Int)) (fun x => rfl)
    refine ⟨_, this, ?_⟩
    rw [intDim_one, intDim_one]
    exact both_ff hl (.inr (.inl ⟨rfl, rfl⟩)) ha hb ih _ _
  | right n =>
    have := ty (p := some n) (q := some 1) (t := some n) (.right (n : Int)) (fun x => rfl)
    refine ⟨_, this, ?_⟩
    rw [intDim_one, intDim_one]
    exact both_ff hl (.inr (.inr ⟨rfl, rfl⟩)) ha hb ih _ _
  | varVar =>
    have := ty (p := none) (q := none) (t := none) .varVar (fun x => rfl)
    refine ⟨_, this, ?_⟩
    intro α β γ op src0 src1 sz hsz fuel lf K hlf sm0 sm1 p0 p1 f0 f1 k0 k1
    obtain ⟨t0, o0, p0', sm0', e0, g0, q0, w0⟩ := side_var src0 f0 k0
    obtain ⟨t1, o1, p1', sm1', e1, g1, q1, w1⟩ := side_var src1 f1 k1
    obtain ⟨ls, e, hi⟩ := ih op src0 src1 sz hsz fuel lf K hlf sm0' sm1' p0' p1' g0 g1 q0 q1
    refine ⟨_, vf_node e0 e1 e, ?_⟩
    intro d s0 s1 mm u v hu hv hr
    obtain ⟨x0, z0, _, y0⟩ := w0 s0 u hu
    obtain ⟨x1, z1, _, y1⟩ := w1 s1 v hv
    rw [List.length_cons, List.length_cons, combine_both op hl]
    exact run_vf hi z0 z1 y0 y1 hr
  | varOne =>
    have := ty (p := none) (q := some 1) (t := none) .varOne (fun x => rfl)
    refine ⟨_, this, ?_⟩
    intro α β γ op src0 src1 sz hsz fuel lf K hlf sm0 sm1 p0 p1 f0 f1 k0 k1
    obtain ⟨t0, o0, p0', sm0', e0, g0, q0, w0⟩ := side_var src0 f0 k0
    obtain ⟨sm1', g1, q1, w1⟩ := side_one src1 p1 f1 (hb (.inl rfl))
    obtain ⟨ls, e, hi⟩ := ih op src0 src1 sz hsz fuel lf K hlf sm0' sm1' p0' p1 g0 g1 q0 q1
    refine ⟨_, vf_node e0 (show instSrcV true false p1 = .ok (.fix 1 0, p1) from rfl) e, ?_⟩
    intro d s0 s1 mm u v hu hv hr
    obtain ⟨x0, z0, _, y0⟩ := w0 s0 u hu
    rw [List.length_cons, List.length_cons, combine_both op hl]
    exact run_vf hi z0 (fix_open src1 1 0 s1) y0 (w1 s1 v hv) hr
  | oneVar =>
    have := ty (p := some 1) (q := none) (t := none) .oneVar (fun x => rfl)
    refine ⟨_, this, ?_⟩
    intro α β γ op src0 src1 sz hsz fuel lf K hlf sm0 sm1 p0 p1 f0 f1 k0 k1
    obtain ⟨sm0', g0, q0, w0⟩ := side_one src0 p0 f0 (ha (.inl rfl))
    obtain ⟨t1, o1, p1', sm1', e1, g1, q1, w1⟩ := side_var src1 f1 k1
    obtain ⟨ls, e, hi⟩ := ih op src0 src1 sz hsz fuel lf K hlf sm0' sm1' p0 p1' g0 g1 q0 q1
    refine ⟨_, vf_node (show instSrcV true false p0 = .ok (.fix 1 0, p0) from rfl) e1 e, ?_⟩
    intro d s0 s1 mm u v hu hv hr
    obtain ⟨x1, z1, _, y1⟩ := w1 s1 v hv
    rw [List.length_cons, List.length_cons, combine_both op hl]
    exact run_vf hi (fix_open src0 1 0 s0) z1 (w0 s0 u hu) y1 hr
  | varFixed m hm =>
    have := ty (p := none) (q := some m) (t := some m) (.varFixed (m : Int) (by omega)) (fun x => rfl)
    refine ⟨_, this, ?_⟩
    intro α β γ op src0 src1 sz hsz fuel lf K hlf sm0 sm1 p0 p1 f0 f1 k0 k1
    obtain ⟨t0, o0, p0', sm0', e0, g0, q0, w0⟩ := side_var src0 f0 k0
    obtain ⟨t1, p1', sm1', e1, g1, q1, w1⟩ := side_fix src1 f1 k1 hm (hb (.inr ⟨by simp, rfl⟩))
    obtain ⟨ls, e, hi⟩ := ih op src0 src1 sz hsz fuel lf K hlf sm0' sm1' p0' p1' g0 g1 q0 q1
    have hb0 : (intDim (some m) == some 1) = false := by rw [intDim_one]; simpa using hm
    refine ⟨_, fv_node (b0 := false) (v0 := true) (b1 := intDim (some m) == some 1) (v1 := false) e0 (by rw [hb0]; exact e1) e, ?_⟩
    intro d s0 s1 mm u v hu hv hr
    obtain ⟨x0, z0, i0, y0⟩ := w0 s0 u hu
    rw [List.length_cons, List.length_cons, combine_both op hl]
    obtain ⟨c1, c2⟩ := fit_left (x0 := x0) (x1 := { isVar := false, size := m, stride := t1, base := s1 }) i0 rfl rfl hm
    exact run_fv hi z0 (fix_open src1 m t1 s1) y0 (w1 s1 v hv) c1 c2 hr
  | fixedVar n hm =>
    have := ty (p := some n) (q := none) (t := some n) (.fixedVar (n : Int) (by omega)) (fun x => rfl)
    refine ⟨_, this, ?_⟩
    intro α β γ op src0 src1 sz hsz fuel lf K hlf sm0 sm1 p0 p1 f0 f1 k0 k1
    obtain ⟨t0, p0', sm0', e0, g0, q0, w0⟩ := side_fix src0 f0 k0 hm (ha (.inr ⟨by simp, rfl⟩))
    obtain ⟨t1, o1, p1', sm1', e1, g1, q1, w1⟩ := side_var src1 f1 k1
    obtain ⟨ls, e, hi⟩ := ih op src0 src1 sz hsz fuel lf K hlf sm0' sm1' p0' p1' g0 g1 q0 q1
    have hb0 : (intDim (some n) == some 1) = false := by rw [intDim_one]; simpa using hm
    refine ⟨_, fv_node (b0 := intDim (some n) == some 1) (v0 := false) (b1 := false) (v1 := true) (by rw [hb0]; exact e0) e1 e, ?_⟩
    intro d s0 s1 mm u v hu hv hr
    obtain ⟨x1, z1, i1, y1⟩ := w1 s1 v hv
    rw [List.length_cons, List.length_cons, combine_both op hl]
    obtain ⟨c1, c2⟩ := fit_right (x1 := x1) (x0 := { isVar := false, size := n, stride := t0, base := s0 }) rfl i1 rfl hm
    exact run_fv hi (fix_open src0 n t0 s0) z1 (w0 s0 u hu) y1 c1 c2 hr

/-! ### A dimension of one operand only -/

theorem head_not_var {b : List (Option Nat)} {eb : Ty} (h : b.head? ≠ some none) (he : eb.ndim = 0) :
    ∀ el, arrTy b eb ≠ .varDim el := by
  intro el e
  match b with
  | [] =>
    have e' : eb = .varDim el := e
    rw [e'] at he
    simp [Ty.ndim] at he
  | none :: _ => exact h rfl
  | some n :: _ => cases e

theorem repOne_open {α : Type} (src : USrc α) {sm : List UMeta} {s : Int} {u : NestVal α} (h : val src sm s = some u) :
    Opened (val src sm) { isVar := false, size := 1, stride := 0, base := s } [u] :=
  ⟨rfl, viewList_zero h 1⟩

theorem repR_runs {a b r : List (Option Nat)} {ns : List ONode} (hl : b.length ≤ a.length) {p : Option Nat} (hp : Repeats p b)
    (ha : p = some 1 → ∀ x ∈ a, x = some 1) (ih : Combines a b r ns) (hr : ResolvesTo a b r ns) :
    ∃ ns', ResolvesTo (p :: a) b (p :: r) ns' ∧ Combines (p :: a) b (p :: r) ns' := by
  cases p with
  | some n =>
    refine ⟨.elw .ff (n == 1) true false false :: ns, ?_, ?_⟩
    · intro f ea eb lf rt he0 he1 hf
      have h1 := hr f ea eb lf rt he0 he1 hf
      rw [← arr_ndim he0 a, ← arr_ndim he1 b] at h1
      have := repeatR_step (n := (n : Int)) (Int.natCast_nonneg n) (by rw [arr_ndim he0, arr_ndim he1]; exact hl)
        (head_not_var hp.1 he1) h1
      rw [show Ty.fixedDim (n : Int) (arrTy a ea) = arrTy (some n :: a) ea from rfl, arr_ndim he0, arr_ndim he1] at this
      rw [this, ← intDim_one n]
      rfl
    · intro α β γ op src0 src1 sz hsz fuel lf K hlf sm0 sm1 p0 p1 f0 f1 k0 k1
      obtain ⟨t0, p0', sm0', e0, g0, q0, w0⟩ := side_ff src0 f0 k0 (fun h => ha (by rw [h]))
      obtain ⟨ls, e, hi⟩ := ih op src0 src1 sz hsz fuel lf K hlf sm0' sm1 p0' p1 g0 f1 q0 k1
      refine ⟨_, ff_node e0 (show instSrcF true p1 = .ok (0, p1) from rfl) e false false, ?_⟩
      intro d s0 s1 mm u v hu hv hrm
      obtain ⟨l0, z0⟩ := w0 n (.inr rfl) s0 u hu
      rw [List.length_cons, combine_repR op hl]
      refine run_ff hi z0 (side_rep src1 n s1 hv) ?_ hrm
      rw [l0]
      exact (common_fixed (.inr (.inr ⟨rfl, rfl⟩))).1
  | none =>
    have hh := hp.2 rfl
    obtain ⟨b', rfl⟩ : ∃ b', b = some 1 :: b' := by
      cases b with
      | nil => cases hh
      | cons x b' => simp only [List.head?_cons, Option.some.injEq] at hh; exact ⟨b', by rw [hh]⟩
    refine ⟨.elw .vf false true true false :: ns, ?_, ?_⟩
    · intro f ea eb lf rt he0 he1 hf
      have h1 := hr f ea eb lf rt he0 he1 hf
      have e1 : max (none :: a).length (some 1 :: b').length = max a.length (some 1 :: b').length + 1 := by
        simp only [List.length_cons] at hl ⊢; omega
      rw [e1]
      have hc : elwClass (.kind .any) (arrTy (none :: a) ea) (arrTy (some 1 :: b') eb) = .ok .vf := by
        simp [elwClass, arrTy, isVarId, varOrOne, anyVariadic]
      have i0 : argInfo (max a.length (some 1 :: b').length + 1) (arrTy (none :: a) ea) = .ok (false, -1, arrTy a ea) := by
        unfold argInfo
        rw [if_neg (by rw [arr_ndim he0]; simp only [List.length_cons] at hl ⊢; omega)]
        rfl
      have i1 : argInfo (max a.length (some 1 :: b').length + 1) (arrTy (some 1 :: b') eb) = .ok (true, 1, arrTy (some 1 :: b') eb) := by
        unfold argInfo
        rw [if_pos (by rw [arr_ndim he1]; omega)]
      exact dims2_core hc i0 i1 (s := 1) rfl (by simp [sizeClash]) h1
    · intro α β γ op src0 src1 sz hsz fuel lf K hlf sm0 sm1 p0 p1 f0 f1 k0 k1
      obtain ⟨t0, o0, p0', sm0', e0, g0, q0, w0⟩ := side_var src0 f0 k0
      obtain ⟨ls, e, hi⟩ := ih op src0 src1 sz hsz fuel lf K hlf sm0' sm1 p0' p1 g0 f1 q0 k1
      refine ⟨_, vf_node e0 (show instSrcV true false p1 = .ok (.fix 1 0, p1) from rfl) e, ?_⟩
      intro d s0 s1 mm u v hu hv hrm
      obtain ⟨x0, z0, _, y0⟩ := w0 s0 u hu
      rw [List.length_cons, combine_repR op hl]
      exact run_vf hi z0 (fix_open src1 1 0 s1) y0 (repOne_open src1 hv) hrm

theorem repL_runs {a b r : List (Option Nat)} {ns : List ONode} (hl : a.length ≤ b.length) {p : Option Nat} (hp : Repeats p a)
    (hb : p = some 1 → ∀ x ∈ b, x = some 1) (ih : Combines a b r ns) (hr : ResolvesTo a b r ns) :
    ∃ ns', ResolvesTo a (p :: b) (p :: r) ns' ∧ Combines a (p :: b) (p :: r) ns' := by
  cases p with
  | some n =>
    refine ⟨.elw .ff true (n == 1) false false :: ns, ?_, ?_⟩
    · intro f ea eb lf rt he0 he1 hf
      have h1 := hr f ea eb lf rt he0 he1 hf
      rw [← arr_ndim he0 a, ← arr_ndim he1 b] at h1
      have := repeatL_step (n := (n : Int)) (Int.natCast_nonneg n) (by rw [arr_ndim he0, arr_ndim he1]; exact hl)
        (head_not_var hp.1 he0) h1
      rw [show Ty.fixedDim (n : Int) (arrTy b eb) = arrTy (some n :: b) eb from rfl, arr_ndim he0, arr_ndim he1] at this
      rw [this, ← intDim_one n]
      rfl
    · intro α β γ op src0 src1 sz hsz fuel lf K hlf sm0 sm1 p0 p1 f0 f1 k0 k1
      obtain ⟨t1, p1', sm1', e1, g1, q1, w1⟩ := side_ff src1 f1 k1 (fun h => hb (by rw [h]))
      obtain ⟨ls, e, hi⟩ := ih op src0 src1 sz hsz fuel lf K hlf sm0 sm1' p0 p1' f0 g1 k0 q1
      refine ⟨_, ff_node (show instSrcF true p0 = .ok (0, p0) from rfl) e1 e false false, ?_⟩
      intro d s0 s1 mm u v hu hv hrm
      obtain ⟨l1, z1⟩ := w1 n (.inr rfl) s1 v hv
      rw [List.length_cons, combine_repL op hl]
      refine run_ff hi (side_rep src0 n s0 hu) z1 ?_ hrm
      rw [l1]
      exact (common_fixed (.inr (.inl ⟨rfl, rfl⟩))).1
  | none =>
    have hh := hp.2 rfl
    obtain ⟨a', rfl⟩ : ∃ a', a = some 1 :: a' := by
      cases a with
      | nil => cases hh
      | cons x a' => simp only [List.head?_cons, Option.some.injEq] at hh; exact ⟨a', by rw [hh]⟩
    refine ⟨.elw .vf true false false true :: ns, ?_, ?_⟩
    · intro f ea eb lf rt he0 he1 hf
      have h1 := hr f ea eb lf rt he0 he1 hf
      have e1 : max (some 1 :: a').length (none :: b).length = max (some 1 :: a').length b.length + 1 := by
        simp only [List.length_cons] at hl ⊢; omega
      rw [e1]
      have hc : elwClass (.kind .any) (arrTy (some 1 :: a') ea) (arrTy (none :: b) eb) = .ok .vf := by
        simp [elwClass, arrTy, isVarId, varOrOne, anyVariadic]
      have i1 : argInfo (max (some 1 :: a').length b.length + 1) (arrTy (none :: b) eb) = .ok (false, -1, arrTy b eb) := by
        unfold argInfo
        rw [if_neg (by rw [arr_ndim he1]; simp only [List.length_cons] at hl ⊢; omega)]
        rfl
      have i0 : argInfo (max (some 1 :: a').length b.length + 1) (arrTy (some 1 :: a') ea) = .ok (true, 1, arrTy (some 1 :: a') ea) := by
        unfold argInfo
        rw [if_pos (by rw [arr_ndim he0]; omega)]
      exact dims2_core hc i0 i1 (s := 1) rfl (by simp [sizeClash]) h1
    · intro α β γ op src0 src1 sz hsz fuel lf K hlf sm0 sm1 p0 p1 f0 f1 k0 k1
      obtain ⟨t1, o1, p1', sm1', e1, g1, q1, w1⟩ := side_var src1 f1 k1
      obtain ⟨ls, e, hi⟩ := ih op src0 src1 sz hsz fuel lf K hlf sm0 sm1' p0 p1' f0 g1 k0 q1
      refine ⟨_, vf_node (show instSrcV true false p0 = .ok (.fix 1 0, p0) from rfl) e1 e, ?_⟩
      intro d s0 s1 mm u v hu hv hrm
      obtain ⟨x1, z1, _, y1⟩ := w1 s1 v hv
      rw [show (none :: b).length = b.length + 1 from rfl, combine_repL op hl]
      exact run_vf hi (fix_open src0 1 0 s0) z1 (repOne_open src0 hu) y1 hrm

/-- Resolution, instantiation and run of every pair of arrays of `Bcast`. -/
theorem bcast_runs {a b r : List (Option Nat)} (h : Bcast a b r) : ∃ ns, ResolvesTo a b r ns ∧ Combines a b r ns := by
  induction h with
  | nil =>
    refine ⟨[], fun f ea eb lf rt _ _ hf => hf, ?_⟩
    intro α β γ op src0 src1 sz hsz fuel lf K hlf sm0 sm1 p0 p1 f0 f1 k0 k1
    cases f0; cases f1
    refine ⟨[], hlf _ _ _, ?_⟩
    intro d s0 s1 m u v hu hv hr
    simp only [val, viewArr, Option.map_eq_some_iff] at hu hv
    obtain ⟨x, hx, rfl⟩ := hu
    obtain ⟨y, hy, rfl⟩ := hv
    refine ⟨{ m with cells := putAt m.cells d (op x y) }, ?_, Int.le_refl _, hr.2.2, ?_, ?_⟩
    · simp only [run2, hx, hy]
    · intro c _ h
      refine ⟨rfl, ?_⟩
      simp only [putAt]
      rw [if_neg]
      simp only [dataSize] at h
      omega
    · intro cells recs h
      have := (h d (.inl (by simp only [dataSize]; omega))).2
      simp only [freshMeta, viewArr, this, putAt, if_true, Option.map_some]
  | both p q t hl hd ha hb _ ih =>
    obtain ⟨ns, h1, h2⟩ := ih
    exact both_runs hl hd ha hb h2 h1
  | repeatR p hl hp ha _ ih =>
    obtain ⟨ns, h1, h2⟩ := ih
    exact repR_runs hl hp ha h2 h1
  | repeatL p hl hp hb _ ih =>
    obtain ⟨ns, h1, h2⟩ := ih
    exact repL_runs hl hp hb h2 h1

end Dynd
