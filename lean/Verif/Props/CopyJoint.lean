/-
C121: resolution, instantiation and run of an assignment together, by induction over the dimensions.
-/
import Verif.Props.CopyRuns
import Verif.Props.AssignFnProps

namespace Dynd

/-- the nodes `ns` of the dimensions are what resolution pushes -/
def CopyResolves (a b : List (Option Nat)) (ns : List ANode) : Prop :=
  ∀ (f : Ty → Ty → Res (List ANode)) (ed es : Ty) (lf : List ANode), ed.ndim = 0 → es.ndim = 0 → ¬ IsDim es →
    f ed es = .ok lf → resolveDims f a.length (arrTy a ed) (arrTy b es) = .ok (ns ++ lf)

/-- the kernels built from `ns` assign -/
def CopyWorks (a b : List (Option Nat)) (ns : List ANode) : Prop :=
  ∀ {α β : Type} (op : α → Res β) (src : USrc α) (sz : Nat), 0 < sz → ∀ (fuel : Nat) (lf : List ANode) (K : KTree),
    (∀ dm p, instCp fuel lf dm p = .ok ([], K)) →
    ∀ sm p dm, MetaFits b sm → PtrOK b sm p → MetaFits a dm →
    ∃ ls, instCp fuel (ns ++ lf) dm p = .ok (ls, K) ∧ Copies op sz b.length dm (val src sm) (runCp op src ls)

theorem metaFits_length {a : List (Option Nat)} {dm : List UMeta} (h : MetaFits a dm) : dm.length = a.length := by
  induction h with
  | nil => rfl
  | fixed n s _ ih => simp [ih]
  | var s o _ ih => simp [ih]

section nodes
variable {fuel : Nat} {b v : Bool} {n : Nat} {ds o : Int} {ns lf : List ANode} {dm : List UMeta}
  {p p' : Option (List UMeta)} {ls : List CpLevel} {K : KTree}

theorem ffc_node {t : Int} (h0 : instSrcF b p = .ok (t, p')) (h : instCp fuel (ns ++ lf) dm p' = .ok (ls, K)) :
    instCp fuel (.elw false false b :: ns ++ lf) (.fixed n ds :: dm) p = .ok (.ff n ds t :: ls, K) := by
  show instCp fuel (.elw false false b :: (ns ++ lf)) _ _ = _
  simp only [instCp]
  rw [h0, Res.bind_ok, h, Res.bind_ok]; rfl

theorem fvc_node {t : BSrc} (h0 : instSrcV b true p = .ok (t, p')) (h : instCp fuel (ns ++ lf) dm p' = .ok (ls, K)) :
    instCp fuel (.elw false true b :: ns ++ lf) (.fixed n ds :: dm) p = .ok (.fv n ds t :: ls, K) := by
  show instCp fuel (.elw false true b :: (ns ++ lf)) _ _ = _
  simp only [instCp]
  rw [h0, Res.bind_ok, h, Res.bind_ok]; rfl

theorem vfc_node {t : BSrc} (h0 : instSrcV b v p = .ok (t, p')) (h : instCp fuel (ns ++ lf) dm p' = .ok (ls, K)) :
    instCp fuel (.elw true v b :: ns ++ lf) (.var ds o :: dm) p = .ok (.vf ds o t :: ls, K) := by
  show instCp fuel (.elw true v b :: (ns ++ lf)) _ _ = _
  simp only [instCp]
  rw [h0, Res.bind_ok, h, Res.bind_ok]; rfl

end nodes

/-! ### Kernels -/

section kernels
variable {α β : Type} {op : α → Res β} {src : USrc α} {sz k k' : Nat} {dm sm sm' : List UMeta} {r : List CpLevel}

theorem fit_one {x : VSrc} {n : Nat} (h : x.size = 1 ∨ x.size = n) : fitVar n [x] = .ok [useStride x] := by
  unfold useStride
  by_cases h1 : x.size = 1
  · cases hv : x.isVar <;> simp [fitVar, h1, hv]
  · have : x.size = n := by rcases h with h | h <;> [exact absurd h h1; exact h]
    subst this
    cases hv : x.isVar <;> simp [fitVar, h1, hv]

theorem fit_bad {x : VSrc} {n : Nat} (h : ¬ (x.size = 1 ∨ x.size = n)) : fitVar n [x] = .throw .broadcast := by
  rw [not_or] at h
  cases hv : x.isVar <;> simp [fitVar, h.1, hv, h.2]

theorem fitF_one {x : VSrc} {n : Nat} (hv : x.isVar = true) : fitFixed n [x] = fitVar n [x] := by
  simp [fitFixed, fitVar, hv]

theorem join_one (x : VSrc) : joinVar 1 [x] = .ok (x.size, [useStride x]) := by
  unfold useStride
  by_cases h1 : x.size = 1
  · cases hv : x.isVar <;> simp [joinVar, h1, hv]
  · cases hv : x.isVar <;> simp [joinVar, h1, hv]

/-- the sizes do not fit: a fixed dimension -/
theorem fill_bad {n : Nat} {st d : Int} {recs : Int → Option (Int × Nat)} {u : NestVal α} {xs : List (NestVal α)}
    (hx : xs = if k' ≤ dm.length then [u] else u.items) (h : ¬ (xs.length = 1 ∨ xs.length = n)) :
    fillWith op recs (.fixed n st :: dm) k' d u = .throw .broadcast := by
  simp only [fillWith, ← hx]
  rw [if_neg h]

theorem fill_bad_row {n : Nat} {st o d b : Int} {recs : Int → Option (Int × Nat)} {u : NestVal α} {xs : List (NestVal α)}
    (hd : recs d = some (b, n)) (hx : xs = if k' ≤ dm.length then [u] else u.items) (h : ¬ (xs.length = 1 ∨ xs.length = n)) :
    fillWith op recs (.var st o :: dm) k' d u = .throw .broadcast := by
  simp only [fillWith, hd, ← hx]
  rw [if_neg h]

/-- a `var` destination -/
theorem copies_vf (hsz : 0 < sz) (hb : Copies op sz k dm (val src sm') (runCp op src r)) (hk : min k' dm.length = k) {st o : Int}
    {t : BSrc} (hs : ∀ s u, val src sm s = some u → ∃ x, openSrc src t s = .ok x ∧
      Opened (val src sm') x (if k' ≤ dm.length then [u] else u.items)) :
    Copies op sz k' (.var st o :: dm) (val src sm) (runCp op src (.vf st o t :: r)) := by
  intro d s m u hu hr
  obtain ⟨x, e, hx⟩ := hs s u hu
  simp only [runCp]
  rw [e, Res.bind_ok]
  cases hd : m.recs d with
  | some p =>
    obtain ⟨b, n⟩ := p
    simp only []
    by_cases hl : x.size = 1 ∨ x.size = n
    · rw [fit_one hl, Res.bind_ok]
      exact gives_row hb rfl hk (by rw [← hx.1]; exact hl) (opened_stretch hx hl) hr hd
    · rw [fit_bad hl, fill_bad_row hd rfl (by rw [← hx.1]; exact hl)]
      rfl
  | none =>
    simp only []
    by_cases ho : o = 0
    · subst ho
      simp only [ne_eq, not_true_eq_false, if_false]
      rw [join_one, Res.bind_ok]
      have h0 := opened_stretch hx (n := x.size) (.inr rfl)
      rw [stretch_one hx.1.symm] at h0
      exact gives_new hsz hb rfl hk hx.1.symm h0 hr hd
    · simp only [fillWith, hd]
      rw [if_pos ho, if_pos ho]
      rfl

/-- a fixed destination, a `var` source -/
theorem copies_fv (hb : Copies op sz k dm (val src sm') (runCp op src r)) (hk : min k' dm.length = k) {n : Nat} {st : Int}
    {t : BSrc} (hs : ∀ s u, val src sm s = some u → ∃ x, openSrc src t s = .ok x ∧ x.isVar = true ∧
      Opened (val src sm') x (if k' ≤ dm.length then [u] else u.items)) :
    Copies op sz k' (.fixed n st :: dm) (val src sm) (runCp op src (.fv n st t :: r)) := by
  intro d s m u hu hr
  obtain ⟨x, e, hv, hx⟩ := hs s u hu
  simp only [runCp]
  rw [e, Res.bind_ok, fitF_one hv]
  by_cases hl : x.size = 1 ∨ x.size = n
  · rw [fit_one hl, Res.bind_ok]
    exact gives_fixed hb rfl hk (by rw [← hx.1]; exact hl) (opened_stretch hx hl) hr
  · rw [fit_bad hl, fill_bad rfl (by rw [← hx.1]; exact hl)]
    rfl

end kernels

/-- fixed to fixed -/
theorem copy_ff {a b : List (Option Nat)} {ns : List ANode} (hl : a.length = b.length) {n q : Nat} (hq : q = 1 ∨ q = n)
    (hb : Below (some q) (some n) b) (ih : CopyWorks a b ns) :
    CopyWorks (some n :: a) (some q :: b) (.elw false false (q == 1) :: ns) := by
  intro α β op src sz hsz fuel lf K hlf sm p dm f0 k0 f1
  cases f1 with
  | fixed _ st f1 =>
    rename_i dm
    have hdl := metaFits_length f1
    obtain ⟨t, p', sm', e0, g0, q0, w0⟩ := side_ff src f0 k0 (fun h => hb (.inl (by rw [h])))
    obtain ⟨ls, e, hi⟩ := ih op src sz hsz fuel lf K hlf sm' p' dm g0 q0 f1
    refine ⟨_, ffc_node e0 e, ?_⟩
    intro d s m u hu hr
    obtain ⟨l0, z0⟩ := w0 n hq s u hu
    have hx : u.items = if (some q :: b).length ≤ dm.length then [u] else u.items := by
      rw [if_neg (by simp only [List.length_cons]; omega)]
    exact gives_fixed hi hx (by simp only [List.length_cons]; omega) (by rw [l0]; exact hq) z0 hr

theorem copy_fv {a b : List (Option Nat)} {ns : List ANode} (hl : a.length = b.length) {n : Nat} (ih : CopyWorks a b ns) :
    CopyWorks (some n :: a) (none :: b) (.elw false true false :: ns) := by
  intro α β op src sz hsz fuel lf K hlf sm p dm f0 k0 f1
  cases f1 with
  | fixed _ st f1 =>
    rename_i dm
    have hdl := metaFits_length f1
    obtain ⟨st0, o0, p', sm', e0, g0, q0, w0⟩ := side_var src f0 k0
    obtain ⟨ls, e, hi⟩ := ih op src sz hsz fuel lf K hlf sm' p' dm g0 q0 f1
    refine ⟨_, fvc_node e0 e, copies_fv hi (by simp only [List.length_cons]; omega) ?_⟩
    intro s u hu
    rw [if_neg (by simp only [List.length_cons]; omega)]
    exact w0 s u hu

theorem copy_vv {a b : List (Option Nat)} {ns : List ANode} (hl : a.length = b.length) (ih : CopyWorks a b ns) :
    CopyWorks (none :: a) (none :: b) (.elw true true false :: ns) := by
  intro α β op src sz hsz fuel lf K hlf sm p dm f0 k0 f1
  cases f1 with
  | var st o f1 =>
    rename_i dm
    have hdl := metaFits_length f1
    obtain ⟨st0, o0, p', sm', e0, g0, q0, w0⟩ := side_var src f0 k0
    obtain ⟨ls, e, hi⟩ := ih op src sz hsz fuel lf K hlf sm' p' dm g0 q0 f1
    refine ⟨_, vfc_node e0 e, copies_vf hsz hi (by simp only [List.length_cons]; omega) ?_⟩
    intro s u hu
    rw [if_neg (by simp only [List.length_cons]; omega)]
    obtain ⟨x, h1, _, h3⟩ := w0 s u hu
    exact ⟨x, h1, h3⟩

theorem copy_vf {a b : List (Option Nat)} {ns : List ANode} (hl : a.length = b.length) {q : Nat}
    (hb : Below (some q) none b) (ih : CopyWorks a b ns) :
    CopyWorks (none :: a) (some q :: b) (.elw true false (q == 1) :: ns) := by
  intro α β op src sz hsz fuel lf K hlf sm p dm f0 k0 f1
  have hones : ∀ x ∈ b, x = some 1 := hb (.inr ⟨by simp, rfl⟩)
  cases f1 with
  | var st o f1 =>
    rename_i dm
    have hdl := metaFits_length f1
    by_cases h1 : q = 1
    · subst h1
      obtain ⟨sm', g0, q0, w0⟩ := side_one src p f0 hones
      obtain ⟨ls, e, hi⟩ := ih op src sz hsz fuel lf K hlf sm' p dm g0 q0 f1
      refine ⟨_, vfc_node (t := .fix 1 0) (p' := p) rfl e, copies_vf hsz hi (by simp only [List.length_cons]; omega) ?_⟩
      intro s u hu
      rw [if_neg (by simp only [List.length_cons]; omega)]
      exact ⟨_, rfl, w0 s u hu⟩
    · obtain ⟨st0, p', sm', e0, g0, q0, w0⟩ := side_fix src f0 k0 h1 hones
      obtain ⟨ls, e, hi⟩ := ih op src sz hsz fuel lf K hlf sm' p' dm g0 q0 f1
      have hq : (q == 1) = false := by simpa using h1
      rw [hq]
      refine ⟨_, vfc_node e0 e, copies_vf hsz hi (by simp only [List.length_cons]; omega) ?_⟩
      intro s u hu
      rw [if_neg (by simp only [List.length_cons]; omega)]
      exact ⟨_, rfl, w0 s u hu⟩

theorem copy_rep {a b : List (Option Nat)} {ns : List ANode} (hl : b.length ≤ a.length) (p : Option Nat) (ih : CopyWorks a b ns) :
    CopyWorks (p :: a) b (.elw p.isNone false true :: ns) := by
  intro α β op src sz hsz fuel lf K hlf sm pt dm f0 k0 f1
  cases f1 with
  | fixed n st f1 =>
    rename_i dm
    have hdl := metaFits_length f1
    obtain ⟨ls, e, hi⟩ := ih op src sz hsz fuel lf K hlf sm pt dm f0 k0 f1
    refine ⟨_, ffc_node (t := 0) (p' := pt) rfl e, ?_⟩
    intro d s m u hu hr
    have hx : [u] = if b.length ≤ dm.length then [u] else u.items := by rw [if_pos (by omega)]
    exact gives_fixed hi hx (by omega) (.inl rfl) (side_rep src n s hu) hr
  | var st o f1 =>
    rename_i dm
    have hdl := metaFits_length f1
    obtain ⟨ls, e, hi⟩ := ih op src sz hsz fuel lf K hlf sm pt dm f0 k0 f1
    refine ⟨_, vfc_node (t := .fix 1 0) (p' := pt) rfl e, copies_vf hsz hi (by omega) ?_⟩
    intro s u hu
    rw [if_pos (by omega)]
    refine ⟨_, rfl, rfl, ?_⟩
    show (val src sm s).bind _ = _
    rw [hu]; rfl

/-! ### Together -/

theorem arr_dimOf (p : Option Nat) (a : List (Option Nat)) (el : Ty) : DimOf (arrTy (p :: a) el) (intDim p) (arrTy a el) := by
  cases p with
  | none => exact .var _
  | some n => exact .fixed _ _

theorem arr_isVar {b : List (Option Nat)} {el : Ty} (h : b.head? ≠ some none) (he : ¬ IsDim el) : isVarDim (arrTy b el) = false := by
  match b, h with
  | [], _ =>
    cases el <;> first | rfl | exact absurd trivial he
  | some n :: _, _ => rfl

theorem intDim_isNone (p : Option Nat) : (intDim p).isNone = p.isNone := by cases p <;> rfl

theorem copy_joint {a b : List (Option Nat)} (h : CopyFits a b) : ∃ ns, CopyResolves a b ns ∧ CopyWorks a b ns := by
  induction h with
  | nil =>
    refine ⟨[], fun f ed es lf _ _ _ hf => hf, ?_⟩
    intro α β op src sz hsz fuel lf K hlf sm p dm f0 k0 f1
    cases f0
    cases f1
    refine ⟨[], hlf [] p, ?_⟩
    intro d s m u hu hr
    simp only [val, viewArr, Option.map_eq_some_iff] at hu
    obtain ⟨x, hx, rfl⟩ := hu
    simp only [runCp, hx, fillWith]
    cases e : op x with
    | throw c => simp only [Res.bind_throw, Gives]
    | ub => simp only [Res.bind_ub, Gives]
    | ok y =>
      simp only [Res.bind_ok]
      refine ⟨_, rfl, Int.le_refl _, hr.free, ?_, fun a _ _ => rfl, ?_⟩
      · intro a _ ha
        simp only [cellsAt, List.mem_singleton] at ha
        simp only [putAt]
        rw [if_neg ha]
      · intro cells recs hc _
        simp only [viewArr]
        rw [hc d (.inl (by simp [cellsAt]))]
        simp [putAt]
  | both p q hl hs hb h ih =>
    rename_i a b
    obtain ⟨ns, hr, hw⟩ := ih
    have hres : CopyResolves (p :: a) (q :: b) (.elw p.isNone q.isNone (intDim q == some 1) :: ns) := by
      intro f ed es lf z0 z1 z2 hf
      have h1 := hr f ed es lf z0 z1 z2 hf
      have hn : (arrTy (q :: b) es).ndim = (arrTy (p :: a) ed).ndim := by
        rw [arr_ndim z0, arr_ndim z1]; simp [hl]
      have hz : SizesFit (intDim p) (intDim q) := by
        cases hs with
        | same n => exact .inl rfl
        | one n => exact .inr rfl
        | toVar q => cases q <;> trivial
        | fromVar p => cases p <;> trivial
      rw [← arr_ndim z0 a] at h1
      have := dims_step (f := f) (arr_dimOf p a ed) (arr_dimOf q b es) hn hz h1
      rw [arr_ndim z0, intDim_isNone, intDim_isNone] at this
      exact this
    refine ⟨_, hres, ?_⟩
    cases hs with
    | same n => rw [intDim_one]; exact copy_ff hl (.inr rfl) hb hw
    | one n => rw [intDim_one]; exact copy_ff hl (.inl rfl) hb hw
    | toVar q =>
      cases q with
      | none => exact copy_vv hl hw
      | some q => rw [intDim_one]; exact copy_vf hl hb hw
    | fromVar p =>
      cases p with
      | none => exact copy_vv hl hw
      | some n => exact copy_fv hl hw
  | rep p hl hv h ih =>
    rename_i a b
    obtain ⟨ns, hr, hw⟩ := ih
    refine ⟨.elw p.isNone false true :: ns, ?_, copy_rep hl p hw⟩
    intro f ed es lf z0 z1 z2 hf
    have h1 := hr f ed es lf z0 z1 z2 hf
    rw [← arr_ndim z0 a] at h1
    have := bcast_step (f := f) (arr_dimOf p a ed) (s := arrTy b es)
      (by rw [arr_ndim z0, arr_ndim z1]; simp only [List.length_cons]; omega) h1
    rw [arr_ndim z0, intDim_isNone, arr_isVar hv z2] at this
    exact this

end Dynd
