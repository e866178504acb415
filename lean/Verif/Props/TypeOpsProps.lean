import Verif.Model.TypeOps
import Mathlib.Tactic.SplitIfs
/-
C94: replacing the dtype of an array type, new axes, `get_dtype`.
C95: canonical types.
C96: filling a shape into a symbolic array type.
-/
namespace Dynd
open Res

/-! ## Array types as stacks of dimensions over a dtype -/

/-- One layer of an array type: a dimension of known size, a `Fixed` dimension, a `var` dimension, or `?` applied to a
    whole array. -/
inductive Layer where
  | fixed (n : Int) | fixedKind | var | opt
  deriving DecidableEq, Repr

/-- The type with this layer on top. -/
def Layer.over : Layer → Ty → Ty
  | .fixed n, t => .fixedDim n t
  | .fixedKind, t => .fixedDimKind t
  | .var, t => .varDim t
  | .opt, t => .option t

/-- `3 * var * ?(2 * el)` is `stack [fixed 3, var, opt, fixed 2] el`. -/
def stack (ds : List Layer) (el : Ty) : Ty := ds.foldr Layer.over el

/-- How many of the layers are dimensions. -/
def dimCount (ds : List Layer) : Nat := ds.countP (· ≠ .opt)

/-- The layers end with a dimension (an option below the last dimension belongs to the dtype), and there is no option of an
    option. -/
structure Dimensions (ds : List Layer) : Prop where
  endsInDim : ds.getLast? ≠ some .opt
  noOptOpt : ∀ pre post, ds ≠ pre ++ [.opt, .opt] ++ post

/-- An array type none of whose dimensions is a type variable, `Dim`, an ellipsis or a power: those built from fixed, `Fixed`
    and `var` dimensions and options over any dtype. -/
inductive PlainDims : Ty → Prop where
  | scalar {t : Ty} (h : t.ndim = 0) (ho : ∀ u, t ≠ .option u) : PlainDims t
  | fixed (n : Int) {t : Ty} (h : PlainDims t) : PlainDims (.fixedDim n t)
  | fixedKind {t : Ty} (h : PlainDims t) : PlainDims (.fixedDimKind t)
  | var {t : Ty} (h : PlainDims t) : PlainDims (.varDim t)
  | opt {t : Ty} (h : PlainDims t) (ho : ∀ u, t ≠ .option u) : PlainDims (.option t)

@[simp] theorem stack_nil (el : Ty) : stack [] el = el := rfl
@[simp] theorem stack_cons (d : Layer) (ds : List Layer) (el : Ty) : stack (d :: ds) el = d.over (stack ds el) := rfl

theorem stack_append (as bs : List Layer) (el : Ty) : stack (as ++ bs) el = stack as (stack bs el) := by
  simp [stack]

theorem stack_ndim (ds : List Layer) (el : Ty) : (stack ds el).ndim = dimCount ds + el.ndim := by
  induction ds with
  | nil => simp [dimCount]
  | cons d ds ih =>
    cases d <;> simp [stack_cons, Layer.over, Ty.ndim, ih, dimCount, List.countP_cons] <;> unfold dimCount at * <;> omega

theorem Dimensions.tail {d : Layer} {ds : List Layer} (h : Dimensions (d :: ds)) : Dimensions ds := by
  refine ⟨?_, fun pre post he => h.noOptOpt (d :: pre) post (by rw [he]; rfl)⟩
  cases ds with
  | nil => simp
  | cons e es => have := h.endsInDim; simpa using this

theorem Dimensions.pos {d : Layer} {ds : List Layer} (h : Dimensions (d :: ds)) : 0 < dimCount (d :: ds) := by
  unfold dimCount
  rw [List.countP_pos_iff]
  have := h.endsInDim
  cases hl : (d :: ds).getLast? with
  | none => simp at hl
  | some x =>
    refine ⟨x, List.mem_of_getLast? hl, ?_⟩
    rw [hl] at this
    simpa using this

/-- option layers: what is below is not an option -/
theorem Dimensions.below_opt {ds : List Layer} (h : Dimensions (.opt :: ds)) (r : Ty) :
    mkOptionTy (stack ds r) = .ok (.option (stack ds r)) := by
  cases ds with
  | nil => exact absurd rfl h.endsInDim
  | cons d ds =>
    cases d with
    | opt => exact absurd rfl (h.noOptOpt [] ds)
    | _ => rfl

theorem Dimensions.dims {ds : List Layer} (h : ∀ d ∈ ds, d ≠ .opt) : Dimensions ds := by
  refine ⟨fun he => h _ (List.mem_of_getLast? he) rfl, fun pre post he => h .opt (by rw [he]; simp) rfl⟩

theorem dimCount_dim (d : Layer) (ds : List Layer) (hd : d ≠ .opt) : dimCount (d :: ds) = dimCount ds + 1 := by
  simp [dimCount, hd]
theorem dimCount_opt (ds : List Layer) : dimCount (.opt :: ds) = dimCount ds := by simp [dimCount]

/-- Every plain array type can be cut at every number `k` of dimensions to keep in the dtype. -/
theorem plain_cut {t : Ty} (h : PlainDims t) : ∀ k ≤ t.ndim, ∃ ds el, t = stack ds el ∧ Dimensions ds ∧ el.ndim = k ∧
    dimCount ds = t.ndim - k := by
  induction h with
  | @scalar t h ho =>
    intro k hk
    exact ⟨[], t, rfl, Dimensions.dims (by simp), by omega, by simp [dimCount]; omega⟩
  | @fixed n t h ih =>
    intro k hk
    by_cases hk' : k = t.ndim + 1
    · exact ⟨[], _, rfl, Dimensions.dims (by simp), by simp [Ty.ndim, hk'], by simp [dimCount, Ty.ndim]; omega⟩
    · obtain ⟨ds, el, rfl, hd, he, hc⟩ := ih k (by simp only [Ty.ndim] at hk; omega)
      refine ⟨.fixed n :: ds, el, rfl, ⟨?_, ?_⟩, he, ?_⟩
      · cases ds with
        | nil => simp
        | cons e es => simpa using hd.endsInDim
      · intro pre post hp
        cases pre with
        | nil => simp at hp
        | cons p pre => exact hd.noOptOpt pre post (by simpa using (List.cons.inj hp).2)
      · simp only [Ty.ndim] at hk ⊢; rw [dimCount_dim _ _ (by simp)]; omega
  | @fixedKind t h ih =>
    intro k hk
    by_cases hk' : k = t.ndim + 1
    · exact ⟨[], _, rfl, Dimensions.dims (by simp), by simp [Ty.ndim, hk'], by simp [dimCount, Ty.ndim]; omega⟩
    · obtain ⟨ds, el, rfl, hd, he, hc⟩ := ih k (by simp only [Ty.ndim] at hk; omega)
      refine ⟨.fixedKind :: ds, el, rfl, ⟨?_, ?_⟩, he, ?_⟩
      · cases ds with
        | nil => simp
        | cons e es => simpa using hd.endsInDim
      · intro pre post hp
        cases pre with
        | nil => simp at hp
        | cons p pre => exact hd.noOptOpt pre post (by simpa using (List.cons.inj hp).2)
      · simp only [Ty.ndim] at hk ⊢; rw [dimCount_dim _ _ (by simp)]; omega
  | @var t h ih =>
    intro k hk
    by_cases hk' : k = t.ndim + 1
    · exact ⟨[], _, rfl, Dimensions.dims (by simp), by simp [Ty.ndim, hk'], by simp [dimCount, Ty.ndim]; omega⟩
    · obtain ⟨ds, el, rfl, hd, he, hc⟩ := ih k (by simp only [Ty.ndim] at hk; omega)
      refine ⟨.var :: ds, el, rfl, ⟨?_, ?_⟩, he, ?_⟩
      · cases ds with
        | nil => simp
        | cons e es => simpa using hd.endsInDim
      · intro pre post hp
        cases pre with
        | nil => simp at hp
        | cons p pre => exact hd.noOptOpt pre post (by simpa using (List.cons.inj hp).2)
      · simp only [Ty.ndim] at hk ⊢; rw [dimCount_dim _ _ (by simp)]; omega
  | @opt t h ho ih =>
    intro k hk
    by_cases hk' : k = t.ndim
    · exact ⟨[], _, rfl, Dimensions.dims (by simp), by simp [Ty.ndim, hk'], by simp [dimCount, Ty.ndim]; omega⟩
    · obtain ⟨ds, el, rfl, hd, he, hc⟩ := ih k (by simpa [Ty.ndim] using hk)
      have hne : ds ≠ [] := by rintro rfl; exact hk' (by simpa using he.symm)
      obtain ⟨d, es, rfl⟩ := List.exists_cons_of_ne_nil hne
      have hd0 : d ≠ .opt := by rintro rfl; exact ho _ rfl
      refine ⟨.opt :: d :: es, el, rfl, ⟨?_, ?_⟩, he, ?_⟩
      · simpa using hd.endsInDim
      · intro pre post hp
        cases pre with
        | nil => simp at hp; exact hd0 hp.1
        | cons p pre => exact hd.noOptOpt pre post (by simpa using (List.cons.inj hp).2)
      · simp only [Ty.ndim] at hk ⊢; rw [dimCount_opt]; exact hc

/-! ## C94 -/

theorem atDim_zero (t : Ty) : t.atDim 0 = .ok t := by cases t <;> rfl

private theorem atDim_stack : ∀ (ds : List Layer) (el : Ty), Dimensions ds →
    (stack ds el).atDim (dimCount ds) = .ok el
  | [], el, _ => atDim_zero el
  | d :: ds, el, h => by
    have ih := atDim_stack ds el h.tail
    have hp := h.pos
    cases d with
    | opt =>
      have e1 : dimCount (.opt :: ds) = dimCount ds := by simp [dimCount]
      rw [e1] at hp ⊢
      obtain ⟨m, hm⟩ : ∃ m, dimCount ds = m + 1 := ⟨dimCount ds - 1, by omega⟩
      rw [hm] at ih ⊢
      simpa [stack_cons, Layer.over, Ty.atDim] using ih
    | _ =>
      all_goals
        have e1 : ∀ d : Layer, d ≠ .opt → dimCount (d :: ds) = dimCount ds + 1 := by
          intro d hd; simp [dimCount, hd]
        rw [e1 _ (by simp)]
        simpa [stack_cons, Layer.over, Ty.atDim] using ih

/-- **C94**: `get_dtype(k)` of an array type is what is left below its dimensions when `k` dimensions are kept, for every
    stack of dimensions and every dtype. -/
theorem get_dtype_exact (ds : List Layer) (el : Ty) (h : Dimensions ds) :
    (stack ds el).getDtype el.ndim = .ok el := by
  unfold Ty.getDtype
  rw [stack_ndim]
  cases ds with
  | nil => simp [dimCount]
  | cons d ds =>
    have hp := h.pos
    rw [if_neg (by omega), if_pos (by omega), Nat.add_sub_cancel]
    exact atDim_stack _ _ h

/-- **C94**: asking for more dimensions than the type has raises `type_error`. -/
theorem get_dtype_too_many (t : Ty) (k : Nat) (h : t.ndim < k) : t.getDtype k = .throw .typeError := by
  unfold Ty.getDtype
  rw [if_neg (by omega), if_neg (by omega)]

private theorem transform_stack (stop : Ty → Option (Res (Option Ty × Bool))) (r el : Ty) :
    ∀ (ds : List Layer), Dimensions ds → (∀ ds' , ds' <:+ ds → ds' ≠ [] → stop (stack ds' el) = none) →
      stop el = some (.ok (some r, true)) → transformWith stop (stack ds el) = .ok (some (stack ds r), true)
  | [], _, _, he => by rw [stack_nil, transformWith.eq_def, he]; rfl
  | d :: ds, h, hs, he => by
    have ih := transform_stack stop r el ds h.tail (fun ds' h1 h2 => hs ds' (h1.trans (List.suffix_cons _ _)) h2) he
    have h0 := hs (d :: ds) (List.suffix_refl _) (by simp)
    rw [transformWith.eq_def, h0]
    cases d with
    | opt =>
      simp only [stack_cons, Layer.over, ih, bind_ok, rebuild]
      rw [h.below_opt]; rfl
    | _ => simp only [stack_cons, Layer.over, ih, bind_ok, rebuild, pure_eq]

theorem Dimensions.suffix {ds' ds : List Layer} (h : Dimensions ds) (hs : ds' <:+ ds) : Dimensions ds' := by
  obtain ⟨p, rfl⟩ := hs
  induction p with
  | nil => exact h
  | cons x p ih => exact ih (Dimensions.tail h)

theorem suffix_ndim {ds' ds : List Layer} (h : Dimensions ds) (hs : ds' <:+ ds) (hn : ds' ≠ []) (el : Ty) :
    (stack ds' el).ndim ≠ el.ndim := by
  rw [stack_ndim]
  obtain ⟨d, es, rfl⟩ := List.exists_cons_of_ne_nil hn
  have := (h.suffix hs).pos
  omega

/-- **C94**: `with_replaced_dtype(r, k)` puts `r` in the place of the dtype (with `k` dimensions counted into it) and keeps
    every dimension and option above it, for every stack of dimensions, dtype and replacement. -/
theorem replaced_dtype_exact (ds : List Layer) (el r : Ty) (h : Dimensions ds) :
    (stack ds el).withReplacedDtype r el.ndim = .ok (stack ds r) := by
  unfold Ty.withReplacedDtype
  rw [transform_stack _ r el ds h]
  · rfl
  · intro ds' h1 h2
    rw [if_neg (suffix_ndim h h1 h2 el)]
  · simp

/-- The same for every plain array type and every `k` up to its number of dimensions: the result has `r` as its dtype and
    the number of dimensions adds up; replacing the dtype by itself changes nothing; the last of two replacements wins. -/
theorem replaced_dtype_laws (t r : Ty) (h : PlainDims t) (k : Nat) (hk : k ≤ t.ndim) :
    ∃ u, t.withReplacedDtype r k = .ok u ∧ u.ndim = t.ndim - k + r.ndim ∧ u.getDtype r.ndim = .ok r ∧
      (∃ d, t.getDtype k = .ok d ∧ t.withReplacedDtype d k = .ok t) ∧
      (∀ r', u.withReplacedDtype r' r.ndim = t.withReplacedDtype r' k) := by
  obtain ⟨ds, el, rfl, hd, rfl, hc⟩ := plain_cut h k hk
  refine ⟨stack ds r, replaced_dtype_exact ds el r hd, ?_, get_dtype_exact ds r hd, ⟨el, get_dtype_exact ds el hd,
    replaced_dtype_exact ds el el hd⟩, fun r' => ?_⟩
  · rw [stack_ndim, hc]
  · rw [replaced_dtype_exact ds r r' hd, replaced_dtype_exact ds el r' hd]

private theorem newAxes_eq (el : Ty) : ∀ n, newAxes el n = stack (List.replicate n (.fixed 1)) el
  | 0 => rfl
  | 1 => rfl
  | n + 2 => by
    rw [newAxes, newAxes_eq el (n + 1)]; rfl

/-- **C94**: `with_new_axis(i, n)` inserts `n` dimensions of size one below the first `i` dimensions and keeps everything
    else. -/
theorem new_axis_type_exact (ds : List Layer) (el : Ty) (h : Dimensions ds) (n : Nat) :
    (stack ds el).withNewAxis (dimCount ds) n = .ok (stack (ds ++ List.replicate n (.fixed 1)) el) := by
  unfold Ty.withNewAxis
  rw [atDim_stack ds el h, bind_ok, if_neg (by rw [stack_ndim]; omega), newAxes_eq, stack_ndim,
    show dimCount ds + el.ndim - dimCount ds = el.ndim by omega, replaced_dtype_exact ds el _ h, stack_append]

/-- … for every plain array type and every axis position up to its number of dimensions: the number of dimensions grows by
    `n`, and below the new ones is what was below the first `i`. -/
theorem new_axis_type_laws (t : Ty) (h : PlainDims t) (i n : Nat) (hi : i ≤ t.ndim) :
    ∃ u, t.withNewAxis i n = .ok u ∧ u.ndim = t.ndim + n ∧ (0 < n → u.atDim (i + n) = t.atDim i) := by
  obtain ⟨ds, el, rfl, hd, he, hc⟩ := plain_cut h (t.ndim - i) (by omega)
  have hc' : dimCount ds = i := by omega
  have hr : dimCount (List.replicate n (Layer.fixed 1)) = n := by
    unfold dimCount; rw [List.countP_replicate]; simp
  have hn := new_axis_type_exact ds el hd n
  rw [hc'] at hn
  refine ⟨_, hn, ?_, fun hn0 => ?_⟩
  · rw [stack_ndim, stack_ndim]
    have : dimCount (ds ++ List.replicate n (Layer.fixed 1)) = dimCount ds + n := by
      unfold dimCount at *; rw [List.countP_append, hr]
    omega
  · have hD : Dimensions (ds ++ List.replicate n (.fixed 1)) := by
      refine ⟨?_, ?_⟩
      · rw [List.getLast?_append]
        cases n with
        | zero => omega
        | succ n => simp [List.getLast?_replicate]
      · intro pre post hp
        have hl : ds ++ List.replicate n (.fixed 1) = pre ++ ([.opt, .opt] ++ post) := by rw [hp]; simp
        rw [List.append_eq_append_iff] at hl
        rcases hl with ⟨a, h1, h2⟩ | ⟨a, h1, h2⟩
        · have : Layer.opt ∈ List.replicate n (Layer.fixed 1) := by rw [h2]; simp
          simp at this
        · cases a with
          | nil =>
            simp only [List.nil_append] at h2
            have : Layer.opt ∈ List.replicate n (Layer.fixed 1) := by rw [← h2]; simp
            simp at this
          | cons x a =>
            cases a with
            | nil =>
              simp only [List.cons_append, List.nil_append, List.cons.injEq] at h2
              obtain ⟨-, h3⟩ := h2
              have : Layer.opt ∈ List.replicate n (Layer.fixed 1) := by rw [← h3]; simp
              simp at this
            | cons y a =>
              simp only [List.cons_append, List.nil_append, List.cons.injEq] at h2
              obtain ⟨rfl, rfl, -⟩ := h2
              exact hd.noOptOpt pre a (by rw [h1]; simp)
    have e : dimCount (ds ++ List.replicate n (Layer.fixed 1)) = i + n := by
      unfold dimCount at *; rw [List.countP_append, hr]; omega
    have := atDim_stack _ el hD
    rw [e] at this
    rw [this, ← hc', atDim_stack ds el hd]

/-- C94 is violated by the symbolic dimensions: replacing the dtype of `N * int32`, `Dim * int32`, `Dims... * int32` is
    accepted and returns the type unchanged. -/
theorem replaced_dtype_symbolic_violated (el r : Ty) (s : String) (k : Nat) (hk : k ≤ el.ndim) :
    (Ty.typevarDim s el).withReplacedDtype r k = .ok (.typevarDim s el) ∧
    (Ty.dimKind el).withReplacedDtype r k = .ok (.dimKind el) ∧
    (Ty.ellipsis s el).withReplacedDtype r k = .ok (.ellipsis s el) := by
  have h : ¬ (el.ndim + 1 = k) := by omega
  refine ⟨?_, ?_, ?_⟩ <;> simp [Ty.withReplacedDtype, transformWith, Ty.ndim, h, outTy]

private theorem transform_stack_ub (stop : Ty → Option (Res (Option Ty × Bool))) (b : BTy) :
    ∀ (ds : List Layer), (∀ ds', ds' <:+ ds → stop (stack ds' (.prim b)) = none) →
      transformWith stop (stack ds (.prim b)) = .ub
  | [], hs => by
    have h0 := hs [] (List.suffix_refl _)
    rw [transformWith.eq_def, h0]
    rfl
  | d :: ds, hs => by
    have ih := transform_stack_ub stop b ds (fun ds' h1 => hs ds' (h1.trans (List.suffix_cons _ _)))
    have h0 := hs (d :: ds) (List.suffix_refl _)
    rw [transformWith.eq_def, h0]
    cases d <;> simp only [stack_cons, Layer.over, ih, bind_ub]

/-- C94 is violated for a dtype of too many dimensions: where `get_dtype` raises `type_error`, replacing more dimensions than
    there are above a builtin dtype dereferences a type object that does not exist. -/
theorem replaced_dtype_too_many_violated (ds : List Layer) (b : BTy) (r : Ty) (k : Nat)
    (hk : (stack ds (.prim b)).ndim < k) : (stack ds (.prim b)).withReplacedDtype r k = .ub := by
  unfold Ty.withReplacedDtype
  rw [transform_stack_ub]
  · rfl
  · rintro ds' ⟨p, rfl⟩
    rw [if_neg]
    rw [stack_append, stack_ndim] at hk
    omega

/-- … so constructing an array of a type with more dimensions from values with fewer, `nd::array(5, "3 * int32")`, does the
    same; with fewer dimensions in the type it keeps the leading dimensions of the values. -/
theorem array_from_type (ds : List Layer) (el tp : Ty) (b : BTy) (h : Dimensions ds) :
    (el.ndim = tp.ndim → ds ≠ [] → arrayFromTy (stack ds el) tp = .ok (stack ds tp)) ∧
    ((stack ds el).ndim = tp.ndim → arrayFromTy (stack ds el) tp = .ok tp) ∧
    ((stack ds (.prim b)).ndim < tp.ndim → arrayFromTy (stack ds (.prim b)) tp = .ub) := by
  unfold arrayFromTy
  refine ⟨fun he hn => ?_, fun he => if_pos he, fun hl => ?_⟩
  · rw [if_neg (by rw [← he]; exact suffix_ndim h (List.suffix_refl _) hn el), ← he]
    exact replaced_dtype_exact ds el tp h
  · rw [if_neg (by omega)]
    exact replaced_dtype_too_many_violated ds b tp tp.ndim hl

/-- **C94**: `replace_dtype` of an array keeps the array as it is if the dtype is equal, changes the type as
    `with_replaced_dtype` does if the data layouts are compatible, and raises an exception otherwise. -/
theorem array_replace_dtype_exact (compat : Ty → Ty → Bool) (ds : List Layer) (el r : Ty) (h : Dimensions ds) :
    (tyEq el r = true → arrayReplaceDtype compat (stack ds el) r el.ndim = .ok none) ∧
    (tyEq el r = false → compat el r = true →
      arrayReplaceDtype compat (stack ds el) r el.ndim = .ok (some (stack ds r))) ∧
    (tyEq el r = false → compat el r = false →
      arrayReplaceDtype compat (stack ds el) r el.ndim = .throw .runtime) := by
  have hs : ∀ ds', ds' <:+ ds → ds' ≠ [] → (stack ds' el).ndim ≠ el.ndim := fun ds' h1 h2 => suffix_ndim h h1 h2 el
  unfold arrayReplaceDtype
  refine ⟨fun he => ?_, fun he hc => ?_, fun he hc => ?_⟩
  · have key : ∀ es : List Layer, es <:+ ds → ∃ o, transformWith (fun u => if u.ndim = el.ndim then
        (if tyEq u r then some (.ok (none, false))
         else if compat u r then some (.ok (some r, true)) else some (.throw .runtime)) else none) (stack es el) =
        .ok (o, false) := by
      intro es hes
      induction es with
      | nil => exact ⟨none, by rw [stack_nil, transformWith.eq_def]; simp [he]⟩
      | cons d es ih =>
        obtain ⟨o, ho⟩ := ih ((List.suffix_cons _ _).trans hes)
        have h0 := hs _ hes (by simp)
        refine ⟨some (stack (d :: es) el), ?_⟩
        rw [transformWith.eq_def]
        simp only [if_neg h0]
        cases d <;> simp only [stack_cons, Layer.over, ho, bind_ok, rebuild]
    obtain ⟨o, ho⟩ := key ds (List.suffix_refl _)
    rw [ho, bind_ok]; cases o <;> rfl
  · rw [transform_stack _ r el ds h]
    · rfl
    · intro ds' h1 h2; rw [if_neg (hs ds' h1 h2)]
    · simp [he, hc]
  · have key : ∀ es : List Layer, es <:+ ds → transformWith (fun u => if u.ndim = el.ndim then
        (if tyEq u r then some (.ok (none, false))
         else if compat u r then some (.ok (some r, true)) else some (.throw .runtime)) else none) (stack es el) =
        .throw .runtime := by
      intro es hes
      induction es with
      | nil => rw [stack_nil, transformWith.eq_def]; simp [he, hc]
      | cons d es ih =>
        have ho := ih ((List.suffix_cons _ _).trans hes)
        have h0 := hs _ hes (by simp)
        rw [transformWith.eq_def]
        simp only [if_neg h0]
        cases d <;> simp only [stack_cons, Layer.over, ho, bind_throw]
    rw [key ds (List.suffix_refl _)]; rfl

/-- C94 is violated by `replace_dtype` inside a struct: replacing the one-dimensional parts of
    `{x: 3 * int32, y: 3 * float32}` by `3 * float32` turns the type of the field `y`, which is already right, into `type`:
    its floats are then read as type objects. -/
theorem array_replace_dtype_struct_violated :
    arrayReplaceDtype (fun _ _ => true)
      (.struct ["x", "y"] [.fixedDim 3 (.prim (.int .w32)), .fixedDim 3 (.prim (.flt .f32))] false)
      (.fixedDim 3 (.prim (.flt .f32))) 1 =
    .ok (some (.struct ["x", "y"] [.fixedDim 3 (.prim (.flt .f32)), .leaf .typeT] false)) := by
  simp [arrayReplaceDtype, transformWith, transformFields, Ty.ndim, tyEq]

/-- Concrete cases: `3 * var * ?int32` with `float64`; keeping one dimension; a new axis; an option of an array. -/
example : (Ty.fixedDim 3 (.varDim (.option (.prim (.int .w32))))).withReplacedDtype (.prim (.flt .f64)) 0 =
      .ok (.fixedDim 3 (.varDim (.prim (.flt .f64)))) ∧
    (Ty.fixedDim 3 (.option (.varDim (.prim (.int .w32))))).withReplacedDtype (.prim (.flt .f64)) 0 =
      .ok (.fixedDim 3 (.option (.varDim (.prim (.flt .f64))))) ∧
    (Ty.fixedDim 3 (.varDim (.prim (.int .w32)))).withReplacedDtype (.prim (.flt .f64)) 1 =
      .ok (.fixedDim 3 (.prim (.flt .f64))) ∧
    (Ty.fixedDim 3 (.varDim (.prim (.int .w32)))).withNewAxis 1 2 =
      .ok (.fixedDim 3 (.fixedDim 1 (.fixedDim 1 (.varDim (.prim (.int .w32)))))) ∧
    (Ty.prim (.int .w32)).withReplacedDtype (.prim (.flt .f64)) 1 = .ub := by
  simp [Ty.withReplacedDtype, transformWith, Ty.ndim, outTy, rebuild, mkOptionTy, Ty.withNewAxis, Ty.atDim, newAxes]

example : PlainDims (.fixedDim 3 (.option (.varDim (.prim (.int .w32))))) :=
  .fixed 3 (.opt (.var (.scalar rfl (by simp))) (by simp))

/-! ## C95: canonical types -/

/-- The types the constructors accept that contain no pointer type, with the leaves (strings, bytes, chars, …) satisfying
    `P`.  Below a type variable dimension, `Dim`, an ellipsis or a power, anything is allowed. -/
inductive PointerFree (P : LeafTy → Prop) : Ty → Prop where
  | prim (b : BTy) : PointerFree P (.prim b)
  | leaf {l : LeafTy} (h : P l) : PointerFree P (.leaf l)
  | kind (k : Kind) : PointerFree P (.kind k)
  | fixed (n : Int) {t : Ty} (h : PointerFree P t) : PointerFree P (.fixedDim n t)
  | fixedKind {t : Ty} (h : PointerFree P t) : PointerFree P (.fixedDimKind t)
  | var {t : Ty} (h : PointerFree P t) : PointerFree P (.varDim t)
  | opt {t : Ty} (h : PointerFree P t) (ho : ∀ u, t ≠ .option u) : PointerFree P (.option t)
  | tuple {ts : List Ty} {v : Bool} (h : ∀ t ∈ ts, PointerFree P t) : PointerFree P (.tuple ts v)
  | struct {ns : List String} {ts : List Ty} {v : Bool} (h : ∀ t ∈ ts, PointerFree P t) : PointerFree P (.struct ns ts v)
  | callable {r : Ty} {ps ks : List Ty} {ns : List String} {v w : Bool} (hr : PointerFree P r)
      (hp : ∀ t ∈ ps, PointerFree P t) (hk : ∀ t ∈ ks, PointerFree P t) :
      PointerFree P (.callable r (.tuple ps v) (.struct ns ks w))
  | typevar (s : String) : PointerFree P (.typevar s)
  | dimKind (t : Ty) : PointerFree P (.dimKind t)
  | typevarDim (s : String) (t : Ty) : PointerFree P (.typevarDim s t)
  | ellipsis (s : String) (t : Ty) : PointerFree P (.ellipsis s t)
  | powDimsym (b : Ty) (s : String) (t : Ty) : PointerFree P (.powDimsym b s t)
  | fragment (l : List Int) : PointerFree P (.dimFragment l)

/-- A char type is UTF-32. -/
def WideChar (l : LeafTy) : Prop := ∀ e, l = .char e → e = 4

private theorem canonicals_map (f : Ty → Ty) : ∀ (ts : List Ty), (∀ t ∈ ts, t.canonical = .ok (f t)) →
    canonicals ts = .ok (ts.map f)
  | [], _ => rfl
  | t :: ts, h => by
    rw [canonicals, h t (by simp), bind_ok, canonicals_map f ts (fun u hu => h u (by simp [hu])), bind_ok]
    rfl

private theorem mkOptionTy_ok {t : Ty} (h : ∀ u, t ≠ .option u) : mkOptionTy t = .ok (.option t) := by
  cases t <;> first | rfl | exact absurd rfl (h _)

/-- **C95**: a type without pointers whose char types are UTF-32 is its own canonical type, whatever its nesting. -/
theorem canonical_fixed {t : Ty} (h : PointerFree WideChar t) : t.canonical = .ok t := by
  induction h with
  | prim b => rfl
  | @leaf l h =>
    rw [Ty.canonical]
    cases l <;> first | rfl | (rw [h _ rfl]; rfl)
  | kind k => rfl
  | fixed n h ih => rw [Ty.canonical, ih]; rfl
  | fixedKind h ih => rw [Ty.canonical, ih]; rfl
  | var h ih => rw [Ty.canonical, ih]; rfl
  | opt h ho ih => rw [Ty.canonical, ih, bind_ok, mkOptionTy_ok ho]
  | tuple h ih => rw [Ty.canonical, canonicals_map id _ ih]; simp
  | struct h ih => rw [Ty.canonical, canonicals_map id _ ih]; simp
  | callable hr hp hk ihr ihp ihk =>
    rw [Ty.canonical, ihr, bind_ok, Ty.canonical, canonicals_map id _ ihp, Ty.canonical, canonicals_map id _ ihk]
    simp [mkCallableTy]
  | _ => rfl

private theorem pick {α β : Type} (P : α → β → Prop) (d : β) : ∀ (l : List α), (∀ a ∈ l, ∃ b, P a b) →
    ∃ f : α → β, ∀ a ∈ l, P a (f a) := by
  intro l h
  classical
  exact ⟨fun a => if ha : a ∈ l then (h a ha).choose else d, fun a ha => by
    simp only [dif_pos ha]; exact (h a ha).choose_spec⟩

/-- **C95**: a type without pointers has a canonical type, which has the same number of dimensions, contains no pointer and
    only UTF-32 chars, and is its own canonical type. -/
theorem canonical_exact {t : Ty} (h : PointerFree (fun _ => True) t) :
    ∃ u, t.canonical = .ok u ∧ PointerFree WideChar u ∧ u.canonical = .ok u ∧ u.ndim = t.ndim := by
  suffices hs : ∃ u, t.canonical = .ok u ∧ PointerFree WideChar u ∧ u.ndim = t.ndim ∧
      ((∀ v, t ≠ .option v) → ∀ v, u ≠ .option v) by
    obtain ⟨u, h1, h2, h3, -⟩ := hs
    exact ⟨u, h1, h2, canonical_fixed h2, h3⟩
  induction h with
  | prim b => exact ⟨_, rfl, .prim b, rfl, fun h => h⟩
  | @leaf l h =>
    refine ⟨_, rfl, .leaf ?_, rfl, by simp⟩
    cases l <;> intro e he <;> simp only [LeafTy.canonical, LeafTy.char.injEq, reduceCtorEq] at he
    exact he.symm
  | kind k => exact ⟨_, rfl, .kind k, rfl, fun h => h⟩
  | fixed n h ih =>
    obtain ⟨u, h1, h2, h3, -⟩ := ih
    exact ⟨_, by rw [Ty.canonical, h1]; rfl, .fixed n h2, by simp [Ty.ndim, h3], by simp⟩
  | fixedKind h ih =>
    obtain ⟨u, h1, h2, h3, -⟩ := ih
    exact ⟨_, by rw [Ty.canonical, h1]; rfl, .fixedKind h2, by simp [Ty.ndim, h3], by simp⟩
  | var h ih =>
    obtain ⟨u, h1, h2, h3, -⟩ := ih
    exact ⟨_, by rw [Ty.canonical, h1]; rfl, .var h2, by simp [Ty.ndim, h3], by simp⟩
  | opt h ho ih =>
    obtain ⟨u, h1, h2, h3, h4⟩ := ih
    exact ⟨_, by rw [Ty.canonical, h1, bind_ok, mkOptionTy_ok (h4 ho)], .opt h2 (h4 ho), by simp [Ty.ndim, h3],
      fun h => absurd rfl (h _)⟩
  | tuple h ih =>
    obtain ⟨f, hf⟩ := pick _ (.prim .void) _ ih
    refine ⟨.tuple (List.map f _) _, by rw [Ty.canonical, canonicals_map f _ (fun t ht => (hf t ht).1)]; rfl,
      .tuple ?_, rfl, by simp⟩
    intro t ht
    obtain ⟨a, ha, rfl⟩ := List.mem_map.1 ht
    exact (hf a ha).2.1
  | struct h ih =>
    obtain ⟨f, hf⟩ := pick _ (.prim .void) _ ih
    refine ⟨.struct _ (List.map f _) _, by rw [Ty.canonical, canonicals_map f _ (fun t ht => (hf t ht).1)]; rfl,
      .struct ?_, rfl, by simp⟩
    intro t ht
    obtain ⟨a, ha, rfl⟩ := List.mem_map.1 ht
    exact (hf a ha).2.1
  | callable hr hp hk ihr ihp ihk =>
    obtain ⟨r, hr1, hr2, -, -⟩ := ihr
    obtain ⟨f, hf⟩ := pick _ (.prim .void) _ ihp
    obtain ⟨g, hg⟩ := pick _ (.prim .void) _ ihk
    refine ⟨_, by
      rw [Ty.canonical, hr1, bind_ok, Ty.canonical, canonicals_map f _ (fun t ht => (hf t ht).1), Ty.canonical,
        canonicals_map g _ (fun t ht => (hg t ht).1)]; rfl, .callable hr2 ?_ ?_, rfl, by simp⟩
    · intro t ht
      obtain ⟨a, ha, rfl⟩ := List.mem_map.1 ht
      exact (hf a ha).2.1
    · intro t ht
      obtain ⟨a, ha, rfl⟩ := List.mem_map.1 ht
      exact (hg a ha).2.1
  | typevar s => exact ⟨_, rfl, .typevar s, rfl, by simp⟩
  | dimKind t => exact ⟨_, rfl, .dimKind t, rfl, by simp⟩
  | typevarDim s t => exact ⟨_, rfl, .typevarDim s t, rfl, by simp⟩
  | ellipsis s t => exact ⟨_, rfl, .ellipsis s t, rfl, by simp⟩
  | powDimsym b s t => exact ⟨_, rfl, .powDimsym b s t, rfl, by simp⟩
  | fragment l => exact ⟨_, rfl, .fragment l, rfl, by simp⟩

/-- C95 is violated by pointers: only the outermost of two is removed, so the canonical type is not canonical; what a pointer
    points to is not made canonical; the canonical type has more dimensions than the type; and a type the constructors
    accept, `?pointer[?int32]`, has no canonical type: the attempt raises `type_error`. -/
theorem canonical_pointer_violated :
    (Ty.pointer (.pointer (.prim (.int .w32)))).canonical = .ok (.pointer (.prim (.int .w32))) ∧
    (Ty.pointer (.prim (.int .w32))).canonical = .ok (.prim (.int .w32)) ∧
    (Ty.pointer (.leaf (.char 0))).canonical = .ok (.leaf (.char 0)) ∧
    (Ty.pointer (.fixedDim 3 (.prim (.int .w32)))).canonical = .ok (.fixedDim 3 (.prim (.int .w32))) ∧
    (Ty.option (.pointer (.option (.prim (.int .w32))))).canonical = .throw .typeError := by
  simp [Ty.canonical, mkOptionTy]

/-- A concrete case: `3 * {x: ?char['ascii'], y: var * string}`. -/
example : (Ty.fixedDim 3 (.struct ["x", "y"] [.option (.leaf (.char 0)), .varDim (.leaf .string)] false)).canonical =
    .ok (.fixedDim 3 (.struct ["x", "y"] [.option (.leaf (.char 4)), .varDim (.leaf .string)] false)) := by
  simp [Ty.canonical, canonicals, mkOptionTy, LeafTy.canonical]

example : PointerFree (fun _ => True)
    (Ty.fixedDim 3 (.struct ["x", "y"] [.option (.leaf (.char 0)), .varDim (.leaf .string)] false)) := by
  refine .fixed 3 (.struct ?_)
  intro t ht
  simp only [List.mem_cons, List.not_mem_nil, or_false] at ht
  rcases ht with rfl | rfl
  · exact .opt (.leaf trivial) (by simp)
  · exact .var (.leaf trivial)

/-! ## C96: filling in a shape -/

/-- A size (negative: unknown) fits a dimension. -/
def SizeFits : Layer → Int → Prop
  | .fixedKind, s => 0 ≤ s
  | .fixed n, s => s < 0 ∨ s = n
  | .var, _ => True
  | .opt, _ => False

/-- The dimension after its size has been filled in. -/
def fillSize : Layer → Int → Layer
  | .fixedKind, s => .fixed s
  | d, _ => d

private theorem shapeDim_over {d : Layer} (hd : d ≠ .opt) (s : Int) (el e : Ty) :
    (SizeFits d s → shapeDim s (d.over el) e = .ok ((fillSize d s).over e)) ∧
    (¬ SizeFits d s → shapeDim s (d.over el) e = .throw .typeError) := by
  cases d with
  | opt => exact absurd rfl hd
  | fixed n => exact ⟨fun h => if_pos h, fun h => if_neg h⟩
  | fixedKind => exact ⟨fun h => if_pos h, fun h => if_neg h⟩
  | var => exact ⟨fun _ => rfl, fun h => absurd trivial h⟩

private theorem over_notScalar {d : Layer} (hd : d ≠ .opt) (t : Ty) : (d.over t).isScalar = false := by
  cases d <;> simp [Layer.over, Ty.isScalar, Ty.ndim] at *

private theorem shapeVisit_stack (el : Ty) : ∀ (ds : List Layer) (s : Int) (ss : List Int),
    (∀ d ∈ ds, d ≠ .opt) → (s :: ss).length ≤ ds.length →
    ((∀ (i : Nat) (d : Layer) (x : Int), ds[i]? = some d → (s :: ss)[i]? = some x → SizeFits d x) →
      shapeVisit (s :: ss) (stack ds el) =
        .ok (stack (List.zipWith fillSize ds (s :: ss) ++ ds.drop (s :: ss).length) el)) ∧
    (¬ (∀ (i : Nat) (d : Layer) (x : Int), ds[i]? = some d → (s :: ss)[i]? = some x → SizeFits d x) →
      shapeVisit (s :: ss) (stack ds el) = .throw .typeError)
  | [], s, ss, _, hl => by simp at hl
  | d :: ds, s, [], hd, hl => by
    have hd0 := hd d (by simp)
    have hv : shapeVisit [s] (stack (d :: ds) el) = shapeDim s (d.over (stack ds el)) (stack ds el) := by
      rw [shapeVisit.eq_def, stack_cons, if_neg (by rw [over_notScalar hd0]; simp)]
      cases d <;> first | rfl | exact absurd rfl hd0
    have hf : (∀ (i : Nat) (e : Layer) (x : Int), (d :: ds)[i]? = some e → [s][i]? = some x → SizeFits e x) ↔
        SizeFits d s := by
      constructor
      · intro h; exact h 0 d s rfl rfl
      · intro h i e x h1 h2
        cases i with
        | zero => simp at h1 h2; subst h1; subst h2; exact h
        | succ i => simp at h2
    rw [hf, hv]
    refine ⟨fun h => ?_, fun h => (shapeDim_over hd0 s _ _).2 h⟩
    rw [(shapeDim_over hd0 s _ _).1 h]
    simp [stack_cons]
  | d :: ds, s, s' :: ss, hd, hl => by
    have hd0 := hd d (by simp)
    have ih := shapeVisit_stack el ds s' ss (fun e he => hd e (by simp [he])) (by simpa using hl)
    have hv : shapeVisit (s :: s' :: ss) (stack (d :: ds) el) =
        (do let e ← shapeVisit (s' :: ss) (stack ds el); shapeDim s (d.over (stack ds el)) e) := by
      rw [shapeVisit.eq_def, stack_cons, if_neg (by rw [over_notScalar hd0]; simp)]
      cases d <;> first | rfl | exact absurd rfl hd0
    have hf : (∀ (i : Nat) (e : Layer) (x : Int), (d :: ds)[i]? = some e → (s :: s' :: ss)[i]? = some x → SizeFits e x) ↔
        SizeFits d s ∧ (∀ (i : Nat) (e : Layer) (x : Int), ds[i]? = some e → (s' :: ss)[i]? = some x → SizeFits e x) := by
      constructor
      · intro h; exact ⟨h 0 d s rfl rfl, fun i e x h1 h2 => h (i + 1) e x (by simpa using h1) (by simpa using h2)⟩
      · rintro ⟨h, h'⟩ i e x h1 h2
        cases i with
        | zero => simp at h1 h2; subst h1; subst h2; exact h
        | succ i => exact h' i e x (by simpa using h1) (by simpa using h2)
    rw [hf, hv]
    by_cases hr : (∀ (i : Nat) (e : Layer) (x : Int), ds[i]? = some e → (s' :: ss)[i]? = some x → SizeFits e x)
    · rw [ih.1 hr, bind_ok]
      refine ⟨fun h => ?_, fun h => (shapeDim_over hd0 s _ _).2 (fun hh => h ⟨hh, hr⟩)⟩
      rw [(shapeDim_over hd0 s _ _).1 h.1]
      simp [stack_cons]
    · rw [ih.2 hr]
      exact ⟨fun h => absurd h.2 hr, fun _ => rfl⟩

/-- **C96**: filling sizes into the leading dimensions of a type made of fixed, `Fixed` and `var` dimensions: it succeeds
    exactly if there are no more sizes than dimensions and every size fits its dimension; then each `Fixed` dimension that
    got a size has it, and everything else is kept; otherwise `type_error` is raised. -/
theorem substitute_shape_exact (ds : List Layer) (el : Ty) (shape : List Int) (hd : ∀ d ∈ ds, d ≠ .opt) (hs : shape ≠ [])
    (he : el.ndim = 0) :
    ((shape.length ≤ ds.length ∧
        ∀ (i : Nat) (d : Layer) (x : Int), ds[i]? = some d → shape[i]? = some x → SizeFits d x) →
      substituteShape (stack ds el) shape =
        .ok (stack (List.zipWith fillSize ds shape ++ ds.drop shape.length) el)) ∧
    (¬ (shape.length ≤ ds.length ∧
        ∀ (i : Nat) (d : Layer) (x : Int), ds[i]? = some d → shape[i]? = some x → SizeFits d x) →
      substituteShape (stack ds el) shape = .throw .typeError) := by
  obtain ⟨s, ss, rfl⟩ := List.exists_cons_of_ne_nil hs
  have hn : (stack ds el).ndim = ds.length := by
    rw [stack_ndim, he]
    unfold dimCount
    rw [List.countP_eq_length.2 (fun d h => by simpa using hd d h)]; rfl
  unfold substituteShape
  rw [hn]
  by_cases hl : (s :: ss).length ≤ ds.length
  · rw [if_neg (by omega)]
    have := shapeVisit_stack el ds s ss hd hl
    exact ⟨fun h => this.1 h.2, fun h => this.2 (fun hh => h ⟨hl, hh⟩)⟩
  · rw [if_pos (by omega)]
    exact ⟨fun h => absurd h.1 hl, fun _ => rfl⟩

/-- C96 is violated where a symbolic type has dimensions and the array none (`nd::asarray(5, "Fixed * int32")`): a size is
    read that does not exist; an option of an array is taken for a dimension. -/
theorem substitute_shape_violated (ds : List Layer) (d : Layer) (el : Ty) (hd : d ≠ .opt) (s : Int) :
    substituteShape (stack (d :: ds) el) [] = .ub ∧
    substituteShape (.option (stack (d :: ds) el)) [s] = .ub := by
  constructor
  · unfold substituteShape
    rw [if_neg (by simp), shapeVisit.eq_def, stack_cons, if_neg (by rw [over_notScalar hd]; simp)]
    cases d <;> first | rfl | exact absurd rfl hd
  · have h1 : 0 < (stack (d :: ds) el).ndim := by
      rw [stack_ndim, dimCount_dim d ds hd]; omega
    unfold substituteShape
    have h2 : (Ty.option (stack (d :: ds) el)).ndim = (stack (d :: ds) el).ndim := rfl
    rw [if_neg (by rw [h2]; simp only [List.length_singleton]; omega), shapeVisit.eq_def, if_neg]
    have h3 : ((stack (d :: ds) el).ndim == 0) = false := by rw [beq_eq_false_iff_ne]; omega
    rw [Ty.isScalar, h2, h3]; simp

/-- Concrete cases: `Fixed * var * Fixed * T` with the shape (1, -1, 3); a wrong fixed size; too many sizes. -/
example : substituteShape (.fixedDimKind (.varDim (.fixedDimKind (.typevar "T")))) [1, -1, 3] =
      .ok (.fixedDim 1 (.varDim (.fixedDim 3 (.typevar "T")))) ∧
    substituteShape (.fixedDim 10 (.prim (.int .w32))) [1] = .throw .typeError ∧
    substituteShape (.fixedDimKind (.prim (.int .w32))) [0, 1] = .throw .typeError := by
  refine ⟨?_, ?_, ?_⟩
  · exact (substitute_shape_exact [.fixedKind, .var, .fixedKind] (.typevar "T") [1, -1, 3] (by simp) (by simp) rfl).1
      ⟨by simp, by
        intro i d x h1 h2
        match i with
        | 0 => simp at h1 h2; subst h1; subst h2; simp [SizeFits]
        | 1 => simp at h1; subst h1; simp [SizeFits]
        | 2 => simp at h1 h2; subst h1; subst h2; simp [SizeFits]
        | i + 3 => simp at h1⟩
  · exact (substitute_shape_exact [.fixed 10] (.prim (.int .w32)) [1] (by simp) (by simp) rfl).2
      (fun h => by have := h.2 0 (.fixed 10) 1 rfl rfl; simp [SizeFits] at this)
  · exact (substitute_shape_exact [.fixedKind] (.prim (.int .w32)) [0, 1] (by simp) (by simp) rfl).2
      (fun h => by simp at h)

/-! ## Reinterpreting a one-dimensional array (C89) -/

/-- **C89**: `view_scalars` of a contiguous one-dimensional array of plain data as `v`: the result covers exactly the same
    bytes, element after element, provided the sizes divide and the address is aligned; otherwise an exception is raised. -/
theorem view_scalars_exact (addr n : Nat) (l v : VLeaf) (hl : l.pod = true) (hv : 0 < v.size) :
    ((n * l.size) % v.size = 0 ∧ addr % v.align = 0 →
      ∃ m, viewScalars1 addr n l.size l v = .ok (some (m, (v.size : Int))) ∧ m * v.size = n * l.size) ∧
    (¬ ((n * l.size) % v.size = 0 ∧ addr % v.align = 0) → viewScalars1 addr n l.size l v = .throw .runtime) := by
  unfold viewScalars1
  rw [if_pos ⟨hl, rfl⟩, if_neg (by omega)]
  constructor
  · rintro ⟨h1, h2⟩
    rw [if_neg (by simp [h1]), if_pos h2]
    exact ⟨_, rfl, Nat.div_mul_cancel (Nat.dvd_of_mod_eq_zero h1)⟩
  · intro h
    by_cases h1 : (n * l.size) % v.size = 0
    · rw [if_neg (by simp [h1]), if_neg (fun h2 => h ⟨h1, h2⟩)]
    · rw [if_pos h1]

/-- C89 is violated by `view_scalars`: nothing asks whether the target is plain data, so integers are seen as strings, whose
    pointers are the integers; and a target of size zero divides by zero. -/
theorem view_scalars_violated :
    viewScalars1 64 4 8 ⟨1, 8, 8, true⟩ ⟨2, 16, 8, false⟩ = .ok (some (2, 16)) ∧
    viewScalars1 64 4 8 ⟨1, 8, 8, true⟩ ⟨3, 0, 1, true⟩ = .ub := by decide

end Dynd
