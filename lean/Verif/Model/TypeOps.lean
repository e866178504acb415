/-
Operations that take a type apart and put another one together: `get_dtype`, `with_replaced_dtype`, `with_new_axis`,
`get_canonical_type`, `nd::array::replace_dtype`, `nd::array::view_scalars`, the constructor `nd::array(values, tp)`,
`ndt::substitute_shape`.

Simplifications: memory-space types (CUDA), adapt/expression types, `typevar_constructed` are not modelled (see `Types`).
Numbers of dimensions passed by the caller are natural numbers.  Building a struct or tuple from already existing field
types cannot fail.
-/
import Verif.Model.Types
import Verif.Model.ArrayOps
import Verif.Model.Datashape

namespace Dynd

/-- `ndt::type::get_dtype(include_ndim)`.  /repo/include/dynd/type.hpp:478-491. -/
def Ty.getDtype (t : Ty) (inc : Nat) : Res Ty :=
  if t.ndim = inc then .ok t
  else if inc < t.ndim then t.atDim (t.ndim - inc)
  else .throw .typeError

/-- `callable_type` constructor.  /repo/include/dynd/types/callable_type.hpp:28-49. -/
def mkCallableTy (r p k : Ty) : Res Ty :=
  match p, k with
  | .tuple _ _, .struct _ _ _ => .ok (.callable r p k)
  | _, _ => .throw .invalidArg

/-- End of `transform_child_types` of a type with one child: a new type if the child was transformed, otherwise itself.
    `none` is an output type the visitor did not assign.  /repo/src/dynd/types/fixed_dim_type.cpp:61-66,
    fixed_dim_kind_type.cpp:41-46, var_dim_type.cpp:46-51, pointer_type.cpp:36-41, option_type.cpp:115-120. -/
def rebuild (t : Ty) (mk : Ty → Res Ty) : Option Ty × Bool → Res (Option Ty × Bool)
  | (_, false) => .ok (some t, false)
  | (some e, true) => do
    let x ← mk e
    pure (some x, true)
  | (none, true) => .throw .unmodelled

mutual
/-- A visitor over a type: `stop` handles a node itself (assigning the output type or leaving it as it was, and flagging
    a transformation) or leaves it to `transform_child_types`, which visits the children with the same visitor.  A builtin
    type has no type object: `extended()->transform_child_types` on it is undefined behaviour.
    /repo/src/dynd/types/base_type.cpp:36-41, fixed_dim_type.cpp:56-67, fixed_dim_kind_type.cpp:35-47,
    var_dim_type.cpp:41-52, pointer_type.cpp:31-42, option_type.cpp:110-121, tuple_type.cpp:203-221,
    struct_type.cpp:98-116, callable_type.cpp:84-98; `dim_kind_type`, `typevar_dim_type`, `ellipsis_dim_type`,
    `pow_dimsym_type` and `dim_fragment_type` have the default, which keeps the type. -/
def transformWith (stop : Ty → Option (Res (Option Ty × Bool))) (t : Ty) : Res (Option Ty × Bool) :=
  match stop t with
  | some r => r
  | none =>
    match t with
    | .prim _ => .ub
    | .leaf _ | .kind _ | .dimKind _ | .typevar _ | .typevarDim _ _ | .ellipsis _ _ | .powDimsym _ _ _
    | .dimFragment _ => .ok (some t, false)
    | .fixedDim n el => do
      let r ← transformWith stop el
      rebuild t (fun e => .ok (.fixedDim n e)) r
    | .fixedDimKind el => do
      let r ← transformWith stop el
      rebuild t (fun e => .ok (.fixedDimKind e)) r
    | .varDim el => do
      let r ← transformWith stop el
      rebuild t (fun e => .ok (.varDim e)) r
    | .pointer el => do
      let r ← transformWith stop el
      rebuild t (fun e => .ok (.pointer e)) r
    | .option el => do
      let r ← transformWith stop el
      rebuild t mkOptionTy r
    | .tuple ts v => do
      let (us, w) ← transformFields stop ts
      if w then pure (some (.tuple us v), true) else pure (some t, false)
    | .struct ns ts v => do
      let (us, w) ← transformFields stop ts
      if w then pure (some (.struct ns us v), true) else pure (some t, false)
    | .callable r p k => do
      let (r', w1) ← transformWith stop r
      let (p', w2) ← transformWith stop p
      let (k', w3) ← transformWith stop k
      if w1 || w2 || w3 then
        match r', p', k' with
        | some r', some p', some k' => do
          let c ← mkCallableTy r' p' k'
          pure (some c, true)
        | _, _, _ => .throw .unmodelled
      else pure (some t, false)
/-- The field loop: the output types start out as `type`, and keep that value if the visitor does not assign them.
    /repo/src/dynd/types/tuple_type.cpp:205-214. -/
def transformFields (stop : Ty → Option (Res (Option Ty × Bool))) : List Ty → Res (List Ty × Bool)
  | [] => .ok ([], false)
  | t :: ts => do
    let (o, w) ← transformWith stop t
    let (us, w') ← transformFields stop ts
    pure (o.getD (.leaf .typeT) :: us, w || w')
end

/-- the output type of a visit, if assigned -/
def outTy : Option Ty × Bool → Res Ty
  | (some t, _) => .ok t
  | (none, _) => .throw .unmodelled

/-- `ndt::type::with_replaced_dtype`.  /repo/src/dynd/type.cpp:257-281. -/
def Ty.withReplacedDtype (t r : Ty) (k : Nat) : Res Ty := do
  let o ← transformWith (fun u => if u.ndim = k then some (.ok (some r, true)) else none) t
  outTy o

/-- `ndt::pow(make_fixed_dim(1, el), n)`.  /repo/src/dynd/type.cpp:542-551. -/
def newAxes (el : Ty) : Nat → Ty
  | 0 => el
  | 1 => .fixedDim 1 el
  | n + 2 => .fixedDim 1 (newAxes el (n + 1))

/-- `ndt::type::with_new_axis(i, new_ndim)`; `tp.get_ndim() - i` is negative for `i > ndim`, but then
    `get_type_at_dimension` has thrown or gone through a pointer, or into an ellipsis or `Any`
    (the subtraction is not modelled there).  /repo/src/dynd/type.cpp:309-319. -/
def Ty.withNewAxis (t : Ty) (i n : Nat) : Res Ty := do
  let el ← t.atDim i
  if t.ndim < i then .throw .unmodelled else t.withReplacedDtype (newAxes el n) (t.ndim - i)

/-- `get_canonical_type` of the types without type arguments: the canonical char type is UTF-32 (encoding 4).
    /repo/src/dynd/types/char_type.cpp:43-50, base_type.cpp:43-46, string_type.cpp:85, fixed_string_type.cpp:110,
    bytes_type.cpp:54. -/
def LeafTy.canonical : LeafTy → LeafTy
  | .char _ => .char 4
  | l => l

mutual
/-- `ndt::type::get_canonical_type`.  /repo/include/dynd/type.hpp:431-437, fixed_dim_type.cpp:69-71,
    fixed_dim_kind_type.cpp:49-51, var_dim_type.cpp:54-56, option_type.cpp:123-125, pointer_type.cpp:44-47 (the target,
    not canonicalised), tuple_type.cpp:223-231, struct_type.cpp:118-130, callable_type.cpp:100-107; the other symbolic
    dimensions have the default, which keeps the type.  /repo/src/dynd/types/base_type.cpp:43-46. -/
def Ty.canonical : Ty → Res Ty
  | .prim b => .ok (.prim b)
  | .leaf l => .ok (.leaf l.canonical)
  | .kind k => .ok (.kind k)
  | .fixedDim n el => do
    let e ← el.canonical
    pure (.fixedDim n e)
  | .fixedDimKind el => do
    let e ← el.canonical
    pure (.fixedDimKind e)
  | .varDim el => do
    let e ← el.canonical
    pure (.varDim e)
  | .pointer t => .ok t
  | .option t => do
    let e ← t.canonical
    mkOptionTy e
  | .tuple ts v => do
    let us ← canonicals ts
    pure (.tuple us v)
  | .struct ns ts v => do
    let us ← canonicals ts
    pure (.struct ns us v)
  | .callable r p k => do
    let r' ← r.canonical
    let p' ← p.canonical
    let k' ← k.canonical
    mkCallableTy r' p' k'
  | t => .ok t
/-- the fields -/
def canonicals : List Ty → Res (List Ty)
  | [] => .ok []
  | t :: ts => do
    let u ← t.canonical
    let us ← canonicals ts
    pure (u :: us)
end

/-- The type part of `nd::array::replace_dtype`: the replaced type, or `none` if the array is returned as it is.
    `compat` stands for `data_layout_compatible_with`
    (/repo/src/dynd/type.cpp:389-439, not modelled).  /repo/src/dynd/array.cpp:583-622. -/
def arrayReplaceDtype (compat : Ty → Ty → Bool) (t r : Ty) (k : Nat) : Res (Option Ty) := do
  let o ← transformWith (fun u =>
    if u.ndim = k then
      (if tyEq u r then some (.ok (none, false))
       else if compat u r then some (.ok (some r, true)) else some (.throw .runtime))
    else none) t
  match o with
  | (some u, true) => pure (some u)
  | _ => pure none

/-- The type of the array made by the constructor `nd::array(values, tp)`.  /repo/include/dynd/array.hpp:59-67. -/
def arrayFromTy (vt tp : Ty) : Res Ty :=
  if vt.ndim = tp.ndim then .ok tp else vt.withReplacedDtype tp tp.ndim

/-- The one-dimensional branch of `nd::array::view_scalars`: `n` elements of dtype `l` at distance `stride` from `addr`, seen
    as elements of dtype `v`: number of elements and stride of the result.  `none`: the branch is not taken.  Division by a
    zero size is undefined behaviour.  /repo/src/dynd/array.cpp:695-731. -/
def viewScalars1 (addr : Nat) (n : Nat) (stride : Int) (l v : VLeaf) : Res (Option (Nat × Int)) :=
  if l.pod = true ∧ (l.size : Int) = stride then
    if v.size = 0 then .ub
    else if (n * l.size) % v.size ≠ 0 then .throw .runtime
    else if addr % v.align = 0 then .ok (some (n * l.size / v.size, (v.size : Int)))
    else .throw .runtime
  else .ok none

/-- Test of `substitute_shape` of one dimension against a size (negative: unknown), and the dimension it makes.
    /repo/src/dynd/types/substitute_shape.cpp:50-78. -/
def shapeDim (s : Int) (t el : Ty) : Res Ty :=
  match t with
  | .fixedDimKind _ => if 0 ≤ s then .ok (.fixedDim s el) else .throw .typeError
  | .fixedDim n _ => if s < 0 ∨ s = n then .ok (.fixedDim n el) else .throw .typeError
  | .varDim _ => .ok (.varDim el)
  | _ => .throw .typeError

/-- `substitute_shape_visitor` on the sizes from position `i` on, given as a list that is non-empty unless the caller passed
    no sizes: reading `shape[0]` then is undefined behaviour.  A node that is not scalar is taken for a dimension type: for an
    option of dimensions, `Any` and a dim fragment the cast is undefined behaviour.  The rebuilding of an unchanged
    dimension and its reuse are not distinguished.  The visit of a scalar type with sizes left (a pointer, a struct inside
    a dimension) goes on with `transform_child_types`: not modelled.
    /repo/src/dynd/types/substitute_shape.cpp:39-87. -/
def shapeVisit (ss : List Int) (t : Ty) : Res Ty :=
    if t.isScalar then
      match ss with
      | [] => .ok t
      | _ :: _ => .throw .unmodelled
    else
      match t with
      | .fixedDim _ el | .fixedDimKind el | .varDim el | .dimKind el | .typevarDim _ el | .ellipsis _ el
      | .powDimsym _ _ el =>
        match ss with
        | [] => .ub
        | [s] => shapeDim s t el
        | s :: s' :: ss => do
          let e ← shapeVisit (s' :: ss) el
          shapeDim s t e
      | _ => .ub

/-- `ndt::substitute_shape(pattern, ndim, shape)`.  /repo/src/dynd/types/substitute_shape.cpp:90-103. -/
def substituteShape (pattern : Ty) (shape : List Int) : Res Ty :=
  if pattern.ndim < shape.length then .throw .typeError else shapeVisit shape pattern

end Dynd
