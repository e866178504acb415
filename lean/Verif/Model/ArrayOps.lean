/-
Whole-array operations of `nd::array`: iteration (`array_iter`), `equals_exact`, `empty_like`/`eval_copy` (stride
reordering), `reshape`, `concatenate`, `old_range`.
-/
import Verif.Model.Index
import Verif.Model.Shape
import Verif.Model.Elwise
import Verif.Model.Ints

namespace Dynd

/-! ## array_iter -/

/-- `fixed_dim_type_iterdata`: current data pointer and stride of one dimension.
    /repo/include/dynd/types/fixed_dim_type.hpp:24-30. -/
structure IterDim where
  data : Int
  stride : Int
  deriving DecidableEq, Repr

/-- The iterdata of one operand: the dimensions *innermost first* (as laid out in memory by
    `fixed_dim_type::iterdata_construct`, /repo/src/dynd/types/fixed_dim_type.cpp:342-367) and, for broadcasting
    operands, the terminator behind them (`none`: there is none; `some none`: its data pointer was never set).
    /repo/include/dynd/type.hpp:62-69. -/
structure IterData where
  dims : List IterDim
  term : Option (Option Int)
  deriving DecidableEq, Repr

/-- `iterdata_incr` and `iterdata_broadcasting_terminator_incr`.
    /repo/src/dynd/types/fixed_dim_type.cpp:319-329, /repo/src/dynd/type.cpp:41-46. -/
def incrDims (term : Option (Option Int)) : List IterDim → Nat → Res (Int × List IterDim)
  | [], _ => match term with
    | some (some d) => .ok (d, [])
    | _ => .ub
  | x :: xs, 0 => .ok (x.data + x.stride, ⟨x.data + x.stride, x.stride⟩ :: xs)
  | x :: xs, l + 1 => do
    let (d, xs') ← incrDims term xs l
    pure (d, ⟨d, x.stride⟩ :: xs')

/-- `iterdata->incr(iterdata, level)`. -/
def IterData.incr (it : IterData) (level : Nat) : Res (Int × IterData) := do
  let (d, ds) ← incrDims it.term it.dims level
  pure (d, ⟨ds, it.term⟩)

/-- `iterdata_reset` and `iterdata_broadcasting_terminator_reset`.
    /repo/src/dynd/types/fixed_dim_type.cpp:331-340, /repo/src/dynd/type.cpp:56-60. -/
def resetDims (term : Option (Option Int)) (data : Int) :
    List IterDim → Nat → Res (List IterDim × Option (Option Int))
  | [], _ => match term with
    | some _ => .ok ([], some (some data))
    | none => .ub
  | x :: xs, n =>
    if n = 1 then .ok (⟨data, x.stride⟩ :: xs, term)
    else do
      let (xs', t) ← resetDims term data xs (n - 1)
      pure (⟨data, x.stride⟩ :: xs', t)

/-- `fixed_dim_type::iterdata_construct` over all dimensions: strides taken from the arrmeta as they are, data pointers
    unset (0 here; they are always reset before use).  /repo/src/dynd/types/fixed_dim_type.cpp:342-367. -/
def iterConstruct (dims : Dims) (term : Bool) : IterData :=
  ⟨(dims.map fun p => ⟨0, p.2⟩).reverse, if term then some none else none⟩

/-- `iterdata->reset(iterdata, data, ndim)`. -/
def IterData.reset (it : IterData) (data : Int) (ndim : Nat) : Res IterData := do
  let (ds, t) ← resetDims it.term data it.dims ndim
  pure ⟨ds, t⟩

/-- The state of an `array_iter`: iteration shape and index (*innermost first*), the iterdata and the current data
    pointer of every operand.  /repo/include/dynd/array_iter.hpp:26-36, 188-196, 347-355. -/
structure ArrIter where
  shape : List Nat
  index : List Nat
  ops : List IterData
  data : List Int
  deriving DecidableEq, Repr

/-- The loop of `array_iter::next` over the index: the level whose index could be incremented and the new index, or
    `none` after the last position.  /repo/include/dynd/array_iter.hpp:81-97, 301-318, 408-426. -/
def advance : List Nat → List Nat → Option (Nat × List Nat)
  | n :: ns, j :: js =>
    if j + 1 ≠ n then some (0, (j + 1) :: js)
    else match advance ns js with
      | some (l, js') => some (l + 1, 0 :: js')
      | none => none
  | _, _ => none

/-- `incr` of every operand at the same level. -/
def incrAll (l : Nat) : List IterData → Res (List Int × List IterData)
  | [] => .ok ([], [])
  | it :: its => do
    let (d, it') ← it.incr l
    let (ds, its') ← incrAll l its
    pure (d :: ds, it' :: its')

/-- `array_iter::next`: `none` when it returns false. -/
def ArrIter.next (it : ArrIter) : Res (Option ArrIter) :=
  match advance it.shape it.index with
  | none => .ok none
  | some (l, index) => do
    let (ds, ops) ← incrAll l it.ops
    pure (some ⟨it.shape, index, ops, ds⟩)

/-- `reset` of every operand. -/
def resetAll (ndim : Nat) : List (Int × IterData) → Res (List IterData)
  | [] => .ok []
  | (base, it) :: rest => do
    let it' ← it.reset base ndim
    let rest' ← resetAll ndim rest
    pure (it' :: rest')

/-- Common part of the constructors: iterdata is built and reset, unless there are no dimensions. -/
def iterStart (shape : List Nat) (ops : List (Int × IterData)) : Res ArrIter :=
  if shape.length = 0 then .ok ⟨[], [], [], ops.map (·.1)⟩
  else do
    let its ← resetAll shape.length ops
    pure ⟨shape.reverse, List.replicate shape.length 0, its, ops.map (·.1)⟩

/-- `array_iter<1, 0>` and `array_iter<0, 1>`.  /repo/include/dynd/array_iter.hpp:37-66, 111-145. -/
def iterOne (base : Int) (dims : Dims) : Res ArrIter :=
  iterStart (dims.map (·.1)) [(base, iterConstruct dims false)]

/-- `array_iter<1, 1>`: the shape of the written operand; the read operand must broadcast to it.
    /repo/include/dynd/array_iter.hpp:207-275. -/
def iterWriteRead (dst src : Int × Dims) : Res ArrIter :=
  if shapeCanBroadcast (dst.2.map fun p => (p.1 : Int)) (src.2.map fun p => (p.1 : Int)) then
    iterStart (dst.2.map (·.1)) [(dst.1, iterConstruct dst.2 false), (src.1, iterConstruct src.2 true)]
  else .throw .broadcast

/-- `array_iter<0, 2>`: the common broadcast shape.  /repo/include/dynd/array_iter.hpp:358-394. -/
def iterReadRead (a b : Int × Dims) : Res ArrIter := do
  let sh ← broadcastInputShapes [a.2.map (fun p => (p.1 : Int)), b.2.map (fun p => (p.1 : Int))]
  iterStart (sh.map Int.toNat) [(a.1, iterConstruct a.2 true), (b.1, iterConstruct b.2 true)]

/-- `do { … } while (iter.next())`: the data pointers seen. -/
def iterLoop : Nat → ArrIter → Res (List (List Int))
  | 0, _ => .ub
  | fuel + 1, it => do
    match ← it.next with
    | none => .ok [it.data]
    | some it' => do
      let r ← iterLoop fuel it'
      pure (it.data :: r)

/-- `if (!iter.empty()) do { … } while (iter.next())`, the documented use of an `array_iter`.  `itersize` is the product
    of the shape; `fuel` bounds the loop. -/
def ArrIter.visit (it : ArrIter) : Res (List (List Int)) :=
  let n := it.shape.foldr (· * ·) 1
  if n = 0 then .ok [] else iterLoop n it

/-! ## equals_exact -/

/-- One dimension of an array type: `N *` or `var *`. -/
inductive ADim where
  | fixed (n : Nat)
  | var
  deriving DecidableEq, Repr

/-- What `equals_exact` looks at: the identity of the array object, dimensions and (an arbitrary) dtype of the type, the
    shape `get_shape` reports (`-1` for var dimensions whose size is not unique), and, for the dimensions after a leading
    var one, the data pointer, sizes and strides. -/
structure EArr (τ : Type) where
  ident : Nat
  dims : List ADim
  dtype : τ
  shape : List Int
  base : Int
  strides : List Int

/-- Sizes and strides of an array whose dimensions are all fixed. -/
def fixedDims : List ADim → List Int → Option Dims
  | [], _ => some []
  | .fixed n :: ds, s :: ss => (fixedDims ds ss).map ((n, s) :: ·)
  | _, _ => none

/-- The comparison loop: the first pair that is not_equal decides.  /repo/src/dynd/array.cpp:321-334. -/
def anyNotEqual (ne : Int → Int → Res Bool) : List (List Int) → Res Bool
  | [x, y] :: rest => do
    if ← ne x y then .ok false else anyNotEqual ne rest
  | [] => .ok true
  | _ => .ub

/-- `array::equals_exact` for an array that does not start with a var dimension.  `eq`, `ne` are the outcomes of
    `nd::equal` and `nd::not_equal` on the elements at two addresses.  A var dimension further in makes the construction of
    the iterator raise `runtime_error` ("TODO: implement var_dim_type::get_iterdata_size").
    /repo/src/dynd/array.cpp:296-340. -/
def equalsFixed {τ : Type} [DecidableEq τ] (eq ne : Int → Int → Res Bool) (a b : EArr τ) : Res Bool :=
  if a.ident = b.ident then .ok true
  else if a.dims ≠ b.dims ∨ a.dtype ≠ b.dtype then .ok false
  else if a.dims = [] then eq a.base b.base
  else if a.dims.length = 1 ∧ a.shape.head? = some 0 ∧ b.shape.head? = some 0 then .ok true
  else if a.shape ≠ b.shape then .ok false
  else match fixedDims a.dims a.strides, fixedDims b.dims b.strides with
    | some da, some db =>
      match iterReadRead (a.base, da) (b.base, db) with
      | .ok it => (do
        let vs ← it.visit
        anyNotEqual ne vs)
      | .throw .broadcast => .ok false
      | .throw e => .throw e
      | .ub => .ub
    | _, _ => .throw .runtime

/-- `nd::old_view(arr, n * element_type)` of an array with a leading var dimension, as used by `equals_exact`: raises
    `type_error` unless the dimension has exactly `n` elements.  /repo/src/dynd/view.cpp:348-376.  `id'` is the identity
    of the new array object. -/
def viewVarAsFixed {τ : Type} (n : Int) (id' : Nat) (a : EArr τ) : Res (EArr τ) :=
  if a.shape.head? = some n then
    .ok { a with ident := id', dims := .fixed n.toNat :: a.dims.tail }
  else .throw .typeError

/-- `array::equals_exact`.  `fresh` are two unused identities. -/
def equalsExact {τ : Type} [DecidableEq τ] (eq ne : Int → Int → Res Bool) (fresh : Nat × Nat) (a b : EArr τ) : Res Bool :=
  if a.ident = b.ident then .ok true
  else if a.dims ≠ b.dims ∨ a.dtype ≠ b.dtype then .ok false
  else if a.dims.head? = some .var then do
    let n ← (match a.shape.head? with | some n => .ok n | none => .ub)
    let a' ← viewVarAsFixed n fresh.1 a
    let b' ← viewVarAsFixed n fresh.2 b
    equalsFixed eq ne a' b'
  else equalsFixed eq ne a b

/-! ## empty_like -/

/-- The loop of `reorder_default_constructed_strides` that reads the source strides: `(ndim_partial, c_order, strides)`.
    `src` are the strides of the leading fixed dimensions of the source; when they run out (or a stride is the largest
    64-bit integer) the loop stops with `ndim_partial` one past the strides read.
    /repo/src/dynd/types/fixed_dim_type.cpp:425-463. -/
def scanStrides : (ndim : Nat) → List Int → (i : Nat) → (prev : Int) → (cOrder : Bool) → (acc : List Int) →
    Nat × Bool × List Int
  | 0, _, i, _, c, acc => (i, c, acc)
  | _ + 1, [], i, _, c, acc => (i + 1, c, acc)
  | n + 1, s :: ss, i, prev, c, acc =>
    if s ≠ 0 then
      if s = i64Max then (i + 1, c, acc)
      else scanStrides n ss (i + 1) s (if prev ≠ 0 ∧ prev < s then false else c) (acc ++ [s])
    else scanStrides n ss (i + 1) prev c (acc ++ [s])

/-- Set the stride of axis `p`. -/
def setStride (dims : List (Int × Int)) (p : Nat) (s : Int) : Res (List (Int × Int)) :=
  match dims[p]? with
  | some (n, _) => .ok (dims.set p (n, s))
  | none => .ub

/-- The loop that assigns new strides in the order of the axis permutation.
    /repo/src/dynd/types/fixed_dim_type.cpp:478-484. -/
def assignStrides : List Nat → Int → List (Int × Int) → Res (List (Int × Int))
  | [], _, dims => .ok dims
  | p :: ps, stride, dims =>
    match dims[p]? with
    | none => .ub
    | some (n, _) => do
      let dims' ← setStride dims p (if n > 1 then stride else 0)
      assignStrides ps (stride * n) dims'

/-- `fixed_dim_type::reorder_default_constructed_strides` for a destination of fixed dimensions with as many dimensions as
    the source.  Not modelled: the branch for a destination with more dimensions than the source (not used by
    `empty_like`, `eval`, `eval_copy`), and the final F-order branch, which needs a source whose remaining dimensions are
    neither fixed nor var (var dimensions never classify as F-order).  The retry loop
    `do { stride = md[i].stride; } while (stride == 0 && i >= 0)` never changes `i`: an endless loop if that stride
    is 0 as well.  Stride arithmetic is not checked for overflow (the data has been allocated with that size).
    /repo/src/dynd/types/fixed_dim_type.cpp:397-515. -/
def reorderStrides (srt : (Nat → Nat → Bool) → List Nat → List Nat) (dims : List (Int × Int)) (src : List Int) :
    Res (List (Int × Int)) :=
  if dims.length ≤ 1 then .ok dims
  else
    let r := scanStrides dims.length src 0 0 true []
    if r.2.1 then .ok dims
    else if r.2.2.length < r.1 then .ub
    else do
      let perm ← stridesToAxisPerm srt r.1 (fun i => r.2.2.getD i 0)
      match dims[r.1 - 1]?, dims[r.1 - 2]? with
      | some (_, s1), some (_, s2) =>
        if s1 = 0 ∧ s2 = 0 then .ub
        else assignStrides perm (if s1 = 0 then s2 else s1) dims
      | _, _ => .ub

/-- The layout of `nd::empty_like(rhs, dtype)` (and of the results of `eval`, `eval_copy`) for a source with fixed
    dimensions: default strides, then reordered.  /repo/src/dynd/array.cpp:225-262, 792-834. -/
def emptyLike (srt : (Nat → Nat → Bool) → List Nat → List Nat) (esize : Int) (shape : List Int) (src : List Int) :
    Res (List (Int × Int)) :=
  reorderStrides srt (defaultDims esize shape) src

/-! ## reshape -/

/-- The product of a shape, computed in 64-bit signed arithmetic. -/
def shapeProd : List Int → Int → Res Int
  | [], acc => .ok acc
  | n :: ns, acc => do
    let a ← i64 (acc * n)
    shapeProd ns a

/-- The strides of the result, last one first: `strides[i] = shape[i+1] * strides[i+1]`. -/
def reshapeStrides (esize : Int) : List Int → Res (List Int)
  | [] => .ok []
  | [_] => .ok [esize]
  | _ :: n :: ns => do
    let ss ← reshapeStrides esize (n :: ns)
    match ss with
    | s :: _ => (do
      let s' ← i64 (n * s)
      pure (s' :: ss))
    | [] => .ub

/-- `nd::reshape(a, shape)`: dimensions and strides of the result, whose data pointer is that of `a`
    (/repo/src/dynd/array.cpp:849-887; /repo/src/dynd/array.cpp:38-66).  An empty new shape writes `strides[-1]`.
    A negative size gives a result type with var dimensions whose arrmeta is filled as if it were that of fixed dimensions:
    undefined (an integer is used as a reference).  The source is assumed writable (`a.data()` raises otherwise). -/
def reshape (esize : Int) (old : Dims) (new : List Int) : Res (List (Int × Int)) := do
  let os ← shapeProd (old.map fun p => (p.1 : Int)) 1
  let ns ← shapeProd new 1
  if os ≠ ns then .throw .invalidArg
  else if new = [] then .ub
  else do
    let ss ← reshapeStrides esize new
    if new.any (fun n => decide (n < 0)) then .ub
    else pure ((new.zip ss).map fun p => (p.1, if p.1 > 1 then p.2 else 0))

/-! ## concatenate -/

/-- `res(irange(lo, hi)).assign(vals)`: the slice is taken with `apply_single_linear_index`, then the elements are copied
    one by one (the sizes agree, see `elwise` for broadcasting). -/
def assignSlice {α : Type} (l : List (Option α)) (lo hi : Int) (vals : List α) : Res (List (Option α)) := do
  let r ← applySingleLinearIndex ⟨lo, hi, 1⟩ l.length
  if r.size ≠ vals.length then .throw .broadcast
  else .ok ((List.range l.length).map fun (k : Nat) =>
    if r.start ≤ k ∧ (k : Int) < r.start + r.size then vals[k - r.start.toNat]? else (l[k]?).join)

/-- `nd::concatenate` of two one-dimensional arrays of the same dtype, given by their elements: a fresh array (elements
    unset) and two slice assignments.  /repo/src/dynd/array.cpp:836-847. -/
def concatenate {α : Type} (x y : List α) : Res (List (Option α)) := do
  let res : List (Option α) := List.replicate (x.length + y.length) none
  let r1 ← assignSlice res 0 x.length x
  assignSlice r1 x.length (x.length + y.length) y

/-! ## old_range -/

/-- `(intptr_t)x` of a value of a builtin integer type. -/
def toIntptr (x : Int) : Int := (⟨64, true⟩ : IntTy).cast x

/-- `range_counter<T>::count` for builtin integer types (128-bit types excluded).  `step = -step` is computed in the
    promoted type (undefined for the minimum of a 32- or 64-bit type) and stored back into `T`.
    /repo/src/dynd/array_range.cpp:47-85. -/
def oldRangeCount (t : IntTy) (b e s : Int) : Res Int :=
  if s > 0 then
    if e ≤ b then .ok 0
    else do
      let d ← i64 (toIntptr e - toIntptr b)
      let d ← i64 (d + toIntptr s)
      let d ← i64 (d - 1)
      pure (d.tdiv (toIntptr s))
  else if s < 0 then
    if e ≥ b then .ok 0
    else do
      let m ← (if 32 ≤ t.bits ∧ s = t.min then .ub else .ok (t.cast (-s)))
      let d ← i64 (toIntptr b - toIntptr e)
      let d ← i64 (d + m)
      let d ← i64 (d - 1)
      pure (d.tdiv m)
  else .throw .runtime

/-- `static_cast<T>(begin + i * step)`: 64-bit signed arithmetic, unsigned for `uint64`.
    /repo/src/dynd/array_range.cpp:25-27. -/
def oldRangeElem (t : IntTy) (b s : Int) (i : Nat) : Res Int :=
  if t.bits = 64 ∧ t.signed = false then .ok (t.cast (b + i * s))
  else do
    let p ← i64 (i * s)
    let q ← i64 (b + p)
    pure (t.cast q)

/-- The loop filling the result. -/
def oldRangeFill (t : IntTy) (b s : Int) : Nat → Res (List Int)
  | 0 => .ok []
  | n + 1 => do
    let l ← oldRangeFill t b s n
    let x ← oldRangeElem t b s n
    pure (l ++ [x])

/-- `nd::old_range<T>(begin, end, step)`: a negative count makes `nd::empty` of a dimension of size `2^64 - k`
    (its allocation fails: `bad_alloc`).  /repo/src/dynd/array_range.cpp:117-149. -/
def oldRange (t : IntTy) (b e s : Int) : Res (List Int) := do
  let n ← oldRangeCount t b e s
  if n < 0 then .throw .badAlloc else oldRangeFill t b s n.toNat

/-! ## view -/

/-- What `try_view` looks at in a dtype: identity, data size, alignment, and whether it is plain data.
    /repo/include/dynd/type.hpp (`is_pod`). -/
structure VLeaf where
  ty : Nat
  size : Nat
  align : Nat
  pod : Bool
  deriving DecidableEq, Repr

/-- The arrmeta of the dtype: the default-constructed one, or another one (for example the offsets of a struct made by
    taking some fields of a larger one). -/
inductive VMeta where
  | default
  | other (k : Nat)
  deriving DecidableEq, Repr

/-- `try_view` for a source whose dimensions are fixed: the strides and the dtype arrmeta of the view.
    A source dtype against a view type with further dimensions is not reached (the callers compare the number of
    dimensions) and refused here.  /repo/src/dynd/view.cpp:18-80. -/
def tryView : Dims → VLeaf → VMeta → List ADim → VLeaf → Option (List Int × VMeta)
  | (n, s) :: src, l, m, .fixed k :: dst, v =>
    if n ≠ k then none
    else match tryView src l m dst v with
      | some (ss, m') => some (s :: ss, m')
      | none => none
  | _ :: _, _, _, _, _ => none
  | [], l, m, [], v =>
    if l.ty = v.ty then some ([], m)
    else if l.pod ∧ v.pod ∧ l.size = v.size ∧ l.align ≥ v.align then some ([], .default)
    else none
  | [], _, _, _ :: _, _ => none

/-- The data of an array as `view_concrete` sees it: all dimensions fixed, or a leading var dimension whose data is
    `begin`, `size`, with arrmeta `offset`, `stride`. -/
inductive VArr where
  | fixed (base : Int) (dims : Dims)
  | var (begin offset : Int) (size : Nat) (stride : Int) (dims : Dims)
  deriving DecidableEq, Repr

/-- `view_concrete`: data pointer, strides and dtype arrmeta of the view.  /repo/src/dynd/view.cpp:329-384. -/
def viewConcrete (a : VArr) (l : VLeaf) (m : VMeta) (dst : List ADim) (v : VLeaf) : Res (Int × List Int × VMeta) :=
  match a, dst with
  | .var b o n s dims, .fixed k :: dst' =>
    if n = k then
      match tryView dims l m dst' v with
      | some (ss, m') => .ok (b + o, s :: ss, m')
      | none => .throw .typeError
    else .throw .typeError
  | .fixed b dims, dst =>
    match tryView dims l m dst v with
    | some (ss, m') => .ok (b, ss, m')
    | none => .throw .typeError
  | .var _ _ _ _ _, _ => .throw .typeError

/-- `nd::old_view` of an array whose type differs from `tp`, with a concrete `tp` other than bytes, from an array other than
    bytes.  Viewing a leading var dimension as a var dimension needs equal types, so it does not arise.
    /repo/src/dynd/view.cpp:386-422. -/
def oldView (a : VArr) (l : VLeaf) (m : VMeta) (dst : List ADim) (v : VLeaf) : Res (Int × List Int × VMeta) :=
  let ndim := match a with | .fixed _ dims => dims.length | .var _ _ _ _ dims => dims.length + 1
  if ndim = dst.length then viewConcrete a l m dst v else .throw .typeError

end Dynd
