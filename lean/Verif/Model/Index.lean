import Verif.Model.Basic
/-
Indexing and slicing of one dimension, and of n-dimensional strided arrays.
-/
namespace Dynd

/-- `class irange`: /repo/include/dynd/irange.hpp:39-70.  All three members are `intptr_t`. -/
structure IRange where
  start : Int
  finish : Int
  step : Int
  deriving DecidableEq, Repr

namespace IRange

/-- Default constructor `irange()`: /repo/include/dynd/irange.hpp:43-46. -/
def full : IRange := ⟨i64Min, i64Max, 1⟩
/-- `irange(intptr_t idx)`: /repo/include/dynd/irange.hpp:48. -/
def single (idx : Int) : IRange := ⟨idx, idx, 0⟩
/-- `is_nop()`: /repo/include/dynd/irange.hpp:68-72. -/
def isNop (r : IRange) : Bool := r.start == i64Min && r.finish == i64Max && r.step == 1
/-- `by(step)`: /repo/include/dynd/irange.hpp:78. -/
def by' (r : IRange) (step : Int) : IRange := ⟨r.start, r.finish, step⟩
/-- `irange() < finish`: /repo/include/dynd/irange.hpp:84. -/
def lt (r : IRange) (finish : Int) : IRange := ⟨r.start, finish, r.step⟩
/-- `irange() <= last`: /repo/include/dynd/irange.hpp:90-93; `last + 1` is signed 64-bit. -/
def le (r : IRange) (last : Int) : Res IRange :=
  if last ≠ -1 then (do let f ← i64 (last + 1); pure ⟨r.start, f, r.step⟩)
  else .ok ⟨r.start, i64Max, r.step⟩
/-- `irange() > finish`: /repo/include/dynd/irange.hpp:99. -/
def gt (r : IRange) (finish : Int) : IRange := ⟨r.start, finish, r.step⟩
/-- `irange() >= last`: /repo/include/dynd/irange.hpp:105-108. -/
def ge (r : IRange) (last : Int) : Res IRange :=
  if last ≠ 0 then (do let f ← i64 (last - 1); pure ⟨r.start, f, r.step⟩)
  else .ok ⟨r.start, i64Max, r.step⟩
/-- `lower < irange()`: /repo/include/dynd/irange.hpp:120-123. -/
def ltL (lower : Int) (r : IRange) : Res IRange := do
  let s ← i64 (lower + 1); pure ⟨s, r.finish, r.step⟩
/-- `start <= irange()`: /repo/include/dynd/irange.hpp:129. -/
def leL (start : Int) (r : IRange) : IRange := ⟨start, r.finish, r.step⟩
/-- `upper > irange()`: /repo/include/dynd/irange.hpp:135-138. -/
def gtL (upper : Int) (r : IRange) : Res IRange := do
  let s ← i64 (upper - 1); pure ⟨s, r.finish, r.step⟩
/-- `start >= irange()`: /repo/include/dynd/irange.hpp:144. -/
def geL (start : Int) (r : IRange) : IRange := ⟨start, r.finish, r.step⟩

end IRange

/-- `apply_single_index`: /repo/include/dynd/shape_tools.hpp:108-140.  The two ways of building the
    exception object (with or without `error_tp`) are merged. -/
def applySingleIndex (i0 dim : Int) : Res Int :=
  if i0 ≥ 0 then
    if i0 < dim then .ok i0 else .throw .indexOutOfBounds
  else if i0 ≥ -dim then .ok (i0 + dim)
  else .throw .indexOutOfBounds

/-- Output parameters of `apply_single_linear_index`. -/
structure Lin where
  remove : Bool
  start : Int
  stride : Int
  size : Int
  deriving DecidableEq, Repr

/-- Final part of the positive-step branch: /repo/src/dynd/shape_tools.cpp:355-379.
    `end - start` cannot overflow there; `size + step - 1` can. -/
def linPos (start stop step : Int) : Res Lin :=
  let size := stop - start
  if size > 0 then
    if step = 1 then .ok ⟨false, start, 1, size⟩
    else do
      let a ← i64 (size + step)
      let b ← i64 (a - 1)
      pure ⟨false, start, step, b.tdiv step⟩
  else .ok ⟨false, 0, 1, 0⟩

/-- Final part of the negative-step branch: /repo/src/dynd/shape_tools.cpp:447-471. -/
def linNeg (start stop step : Int) : Res Lin :=
  let size := start - stop
  if size > 0 then
    if step = -1 then .ok ⟨false, start, -1, size⟩
    else do
      let m ← i64 (-step)
      let a ← i64 (size + m)
      let b ← i64 (a - 1)
      pure ⟨false, start, step, b.tdiv m⟩
  else .ok ⟨false, 0, 1, 0⟩

/-- `apply_single_linear_index`: /repo/src/dynd/shape_tools.cpp:254-472.  The two ways of building
    each exception object are merged. -/
def applySingleLinearIndex (r : IRange) (dim : Int) : Res Lin :=
  if r.step = 0 then
    if r.start ≥ 0 then
      if r.start < dim then .ok ⟨true, r.start, 1, 1⟩ else .throw .indexOutOfBounds
    else if r.start ≥ -dim then .ok ⟨true, r.start + dim, 1, 1⟩
    else .throw .indexOutOfBounds
  else if r.step > 0 then do
    let start ←
      (if r.start ≥ 0 then
        if r.start < dim then .ok r.start else .throw .irangeOutOfBounds
      else if r.start ≥ -dim then .ok (r.start + dim)
      else .ok 0)
    let stop ←
      (if r.finish ≥ 0 then
        if r.finish ≤ dim then .ok r.finish else .ok dim
      else if r.finish ≥ -dim then .ok (r.finish + dim)
      else .throw .irangeOutOfBounds)
    linPos start stop r.step
  else do
    let start ←
      (if r.start ≥ 0 then
        if r.start < dim then .ok r.start else .throw .irangeOutOfBounds
      else if r.start ≥ -dim then .ok (r.start + dim)
      else if r.start = i64Min then .ok (dim - 1)
      else .throw .irangeOutOfBounds)
    let stop ←
      (if r.finish ≥ 0 then
        if r.finish < dim then .ok r.finish
        else if r.finish = i64Max then .ok (-1)
        else .throw .irangeOutOfBounds
      else if r.finish ≥ -dim then .ok (r.finish + dim)
      else .ok (-1))
    linNeg start stop r.step

/-- A strided view: data pointer offset and one (size, stride) pair per dimension
    (`fixed_dim_type` size plus `size_stride_t` arrmeta, /repo/include/dynd/types/fixed_dim_type.hpp). -/
structure View where
  off : Int
  dims : List (Int × Int)
  deriving DecidableEq, Repr

/-- `fixed_dim_type::apply_linear_index`, type and arrmeta versions together:
    /repo/src/dynd/types/fixed_dim_type.cpp:73-142.  Returns the byte offset to add and the resulting
    dimensions.  Simplifications: the element type below the last fixed dimension is a builtin scalar
    (indices left over there raise too_many_indices, raised by the type version which runs first);
    offsets and strides are mathematical integers (no overflow of `stride * start_index`). -/
def applyLinearIndex : List IRange → List (Int × Int) → Res (Int × List (Int × Int))
  | [], dims => .ok (0, dims)
  | _ :: _, [] => .throw .tooManyIndices
  | r :: rs, (n, s) :: dims => do
    let l ← applySingleLinearIndex r n
    let (off, out) ← applyLinearIndex rs dims
    if l.remove then pure (s * l.start + off, out)
    else pure (s * l.start + off, (l.size, s * l.stride) :: out)

/-- Indexing an array: `nd::array::at_array` adds the offset to the data pointer. -/
def View.index (v : View) (idx : List IRange) : Res View := do
  let (off, dims) ← applyLinearIndex idx v.dims
  pure ⟨v.off + off, dims⟩

/-- A history of indexing operations `a(i..)(j..)...`. -/
def View.indexAll (v : View) : List (List IRange) → Res View
  | [] => .ok v
  | idx :: rest => do
    let v' ← v.index idx
    v'.indexAll rest

end Dynd
