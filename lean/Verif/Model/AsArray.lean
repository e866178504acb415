/-
`nd::asarray`: an array of a requested, possibly symbolic, type from a given array.

Simplifications: as in `CopyRun` (elements are scalars, source and new array are apart); `array::assign` is called with its
default error mode.
-/
import Verif.Model.TypeOps
import Verif.Model.CopyRun

namespace Dynd

/-- `array::get_shape`: the size of a `var` dimension is known if all dimensions before it have size 1; -1 otherwise.
    `data`: the address of the element that is looked at, if there is only one.  A record that is not there is a zeroed
    one.  /repo/src/dynd/types/fixed_dim_type.cpp:174-192, /repo/src/dynd/types/var_dim_type.cpp:237-264. -/
def getShape (recs : Int → Option (Int × Nat)) : List UMeta → Option Int → List Int
  | [], _ => []
  | .fixed n _ :: r, data => (n : Int) :: getShape recs r (if n ≠ 1 then none else data)
  | .var _ _ :: r, none => -1 :: getShape recs r none
  | .var _ o :: r, some a =>
    match recs a with
    | some (b, n) => (n : Int) :: getShape recs r (if n = 1 then some (b + o) else none)
    | none => 0 :: getShape recs r none

/-- Which type the new array has; `none`: the array itself is returned.  `nd::empty` refuses a symbolic type.
    /repo/src/dynd/asarray.cpp:12-39, /repo/include/dynd/array.hpp:769-774. -/
def asArrayDst (same : List Nat → Bool) (tp t : Ty) (shape : List Int) : Res (Option Ty) := do
  let m ← matchFresh same tp t
  if m.1 then pure none
  else if tp.symbolic = false then pure (some tp)
  else do
    let t' ← substituteShape tp shape
    if t'.symbolic then .throw .typeError else pure (some t')

/-- The call for an array of type `t`, metadata `sm` and data at `s` in the memory `src`: the array itself (`none`) or a
    new one, made by `nd::empty` at address `base`, with its type, metadata and memory after `assign`.  `sz`: the size
    of an element of the new array.  asarray.cpp:12-39, /repo/include/dynd/array.hpp:436-439,
    /repo/src/dynd/array.cpp:152-154. -/
def asArray {α β : Type} (same : List Nat → Bool) (fuel : Nat) (op : KTree → α → Res β) (tp t : Ty) (src : USrc α)
    (sm : List UMeta) (s : Int) (sz : Nat) (base : Int) : Res (Option (Ty × List UMeta × UDst β)) := do
  let d ← asArrayDst same tp t (getShape src.recs sm (some s))
  match d with
  | none => pure none
  | some t' => do
    let tbl ← makeAssign same
    let dm := freshMeta sz (dimsOf t')
    let m ← assignRun fuel (resolveA same tbl (some (some .default)) fuel true t' t) op src sm s dm base
      ⟨fun _ => none, fun _ => none, base + dataSize sz (dimsOf t')⟩
    pure (some (t', dm, m))

end Dynd
