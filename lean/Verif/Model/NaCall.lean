/-
`nd::assign_na` as it is called, and `array::assign_na`: the binding of the destination, the choice of the overload, and
what is written.

Simplifications: the missing value of a type is given by a parameter (which bytes it is: C33); memory is that of
`UnaryOps`.
-/
import Verif.Model.RandomFill

namespace Dynd

/-- `() -> ?Any`.  /repo/src/dynd/option.cpp:43-45. -/
def assignNaSig : CallSig Ty :=
  { pos := [], posVariadic := false, kwds := [], kwdVariadic := false, ret := .option (.kind .any) }

/-- An array as it occurs in a call: a type object or a destination of a type. -/
inductive NaArg where
  | tp (t : Ty)
  | dst (t : Ty)

/-- `array::get_type` -/
def NaArg.typeOf : NaArg → Ty
  | .dst t => t
  | .tp _ => .leaf .typeT

/-- `nd::empty(value.as<ndt::type>())`.  /repo/include/dynd/callable.hpp:25-29, /repo/include/dynd/array.hpp:769-774. -/
def emptyNaArg : NaArg → Res NaArg
  | .tp t => if t.symbolic then .throw .typeError else .ok (.dst t)
  | .dst _ => .throw .typeError

/-- what `callable::call` uses of types and arrays; there is no keyword to be left out -/
def naOps (same : List Nat → Bool) : CallOps Ty NaArg Env :=
  { typeOf := NaArg.typeOf, valueType := id, optionValue := optValue, matchTy := matchTy same, naFor := fun _ _ => .ub,
    emptyOf := emptyNaArg, noVars := Env.empty }

/-- `multidispatch_callable<1>::resolve` on the type of the destination: the dimensions and the type of the element that
    is written.  The overload for `?Fixed` writes one element of the dtype (assign_na_callable.hpp:34-107); the table is
    that of `is_na` with the same types (/repo/src/dynd/option.cpp:17-20, 27-41).
    /repo/include/dynd/callables/base_dispatch_callable.hpp:19-26. -/
def resolveNa (same : List Nat → Bool) (tbl : List (Option UEntry)) : Nat → Ty → Res (List ElwClass × Ty)
  | 0, _ => .ub
  | fuel + 1, dst => do
    let e ← dispCall (tyMatch same) UEntry.sig [dst] tbl
    match e with
    | .opt t => pure ([], t)
    | .optFixed => do
      let v ← dst.atDim dst.ndim
      if naFixedTypes.any (tyEq v) then pure ([], v) else .throw .typeError
    | .elw _ _ => do
      let x ← resolveElw0 (resolveNa same tbl fuel) (.option (.kind .any)) dst
      pure (x.1, x.2.2)
    | .num _ => .ub

/-- `assign_na({}, kws)` up to the kernels: the type of the destination, the dimensions, the type of the element that is
    written.  /repo/src/dynd/callable.cpp:73-189, /repo/src/dynd/callables/base_callable.cpp:33-50, 66-78. -/
def naResolve (same : List Nat → Bool) (fuel : Nat) (kws : List (String × Option NaArg)) :
    Res (Ty × List ElwClass × Ty) := do
  let o ← bindCall (naOps same) assignNaSig [] kws
  let tbl ← makeIsNa same
  let x ← resolveNa same tbl fuel o.dstTp
  pure (o.dstTp, x)

/-- The kernels of `naResolve` for a destination with metadata `dm` at `d`; `na t` is what is stored for a missing value
    of type `t`.  /repo/include/dynd/kernels/assign_na_kernel.hpp. -/
def naWrite {V : Type} (na : Ty → V) (x : Ty × List ElwClass × Ty) (dm : List UMeta) (d : Int) (m : UDst V) : Res (UDst V) := do
  let l ← inst0 x.2.1 dm
  let r ← run0 (fun g : Unit => .ok (na x.2.2, g)) l d (m, ())
  pure r.1

/-- `x.assign_na()` for an array of type `t` with metadata `dm` at `d`.  /repo/src/dynd/array.cpp:156. -/
def arrAssignNa {V : Type} (same : List Nat → Bool) (fuel : Nat) (na : Ty → V) (t : Ty) (dm : List UMeta) (d : Int)
    (m : UDst V) : Res (UDst V) := do
  let x ← naResolve same fuel [("dst", some (.dst t))]
  naWrite na x dm d m

/-- `assign_na({}, {{"dst_tp", t}})`: a new array at `base`, and its type.  `sz`: the size of an element. -/
def newNa {V : Type} (same : List Nat → Bool) (fuel : Nat) (na : Ty → V) (t : Ty) (sz : Nat) (base : Int) :
    Res (Ty × List UMeta × UDst V) := do
  let x ← naResolve same fuel [("dst_tp", some (.tp t))]
  let dm := freshMeta sz (dimsOf x.1)
  let m ← naWrite na x dm base ⟨fun _ => none, fun _ => none, base + dataSize sz (dimsOf x.1)⟩
  pure (x.1, dm, m)

end Dynd
