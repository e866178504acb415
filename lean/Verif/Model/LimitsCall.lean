/-
`nd::limits::max` and `nd::limits::min`: the call, the choice of the overload, what is written.

Simplifications: an element is an integer or the bits of a floating-point number; memory is that of `UnaryOps`.
-/
import Verif.Model.NaCall

namespace Dynd

/-- an element -/
inductive LimVal where
  | int (n : Int)
  | bits (b : Nat)
  deriving DecidableEq, Repr

/-- the types of the overloads.  /repo/src/dynd/limits.cpp:19-27. -/
def limTypes : List BTy :=
  [.int .w8, .int .w16, .int .w32, .int .w64, .uint .w8, .uint .w16, .uint .w32, .uint .w64, .flt .f32, .flt .f64]

/-- the table of either function, looked at by the type of the destination.  /repo/src/dynd/limits.cpp:14-27. -/
def makeLimits (same : List Nat → Bool) : Res (List (Option UEntry)) := uInserts same [limTypes.map .num] []

/-- `std::numeric_limits<T>::max()`.  /repo/include/dynd/kernels/limits/max_kernel.hpp:15-19. -/
def limitMax : BTy → LimVal
  | .int w => .int (2 ^ (8 * w.size - 1) - 1)
  | .uint w => .int (2 ^ (8 * w.size) - 1)
  | .flt .f32 => .bits 0x7f7fffff
  | .flt .f64 => .bits 0x7fefffffffffffff
  | _ => .int 0

/-- `std::numeric_limits<T>::lowest()`.  /repo/include/dynd/kernels/limits/min_kernel.hpp:15-19. -/
def limitMin : BTy → LimVal
  | .int w => .int (-(2 ^ (8 * w.size - 1)))
  | .uint _ => .int 0
  | .flt .f32 => .bits 0xff7fffff
  | .flt .f64 => .bits 0xffefffffffffffff
  | _ => .int 0

/-- `() -> Any`.  /repo/src/dynd/limits.cpp:20, 25. -/
def limSig : CallSig Ty :=
  { pos := [], posVariadic := false, kwds := [], kwdVariadic := false, ret := .kind .any }

/-- The call up to the kernel: the type of the destination and the type whose limit is written.
    /repo/src/dynd/callable.cpp:73-189, /repo/include/dynd/callables/base_dispatch_callable.hpp:19-26. -/
def limResolve (same : List Nat → Bool) (kws : List (String × Option NaArg)) : Res (Ty × BTy) := do
  let o ← bindCall (naOps same) limSig [] kws
  let tbl ← makeLimits same
  let e ← dispCall (tyMatch same) UEntry.sig [o.dstTp] tbl
  match e with
  | .num b => pure (o.dstTp, b)
  | _ => .ub

/-- `max({}, {{"dst", x}})` for an array `x` of type `t` at `d`; `lim` is `limitMax` or `limitMin`. -/
def limInto (lim : BTy → LimVal) (same : List Nat → Bool) (t : Ty) (d : Int) (m : UDst LimVal) : Res (UDst LimVal) := do
  let x ← limResolve same [("dst", some (.dst t))]
  pure { m with cells := putAt m.cells d (lim x.2) }

/-- `max({}, {{"dst_tp", t}})`: a new array at `base`, and its type. -/
def limNew (lim : BTy → LimVal) (same : List Nat → Bool) (t : Ty) (base : Int) : Res (Ty × UDst LimVal) := do
  let x ← limResolve same [("dst_tp", some (.tp t))]
  pure (x.1, ⟨putAt (fun _ => none) base (lim x.2), fun _ => none, base⟩)

end Dynd
