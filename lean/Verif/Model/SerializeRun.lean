/-
`nd::serialize` from the call to the bytes of the result: a reduction (Verif/Model/ReduceRun.lean) whose elements are
`bytes` objects, started as empty and appended to.

Simplifications: one positional argument and no destination given; a dimension is `fixed` or `var`; the elements are of a
built-in type (the parameter of the callable matches every scalar); a `bytes` object of the result is a unit, known by
its address; that `sso_bytestring::append` appends is C21.
-/
import Verif.Model.ReduceRun

namespace Dynd

/-- `sizeof(bytes)`: a pointer to the end and one to the beginning, or the same room used for short data.
    /repo/include/dynd/bytes.hpp:15-66, /repo/src/dynd/types/bytes_type.cpp:22-26. -/
def bytesObjSize : Nat := 16

/-- `bytes`.  /repo/include/dynd/callables/serialize_callable.hpp:19. -/
def bytesResTy : Ty := .leaf (.bytes 1)

/-- The child and the identity, resolved for the elements with the destination type `dst`.  The child keeps the size of
    an element and returns `dst` (serialize_callable.hpp:21-35); the identity, a lambda returning `bytes()`, stores an
    empty `bytes` (/repo/src/dynd/io.cpp:13-14, /repo/include/dynd/kernels/apply_callable_kernel.hpp:64-67).  The type
    in `.start` is not used: `bytes` is no built-in type. -/
def serLeaf (dst : Ty) : Ty → Res (List RNode × Ty)
  | .prim a => .ok ([.kern a, .start .void], dst)
  | _ => .throw .unmodelled

/-- `reduction_dispatch_callable::resolve` for `nd::serialize`.  With dimensions the child is given its own return type,
    `bytes` (/repo/include/dynd/callables/base_reduction_callable.hpp:72-74); without, the type the call was made with,
    the return type `Dims... * bytes` of the reduction (reduction_callable.hpp:92, /repo/src/dynd/functional.cpp:193-195,
    /repo/src/dynd/callable.cpp:110-160). -/
def resolveSerialize (axes : Option (List Int)) (keep : Bool) (a : Ty) : Res (List RNode × Ty) := do
  let el ← a.atDim a.ndim
  if a.ndim = 0 then do
    let r ← serLeaf (.ellipsis "Dims" bytesResTy) el
    pure (.scalar :: r.1, r.2)
  else resolveAxes (serLeaf bytesResTy) axes keep a.ndim a.ndim 0 a

/-- A call: the result's type and metadata, and what the kernels do.  `empty` refuses a symbolic type.
    /repo/src/dynd/callables/base_callable.cpp:33-50, /repo/include/dynd/array.hpp:769-774. -/
def serializeRun (axes : Option (List Int)) (keep : Bool) (a : Ty) (vd : VarData) (sm : List UMeta) :
    Res (Ty × List UMeta × List REv) := do
  let x ← resolveSerialize axes keep a
  if x.2.symbolic then .throw .typeError
  else do
    let dm := freshMeta bytesObjSize (dimsOf x.2)
    let k ← instR x.1 dm sm
    let evs ← runR vd k
    pure (x.2, dm, evs)

/-- The bytes at an address.  /repo/include/dynd/kernels/serialize_kernel.hpp:24. -/
def readRaw (mem : Int → Nat) : Int → Nat → List Nat
  | _, 0 => []
  | a, w + 1 => mem a :: readRaw mem (a + 1) w

/-- The kernels on the objects of the result: `append(src[0], data_size)`.  serialize_kernel.hpp:20-25. -/
def serializeMem (w : Nat) (mem : Int → Nat) (evs : List REv) (res : Int → List Nat) : Int → List Nat :=
  runEv (fun x el => x ++ el) [] (fun s => readRaw mem s w) evs res

end Dynd
