/-
The functions of one argument that run along the dimensions of an array: the operators `+ - ~ !`, `sqrt`, `cbrt`,
`is_na`, and `cos`, `sin`, `tan`, `exp`.  The table of overloads, the choice of an overload, the resolution of a call
into nodes and a result type, the instantiation with the array metadata, and the run of the kernels over memory.

Simplifications: which built-in types an operator is defined for (`isdef_*`) and the type of its result are
parameters; what a scalar kernel computes is a parameter; memory is a map from addresses to scalar elements and a map
from addresses to the records (begin, size) of `var` dimensions, the destination being apart from the source; the
memory blocks of all `var` dimensions of the result hand out addresses from one counter (C15 covers the blocks).
-/
import Verif.Model.Operators
import Verif.Model.Call

namespace Dynd

/-- The overloads of a function of one argument.  `num a`: a built-in type; `opt t`: `option[t]`; `optFixed`:
    `option[Fixed * Any]`; `elw arg ret`: elwise, with its argument and its return type.
    /repo/include/dynd/unary_arithmetic.hpp:26-41, /repo/src/dynd/option.cpp:48-64. -/
inductive UEntry where
  | num (a : BTy)
  | opt (t : Ty)
  | optFixed
  | elw (arg ret : Ty)
  deriving Repr

/-- `func_ptr`, `is_na_func_ptr`: the type the choice looks at.  /repo/include/dynd/unary_arithmetic.hpp:17-20,
    /repo/src/dynd/option.cpp:22-25, /repo/include/dynd/callables/is_na_callable.hpp:17-19, 26-28. -/
def UEntry.sig : UEntry → List Ty
  | .num a => [.prim a]
  | .opt t => [.option t]
  | .optFixed => [.option (.fixedDimKind (.kind .any))]
  | .elw t _ => [t]

/-- `get_ret_type()` of an overload. -/
def UEntry.ret (ret : BTy → BTy) : UEntry → Ty
  | .num a => .prim (ret a)
  | .opt _ | .optFixed => .prim .bool
  | .elw _ r => r

/-- `dispatcher::insert(begin, end)`.  /repo/include/dynd/dispatcher.hpp:233-243. -/
def uInsert (same : List Nat → Bool) (ch : List (Option UEntry)) (fs : List UEntry) : Res (List (Option UEntry)) :=
  if ch.all Option.isSome then
    match dispAssign (tyMatch same) UEntry.sig ch (ch.filterMap id ++ fs) with
    | (r, .ok _) => .ok r
    | (_, .throw e) => .throw e
    | (_, .ub) => .ub
  else .ub

/-- a sequence of `insert` calls -/
def uInserts (same : List Nat → Bool) : List (List UEntry) → List (Option UEntry) → Res (List (Option UEntry))
  | [], ch => .ok ch
  | fs :: rest, ch => do
    let ch' ← uInsert same ch fs
    uInserts same rest ch'

/-- `make_unary_arithmetic`: `ts` are the built-in types the operator is defined for.
    /repo/include/dynd/unary_arithmetic.hpp:26-41. -/
def makeUnaryFn (same : List Nat → Bool) (ts : List BTy) : Res (List (Option UEntry)) :=
  uInserts same [ts.map .num, [.elw (.fixedDimKind (.kind .any)) (.kind .any)], [.elw (.varDim (.kind .any)) (.kind .any)]] []

/-- `make_is_na`.  /repo/src/dynd/option.cpp:48-64. -/
def makeIsNa (same : List Nat → Bool) : Res (List (Option UEntry)) :=
  uInserts same [naTypes.map .opt ++ [.optFixed],
    [.elw (.fixedDimKind (.kind .any)) (.fixedDimKind (.kind .any))],
    [.elw (.varDim (.kind .any)) (.varDim (.kind .any))]] []

/-- Nodes of the call graph.  `elw c b v`: the class, whether the argument is broadcast, whether it is `var`;
    `isNaFixed t`: the test of `option[Fixed * ...]`, the one for a single element of type `t`. -/
inductive UNode where
  | kern (a : BTy)
  | isNa (t : Ty)
  | isNaFixed (t : Ty)
  | elw (c : ElwClass) (b v : Bool)
  deriving Repr

/-- `elwise_dispatch_callable<1>::resolve`: the class that handles one dimension.
    /repo/include/dynd/callables/elwise_dispatch_callable.hpp:43-93. -/
def elwClass1 (dst a : Ty) : Res ElwClass :=
  let strided := !isVarId a
  let varBroadcast := !strided && varOrOne a
  if (dst.variadicDims || isFixedId dst) && strided then .ok .ff
  else if (dst.variadicDims || isVarId dst) && (varBroadcast || strided) then .ok .vf
  else if !otherDim a then .ok .fv
  else .throw .runtime

/-- `res_size` for a result type still to be found.  /repo/include/dynd/callables/base_elwise_callable.hpp:84-90. -/
def resSize1 (a : Bool × Int × Ty) : Int := if !a.1 && a.2.1 != -1 then a.2.1 else 1

/-- One dimension after the other, then the child `f` on the elements; `cret` is the child's return type.
    /repo/include/dynd/callables/base_elwise_callable.hpp:43-122. -/
def resolveDims1 (f : Ty → Ty → Res (List UNode × Ty)) (cret : Ty) : Nat → Ty → Ty → Res (List UNode × Ty)
  | 0, _, _ => .ub
  | k + 1, dst, a => do
    let c ← elwClass1 dst a
    let ia ← argInfo (k + 1) a
    let r ← (if dst.variadicDims then .ok (resSize1 ia, dst)
      else match dimSizeOf dst with
        | none => .ub
        | some (n, el, _) => .ok (n, el) : Res (Int × Ty))
    if sizeClash r.1 ia then .throw .runtime
    else do
      let e ← (if k = 0 then f (if dst.variadicDims then cret else r.2) ia.2.2
        else resolveDims1 f cret k r.2 ia.2.2)
      pure (.elw c ia.1 (isVarId a) :: e.1, withRet c r.1 e.2)

/-- `elwise_entry_callable::resolve` with one argument; the child's argument and return types have no dimensions.
    /repo/include/dynd/callables/elwise_entry_callable.hpp:33-84. -/
def resolveElw1 (f : Ty → Ty → Res (List UNode × Ty)) (cret : Ty) (dst a : Ty) : Res (List UNode × Ty) :=
  let nd := a.ndim
  if !dst.variadicDims && decide (dst.ndim < nd) then .throw .broadcast
  else
    let k := if dst.variadicDims then nd else dst.ndim
    if k = 0 then f (if dst.variadicDims then cret else dst) a
    else resolveDims1 f cret k dst a

/-- The value types of the switch in `is_na` of `option[Fixed * ...]`.
    /repo/include/dynd/callables/is_na_callable.hpp:34-99. -/
def naFixedTypes : List Ty :=
  [.prim .bool, .prim (.int .w8), .prim (.int .w16), .prim (.int .w32), .prim (.int .w64), .prim (.int .w128),
   .prim (.flt .f32), .prim (.flt .f64), .prim (.cplx .c32), .prim (.cplx .c64)]

/-- `resolve` of the function: the nodes pushed and the type of the result.  `fuel` bounds the recursion; running out
    of it is a stack overflow.  The function's own return type is `Any` (`cret` of its elwise overloads).
    /repo/include/dynd/callables/base_dispatch_callable.hpp:19-26, default_instantiable_callable.hpp:21-31,
    apply_function_callable.hpp:23-38, is_na_callable.hpp:30-103. -/
def resolveU (same : List Nat → Bool) (ret : BTy → BTy) (tbl : List (Option UEntry)) :
    Nat → Ty → Ty → Res (List UNode × Ty)
  | 0, _, _ => .ub
  | fuel + 1, dst, a => do
    let e ← dispCall (tyMatch same) UEntry.sig [a] tbl
    let d := if dst.symbolic then e.ret ret else dst
    match e with
    | .num x => pure ([.kern x], d)
    | .opt t => pure ([.isNa t], d)
    | .optFixed => do
      let v ← a.atDim a.ndim
      if naFixedTypes.any (tyEq v) then pure ([.isNaFixed v], d) else .throw .typeError
    | .elw _ _ => resolveElw1 (resolveU same ret tbl fuel) (.kind .any) d a

/-- `functional::elwise(child)` for a child from the built-in type `x` to the built-in type `r`: the argument is checked
    against `Dims... * x`, the return type is `Dims... * r`.  /repo/src/dynd/functional.cpp:85-130,
    /repo/src/dynd/callable.cpp:57-71, /repo/src/dynd/math.cpp:26-29.  Simplification: the check is the equality of the
    type below the dimensions. -/
def resolveLift (x r : BTy) (a : Ty) : Res (List UNode × Ty) := do
  let el ← a.atDim a.ndim
  if tyEq el (.prim x) then
    resolveElw1 (fun d _ => pure ([.kern x], d)) (.prim r) (.ellipsis "Dims" (.prim r)) a
  else .throw .invalidArg

/-! ### Array metadata and the kernels -/

/-- The metadata of one dimension: `size_stride_t` or `var_dim_type::metadata_type`. -/
inductive UMeta where
  | fixed (size : Nat) (stride : Int)
  | var (stride offset : Int)
  deriving DecidableEq, Repr

/-- What a kernel for one dimension holds: `ff` size, destination and source stride; `vf` destination stride and
    offset, source stride and offset.  /repo/include/dynd/kernels/elwise_kernel.hpp:39-45, 189-203. -/
inductive ULevel where
  | ff (size : Nat) (ds ss : Int)
  | vf (ds doff ss soff : Int)
  deriving DecidableEq, Repr

/-- The closures of the elwise nodes: the levels, down to the scalar node.  Metadata read as that of another kind of
    dimension is undefined.  A result still to be allocated and one argument never make the class `fv`.
    /repo/include/dynd/callables/elwise_callable.hpp:53-89, 162-204. -/
def instU : List UNode → List UMeta → List UMeta → Res (List ULevel × UNode)
  | [], _, _ => .ub
  | .elw .ff b _ :: r, .fixed n ds :: dm, sm =>
    if b then do
      let x ← instU r dm sm
      pure (.ff n ds 0 :: x.1, x.2)
    else match sm with
      | .fixed _ ss :: sm' => do
        let x ← instU r dm sm'
        pure (.ff n ds ss :: x.1, x.2)
      | _ => .ub
  | .elw .vf _ v :: r, .var ds doff :: dm, sm =>
    if v then match sm with
      | .var ss so :: sm' => do
        let x ← instU r dm sm'
        pure (.vf ds doff ss so :: x.1, x.2)
      | _ => .ub
    else .ub
  | .elw _ _ _ :: _, _, _ => .ub
  | n :: _, _, _ => .ok ([], n)

/-- The source: scalar elements and the records of `var` dimensions. -/
structure USrc (α : Type) where
  cells : Int → Option α
  recs : Int → Option (Int × Nat)

/-- The destination: the same, a record not there being a zeroed one, and the next free address. -/
structure UDst (β : Type) where
  cells : Int → Option β
  recs : Int → Option (Int × Nat)
  next : Int

/-- a map changed at one place -/
def putAt {γ : Type} (f : Int → Option γ) (a : Int) (x : γ) : Int → Option γ := fun b => if b = a then some x else f b

/-- a strided call of a kernel: `count` times, both addresses moving.
    /repo/include/dynd/kernels/base_strided_kernel.hpp, elwise_kernel.hpp:57-70, 293-303. -/
def uLoop {β : Type} (body : Int → Int → UDst β → Res (UDst β)) : Nat → Int → Int → Int → Int → UDst β → Res (UDst β)
  | 0, _, _, _, _, m => .ok m
  | n + 1, ds, ss, d, s, m => do
    let m' ← body d s m
    uLoop body n ds ss (d + ds) (s + ss) m'

/-- `single` of the kernels; the scalar kernel reads its operand, computes `op` and writes the result.
    /repo/include/dynd/kernels/elwise_kernel.hpp:47-55, 207-291.  `alloc` hands out the next `n` elements, zeroed. -/
def runU {α β : Type} (op : α → β) (src : USrc α) : List ULevel → Int → Int → UDst β → Res (UDst β)
  | [], d, s, m =>
    match src.cells s with
    | none => .ub
    | some x => .ok { m with cells := putAt m.cells d (op x) }
  | .ff n ds ss :: r, d, s, m => uLoop (runU op src r) n ds ss d s m
  | .vf ds doff ss so :: r, d, s, m =>
    match src.recs s with
    | none => .ub
    | some (b, n) =>
      match m.recs d with
      | some (db, dn) =>
        if n = 1 then uLoop (runU op src r) dn (if dn ≤ 1 then 0 else ds) 0 (db + doff) (b + so) m
        else if n = dn then uLoop (runU op src r) dn (if dn ≤ 1 then 0 else ds) ss (db + doff) (b + so) m
        else .throw .broadcast
      | none =>
        if doff ≠ 0 then .throw .runtime
        else uLoop (runU op src r) n (if n ≤ 1 then 0 else ds) (if n = 1 then 0 else ss) m.next (b + so)
          { m with recs := putAt m.recs d (m.next, n), next := m.next + n * ds }

/-- Data size of the default layout: `sz` for the scalar, a record of 16 bytes for a `var` dimension.  `none`: `var`.
    /repo/src/dynd/types/fixed_dim_type.cpp:17-24, /repo/include/dynd/types/var_dim_type.hpp:36-38. -/
def dataSize (sz : Nat) : List (Option Nat) → Nat
  | [] => sz
  | some n :: r => n * dataSize sz r
  | none :: _ => 16

/-- Metadata of a new array: `arrmeta_default_construct`.  /repo/src/dynd/types/fixed_dim_type.cpp:239-250,
    /repo/src/dynd/types/var_dim_type.cpp:302-327. -/
def freshMeta (sz : Nat) : List (Option Nat) → List UMeta
  | [] => []
  | some n :: r => .fixed n (dataSize sz r) :: freshMeta sz r
  | none :: r => .var (dataSize sz r) 0 :: freshMeta sz r

/-- The dimensions of a type, down to something else. -/
def dimsOf : Ty → List (Option Nat)
  | .fixedDim n el => some n.toNat :: dimsOf el
  | .varDim el => none :: dimsOf el
  | _ => []

/-- A call `f(a)` with the result allocated: `nd::empty` of the result type (at address `base`, zeroed), the kernels,
    the run.  `sz`: the size of a result element.  Result: the type, its metadata and the memory.
    /repo/src/dynd/callables/base_callable.cpp:14-31. -/
def unaryRun {α β : Type} (r : Res (List UNode × Ty)) (op : UNode → α → β) (sz : Nat) (src : USrc α) (sm : List UMeta)
    (s : Int) (base : Int) : Res (Ty × List UMeta × UDst β) := do
  let x ← r
  let dm := freshMeta sz (dimsOf x.2)
  let l ← instU x.1 dm sm
  let m ← runU (op l.2) src l.1 base s
    { cells := fun _ => none, recs := fun _ => none, next := base + dataSize sz (dimsOf x.2) }
  pure (x.2, dm, m)

/-- The signature of `compound_add` and `compound_div`: two positional arguments, no keywords.
    /repo/include/dynd/compound_arithmetic.hpp:22-25. -/
def compoundSig : CallSig Ty :=
  { pos := [.kind .any, .kind .any], posVariadic := false, kwds := [], kwdVariadic := false, ret := .kind .any }

/-- `self += rhs`, `self /= rhs`: `compound_add({rhs}, {{"dst", *this}})`, up to the call of the callable itself.
    /repo/src/dynd/array.cpp:1148-1156. -/
def inPlace {A V : Type} (ops : CallOps Ty A V) (self rhs : A) : Res (CallOut Ty A V) :=
  bindCall ops compoundSig [some rhs] [("dst", some self)]

end Dynd
