/-
`nd::sum`, `nd::min`, `nd::max` and `nd::all` from the call to the bytes of the result: the choice of the kernel and of
the kernel that starts an accumulation, the type of the result, the nodes, their instantiation with the array
metadata, and the run.

Simplifications: one positional argument and no destination given; a dimension is `fixed` or `var`; what the scalar
kernel computes is a parameter; addresses of the operand and of the result are counted from their first bytes, in
separate memories, that of the result byte by byte; the match of the argument with `Dims... * Scalar` always succeeds
and that with `Dims... * bool` is the equality of the type below the dimensions.
-/
import Verif.Model.UnaryOps
import Verif.Model.Reduction
import Verif.Model.Stats

namespace Dynd

/-- The four functions.  /repo/src/dynd/sum.cpp:24-31, /repo/src/dynd/statistics.cpp:34-55,
    /repo/src/dynd/logic.cpp:13. -/
inductive RedFn where | sum | min | max | all
  deriving DecidableEq, Repr

/-- sum.cpp:29-30. -/
def sumTypes : List BTy :=
  [.int .w8, .int .w16, .int .w32, .int .w64, .uint .w8, .uint .w16, .uint .w32, .uint .w64,
   .flt .f16, .flt .f32, .flt .f64, .cplx .c32, .cplx .c64]

/-- `arithmetic_types`.  /repo/include/dynd/types/type_id.hpp:118-124. -/
def arithTypes : List BTy :=
  [.int .w8, .int .w16, .int .w32, .int .w64, .int .w128, .bool, .uint .w8, .uint .w16, .uint .w32, .uint .w64,
   .uint .w128, .flt .f16, .flt .f32, .flt .f64, .flt .f128, .cplx .c32, .cplx .c64]

/-- The types `limits::min` and `limits::max` are made for.  statistics.cpp:37-39, 50-52. -/
def limitTypes : List BTy :=
  [.int .w8, .int .w16, .int .w32, .int .w64, .uint .w8, .uint .w16, .uint .w32, .uint .w64, .flt .f32, .flt .f64]

/-- Nodes of the call graph.  `red v inner bc keep`: a dimension (`v`: `var`; `inner`: the last; `bc`: kept; `keep`:
    `keepdims`).  `kern a`: the scalar kernel.  `start b`: the kernel that begins an accumulation, writing a value of
    the built-in type `b`.  `scalar`: no dimensions. -/
inductive RNode where
  | red (v inner bc keep : Bool)
  | kern (a : BTy)
  | start (b : BTy)
  | scalar
  deriving DecidableEq, Repr

/-- The table of a function: `multidispatch_callable` over the callables for the types `ts`.  sum.cpp:26-31,
    statistics.cpp:35-42, /repo/include/dynd/dispatcher.hpp:233-243. -/
def redTable (same : List Nat → Bool) (ts : List BTy) : Res (List (Option UEntry)) := uInsert same [] (ts.map .num)

/-- The choice in a table.  /repo/include/dynd/callables/base_dispatch_callable.hpp:19-26. -/
def redPick (same : List Nat → Bool) (ts : List BTy) (t : Ty) : Res BTy := do
  let tbl ← redTable same ts
  let e ← dispCall (tyMatch same) UEntry.sig [t] tbl
  match e with
  | .num a => pure a
  | _ => .ub

/-- The child and the identity, resolved for the elements: /repo/include/dynd/callables/base_reduction_callable.hpp:72-77,
    reduction_callable.hpp:92-95.  The identity of `sum` and of `all` is made of a lambda returning `int` and `bool`
    (`apply_callable_callable`, /repo/include/dynd/callable.hpp:60-64), whose `resolve` returns the type it is given
    without looking at it (/repo/include/dynd/callables/base_apply_callable.hpp:28-32) and whose kernel stores a value
    of the lambda's own return type (/repo/include/dynd/kernels/apply_callable_kernel.hpp:64-67). -/
def redLeaf (same : List Nat → Bool) : RedFn → Ty → Res (List RNode × Ty)
  | .sum, el => do
    let a ← redPick same sumTypes el
    pure ([.kern a, .start (.int .w32)], .prim a)
  | .min, el | .max, el => do
    let a ← redPick same arithTypes el
    let b ← redPick same limitTypes (.prim a)
    pure ([.kern a, .start b], .prim a)
  | .all, _ => .ok ([.kern .bool, .start .bool], .prim .bool)

/-- Is dimension number `k` reduced?  base_reduction_callable.hpp:48-53. -/
def redAxis (axes : Option (List Int)) (k : Nat) : Bool :=
  match axes with
  | none => true
  | some l => l.contains (k : Int)

/-- One dimension after the other.  `nd`: the number of dimensions; `axis`: the current one; the first argument bounds
    the recursion.  base_reduction_callable.hpp:38-95, reduction_callable.hpp:98-106. -/
def resolveAxes (f : Ty → Res (List RNode × Ty)) (axes : Option (List Int)) (keep : Bool) (nd : Nat) :
    Nat → Nat → Ty → Res (List RNode × Ty)
  | k + 1, axis, .fixedDim n el => do
    let red := redAxis axes axis
    let r ← if axis + 1 = nd then f el else resolveAxes f axes keep nd k (axis + 1) el
    pure (.red false (decide (axis + 1 = nd)) (!red) keep :: r.1,
      if red then (if keep then .fixedDim 1 r.2 else r.2) else .fixedDim n r.2)
  | k + 1, axis, .varDim el => do
    let red := redAxis axes axis
    let r ← if axis + 1 = nd then f el else resolveAxes f axes keep nd k (axis + 1) el
    pure (.red true (decide (axis + 1 = nd)) (!red) keep :: r.1,
      if red then (if keep then .fixedDim 1 r.2 else r.2) else .varDim r.2)
  | _, _, _ => .ub

/-- `reduction_dispatch_callable::resolve` for a call with one argument of type `a`, after the check of the argument.
    reduction_callable.hpp:27-107, /repo/src/dynd/callable.cpp:57-71. -/
def resolveReduce (same : List Nat → Bool) (fn : RedFn) (axes : Option (List Int)) (keep : Bool) (a : Ty) :
    Res (List RNode × Ty) := do
  let el ← a.atDim a.ndim
  if fn = .all && !tyEq el (.prim .bool) then .throw .invalidArg
  else if a.ndim = 0 then do
    let r ← redLeaf same fn a
    pure (.scalar :: r.1, r.2)
  else resolveAxes (redLeaf same fn) axes keep a.ndim a.ndim 0 a

/-- What is instantiated: the levels of the fixed dimensions, the inner stride of a `var` dimension below them, the
    scalar kernel and what it starts from; or the same without dimensions. -/
inductive RKern where
  | dims (ks : List RLevel) (v : Option Int) (a b : BTy)
  | scalar (a b : BTy)

/-- The closures of the nodes.  A closure takes the nodes after its own in turn; there being none, or a metadata of
    another kind of dimension, is undefined.  base_reduction_callable.hpp:101-227, reduction_callable.hpp:53-90. -/
def instR : List RNode → List UMeta → List UMeta → Res RKern
  | [.scalar, .kern a, .start b], _, _ => .ok (.scalar a b)
  | .red false inner bc keep :: r, dm, .fixed n ss :: sm => do
    let ds ← (if bc then match dm with
        | .fixed _ st :: _ => Res.ok st
        | _ => Res.ub
      else Res.ok 0)
    if inner then match r with
      | [.kern a, .start b] => pure (.dims [{ bc := bc, size := n, dst := ds, src := ss }] none a b)
      | _ => .ub
    else do
      let x ← instR r (if keep then dm.tail else dm) sm
      match x with
      | .dims ks v a b => pure (.dims ({ bc := bc, size := n, dst := ds, src := ss } :: ks) v a b)
      | .scalar _ _ => .ub
  | [.red true _ _ _, .kern a, .start b], _, .var st _ :: _ => .ok (.dims [] (some st) a b)
  | _, _, _ => .ub

/-! ### Kernels of fixed dimensions above a `var` dimension -/

/-- `strided_followup`.  /repo/include/dynd/kernels/reduction_kernel.hpp:190-206 (reduced), 499-515 (kept), 360-370
    (`var`). -/
def vFollow (vd : VarData) (st : Int) : List RLevel → Int → Int → Int → Int → Nat → List REv
  | [], d, ds, s, ss, n => redVarFollow vd st d ds s ss n
  | k :: ks, d, ds, s, ss, n => rLoop (fun d s => vFollow vd st ks d k.ds s k.src k.size) ds ss n d s

mutual
/-- `single_first`.  reduction_kernel.hpp:127-140 (reduced), 451-454 (kept), 335-342 (`var`). -/
def vFirst (vd : VarData) (st : Int) : List RLevel → Int → Int → Res (List REv)
  | [], d, s => .ok (redVarFirst vd st d s)
  | k :: ks, d, s =>
    if k.bc then vFirstStr vd st ks d k.dst s k.src k.size
    else do
      let a ← vFirst vd st ks d s
      if k.size > 1 then pure (a ++ vFollow vd st ks d 0 (s + k.src) k.src (k.size - 1)) else pure a
/-- `strided_first`.  reduction_kernel.hpp:142-188 (reduced), 456-497 (kept), 344-358 (`var`). -/
def vFirstStr (vd : VarData) (st : Int) : List RLevel → Int → Int → Int → Int → Nat → Res (List REv)
  | [], d, ds, s, ss, n => .ok (redVarFirstStr vd st d ds s ss n)
  | k :: ks, d, ds, s, ss, n =>
    if k.bc then
      if ds = 0 then do
        let a ← vFirstStr vd st ks d k.dst s k.src k.size
        pure (a ++ rLoop (fun d s => vFollow vd st ks d k.dst s k.src k.size) ds ss (n - 1) (d + ds) (s + ss))
      else rLoopR (fun d s => vFirstStr vd st ks d k.dst s k.src k.size) ds ss n d s
    else
      if ds = 0 then
        if n = 0 then .ub
        else do
          let a ← vFirst vd st ks d s
          let b := if k.size > 1 then vFollow vd st ks d 0 (s + k.src) k.src (k.size - 1) else []
          pure (a ++ b ++ rLoop (fun d s => vFollow vd st ks d 0 s k.src k.size) 0 ss (n - 1) d (s + ss))
      else
        rLoopR (fun d s => do
          let a ← vFirst vd st ks d s
          if k.size > 1 then pure (a ++ vFollow vd st ks d 0 (s + k.src) k.src (k.size - 1)) else pure a) ds ss n d s
end

/-- The run of the kernels from the first byte of the operand and of the result.  reduction_kernel.hpp:373-385 for a
    scalar. -/
def runR (vd : VarData) : RKern → Res (List REv)
  | .scalar _ _ => .ok [.init 0, .acc 0 0]
  | .dims ks none _ _ => redFirst ks 0 0
  | .dims ks (some st) _ _ => vFirst vd st ks 0 0

/-- The built-in types a kernel works with: that of the elements, and that of what it starts from. -/
def RKern.types : RKern → BTy × BTy
  | .dims _ _ a b => (a, b)
  | .scalar a b => (a, b)

/-- size in bytes.  /repo/include/dynd/types/type_id.hpp:50-63. -/
def BTy.width : BTy → Nat
  | .void => 0
  | .bool => 1
  | .int w => w.size
  | .uint w => w.size
  | .flt f => f.size
  | .cplx c => c.size

/-- A call with the result allocated by `nd::empty`: the result's type and metadata, the type of what an accumulation
    starts from, and what the kernels do.  /repo/src/dynd/callables/base_callable.cpp:14-31. -/
def reduceRun (r : Res (List RNode × Ty)) (sz : Nat) (vd : VarData) (sm : List UMeta) :
    Res (Ty × List UMeta × BTy × List REv) := do
  let x ← r
  let dm := freshMeta sz (dimsOf x.2)
  let k ← instR x.1 dm sm
  let evs ← runR vd k
  pure (x.2, dm, k.types.2, evs)

/-! ### Bytes -/

/-- The `w` bytes of a number, the least first. -/
def leBytes : Nat → Nat → List Nat
  | 0, _ => []
  | w + 1, n => n % 256 :: leBytes w (n / 256)

/-- Writing bytes. -/
def wrBytes (mem : Int → Nat) : Int → List Nat → Int → Nat
  | _, [] => mem
  | a, b :: bs => wrBytes (fun x => if x = a then b else mem x) (a + 1) bs

/-- Reading a number of `w` bytes. -/
def rdBytes (mem : Int → Nat) : Int → Nat → Nat
  | _, 0 => 0
  | a, w + 1 => mem a + 256 * rdBytes mem (a + 1) w

/-- What an accumulation starts from, as bits: `std::numeric_limits<T>::max()` for `min`, `lowest()` for `max`
    (/repo/include/dynd/kernels/limits/max_kernel.hpp:14-18, min_kernel.hpp:14-18), `0` for `sum`, `true` for `all`. -/
def startBits : RedFn → BTy → Nat
  | .sum, _ => 0
  | .all, _ => 1
  | .min, .int w => 2 ^ (8 * w.size - 1) - 1
  | .min, .uint w => 2 ^ (8 * w.size) - 1
  | .min, .flt .f32 => Fmt.single.maxPat
  | .min, .flt .f64 => Fmt.double.maxPat
  | .max, .int w => 2 ^ (8 * w.size - 1)
  | .max, .flt .f32 => Fmt.single.lowestPat
  | .max, .flt .f64 => Fmt.double.lowestPat
  | _, _ => 0

/-- The events on the bytes of the result: a start writes the bytes of a value of type `b`, a step reads the element,
    of `w` bytes, and writes it.  /repo/include/dynd/kernels/sum_kernel.hpp:16-18,
    apply_callable_kernel.hpp:64-67. -/
def runBytes {α β : Type} (w : Nat) (enc : α → Nat) (dec : Nat → α) (start : List Nat) (op : α → β → α) (src : Int → β) :
    List REv → (Int → Nat) → (Int → Nat)
  | [], mem => mem
  | .init d :: l, mem => runBytes w enc dec start op src l (wrBytes mem d start)
  | .acc d s :: l, mem =>
    runBytes w enc dec start op src l (wrBytes mem d (leBytes w (enc (op (dec (rdBytes mem d w)) (src s)))))

end Dynd
