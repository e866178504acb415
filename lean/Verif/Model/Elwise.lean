import Verif.Model.Basic
/-
Elementwise application of a scalar function.  A run is observed as the sequence of calls of the scalar function:
for each call the address of the result and the addresses of the operands (byte offsets from the operands' data
pointers).
-/
namespace Dynd

/-! ## Fixed dimensions, any rank -/

/-- Dimensions of one operand, outermost first: size and stride, i.e. its `size_stride_t` arrmeta. -/
abbrev Dims := List (Nat × Int)

/-- Type resolution of `elwise` on operands with fixed dimensions only (and scalars): one entry per dimension, giving
    for each operand whether it is broadcast there (`arg_broadcast`), and the shape of the result.  `res` is the
    shape of a given destination, `none` when the result type is to be inferred.  `nd` is the number of dimensions
    still to be processed.
    /repo/include/dynd/callables/base_elwise_callable.hpp:43-116 (recursion through
    elwise_dispatch_callable.hpp:80-90, the branch for strided operands); `res_ignore` is not modelled. -/
def elwResolve : Nat → Option (List Nat) → List (List Nat) → Res (List (List Bool) × List Nat)
  | 0, _, _ => .ok ([], [])
  | nd + 1, res, args => do
    let bc := args.map fun a => decide (a.length < nd + 1) || decide (a.head? = some 1)
    let sizes := args.map fun a => if a.length < nd + 1 then 1 else a.headD 1
    let els := args.map fun a => if a.length < nd + 1 then a else a.tail
    let rs ← (match res with
      | none => Res.ok (((bc.zip sizes).find? fun p => !p.1).elim 1 (·.2))
      | some (s :: _) => Res.ok s
      | some [] => Res.ub)
    if (bc.zip sizes).any fun p => !p.1 && decide (rs ≠ p.2) && decide (p.2 ≠ 1) then .throw .runtime
    else do
      let (levels, shape) ← elwResolve nd (res.map List.tail) els
      pure (bc :: levels, rs :: shape)

/-- `elwise_entry_callable::resolve`: the number of dimensions is the largest among the operands (a given destination
    must have at least that many).  /repo/include/dynd/callables/elwise_entry_callable.hpp:37-60. -/
def elwEntry (res : Option (List Nat)) (args : List (List Nat)) : Res (List (List Bool) × List Nat) :=
  let nd := (args.map List.length).foldl max 0
  match res with
  | none => elwResolve nd none args
  | some r => if r.length < nd then .throw .broadcast else elwResolve r.length res args

/-- One level of the kernel: `m_size`, `m_dst_stride`, `m_src_stride`.
    /repo/include/dynd/kernels/elwise_kernel.hpp:33-40. -/
structure ELevel where
  size : Nat
  dstStride : Int
  srcStride : List Int

/-- Stride and child arrmeta for one operand: `elwise_callable.hpp:73-82`. -/
def elwSrc (bc : Bool) (m : Dims) : Res (Int × Dims) :=
  if bc then .ok (0, m)
  else match m with
    | [] => .ub
    | (_, st) :: rest => .ok (st, rest)

def elwSrcs : List Bool → List Dims → Res (List Int × List Dims)
  | [], _ => .ok ([], [])
  | _ :: _, [] => .ub
  | b :: bs, m :: ms => do
    let (st, m') ← elwSrc b m
    let (sts, ms') ← elwSrcs bs ms
    pure (st :: sts, m' :: ms')

/-- Instantiating the kernel of every level: `elwise_callable<fixed_dim_id, fixed_dim_id>::subresolve`,
    /repo/include/dynd/callables/elwise_callable.hpp:52-90. -/
def elwInst : List (List Bool) → Dims → List Dims → Res (List ELevel)
  | [], _, _ => .ok []
  | _ :: _, [], _ => .ub
  | bc :: levels, (n, ds) :: dst, srcs => do
    let (sts, srcs') ← elwSrcs bc srcs
    let ks ← elwInst levels dst srcs'
    pure ({ size := n, dstStride := ds, srcStride := sts } :: ks)

/-- `strided` of a child: `single` at successive addresses.
    /repo/include/dynd/kernels/base_strided_kernel.hpp:57-67, called by elwise_kernel.hpp:44-49. -/
def elwLoop (body : Int → List Int → List (Int × List Int)) (ds : Int) (ss : List Int) :
    Nat → Int → List Int → List (Int × List Int)
  | 0, _, _ => []
  | c + 1, d, s => body d s ++ elwLoop body ds ss c (d + ds) (List.zipWith (· + ·) s ss)

/-- Running the kernel: `single` of a level runs `strided` of the level below; the innermost child is the scalar
    function.  elwise_kernel.hpp:44-49. -/
def elwRun : List ELevel → Int → List Int → List (Int × List Int)
  | [], d, s => [(d, s)]
  | k :: ks, d, s => elwLoop (elwRun ks) k.dstStride k.srcStride k.size d s

/-- Applying a scalar function elementwise to operands with fixed dimensions, the result being laid out with the
    strides `strides shape`. -/
def elwApply (strides : List Nat → List Int) (args : List Dims) : Res (List Nat × List (Int × List Int)) := do
  let (levels, shape) ← elwEntry none (args.map (·.map (·.1)))
  let ks ← elwInst levels (shape.zip (strides shape)) args
  pure (shape, elwRun ks 0 (args.map fun _ => 0))

/-- The same with a given destination (its sizes and strides). -/
def elwApplyTo (dst : Dims) (args : List Dims) : Res (List (Int × List Int)) := do
  let (levels, _) ← elwEntry (some (dst.map (·.1))) (args.map (·.map (·.1)))
  let ks ← elwInst levels dst args
  pure (elwRun ks 0 (args.map fun _ => 0))

/-! ## Dimensions whose size is known only at run time -/

/-- An operand of one dimension.  `isVar`: a var dimension, `size`/`base` from its data (`base` includes the arrmeta
    offset); otherwise a fixed dimension or scalar, with the size recorded when the kernel was made (1 if
    broadcast). -/
structure VSrc where
  isVar : Bool
  size : Nat
  stride : Int
  base : Int
  deriving DecidableEq

/-- Matching the operands to a given size, with a var destination: elwise_kernel.hpp:228-252. -/
def fitVar (n : Nat) : List VSrc → Res (List Int)
  | [] => .ok []
  | s :: ss => do
    let st ← if s.isVar then
        (if s.size = 1 then .ok 0 else if s.size = n then .ok s.stride else Res.throw .broadcast)
      else
        (if s.size = 1 then .ok 0 else if s.size = n then .ok s.stride else Res.throw .broadcast)
    let sts ← fitVar n ss
    pure (st :: sts)

/-- Broadcasting the operands together: elwise_kernel.hpp:259-292. -/
def joinVar : Nat → List VSrc → Res (Nat × List Int)
  | n, [] => .ok (n, [])
  | n, s :: ss => do
    let (n', st) ← if s.isVar then
        (if s.size = 1 then .ok (n, (0 : Int))
         else if n = 1 then .ok (s.size, s.stride)
         else if s.size = n then .ok (n, s.stride)
         else Res.throw .broadcast)
      else
        (if s.size = 1 then .ok (n, (0 : Int))
         else if s.size = n then .ok (n, s.stride)
         else if n = 1 then .ok (s.size, s.stride)
         else Res.throw .broadcast)
    let (m, sts) ← joinVar n' ss
    pure (m, st :: sts)

/-- The destination: a var dimension, `begin = none` when it has no data yet. -/
structure VDst where
  begin' : Option Int
  size : Nat
  stride : Int
  offset : Int
  deriving DecidableEq

/-- `elwise_kernel<var_dim_id, fixed_dim_id>::single`: elwise_kernel.hpp:214-309.  `fresh` is the address returned by
    the memory block.  Result: the destination afterwards and the calls made. -/
def elwVarSingle (fresh : Int) (dst : VDst) (srcs : List VSrc) : Res (VDst × List (Int × List Int)) :=
  let leaf : Int → List Int → List (Int × List Int) := fun d s => [(d, s)]
  match dst.begin' with
  | some b => do
    let sts ← fitVar dst.size srcs
    let ds := if dst.size ≤ 1 then 0 else dst.stride
    pure (dst, elwLoop leaf ds sts dst.size (b + dst.offset) (srcs.map (·.base)))
  | none =>
    if dst.offset ≠ 0 then .throw .runtime
    else do
      let (n, sts) ← joinVar 1 srcs
      let ds := if n ≤ 1 then 0 else dst.stride
      pure ({ dst with begin' := some fresh, size := n }, elwLoop leaf ds sts n fresh (srcs.map (·.base)))

/-- Matching var operands to a fixed destination; fixed operands were matched when the kernel was made.
    elwise_kernel.hpp:113-132. -/
def fitFixed (n : Nat) : List VSrc → Res (List Int)
  | [] => .ok []
  | s :: ss => do
    let st ← if s.isVar then
        (if s.size = 1 then .ok 0 else if s.size = n then .ok s.stride else Res.throw .broadcast)
      else .ok s.stride
    let sts ← fitFixed n ss
    pure (st :: sts)

/-- `elwise_kernel<fixed_dim_id, var_dim_id>::single`: elwise_kernel.hpp:105-135. -/
def elwFixedSingle (n : Nat) (dst dstStride : Int) (srcs : List VSrc) : Res (List (Int × List Int)) := do
  let sts ← fitFixed n srcs
  pure (elwLoop (fun d s => [(d, s)]) dstStride sts n dst (srcs.map (·.base)))

/-! ## Choosing the kernel for one dimension -/

/-- What an operand offers in the dimension being processed. -/
inductive DimKind where
  | fixed (n : Nat)
  | var
  | scalar
  deriving DecidableEq

/-- The kernel variants. -/
inductive EKernel where
  /-- fixed destination, fixed operands -/
  | fixedFixed
  /-- var destination -/
  | varDst
  /-- fixed destination, fixed or var operands -/
  | fixedVar
  deriving DecidableEq

/-- `elwise_dispatch_callable::resolve` when the result type is to be inferred and every operand either has the
    dimension or is a scalar: /repo/include/dynd/callables/elwise_dispatch_callable.hpp:52-100. -/
def elwChoose (srcs : List DimKind) : EKernel :=
  let allStrided := srcs.all fun k => decide (k ≠ .var)
  let varBroadcast := !allStrided && srcs.all fun k => decide (k = .var) || decide (k = .fixed 1)
  if allStrided then .fixedFixed
  else if varBroadcast || allStrided then .varDst
  else .fixedVar

/-- The size inferred for the result: the first operand that is not broadcast and not var, else 1.
    base_elwise_callable.hpp:84-90. -/
def elwResSize (srcs : List DimKind) : Nat :=
  (srcs.findSome? fun k => match k with | .fixed n => if n = 1 then none else some n | _ => none).getD 1

/-- The result's dimension: `with_return_type`, elwise_callable.hpp:93-95, 144-150, 160-162. -/
def elwResDim (srcs : List DimKind) : DimKind :=
  match elwChoose srcs with
  | .fixedFixed => .fixed (elwResSize srcs)
  | .varDst => .var
  | .fixedVar => if elwResSize srcs = 1 then .var else .fixed (elwResSize srcs)

end Dynd
