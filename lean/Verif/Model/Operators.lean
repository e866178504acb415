/-
The two-argument operators (arithmetic, bitwise, logical, comparisons): their tables of overloads, the choice of an
overload, the resolution of a call into a call graph together with the type of the result, and the instantiation of
the call graph into a tree of kernels.

Simplifications: which pairs of built-in types have an overload of an arithmetic operator (`isdef_*`, decided by the
C++ compiler) and the type of their result are parameters; of a kernel only its identity is kept; array metadata is
not modelled here (C46, C67); state arguments and keyword arguments do not occur.
-/
import Verif.Model.AssignFn

namespace Dynd

/-- The overloads of an operator.  /repo/include/dynd/binary_arithmetic.hpp:39-66,
    /repo/include/dynd/comparison_common.hpp:42-77, /repo/src/dynd/equal.cpp:14-20.  `num a b`: a pair of built-in
    types; `na0`, `na1`, `na01`: `forward_na`; `elwXY`: elwise with D a dimension, S a scalar, O an optional scalar;
    `user a b`: an overload added later. -/
inductive OEntry where
  | num (a b : BTy)
  | na0 | na1 | na01
  | elwDS | elwSD | elwDD | elwSS | elwDO | elwOD
  | strStr | tupTup | structStruct | typeType | bytesBytes
  | user (a b : Ty)
  deriving Repr

/-- `func_ptr`: the two argument types of the overload's signature.  /repo/include/dynd/binary_arithmetic.hpp:24-27,
    46-66, /repo/include/dynd/comparison_common.hpp:23-26, 44-75, /repo/src/dynd/equal.cpp:15-20,
    /repo/include/dynd/callables/equal_callable.hpp:18-20, 26-29, 82-85. -/
def OEntry.sig : OEntry → List Ty
  | .num a b => [.prim a, .prim b]
  | .na0 => [.option (.kind .any), .kind .any]
  | .na1 => [.kind .any, .option (.kind .any)]
  | .na01 => [.option (.kind .any), .option (.kind .any)]
  | .elwDS => [.dimKind (.kind .any), .kind .scalar]
  | .elwSD => [.kind .scalar, .dimKind (.kind .any)]
  | .elwDD => [.dimKind (.kind .any), .dimKind (.kind .any)]
  | .elwSS => [.kind .scalar, .kind .scalar]
  | .elwDO => [.dimKind (.kind .any), .option (.kind .scalar)]
  | .elwOD => [.option (.kind .scalar), .dimKind (.kind .any)]
  | .strStr => [.leaf .string, .leaf .string]
  | .tupTup => [.tuple [] true, .tuple [] true]
  | .structStruct => [.struct [] [] true, .struct [] [] true]
  | .typeType => [.leaf .typeT, .leaf .typeT]
  | .bytesBytes => [.leaf (.bytes 1), .leaf (.bytes 1)]
  | .user a b => [a, b]

/-- `dispatcher::insert(begin, end)`.  /repo/include/dynd/dispatcher.hpp:233-243. -/
def opInsert (same : List Nat → Bool) (ch : List (Option OEntry)) (fs : List OEntry) : Res (List (Option OEntry)) :=
  if ch.all Option.isSome then
    match dispAssign (tyMatch same) OEntry.sig ch (ch.filterMap id ++ fs) with
    | (r, .ok _) => .ok r
    | (_, .throw e) => .throw e
    | (_, .ub) => .ub
  else .ub

/-- a sequence of `insert` calls -/
def opInserts (same : List Nat → Bool) : List (List OEntry) → List (Option OEntry) → Res (List (Option OEntry))
  | [], ch => .ok ch
  | fs :: rest, ch => do
    let ch' ← opInsert same ch fs
    opInserts same rest ch'

/-- `make_binary_arithmetic`: `ps` are the pairs of built-in types the operator is defined for.
    /repo/include/dynd/binary_arithmetic.hpp:29-69. -/
def makeArith (same : List Nat → Bool) (ps : List (BTy × BTy)) : Res (List (Option OEntry)) :=
  opInserts same [ps.map fun p => .num p.1 p.2, [.na0, .na1, .na01, .elwDS, .elwSD, .elwDD, .elwSS]] []

/-- `numeric_types`.  /repo/include/dynd/comparison_common.hpp:19-21. -/
def cmpTypes : List BTy :=
  [.bool, .int .w8, .int .w16, .int .w32, .int .w64, .uint .w8, .uint .w16, .uint .w32, .uint .w64, .flt .f32, .flt .f64]

/-- the pairs of built-in types with a comparison -/
def cmpPairs : List OEntry := cmpTypes.flatMap fun a => cmpTypes.map fun b => .num a b

/-- `make_comparison_children`.  /repo/include/dynd/comparison_common.hpp:28-80. -/
def cmpInserts : List (List OEntry) :=
  [cmpPairs, [.elwDS, .elwSD, .elwDD], [.na0, .na1, .na01], [.elwDO], [.elwOD], [.strStr]]

/-- `make_equal`, `make_not_equal`.  /repo/src/dynd/equal.cpp:13-26, not_equal.cpp:13-26. -/
def eqInserts : List (List OEntry) :=
  cmpInserts ++ [[.num (.cplx .c32) (.cplx .c32)], [.num (.cplx .c64) (.cplx .c64)], [.tupTup], [.structStruct],
    [.typeType], [.bytesBytes]]

/-- `less`, `less_equal`, `greater`, `greater_equal`.  /repo/src/dynd/less.cpp and the others. -/
def makeLess (same : List Nat → Bool) : Res (List (Option OEntry)) := opInserts same cmpInserts []

/-- `equal`, `not_equal`. -/
def makeEqual (same : List Nat → Bool) : Res (List (Option OEntry)) := opInserts same eqInserts []

/-- The classes of `elwise_callable`: destination and source dimensions fixed; destination `var`; destination fixed
    and sources fixed or `var`.  /repo/include/dynd/callables/elwise_callable.hpp:49, 98, 152. -/
inductive ElwClass where
  | ff | vf | fv
  deriving DecidableEq, Repr

/-- Nodes of the call graph, named after the kernel.  `elw c b0 b1 v0 v1`: which arguments are broadcast, which are
    `var`.  `lifted`: the kernel of a callable lifted by `functional::elwise` (string functions). -/
inductive ONode where
  | kern (a b : BTy)
  | eqStr | eqType | eqBytes
  | eqTuple (n : Nat) | eqStruct (n : Nat)
  | forwardNa (i0 i1 : Bool)
  | isNa (t : Ty) | assignNa (t : Ty)
  | elw (c : ElwClass) (b0 b1 v0 v1 : Bool)
  | lifted
  deriving Repr

/-- `get_ret_type()` of an overload; `ret` for the built-in types.  The elwise overloads return `Any`, `forward_na`
    `?Any` (/repo/include/dynd/functional.hpp:100-104), the equalities `bool`. -/
def OEntry.ret (ret : BTy → BTy → BTy) : OEntry → Ty
  | .num a b => .prim (ret a b)
  | .na0 | .na1 | .na01 => .option (.kind .any)
  | .elwDS | .elwSD | .elwDD | .elwSS | .elwDO | .elwOD => .kind .any
  | .strStr | .tupTup | .structStruct | .typeType | .bytesBytes => .prim .bool
  | .user _ _ => .kind .any

/-- `get_id() == var_dim_id` -/
def isVarId : Ty → Bool
  | .varDim _ => true
  | _ => false

/-- `var` or a fixed dimension of size one -/
def varOrOne : Ty → Bool
  | .varDim _ => true
  | .fixedDim n _ => n == 1
  | _ => false

/-- neither a fixed nor a `var` dimension although it has dimensions -/
def otherDim : Ty → Bool
  | .varDim _ | .fixedDim _ _ => false
  | t => decide (t.ndim > 0)

/-- `get_id() == fixed_dim_id` -/
def isFixedId : Ty → Bool
  | .fixedDim _ _ => true
  | _ => false

/-- `elwise_dispatch_callable::resolve`: the class that handles one dimension.
    /repo/include/dynd/callables/elwise_dispatch_callable.hpp:43-93. -/
def elwClass (dst a b : Ty) : Res ElwClass :=
  let strided := !(isVarId a || isVarId b)
  let varBroadcast := !strided && varOrOne a && varOrOne b
  if (dst.variadicDims || isFixedId dst) && strided then .ok .ff
  else if (dst.variadicDims || isVarId dst) && (varBroadcast || strided) then .ok .vf
  else if !(otherDim a || otherDim b) then .ok .fv
  else .throw .runtime

/-- Broadcast flag, size and element type of an argument when `k` dimensions are left.
    /repo/include/dynd/callables/base_elwise_callable.hpp:60-73. -/
def argInfo (k : Nat) (t : Ty) : Res (Bool × Int × Ty) :=
  if t.ndim < k then .ok (true, 1, t)
  else match dimSizeOf t with
    | none => .ub
    | some (n, el, _) => .ok (n == 1, n, el)

/-- `res_size` for a result type still to be found: the size of the first argument that is not broadcast and not
    `var`.  /repo/include/dynd/callables/base_elwise_callable.hpp:84-90. -/
def resSize (a b : Bool × Int × Ty) : Int :=
  if !a.1 && a.2.1 != -1 then (if a.2.1 = 1 then (if !b.1 && b.2.1 != -1 then b.2.1 else 1) else a.2.1)
  else if !b.1 && b.2.1 != -1 then b.2.1 else 1

/-- "broadcast error 1".  /repo/include/dynd/callables/base_elwise_callable.hpp:97-104. -/
def sizeClash (rs : Int) (a : Bool × Int × Ty) : Bool :=
  !a.1 && a.2.1 != -1 && rs != -1 && rs != a.2.1 && a.2.1 != 1

/-- `with_return_type`.  /repo/include/dynd/callables/elwise_callable.hpp:92-94, 142-148, 157-159. -/
def withRet : ElwClass → Int → Ty → Ty
  | .ff, n, el => .fixedDim n el
  | .fv, n, el => if n = 1 then .varDim el else .fixedDim n el
  | .vf, _, el => .varDim el

/-- One dimension after the other, then the operator `f` itself on the elements.
    /repo/include/dynd/callables/base_elwise_callable.hpp:43-122. -/
def resolveDims2 (f : Ty → Ty → Ty → Res (List ONode × Ty)) : Nat → Ty → Ty → Ty → Res (List ONode × Ty)
  | 0, dst, a, b => f dst a b
  | k + 1, dst, a, b => do
    let c ← elwClass dst a b
    let ia ← argInfo (k + 1) a
    let ib ← argInfo (k + 1) b
    let r ← (if dst.variadicDims then .ok (resSize ia ib, Ty.kind .any)
      else match dimSizeOf dst with
        | none => .ub
        | some (n, el, _) => .ok (n, el) : Res (Int × Ty))
    if sizeClash r.1 ia || sizeClash r.1 ib then .throw .runtime
    else do
      let e ← resolveDims2 f k r.2 ia.2.2 ib.2.2
      pure (.elw c ia.1 ib.1 (isVarId a) (isVarId b) :: e.1, withRet c r.1 e.2)

/-- `elwise_entry_callable::resolve`, the child being the operator itself (two arguments of type `Any`, result `Any`).
    `nsrc`: the number of arguments looked at; the comparison of tuples passes 1.  One argument and dimensions to run
    along is not modelled (it does not occur: the comparison of tuples asks for a `bool`).
    /repo/include/dynd/callables/elwise_entry_callable.hpp:33-84. -/
def resolveElw2 (f : Ty → Ty → Ty → Res (List ONode × Ty)) (nsrc : Nat) (dst a b : Ty) : Res (List ONode × Ty) :=
  let nd := if nsrc = 1 then a.ndim else max a.ndim b.ndim
  if dst.variadicDims then
    if nd = 0 then f (.kind .any) a b
    else if nsrc = 1 then .throw .unmodelled else resolveDims2 f nd dst a b
  else if dst.ndim < nd then .throw .broadcast
  else if dst.ndim = 0 then f dst a b
  else if nsrc = 1 then .throw .unmodelled else resolveDims2 f dst.ndim dst a b

/-- the fields one after the other: the operator itself, called with one argument (`nsrc` 1) but both types.
    /repo/include/dynd/callables/equal_callable.hpp:70-74. -/
def resolveFields2 (f : Ty → Ty → Res (List ONode × Ty)) : List Ty → List Ty → Res (List ONode)
  | [], _ => .ok []
  | _ :: _, [] => .ub
  | a :: as, b :: bs => do
    let x ← f a b
    let y ← resolveFields2 f as bs
    pure (x.1 ++ y)

/-- `resolve` of the operator: the nodes pushed and the type of the result.  `dst`: the type asked for, `Any` for a
    result still to be allocated.  `fuel` bounds the recursion; running out of it is a stack overflow.  `nsrc`: the number of arguments
    passed on; the dispatch looks at two types in any case (comparison_common.hpp:23-26).
    /repo/include/dynd/callables/base_dispatch_callable.hpp:19-26, default_instantiable_callable.hpp:21-31,
    forward_na_callable.hpp:27-72, equal_callable.hpp:31-77, 87-133. -/
def resolveOp (same : List Nat → Bool) (ret : BTy → BTy → BTy) (tbl : List (Option OEntry)) :
    Nat → Nat → Ty → Ty → Ty → Res (List ONode × Ty)
  | 0, _, _, _, _ => .ub
  | fuel + 1, nsrc, dst, a, b => do
    let e ← dispCall (tyMatch same) OEntry.sig [a, b] tbl
    let d := if dst.symbolic then e.ret ret else dst
    let dv := if d.symbolic then Ty.kind .any else d
    match e with
    | .num x y => pure ([.kern x y], d)
    | .strStr => pure ([.eqStr], d)
    | .typeType => pure ([.eqType], d)
    | .bytesBytes => pure ([.eqBytes], d)
    | .na0 =>
      match a with
      | .option av => do
        let v ← resolveOp same ret tbl fuel 2 dv av b
        let _ ← resolveIsNa av
        let _ ← resolveAssignNa v.2
        pure (.forwardNa true false :: (v.1 ++ [.isNa av, .assignNa v.2]), .option v.2)
      | _ => .ub
    | .na1 =>
      match b with
      | .option bv => do
        let v ← resolveOp same ret tbl fuel 2 dv a bv
        let _ ← resolveIsNa bv
        let _ ← resolveAssignNa v.2
        pure (.forwardNa false true :: (v.1 ++ [.isNa bv, .assignNa v.2]), .option v.2)
      | _ => .ub
    | .na01 =>
      match a, b with
      | .option av, .option bv => do
        let v ← resolveOp same ret tbl fuel 2 dv av bv
        let _ ← resolveIsNa av
        let _ ← resolveIsNa bv
        let _ ← resolveAssignNa v.2
        pure (.forwardNa true true :: (v.1 ++ [.isNa av, .isNa bv, .assignNa v.2]), .option v.2)
      | _, _ => .ub
    | .elwDS | .elwSD | .elwDD | .elwSS | .elwDO | .elwOD => resolveElw2 (resolveOp same ret tbl fuel nsrc) nsrc d a b
    | .tupTup =>
      match a, b with
      | .tuple as _, .tuple bs _ =>
        if as.length > 8 then .ub
        else do
          let r ← resolveFields2 (resolveOp same ret tbl fuel 1 d) as bs
          pure (.eqTuple as.length :: r, d)
      | _, _ => .ub
    | .structStruct =>
      match a, b with
      | .struct _ as _, .struct _ bs _ =>
        if as.length > 8 then .ub
        else do
          let r ← resolveFields2 (resolveOp same ret tbl fuel 1 d) as bs
          pure (.eqStruct as.length :: r, d)
      | _, _ => .ub
    | .user _ _ => .throw .unmodelled

/-- How many kernels the closure of a node builds below its own.
    /repo/include/dynd/callables/forward_na_callable.hpp:30-48, equal_callable.hpp:41-67,
    elwise_callable.hpp:88, 138, 202. -/
def ONode.arity : ONode → Nat
  | .forwardNa i0 i1 => 2 + (if i0 then 1 else 0) + (if i1 then 1 else 0)
  | .eqTuple n | .eqStruct n => n
  | .elw _ _ _ _ _ => 1
  | _ => 0

/-- The kernels built, as a tree. -/
inductive OTree where
  | mk (n : ONode) (kids : List OTree)

/-- `n` calls of `kb(...)` -/
def instOKids (f : List ONode → Res (OTree × List ONode)) : Nat → List ONode → Res (List OTree × List ONode)
  | 0, rest => .ok ([], rest)
  | n + 1, rest => do
    let a ← f rest
    let b ← instOKids f n a.2
    pure (a.1 :: b.1, b.2)

/-- `kernel_builder::operator()`.  /repo/include/dynd/kernels/kernel_builder.hpp:33-49. -/
def instO : Nat → List ONode → Res (OTree × List ONode)
  | 0, _ => .ub
  | _ + 1, [] => .ub
  | fuel + 1, n :: rest => do
    let r ← instOKids (instO fuel) n.arity rest
    pure (.mk n r.1, r.2)

/-- A call of the operator with two arguments up to the point where the result has been allocated and the kernel is
    run: the kernels and the type of the result.  /repo/src/dynd/callables/base_callable.cpp:33-48. -/
def opCall (same : List Nat → Bool) (ret : BTy → BTy → BTy) (tbl : List (Option OEntry)) (fuel : Nat) (a b : Ty) :
    Res (OTree × Ty) := do
  let r ← resolveOp same ret tbl fuel 2 (.kind .any) a b
  let k ← instO fuel r.1
  pure (k.1, r.2)

end Dynd
