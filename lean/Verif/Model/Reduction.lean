import Verif.Model.Elwise
/-
Reductions of a strided array along a set of axes (one operand).  A run is observed as the sequence of
initialisations and accumulations it performs on destination addresses, and of the source addresses it reads.
-/
namespace Dynd

/-- One step of the scalar kernels: `init d` stores the identity at `d`
    (/repo/include/dynd/kernels/apply_callable_kernel.hpp:64-67, limits/max_kernel.hpp:14-18, limits/min_kernel.hpp:14-18), `acc d s` replaces the value at `d` by the operation
    applied to it and the element at `s` (`single` of e.g. sum_kernel.hpp:16-18, max_kernel.hpp:19-23). -/
inductive REv where
  | init (d : Int)
  | acc (d s : Int)
  deriving DecidableEq

/-- `strided` of the reduction child: sum_kernel.hpp:20-28, max_kernel.hpp:25-35, all_kernel.hpp. -/
def leafAcc : Nat → Int → Int → Int → Int → List REv
  | 0, _, _, _, _ => []
  | n + 1, d, ds, s, ss => .acc d s :: leafAcc n (d + ds) ds (s + ss) ss

/-- `strided` of the initialisation child (its source is ignored): constant_kernel.hpp:26-32. -/
def leafInit : Nat → Int → Int → List REv
  | 0, _, _ => []
  | n + 1, d, ds => .init d :: leafInit n (d + ds) ds

/-- One level of the reduction kernel: `bc` is `Broadcast` (the dimension is kept), sizes and strides as stored in
    the kernel.  /repo/include/dynd/kernels/reduction_kernel.hpp:112-125, 223-236, 435-449, 532-556. -/
structure RLevel where
  bc : Bool
  size : Nat
  dst : Int
  src : Int

/-- The destination stride a level passes to its child. -/
def RLevel.ds (k : RLevel) : Int := if k.bc then k.dst else 0

/-- A counted loop `for (i = 0; i != count; ++i)` advancing both pointers. -/
def rLoop (body : Int → Int → List REv) (ds ss : Int) : Nat → Int → Int → List REv
  | 0, _, _ => []
  | n + 1, d, s => body d s ++ rLoop body ds ss n (d + ds) (s + ss)

/-- The same for a body that may fail. -/
def rLoopR (body : Int → Int → Res (List REv)) (ds ss : Int) : Nat → Int → Int → Res (List REv)
  | 0, _, _ => .ok []
  | n + 1, d, s => do
    let a ← body d s
    let b ← rLoopR body ds ss n (d + ds) (s + ss)
    pure (a ++ b)

/-- `strided_followup`: no initialisation, accumulation only.
    reduction_kernel.hpp:190-206 (reduced, outer), 301-319 (reduced, inner), 499-515 (kept, outer), 605-623 (kept,
    inner). -/
def redFollow : List RLevel → Int → Int → Int → Int → Nat → List REv
  | [], _, _, _, _, _ => []
  | [k], d, ds, s, ss, n => rLoop (fun d s => leafAcc k.size d k.ds s k.src) ds ss n d s
  | k :: k' :: ks, d, ds, s, ss, n =>
    rLoop (fun d s => redFollow (k' :: ks) d k.ds s k.src k.size) ds ss n d s

mutual
/-- `single_first`.  reduction_kernel.hpp:127-140 (reduced, outer), 238-252 (reduced, inner), 451-454 (kept, outer),
    558-565 (kept, inner). -/
def redFirst : List RLevel → Int → Int → Res (List REv)
  | [], _, _ => .ub
  | [k], d, s =>
    if k.bc then .ok (leafInit k.size d k.dst ++ leafAcc k.size d k.dst s k.src)
    else .ok (.init d :: leafAcc k.size d 0 s k.src)
  | k :: k' :: ks, d, s =>
    if k.bc then redFirstStr (k' :: ks) d k.dst s k.src k.size
    else do
      let a ← redFirst (k' :: ks) d s
      if k.size > 1 then pure (a ++ redFollow (k' :: ks) d 0 (s + k.src) k.src (k.size - 1)) else pure a
/-- `strided_first`.  reduction_kernel.hpp:142-188, 254-299, 456-497, 567-603.  The loops
    `for (size_t i = 1; i != count; ++i)` of three of the four kernels do not stop for a count of zero: `ub`. -/
def redFirstStr : List RLevel → Int → Int → Int → Int → Nat → Res (List REv)
  | [], _, _, _, _, _ => .ub
  | [k], d, ds, s, ss, n =>
    if k.bc then
      if ds = 0 then
        if n = 0 then .ub
        else .ok (leafInit k.size d k.dst ++ rLoop (fun d s => leafAcc k.size d k.dst s k.src) 0 ss (n - 1) d s)
      else rLoopR (fun d s => .ok (leafInit k.size d k.dst ++ leafAcc k.size d k.dst s k.src)) ds ss n d s
    else
      if ds = 0 then
        if n = 0 then .ub
        else .ok (.init d :: leafAcc k.size d 0 s k.src ++
          rLoop (fun d s => leafAcc k.size d 0 s k.src) ds ss (n - 1) d s)
      else rLoopR (fun d s => .ok (.init d :: leafAcc k.size d 0 s k.src)) ds ss n d s
  | k :: k' :: ks, d, ds, s, ss, n =>
    if k.bc then
      if ds = 0 then do
        let a ← redFirstStr (k' :: ks) d k.dst s k.src k.size
        pure (a ++ rLoop (fun d s => redFollow (k' :: ks) d k.dst s k.src k.size) ds ss (n - 1) (d + ds) (s + ss))
      else rLoopR (fun d s => redFirstStr (k' :: ks) d k.dst s k.src k.size) ds ss n d s
    else
      if ds = 0 then
        if n = 0 then .ub
        else do
          let a ← redFirst (k' :: ks) d s
          let b := if k.size > 1 then redFollow (k' :: ks) d 0 (s + k.src) k.src (k.size - 1) else []
          pure (a ++ b ++ rLoop (fun d s => redFollow (k' :: ks) d 0 s k.src k.size) 0 ss (n - 1) d (s + ss))
      else
        rLoopR (fun d s => do
          let a ← redFirst (k' :: ks) d s
          if k.size > 1 then pure (a ++ redFollow (k' :: ks) d 0 (s + k.src) k.src (k.size - 1)) else pure a) ds ss n d s
end

/-- Which dimensions are kept: dimension `k` is reduced when no axes are given or `k` is among them.
    /repo/include/dynd/callables/base_reduction_callable.hpp:48-54. -/
def redKept (axes : Option (List Int)) (nd : Nat) : List Bool :=
  (List.range nd).map fun k : Nat => match axes with
    | none => false
    | some l => !l.contains (k : Int)

/-- Shape of the result: base_reduction_callable.hpp:85-94. -/
def redShape (keepdims : Bool) : List Bool → List Nat → List Nat
  | b :: bs, n :: ns =>
    if b then n :: redShape keepdims bs ns
    else if keepdims then 1 :: redShape keepdims bs ns
    else redShape keepdims bs ns
  | _, _ => []

/-- Instantiating the kernels: base_reduction_callable.hpp:101-193.  The destination arrmeta is advanced for the next
    level exactly when `keepdims` is set (line 190). -/
def redInst (keepdims : Bool) : List Bool → Dims → Dims → Res (List RLevel)
  | [], _, _ => .ok []
  | _ :: _, _, [] => .ub
  | b :: bs, dst, (n, ss) :: src => do
    let ds ← (if b then match dst with
        | [] => Res.ub
        | (_, st) :: _ => Res.ok st
      else Res.ok 0)
    let ks ← redInst keepdims bs (if keepdims then dst.tail else dst) src
    pure ({ bc := b, size := n, dst := ds, src := ss } :: ks)

/-- A reduction called on an array with the given dimensions; the result is laid out with the strides
    `strides shape`.  A scalar is initialised and accumulated once (reduction_kernel.hpp:373-385).
    /repo/include/dynd/callables/reduction_callable.hpp:26-107. -/
def redApply (axes : Option (List Int)) (keepdims : Bool) (strides : List Nat → List Int) (src : Dims) :
    Res (List Nat × List REv) :=
  if src = [] then .ok ([], [.init 0, .acc 0 0])
  else do
    let kept := redKept axes src.length
    let shape := redShape keepdims kept (src.map (·.1))
    let ks ← redInst keepdims kept (shape.zip (strides shape)) src
    let evs ← redFirst ks 0 0
    pure (shape, evs)

/-- Effect on memory: `op` the operation, `e` the identity, `src` the source elements by address. -/
def runEv {α β : Type} (op : α → β → α) (e : α) (src : Int → β) : List REv → (Int → α) → (Int → α)
  | [], mem => mem
  | .init d :: l, mem => runEv op e src l (fun a => if a = d then e else mem a)
  | .acc d s :: l, mem => runEv op e src l (fun a => if a = d then op (mem d) (src s) else mem a)

/-! ## Ragged arrays: the innermost dimension is var -/

/-- Data of a var dimension, by address: `begin` and `size`. -/
abbrev VarData := Int → Int × Nat

/-- `reduction_kernel<var_dim_type, false, true>`: reduction_kernel.hpp:335-342 (`single_first`).  The offset in the
    arrmeta of the var dimension is not used. -/
def redVarFirst (vd : VarData) (stride : Int) (d s : Int) : List REv :=
  .init d :: leafAcc (vd s).2 d 0 (vd s).1 stride

/-- reduction_kernel.hpp:344-358 (`strided_first`). -/
def redVarFirstStr (vd : VarData) (stride : Int) (d ds s ss : Int) (n : Nat) : List REv :=
  rLoop (fun d s => redVarFirst vd stride d s) ds ss n d s

/-- reduction_kernel.hpp:360-370 (`strided_followup`). -/
def redVarFollow (vd : VarData) (stride : Int) (d ds s ss : Int) (n : Nat) : List REv :=
  rLoop (fun d s => leafAcc (vd s).2 d 0 (vd s).1 stride) ds ss n d s

/-- A `N * var * T` array: outer dimension reduced (`keep = false`) or kept. -/
def redRagged (keep : Bool) (vd : VarData) (stride : Int) (n : Nat) (ss ds : Int) : List REv :=
  if keep then redVarFirstStr vd stride 0 ds 0 ss n
  else redVarFirst vd stride 0 0 ++ (if n > 1 then redVarFollow vd stride 0 0 ss ss (n - 1) else [])

end Dynd
