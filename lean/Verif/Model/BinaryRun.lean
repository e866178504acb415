/-
A call of a two-argument operator on arrays, from the nodes of the call graph (C118) to the result in memory: the
instantiation of the nodes with the array metadata, and the run of the kernels.

Simplifications: as in `UnaryOps`: memory is a map from addresses to scalar elements and one from addresses to the
records (begin, size) of `var` dimensions; the operands and the result are apart; what the kernels below the array
dimensions compute is a parameter.  A pointer to array metadata is the list of what it points to, or `none` when it
points to something else (not set, or advanced by the size of the wrong structure).
-/
import Verif.Model.UnaryOps
import Verif.Model.Elwise

namespace Dynd

/-- What a kernel with `var` dimensions holds about one operand: stride and offset of a `var` dimension; otherwise size
    and stride.  /repo/include/dynd/kernels/elwise_kernel.hpp:90-92, 189-192. -/
inductive BSrc where
  | var (stride offset : Int)
  | fix (size : Nat) (stride : Int)
  deriving DecidableEq, Repr

/-- The kernels for one dimension: `ff` size, destination stride, source strides; `vf` destination stride and offset;
    `fv` size and destination stride. -/
inductive BLevel where
  | ff (size : Nat) (ds s0 s1 : Int)
  | vf (ds doff : Int) (a b : BSrc)
  | fv (size : Nat) (ds : Int) (a b : BSrc)
  deriving DecidableEq, Repr

/-- Source stride and child metadata, all dimensions fixed.
    /repo/include/dynd/callables/elwise_callable.hpp:75-84. -/
def instSrcF (b : Bool) (p : Option (List UMeta)) : Res (Int × Option (List UMeta)) :=
  if b then .ok (0, p)
  else match p with
    | some (.fixed _ s :: r) => .ok (s, some r)
    | _ => .ub

/-- The same with `var` dimensions.  For a fixed dimension that is not broadcast the metadata of the child is not set
    (destination `var`), or taken behind a structure of another size (destination fixed).
    /repo/include/dynd/callables/elwise_callable.hpp:117-135, 177-196. -/
def instSrcV (b v : Bool) (p : Option (List UMeta)) : Res (BSrc × Option (List UMeta)) :=
  if v then match p with
    | some (.var s o :: r) => .ok (.var s o, some r)
    | _ => .ub
  else if b then .ok (.fix 1 0, p)
  else match p with
    | some (.fixed n s :: _) => .ok (.fix n s, none)
    | _ => .ub

/-- The closures of the elwise nodes, then the kernels of the elements, which have no metadata (tuples and structs have:
    they are not modelled here).
    /repo/include/dynd/callables/elwise_callable.hpp:53-89, 106-140, 161-204. -/
def inst2 (fuel : Nat) : List ONode → List UMeta → Option (List UMeta) → Option (List UMeta) → Res (List BLevel × OTree)
  | .elw .ff b0 b1 _ _ :: r, .fixed n ds :: dm, p0, p1 => do
    let x0 ← instSrcF b0 p0
    let x1 ← instSrcF b1 p1
    let y ← inst2 fuel r dm x0.2 x1.2
    pure (.ff n ds x0.1 x1.1 :: y.1, y.2)
  | .elw .vf b0 b1 v0 v1 :: r, .var ds doff :: dm, p0, p1 => do
    let x0 ← instSrcV b0 v0 p0
    let x1 ← instSrcV b1 v1 p1
    let y ← inst2 fuel r dm x0.2 x1.2
    pure (.vf ds doff x0.1 x1.1 :: y.1, y.2)
  | .elw .fv b0 b1 v0 v1 :: r, .fixed n ds :: dm, p0, p1 => do
    let x0 ← instSrcV b0 v0 p0
    let x1 ← instSrcV b1 v1 p1
    let y ← inst2 fuel r dm x0.2 x1.2
    pure (.fv n ds x0.1 x1.1 :: y.1, y.2)
  | .elw _ _ _ _ _ :: _, _, _, _ => .ub
  | .eqTuple _ :: _, _, _, _ => .throw .unmodelled
  | .eqStruct _ :: _, _, _, _ => .throw .unmodelled
  | ns, _, _, _ => do
    let k ← instO fuel ns
    pure ([], k.1)

/-- `modified_src`, and what is compared with the size: the record of a `var` dimension is read.
    /repo/include/dynd/kernels/elwise_kernel.hpp:113-131, 228-246, 261-285. -/
def openSrc {α : Type} (src : USrc α) (k : BSrc) (s : Int) : Res VSrc :=
  match k with
  | .fix n st => .ok { isVar := false, size := n, stride := st, base := s }
  | .var st o =>
    match src.recs s with
    | none => .ub
    | some (b, n) => .ok { isVar := true, size := n, stride := st, base := b + o }

/-- a strided call of a kernel with two operands -/
def bLoop {γ : Type} (body : Int → Int → Int → UDst γ → Res (UDst γ)) :
    Nat → Int → Int → Int → Int → Int → Int → UDst γ → Res (UDst γ)
  | 0, _, _, _, _, _, _, m => .ok m
  | n + 1, ds, t0, t1, d, s0, s1, m => do
    let m' ← body d s0 s1 m
    bLoop body n ds t0 t1 (d + ds) (s0 + t0) (s1 + t1) m'

/-- `single` of the kernels.  /repo/include/dynd/kernels/elwise_kernel.hpp:47-55, 105-135, 214-309. -/
def run2 {α β γ : Type} (op : α → β → γ) (src0 : USrc α) (src1 : USrc β) :
    List BLevel → Int → Int → Int → UDst γ → Res (UDst γ)
  | [], d, s0, s1, m =>
    match src0.cells s0, src1.cells s1 with
    | some x, some y => .ok { m with cells := putAt m.cells d (op x y) }
    | _, _ => .ub
  | .ff n ds t0 t1 :: r, d, s0, s1, m => bLoop (run2 op src0 src1 r) n ds t0 t1 d s0 s1 m
  | .fv n ds a b :: r, d, s0, s1, m => do
    let x0 ← openSrc src0 a s0
    let x1 ← openSrc src1 b s1
    match ← fitFixed n [x0, x1] with
    | [t0, t1] => bLoop (run2 op src0 src1 r) n ds t0 t1 d x0.base x1.base m
    | _ => .ub
  | .vf ds doff a b :: r, d, s0, s1, m => do
    let x0 ← openSrc src0 a s0
    let x1 ← openSrc src1 b s1
    match m.recs d with
    | some (db, dn) =>
      match ← fitVar dn [x0, x1] with
      | [t0, t1] => bLoop (run2 op src0 src1 r) dn (if dn ≤ 1 then 0 else ds) t0 t1 (db + doff) x0.base x1.base m
      | _ => .ub
    | none =>
      if doff ≠ 0 then .throw .runtime
      else do
        let j ← joinVar 1 [x0, x1]
        match j.2 with
        | [t0, t1] =>
          bLoop (run2 op src0 src1 r) j.1 (if j.1 ≤ 1 then 0 else ds) t0 t1 m.next x0.base x1.base
            { m with recs := putAt m.recs d (m.next, j.1), next := m.next + j.1 * ds }
        | _ => .ub

/-- A call with the result allocated: `nd::empty` of the result type at address `base`, the kernels, the run.
    /repo/src/dynd/callables/base_callable.cpp:33-48. -/
def binaryRun {α β γ : Type} (fuel : Nat) (r : Res (List ONode × Ty)) (op : OTree → α → β → γ) (sz : Nat)
    (src0 : USrc α) (sm0 : List UMeta) (s0 : Int) (src1 : USrc β) (sm1 : List UMeta) (s1 : Int) (base : Int) :
    Res (Ty × List UMeta × UDst γ) := do
  let x ← r
  let dm := freshMeta sz (dimsOf x.2)
  let l ← inst2 fuel x.1 dm (some sm0) (some sm1)
  let m ← run2 (op l.2) src0 src1 l.1 base s0 s1
    { cells := fun _ => none, recs := fun _ => none, next := base + dataSize sz (dimsOf x.2) }
  pure (x.2, dm, m)

end Dynd
