/-
`nd::take(a, b)` as it is called: resolution of the call (the element type of `b` decides between mask and indices), the
kernels built from the call graph, and the run on memory, on arrays of any nesting.

Simplifications: memory is as in `UnaryOps` and `CopyRun`; the result type is not given by the caller; shrinking the
result row leaves it in place (C06 models the memory blocks) and the memory behind it is not used again during the call;
what the assignment kernel does with a scalar is a parameter; every type is its own canonical type.
-/
import Verif.Model.CopyRun

namespace Dynd

/-- The nodes of the call graph of `take`.  /repo/include/dynd/callables/take_dispatch_callable.hpp:31-58, 89-133. -/
inductive TNode where
  | masked
  | indexed
  | assign (n : ANode)
  deriving Repr

/-- `take_callable<bool_id>::resolve`: its node, then those of the assignment of an element; the element's source type
    (a local variable) does not outlive the resolution.  `extended<base_dim_type>()` of another type is undefined.
    /repo/include/dynd/callables/take_dispatch_callable.hpp:27-66. -/
def resolveMasked (assign : Ty → Ty → Res (List ANode)) (s0 : Ty) : Res (List TNode × Ty) :=
  match dimSizeOf s0 with
  | none => .ub
  | some (_, el, _) => do
    let ns ← assign el el
    pure (.masked :: ns.map .assign, .varDim el)

/-- `indexed_take_callable::resolve`: the nodes of the assignment of an element, then its own.
    /repo/include/dynd/callables/take_dispatch_callable.hpp:75-136. -/
def resolveIndexed (assign : Ty → Ty → Res (List ANode)) (s0 s1 : Ty) : Res (List TNode × Ty) := do
  let el ← s0.atDim 1
  let ns ← assign el el
  match dimSizeOf s1 with
  | some (_, _, true) => pure (ns.map .assign ++ [.indexed], .varDim el)
  | some (n, _, false) => pure (ns.map .assign ++ [.indexed], .fixedDim n el)
  | none => .ub

/-- `take_dispatch_callable::resolve`; `intptr_t` is `int64`; the error mode handed to `assign` is the default one.
    /repo/include/dynd/callables/take_dispatch_callable.hpp:212-227. -/
def resolveTake (same : List Nat → Bool) (tbl : List (Option AEntry)) (fuel : Nat) (s0 s1 : Ty) : Res (List TNode × Ty) := do
  let ix ← s1.atDim 1
  match ix with
  | .prim .bool => resolveMasked (resolveA same tbl (some (some .default)) fuel false) s0
  | .prim (.int .w64) => resolveIndexed (resolveA same tbl (some (some .default)) fuel false) s0 s1
  | _ => .throw .invalidArg

/-- A loop over the mask while its bytes are zero (`nonzero = false`) or nonzero: the new position and mask address.
    `fuel` bounds the iterations.  /repo/include/dynd/kernels/take_kernel.hpp:36-42. -/
def maskWalk (nonzero : Bool) (mask : Int → Option UInt8) (mst : Int) (n : Nat) : Nat → Nat → Int → Res (Nat × Int)
  | 0, _, _ => .ub
  | fuel + 1, i, a =>
    if i < n then
      match mask a with
      | some b => if (b != 0) = nonzero then maskWalk nonzero mask mst n fuel (i + 1) (a + mst) else .ok (i, a)
      | none => .ub
    else .ok (i, a)

/-- The outer loop of `masked_take_ck::single`: position, source, mask and destination address, elements written.
    /repo/include/dynd/kernels/take_kernel.hpp:34-51. -/
def takeLoop {β : Type} (body : Int → Int → UDst β → Res (UDst β)) (mask : Int → Option UInt8) (mst sst dst : Int) (n : Nat) :
    Nat → Nat → Int → Int → Int → Nat → UDst β → Res (UDst β × Nat)
  | 0, _, _, _, _, _, _ => .ub
  | fuel + 1, i, s, a, d, cnt, m =>
    if i < n then do
      let f ← maskWalk false mask mst n (n + 1) i a
      let s1 := s + (f.1 - i : Nat) * sst
      let t ← maskWalk true mask mst n (n + 1) f.1 f.2
      if t.1 > f.1 then do
        let m' ← uLoop body (t.1 - f.1) dst sst d s1 m
        takeLoop body mask mst sst dst n fuel t.1 (s1 + (t.1 - f.1 : Nat) * sst) t.2 (d + (t.1 - f.1 : Nat) * dst)
          (cnt + (t.1 - f.1)) m'
      else takeLoop body mask mst sst dst n fuel t.1 s1 t.2 d cnt m
    else .ok (m, cnt)

/-- the assignment nodes at the front -/
def assignFront : List TNode → List ANode
  | .assign n :: r => n :: assignFront r
  | _ => []

/-- Array metadata of the result: `nd::empty`.  (In front of the element's metadata.) -/
def takeMeta (sz : Nat) (t : Ty) : List UMeta := freshMeta sz (dimsOf t)

/-- The closure of the masked node and `masked_take_ck::single`: the metadata of both arguments is read as that of a fixed
    dimension; the result row is allocated with the size of the source and shrunk at the end.
    /repo/include/dynd/callables/take_dispatch_callable.hpp:31-58, /repo/include/dynd/kernels/take_kernel.hpp:21-56. -/
def maskedRun {α β : Type} (fuel : Nat) (ns : List ANode) (op : KTree → α → Res β) (src : USrc α) (sm : List UMeta) (s : Int)
    (mask : Int → Option UInt8) (mm : List UMeta) (a : Int) (dm : List UMeta) (base : Int) (m : UDst β) : Res (UDst β) :=
  match sm, mm, dm with
  | .fixed n sst :: sr, .fixed n' mst :: _, .var dst _ :: dr =>
    if n ≠ n' then .throw .invalidArg
    else do
      let l ← instCp fuel ns dr (some sr)
      let r ← takeLoop (runCp (op l.2) src l.1) mask mst sst dst n (n + 1) 0 s a m.next 0
        { m with recs := putAt m.recs base (m.next, n), next := m.next + n * dst }
      pure { r.1 with recs := putAt r.1.recs base (m.next, r.2) }
  | _, _, _ => .ub

/-- The call: resolution, a new result, the kernel of the first node of the call graph and its run.  If that node is one
    of an assignment, its kernel gets the metadata and data of the whole arguments, and the nodes after the assignment's
    are never reached.  /repo/src/dynd/callables/base_callable.cpp:18-50. -/
def takeRun {α β : Type} (fuel : Nat) (r : Res (List TNode × Ty)) (op : KTree → α → Res β) (sz : Nat) (src : USrc α)
    (sm : List UMeta) (s : Int) (mask : Int → Option UInt8) (mm : List UMeta) (a : Int) (base : Int) :
    Res (Ty × List UMeta × UDst β) := do
  let x ← r
  let dm := takeMeta sz x.2
  let m : UDst β := { cells := fun _ => none, recs := fun _ => none, next := base + dataSize sz (dimsOf x.2) }
  match x.1 with
  | .masked :: ns => do
    let m' ← maskedRun fuel (assignFront ns) op src sm s mask mm a dm base m
    pure (x.2, dm, m')
  | .assign n :: ns => do
    let l ← instCp fuel (assignFront (.assign n :: ns)) dm (some sm)
    let m' ← runCp (op l.2) src l.1 base s m
    pure (x.2, dm, m')
  | _ => .throw .unmodelled

end Dynd
